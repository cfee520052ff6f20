import Verif.Rb.Model
import Verif.Dhkey.Model

/-! # Model of `np_tree_t`

src/util/np_tree.c over the red-black tree of include/tree/tree.h. Values are opaque; `byte_size` and the freeing of memory are left out. -/
namespace Np.Tree

open Np.Rb

/-- The key a caller gives to one of the functions `_int`, `_dbl`, `_str`, `_ulong`, `_dhkey`, `_uuid`. A text is the list of its bytes before the
terminating NUL. A double, which is finite, is a multiple of 2^-1074. The sixteen bytes of a uuid are read as a number, first byte first. -/
inductive Name where
  | int (i : BitVec 16)
  | dbl (d : Int)
  | str (s : List Nat)
  | ulong (u : BitVec 32)
  | dhkey (k : Dhkey)
  | uuid (u : BitVec 128)
  deriving DecidableEq

/-- `np_treeval_t` as a key: the value and, for a text, its size. -/
inductive Key where
  | int (i : BitVec 16)
  | dbl (d : Int)
  | str (s : List Nat) (size : Nat)
  | ulong (u : BitVec 32)
  | dhkey (k : Dhkey)
  | uuid (u : BitVec 128)
  deriving DecidableEq

/-- `enum np_treeval_type_t`, include/util/np_treeval.h:54-85. -/
def Key.type : Key → Int
  | .int _ => 2
  | .dbl _ => 6
  | .str _ _ => 7
  | .ulong _ => 12
  | .dhkey _ => 21
  | .uuid _ => 22

/-- `strncmp`, of the C library: the difference of the first bytes that differ, the NUL at the end included, within the first `n`. -/
def strncmp : Nat → List Nat → List Nat → Int
  | 0, _, _ => 0
  | _ + 1, [], [] => 0
  | _ + 1, a :: _, [] => a
  | _ + 1, [], b :: _ => -b
  | n + 1, a :: as, b :: bs => if a = b then strncmp n as bs else (a : Int) - b

/-- `memcmp` of sixteen bytes, of the C library: only its sign is known, and it is assumed to be kept by the conversion to `int16_t`. -/
def memcmp (a b : BitVec 128) : Int := if a.toNat < b.toNat then -1 else if b.toNat < a.toNat then 1 else 0

/-- `_np_tree_elem_cmp`, src/util/np_tree.c:57-93. -/
def elemCmp (j1 j2 : Key) : Int :=
  match j1, j2 with
  | .str s1 n1, .str s2 n2 => if n1 > n2 then strncmp (n1 + 1) s1 s2 else strncmp (n2 + 1) s1 s2
  | .dbl d1, .dbl d2 => if d1 - d2 < 0 then -1 else if d1 - d2 > 0 then 1 else 0
  | .ulong u1, .ulong u2 => ((u1 - u2).setWidth 16).toInt
  | .int i1, .int i2 => (i1 - i2).toInt
  | .dhkey k1, .dhkey k2 => k1.cmp k2
  | .uuid u1, .uuid u2 => memcmp u1 u2
  | j1, j2 => if j1.type - j2.type > 0 then 1 else 0

/-- The key of the element that is searched for, src/util/np_tree.c:102-103, 120, 133-134, 146, 160, 166, 177-178, 192-193, 203, 217:
its size is 0. -/
def sought : Name → Key
  | .int i => .int i
  | .dbl d => .dbl d
  | .str s => .str s 0
  | .ulong u => .ulong u
  | .dhkey k => .dhkey k
  | .uuid u => .uuid u

/-- The key of a new element, src/util/np_tree.c:343-349, 366-368, 384-386, 402-404, 420-422, 439-441: a text is cut after 255 bytes unless the tree
is in place. -/
def stored (inPlace : Bool) : Name → Key
  | .int i => .int i
  | .dbl d => .dbl d
  | .str s => .str (if inPlace then s else s.take 255) (min s.length 255)
  | .ulong u => .ulong u
  | .dhkey k => .dhkey k
  | .uuid u => .uuid u

/-- `np_tree_elem_t`, include/util/np_tree.h. -/
structure Elem (V : Type) where
  key : Key
  val : V
  deriving DecidableEq

/-- `np_tree_t`, include/util/np_tree.h:84-90, without `byte_size`. -/
structure Tree (V : Type) where
  root : T (Elem V)
  size : Nat
  inPlace : Bool
  immutable : Bool
  deriving DecidableEq

/-- Why a call does not come back. -/
inductive Fault
  /-- A failed `assert`. -/
  | abort
  /-- A null pointer is followed. -/
  | null
  deriving DecidableEq

variable {V : Type}

/-- `np_tree_create`, src/util/np_tree.c:44-55. -/
def create : Tree V := { root := .leaf, size := 0, inPlace := false, immutable := false }

/-- The comparison of a key with the elements of the tree. -/
def against (k : Key) (e : Elem V) : Int := elemCmp k e.key

/-- `np_tree_find_int`, `_dbl`, `_str`, `_ulong`, `_dhkey`, `_uuid`, src/util/np_tree.c:116-125, 127-139, 159-163, 165-169, 191-196, 216-220. -/
def find (t : Tree V) (n : Name) : Option (Elem V) := Rb.find (against (sought n)) t.root

/-- Whether the element found by `np_tree_find_gte_…` has the key; the member of the union for the type of the name is read, whatever the type of
the element. `none` if that reads a member that is not there. -/
def sameKey (n : Name) (k : Key) : Option Bool :=
  match n, k with
  | .int a, .int b => some (b == a)
  | .dbl a, .dbl b => some (b == a)
  | .ulong a, .ulong b => some (b == a)
  | .str a, .str b size => some (strncmp size b a == 0)
  | _, _ => none

/-- `np_tree_find_gte_str`, `_int`, `_ulong`, `_dbl`, src/util/np_tree.c:95-114, 141-157, 171-189, 198-214: the element, and whether it was found.
There is no such function for the other kinds of keys. -/
def findGte (t : Tree V) (n : Name) : Option (Elem V × Option Bool) :=
  match Rb.nfind (against (sought n)) t.root none with
  | none => none
  | some e => some (e, sameKey n e.key)

/-- `np_tree_insert_element`, src/util/np_tree.c:326-331, with `__np_tree_immutable_check` 249-252. The size grows even if `RB_INSERT` finds an equal
element and leaves the tree as it is. -/
def insertElement (t : Tree V) (e : Elem V) : Except Fault (Tree V) :=
  if t.immutable then .error .abort
  else match Rb.insert (against e.key) e t.root with
    | none => .error .null
    | some root => .ok { t with root := root, size := t.size + 1 }

/-- `np_tree_insert_str` etc., src/util/np_tree.c:333-448. -/
def insert (t : Tree V) (n : Name) (v : V) : Except Fault (Tree V) :=
  match find t n with
  | some _ => .ok t
  | none => insertElement t ⟨stored t.inPlace n, v⟩

/-- The element that was found gets another value. -/
def setVal (k : Key) (v : V) (t : T (Elem V)) : T (Elem V) :=
  match locate (against k) t [] with
  | none => t
  | some (c, l, e, r, p) => zip (.node c l ⟨e.key, v⟩ r) p

/-- `np_tree_replace_str` etc., src/util/np_tree.c:463-548. -/
def replace (t : Tree V) (n : Name) (v : V) : Except Fault (Tree V) :=
  match find t n with
  | none => insert t n v
  | some _ => if t.immutable then .error .abort else .ok { t with root := setVal (sought n) v t.root }

/-- `np_tree_del_str` etc. and `np_tree_del_element`, src/util/np_tree.c:235-282. -/
def del (t : Tree V) (n : Name) : Except Fault (Tree V) :=
  if t.immutable then .error .abort
  else match find t n with
    | none => .ok t
    | some _ =>
      match Rb.remove (against (sought n)) t.root with
      | none => .error .null
      | some root => .ok { t with root := root, size := t.size - 1 }

/-- The key of an element as `np_tree_copy` hands it on, src/util/np_tree.c:554-567. -/
def Key.name : Key → Name
  | .int i => .int i
  | .dbl d => .dbl d
  | .str s _ => .str s
  | .ulong u => .ulong u
  | .dhkey k => .dhkey k
  | .uuid u => .uuid u

/-- `RB_FOREACH`. -/
def elems (t : Tree V) : List (Elem V) := toList t.root

/-- The loop of `np_tree_copy`, src/util/np_tree.c:553-568. -/
def copyLoop (target : Tree V) : List (Elem V) → Except Fault (Tree V)
  | [] => .ok target
  | e :: es =>
    match insert target e.key.name e.val with
    | .error f => .error f
    | .ok t => copyLoop t es

/-- `np_tree_clone`, src/util/np_tree.c:594-604. -/
def clone (source : Tree V) : Except Fault (Tree V) :=
  match copyLoop { (create : Tree V) with inPlace := false } (elems source) with
  | .error f => .error f
  | .ok t => .ok { t with immutable := source.immutable }

/-- A call that changes a tree. -/
inductive Op (V : Type) where
  | insert (n : Name) (v : V)
  | replace (n : Name) (v : V)
  | del (n : Name)

/-- One call. -/
def step (t : Tree V) : Op V → Except Fault (Tree V)
  | .insert n v => insert t n v
  | .replace n v => replace t n v
  | .del n => del t n

/-- A history of calls. -/
def run (t : Tree V) : List (Op V) → Except Fault (Tree V)
  | [] => .ok t
  | o :: os =>
    match step t o with
    | .error f => .error f
    | .ok t' => run t' os

end Np.Tree
