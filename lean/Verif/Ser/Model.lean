import Verif.Tree.Model
import Verif.Tree.Spec
import Verif.Cbor.Model

/-! # Model of the serialization of trees

`np_serializer_write_map` and `np_serializer_read_map` of src/util/s11n_impl/np_serialize_qcbor.c, for a build with `x64` (SConstruct:149), and the
sizes computed by src/util/np_treeval.c. QCBOR is modelled by its documented behaviour. -/
namespace Np.Ser

open Np.Tree (Name Tree)
open Np.Cbor (Byte byte head head4 intItem readHead)

/-- Which type a value that is a tree has. -/
inductive Wrap where
  | plain
  | cwt
  | encrypted
  | signed
  deriving DecidableEq

mutual
/-- `np_treeval_t`, include/util/np_treeval.h:54-117, as it lies in a tree. A text or a binary is the list of its `size` bytes. A finite float or double
is a multiple of 2^-1074. A tree is given by its entries in the order of an iteration. `other` stands for the types that are not serialized: undefined,
special char pointer, unsigned char, the arrays other than that of two unsigned, void and uuid. -/
inductive Val where
  | short (v : BitVec 8)
  | int (v : BitVec 16)
  | long (v : BitVec 32)
  | llong (v : BitVec 64)
  | flt (v : Int)
  | dbl (v : Int)
  | str (s : List Byte)
  | char (c : Byte)
  | ushort (v : BitVec 8)
  | uint (v : BitVec 16)
  | ulong (v : BitVec 32)
  | ullong (v : BitVec 64)
  | pair (a b : BitVec 16)
  | bin (b : List Byte)
  | hash (b : List Byte)
  | dhkey (k : Dhkey)
  | tree (w : Wrap) (es : Ents)
  | other (type : Nat)
/-- The entries of a tree. -/
inductive Ents where
  | nil
  | cons (n : Name) (v : Val) (es : Ents)
end

/-- The entries as a list. -/
def Ents.list : Ents → List (Name × Val)
  | .nil => []
  | .cons n v es => (n, v) :: es.list

/-- A list as entries. -/
def Ents.of : List (Name × Val) → Ents
  | [] => .nil
  | (n, v) :: es => .cons n v (Ents.of es)

/-- How the library writes a float and a double, and how it reads one: `QCBOREncode_AddFloat`, `QCBOREncode_AddDouble`, `QCBORDecode_VGetNext`. -/
structure Lib where
  flt : Int → List Byte
  dbl : Int → List Byte
  read : List Byte → Option (Int × List Byte)

/-! ## Writing -/

/-- `NP_CBOR_REGISTRY_ENTRIES` plus the type, as a tag. -/
def tag (type : Nat) : List Byte := head 6 (31415 + type)

/-- `__np_tree_serialize_write_type_dhkey`, src/util/s11n_impl/np_serialize_qcbor.c:76-122. -/
def dhkeyBytes (k : Dhkey) : List Byte := tag 21 ++ (head 4 8 ++ (k.words.map fun w => head4 0 w.toNat).flatten)

/-- `CBOR_TAG_CWT`, `CBOR_TAG_COSE_ENCRYPT`, `CBOR_TAG_COSE_SIGN` in front of the tree, 490-509. -/
def wrapBytes : Wrap → List Byte
  | .plain => []
  | .cwt => head 6 61
  | .encrypted => head 6 96
  | .signed => head 6 98

/-- A text as bytes. -/
def textBytes (s : List Nat) : List Byte := s.map byte

/-- A key, 523-530; a uuid is not written, and then neither is the value. `none` if the nesting is too deep. -/
def keyBytes (lib : Lib) (d : Nat) : Name → Option (List Byte)
  | .int i => some (tag 2 ++ intItem i.toInt)
  | .dbl x => some (lib.dbl x)
  | .str s => some (head 3 s.length ++ textBytes s)
  | .ulong u => some (tag 12 ++ head 0 u.toNat)
  | .dhkey k => if d = 0 then none else some (dhkeyBytes k)
  | .uuid _ => some []

/-- `QCBOR_MAX_ITEMS_IN_ARRAY`. -/
def maxItems : Nat := 65534

mutual
/-- `__np_tree_serialize_write_type`, src/util/s11n_impl/np_serialize_qcbor.c:354-543: the number of items and the bytes. `d` is the number of levels
that may still be opened. `none` if QCBOR reports that the nesting is too deep or that there are too many items. -/
def writeVal (lib : Lib) (d : Nat) : Val → Option (Nat × List Byte)
  | .short v => some (1, tag 1 ++ intItem v.toInt)
  | .int v => some (1, tag 2 ++ intItem v.toInt)
  | .long v => some (1, tag 3 ++ intItem v.toInt)
  | .llong v => some (1, tag 4 ++ intItem v.toInt)
  | .flt v => some (1, lib.flt v)
  | .dbl v => some (1, lib.dbl v)
  | .str s => some (1, head 3 s.length ++ s)
  | .char c => some (1, head 3 1 ++ [c])
  | .ushort v => some (1, tag 10 ++ head 0 v.toNat)
  | .uint v => some (1, tag 11 ++ head 0 v.toNat)
  | .ulong v => some (1, tag 12 ++ head 0 v.toNat)
  | .ullong v => some (1, tag 13 ++ head 0 v.toNat)
  | .pair a b => if d = 0 then none else some (1, tag 14 ++ (head 4 2 ++ (head 0 a.toNat ++ head 0 b.toNat)))
  | .bin b => some (1, head 2 b.length ++ b)
  | .hash b => some (1, tag 23 ++ (head 2 b.length ++ b))
  | .dhkey k => if d = 0 then none else some (1, dhkeyBytes k)
  | .tree w es =>
    match d with
    | 0 => none
    | d + 1 =>
      match writeEnts lib d es with
      | none => none
      | some (n, b) => if n > maxItems then none else some (1, wrapBytes w ++ (tag 20 ++ (head 5 (n / 2) ++ b)))
  | .other _ => some (0, [])
/-- The loop over the entries, 523-543. `QCBOREncode_CloseMap` writes half the number of items. -/
def writeEnts (lib : Lib) (d : Nat) : Ents → Option (Nat × List Byte)
  | .nil => some (0, [])
  | .cons n v es =>
    match writeEnts lib d es with
    | none => none
    | some (k, b) =>
      match n with
      | .uuid _ => some (k, b)
      | _ =>
        match keyBytes lib d n, writeVal lib d v with
        | some kb, some (j, vb) => some (1 + j + k, kb ++ (vb ++ b))
        | _, _ => none
end

/-- `QCBOR_MAX_ARRAY_NESTING`. -/
def maxNesting : Nat := 15

/-- `np_serializer_write_map`, src/util/s11n_impl/np_serialize_qcbor.c:607-632, into a buffer that is large enough. -/
def write (lib : Lib) (t : Tree Val) : Option (List Byte) := (writeVal lib maxNesting (.tree .plain (.of (Tree.Spec.entries t)))).map (·.2)

/-- The same into a buffer of `cap` bytes: `none` for `_error`. -/
def writeInto (lib : Lib) (cap : Nat) (t : Tree Val) : Option (List Byte) :=
  match write lib t with
  | none => none
  | some b => if cap < b.length then none else some b

/-! ## Copies -/

/-- Why a call ends early. -/
inductive Stop where
  /-- An error is reported. -/
  | reported
  /-- The process ends. -/
  | crash
  deriving DecidableEq

/-- An insertion into a tree. -/
def insertVal (t : Tree Val) (n : Name) (v : Val) : Except Stop (Tree Val) :=
  match Tree.insert t n v with
  | .error _ => .error .crash
  | .ok t' => .ok t'

mutual
/-- `np_treeval_copy_of_val`, src/util/np_treeval.c:25-162. Special char pointers, unsigned chars, voids and uuids are copied, the arrays other than that
of two unsigned become undefined. -/
def copyVal : Val → Except Stop Val
  | .tree w es =>
    match copyEnts Tree.create es with
    | .error s => .error s
    | .ok t => .ok (.tree w (.of (Tree.Spec.entries t)))
  | .other type => .ok (.other (if type = 15 ∨ type = 16 ∨ type = 17 then 0 else type))
  | v => .ok v
/-- `np_tree_clone`, src/util/np_tree.c:550-604. -/
def copyEnts (t : Tree Val) : Ents → Except Stop (Tree Val)
  | .nil => .ok t
  | .cons n v es =>
    match copyVal v with
    | .error s => .error s
    | .ok v' =>
      match insertVal t n v' with
      | .error s => .error s
      | .ok t' => copyEnts t' es
end

/-! ## Reading -/

/-- `QCBORItem`. The count of a map is that of its keys and values, as `QCBOR_DECODE_MODE_MAP_AS_ARRAY` gives it. -/
inductive Body where
  | int (v : Int)
  /-- `QCBOR_TYPE_UINT64`: 2^63 or more. -/
  | big (v : Nat)
  | bytes (b : List Byte)
  | text (b : List Byte)
  | array (n : Nat)
  | map (n : Nat)
  | dbl (v : Int)

/-- `QCBORDecode_VGetNext`: the tags, the innermost first, and the bytes behind. At most four tags. -/
def next (lib : Lib) : Nat → List Nat → List Byte → Option (List Nat × Body × List Byte)
  | _, _, [] => none
  | fuel, tags, x :: l =>
    if x.toNat / 32 = 7 then (lib.read (x :: l)).map fun p => (tags, .dbl p.1, p.2)
    else match readHead (x :: l) with
    | none => none
    | some (m, n, r) =>
      if m = 0 then some (tags, if n < 9223372036854775808 then .int n else .big n, r)
      else if m = 1 then if n < 9223372036854775808 then some (tags, .int (-1 - n), r) else none
      else if m = 2 then if r.length < n then none else some (tags, .bytes (r.take n), r.drop n)
      else if m = 3 then if r.length < n then none else some (tags, .text (r.take n), r.drop n)
      else if m = 4 then some (tags, .array n, r)
      else if m = 5 then if n > maxItems / 2 then none else some (tags, .map (2 * n), r)
      else match fuel with
        | 0 => none
        | f + 1 => next lib f (n :: tags) r

/-- The member `val.int64` of an item. The bits of an unsigned number of 2^63 or more are those of a negative one. For the other types, which are not
met in what was written, it is 0 here. -/
def Body.int64 : Body → Int
  | .int v => v
  | .big n => n - 18446744073709551616
  | _ => 0

/-- `QCBOR_Int64ToUInt8` … `QCBOR_Int64ToInt32`: a number that does not fit leaves the target, which is 0. -/
def fit (w : Nat) (signed : Bool) (v : Int) : BitVec w :=
  if (if signed then -(2 ^ (w - 1) : Int) ≤ v ∧ v < 2 ^ (w - 1) else 0 ≤ v ∧ v < 2 ^ w) then BitVec.ofInt w v else 0

/-- One word of a key, src/util/s11n_impl/np_serialize_qcbor.c:57-72. -/
def readWord (lib : Lib) (b : List Byte) : Except Stop (BitVec 32 × List Byte) :=
  match next lib 4 [] b with
  | none => .error .reported
  | some (_, body, r) => .ok (fit 32 false body.int64, r)

/-- `k` words. -/
def readWords (lib : Lib) : Nat → List Byte → Except Stop (List (BitVec 32) × List Byte)
  | 0, b => .ok ([], b)
  | k + 1, b =>
    match readWord lib b with
    | .error s => .error s
    | .ok (w, r) =>
      match readWords lib k r with
      | .error s => .error s
      | .ok (ws, r') => .ok (w :: ws, r')

/-- Eight words as a key. -/
def dhkeyOf : List (BitVec 32) → Dhkey
  | [a, b, c, d, e, f, g, h] => ⟨a, b, c, d, e, f, g, h⟩
  | _ => Dhkey.zero

/-- `value->type` and `value->value` for a number, 289-333. -/
def readInt (tag : Option Nat) (v : Int) : Val :=
  match tag with
  | some 31425 => .ushort (fit 8 false v)
  | some 31426 => .uint (fit 16 false v)
  | some 31427 => .ulong (fit 32 false v)
  | some 31428 => .ullong (if 0 ≤ v then BitVec.ofInt 64 v else 0)
  | some 31416 => .short (fit 8 true v)
  | some 31417 => .int (fit 16 true v)
  | some 31418 => .long (fit 32 true v)
  | some 31419 => .llong (BitVec.ofInt 64 v)
  | _ => .other 0

/-- The type of a tree, 182-190. -/
def wrapOf (tags : List Nat) : Wrap :=
  match tags with
  | _ :: 61 :: _ => .cwt
  | _ :: 96 :: _ => .encrypted
  | _ :: 98 :: _ => .signed
  | _ => .plain

/-- The key for which a value is inserted, 156-179; `none` if it is not of a type that can be a key. A text ends at the first NUL. -/
def keyOf : Val → Option Name
  | .int i => some (.int i)
  | .dhkey k => some (.dhkey k)
  | .ulong u => some (.ulong u)
  | .dbl x => some (.dbl x)
  | .str s => some (.str ((s.map BitVec.toNat).takeWhile (· ≠ 0)))
  | _ => none

/-- What reading yields: the value, the tree that was handed in, and the bytes behind. -/
abbrev Read := Except Stop (Val × Tree Val × List Byte)

/-- The loop over the pairs of a map, 137-181. -/
def readPairs (rd : Tree Val → List Byte → Read) : Nat → Tree Val → List Byte → Except Stop (Tree Val × List Byte)
  | 0, t, b => .ok (t, b)
  | k + 1, t, b =>
    match rd Tree.create b with
    | .error s => .error s
    | .ok (key, _, b1) =>
      match rd Tree.create b1 with
      | .error s => .error s
      | .ok (val, _, b2) =>
        match keyOf key with
        | none => readPairs rd k t b2
        | some n =>
          match copyVal val with
          | .error s => .error s
          | .ok v =>
            match insertVal t n v with
            | .error s => .error s
            | .ok t' => readPairs rd k t' b2

/-- `__np_tree_deserialize_read_type`, src/util/s11n_impl/np_serialize_qcbor.c:124-352. `deeper` reads one level further in; it is missing where QCBOR
does not nest any deeper. Simplified: after an error QCBOR yields no more items, and the error is reported in the end; the model stops at once. -/
def readItem (lib : Lib) (deeper : Option (Tree Val → List Byte → Read)) (t : Tree Val) (b : List Byte) : Read :=
  match next lib 4 [] b with
  | none => .error .reported
  | some (tags, body, r) =>
    match body with
    | .map n =>
      match deeper with
      | none => .error .reported
      | some rd =>
        if tags.head? = some 31435 then
          match readPairs rd (n / 2) t r with
          | .error s => .error s
          | .ok (t', r') => .ok (.tree (wrapOf tags) (.of (Tree.Spec.entries t')), t', r')
        else .ok (.other 0, t, r)
    | .array _ =>
      if deeper.isNone then .error .reported
      else if tags.head? = some 31429 then
        match next lib 4 [] r with
        | none => .error .reported
        | some (_, x, r1) =>
          match next lib 4 [] r1 with
          | none => .error .reported
          | some (_, y, r2) => .ok (.pair (fit 16 false x.int64) (fit 16 false y.int64), t, r2)
      else if tags.head? = some 31436 then
        match readWords lib 8 r with
        | .error s => .error s
        | .ok (ws, r1) => .ok (.dhkey (dhkeyOf ws), t, r1)
      else .error .reported
    | .text [c] => .ok (.char c, t, r)
    | .text s => .ok (.str s, t, r)
    | .bytes s => .ok (if tags.head? = some 31438 then .hash s else .bin s, t, r)
    | .dbl v => .ok (.dbl v, t, r)
    | .int v => .ok (readInt tags.head? v, t, r)
    | .big v => .ok (readInt tags.head? (Body.int64 (.big v)), t, r)

/-- The function with the levels that may still be opened. -/
def readVal (lib : Lib) : Nat → Tree Val → List Byte → Read
  | 0 => readItem lib none
  | d + 1 => readItem lib (some (readVal lib d))

/-- `np_serializer_read_map`, src/util/s11n_impl/np_serialize_qcbor.c:545-599: the tree afterwards, and how many bytes are left. Bytes behind the item
are accepted. Simplified: `QCBORDecode_Finish` also reports an error if a map or an array was not read to its end; this is left out. -/
def read (lib : Lib) (t : Tree Val) (b : List Byte) : Except Stop (Tree Val × List Byte) :=
  match readVal lib maxNesting t b with
  | .error s => .error s
  | .ok (_, t', r) => .ok (t', r)

/-! ## Sizes -/

/-- The bytes behind the first one of a number up to 16, 32 and 64 bits, as src/util/np_treeval.c:720-748 counts them. -/
def extra (n : Nat) : Nat := if n > 4294967295 then 8 else if n > 65535 then 4 else if n > 255 then 2 else if n ≥ 24 then 1 else 0

/-- `np_treeval_get_byte_size` of a key, src/util/np_treeval.c:622-879; a text has the size that is stored, at most 255. -/
def keySize : Name → Nat
  | .int i => 4 + (if i.toInt.natAbs > 255 then 2 else if i.toInt.natAbs ≥ 24 then 1 else 0)
  | .dbl _ => 9
  | .str s => extra (min s.length 255) + 1 + min s.length 255
  | .ulong u => 4 + (if u.toNat > 65535 then 4 else if u.toNat > 255 then 2 else if u.toNat ≥ 24 then 1 else 0)
  | .dhkey _ => 44
  | .uuid _ => 0

/-- The tag of a tree that is a token or a COSE structure. -/
def wrapSize : Wrap → Nat
  | .plain => 0
  | _ => 3

mutual
/-- `np_treeval_get_byte_size`, src/util/np_treeval.c:623-879. The absolute value of the least number of a type, whose negation overflows, is taken to be
right. An unsigned of 16 bits is looked at as a signed one. -/
def valSize : Val → Nat
  | .short v => 4 + (if v.toInt.natAbs ≥ 24 then 1 else 0)
  | .int v => 4 + (if v.toInt.natAbs > 255 then 2 else if v.toInt.natAbs ≥ 24 then 1 else 0)
  | .long v => 4 + (if v.toInt.natAbs > 65535 then 4 else if v.toInt.natAbs > 255 then 2 else if v.toInt.natAbs ≥ 24 then 1 else 0)
  | .llong v => 4 + extra v.toInt.natAbs
  | .flt _ => 5
  | .dbl _ => 9
  | .str s => extra s.length + 1 + s.length
  | .char _ => 2
  | .ushort v => 4 + (if v.toNat ≥ 24 then 1 else 0)
  | .uint v => 4 + (if v.toInt > 255 then 2 else if v.toInt ≥ 24 then 1 else 0)
  | .ulong v => 4 + (if v.toNat > 65535 then 4 else if v.toNat > 255 then 2 else if v.toNat ≥ 24 then 1 else 0)
  | .ullong v => 4 + extra v.toNat
  | .pair a b => (if a.toNat > 255 then 2 else if a.toNat ≥ 24 then 1 else 0) + (if b.toNat > 255 then 2 else if b.toNat ≥ 24 then 1 else 0) + 6
  | .bin b => (if b.length > 65535 then 4 else if b.length > 255 then 2 else if b.length ≥ 24 then 1 else 0) + 1 + b.length
  | .hash b => 5 + b.length
  | .dhkey _ => 44
  | .tree w es => wrapSize w + extra es.list.length + 4 + entsSize es
  | .other type => if type = 9 then 2 else if type = 15 ∨ type = 16 ∨ type = 17 ∨ type = 18 then 9 else 0
/-- The member `byte_size` of a tree in a value: the sum over the entries. -/
def entsSize : Ents → Nat
  | .nil => 0
  | .cons n v es => keySize n + valSize v + entsSize es
end

/-- `np_tree_t` with its member `byte_size`. -/
structure Sized where
  tree : Tree Val
  bytes : Nat

/-- `np_tree_element_get_byte_size`, src/util/np_tree.c:317-324. -/
def elemSize (e : Tree.Elem Val) : Nat := keySize e.key.name + valSize e.val

/-- `np_tree_insert_…`, src/util/np_tree.c:326-443, with the size. -/
def Sized.insert (s : Sized) (n : Name) (v : Val) : Except Tree.Fault Sized :=
  match Tree.find s.tree n with
  | some _ => .ok s
  | none =>
    match Tree.insertElement s.tree ⟨Tree.stored s.tree.inPlace n, v⟩ with
    | .error f => .error f
    | .ok t => .ok ⟨t, s.bytes + elemSize ⟨Tree.stored s.tree.inPlace n, v⟩⟩

/-- `np_tree_replace_…`, src/util/np_tree.c:445-545, with the size. -/
def Sized.replace (s : Sized) (n : Name) (v : Val) : Except Tree.Fault Sized :=
  match Tree.find s.tree n with
  | none => s.insert n v
  | some e =>
    match Tree.replace s.tree n v with
    | .error f => .error f
    | .ok t => .ok ⟨t, s.bytes - elemSize e + elemSize ⟨e.key, v⟩⟩

/-- `np_tree_del_…`, src/util/np_tree.c:229-278, with the size. -/
def Sized.del (s : Sized) (n : Name) : Except Tree.Fault Sized :=
  match Tree.del s.tree n with
  | .error f => .error f
  | .ok t =>
    match Tree.find s.tree n with
    | none => .ok ⟨t, s.bytes⟩
    | some e => .ok ⟨t, s.bytes - elemSize e⟩

/-- One call. -/
def Sized.step (s : Sized) : Tree.Op Val → Except Tree.Fault Sized
  | .insert n v => s.insert n v
  | .replace n v => s.replace n v
  | .del n => s.del n

/-- A history of calls. -/
def Sized.run (s : Sized) : List (Tree.Op Val) → Except Tree.Fault Sized
  | [] => .ok s
  | o :: os =>
    match s.step o with
    | .error f => .error f
    | .ok s' => s'.run os

/-- `np_tree_create`, src/util/np_tree.c:44-55. -/
def Sized.create : Sized := ⟨Tree.create, 0⟩

/-- `np_tree_get_byte_size`, src/util/np_tree.c:310-315. -/
def Sized.byteSize (s : Sized) : Nat := extra s.tree.size + 4 + s.bytes

end Np.Ser
