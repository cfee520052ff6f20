/-! # The skip list of src/util/np_skiplist.c

Nodes live in a heap and refer to each other by number; number 0 is the root (the sentinel).  Reading
a pointer outside of a node's array, or through a node that was freed, gives `none`: undefined
behaviour.  A walk that does not end also gives `none` (the walks get a bound that is larger than the
number of nodes ever allocated; the theorems show that `none` does not occur). -/
namespace Np.Skip

/-- include/util/np_skiplist.h:23-33 `np_skiplist_node_t`: the item (`none` for the sentinel) and the
successors on each level; the length of the array is `_height`.  `_nodes == NULL` is the empty
array: it is only tested where the height is positive. -/
structure Node (α : Type) where
  item : Option α
  nodes : List (Option Nat)

/-- include/util/np_skiplist.h:40-47 `np_skiplist_t`.  `fresh` is the next address `malloc` returns;
addresses are not used again. -/
structure Sl (α : Type) where
  heap : Nat → Option (Node α)
  fresh : Nat
  count : Nat

variable {α : Type}

/-- src/util/np_skiplist.c:54-68 `np_skiplist_init`. -/
def init : Sl α := { heap := fun p => if p = 0 then some ⟨none, []⟩ else none, fresh := 1, count := 0 }

/-- src/util/np_skiplist.c:70-72 `np_skiplist_size`. -/
def size (s : Sl α) : Nat := s.count

/-- `u->_nodes[l]`. -/
def nodeAt (heap : Nat → Option (Node α)) (u l : Nat) : Option (Option Nat) :=
  match heap u with
  | none => none
  | some n => n.nodes[l]?

/-- `p->item` of a node that is not the sentinel. -/
def itemAt (heap : Nat → Option (Node α)) (p : Nat) : Option α :=
  match heap p with
  | none => none
  | some n => n.item

/-- `u->_nodes[l] = v`. -/
def setNode (heap : Nat → Option (Node α)) (u l : Nat) (v : Option Nat) :
    Option (Nat → Option (Node α)) :=
  match heap u with
  | none => none
  | some n =>
    if l < n.nodes.length then
      some fun p => if p = u then some { n with nodes := n.nodes.set l v } else heap p
    else none

/-- `free(p)`. -/
def release (heap : Nat → Option (Node α)) (p : Nat) : Nat → Option (Node α) :=
  fun q => if q = p then none else heap q

/-- The height of the root. -/
def height (s : Sl α) : Nat :=
  match s.heap 0 with
  | none => 0
  | some n => n.nodes.length

/-- src/util/np_skiplist.c:18-22: `1` plus the number of bits of the number of elements. -/
def maxHeight (elements : BitVec 32) : Nat := 1 + (if elements.toNat = 0 then 0 else elements.toNat.log2 + 1)

/-- src/util/np_skiplist.c:24-30: the number of low bits of the random number that are set.  The
argument bounds the recursion; `random()` has 31 bits. -/
def trailingOnes : Nat → Nat → Nat
  | 0, _ => 0
  | f + 1, z => if z % 2 = 1 then trailingOnes f (z / 2) + 1 else 0

/-- src/util/np_skiplist.c:17-32 `__pick_height` for the random number `z`. -/
def pickHeight (elements : Nat) (z : BitVec 31) : Nat :=
  let m := maxHeight (BitVec.ofNat 32 elements)
  let k := trailingOnes 31 z.toNat
  if k > m then m else k

/-- The inner loop that walks to the right on level `l` (src/util/np_skiplist.c:103-105, 148-151,
187-190): the node where it stops and the last result of the comparison.  `c y` is what the
comparison function says about the stored item `y` and the item looked for. -/
def advance (c : α → Int) (heap : Nat → Option (Node α)) (l : Nat) :
    Nat → Nat → Int → Option (Nat × Int)
  | 0, _, _ => none
  | f + 1, u, comp =>
    match nodeAt heap u l with
    | none => none
    | some none => some (u, comp)
    | some (some v) =>
      match itemAt heap v with
      | none => none
      | some y => if c y < 0 then advance c heap l f v (c y) else some (u, c y)

/-- `do { r--; } while (r > 0 && u->_nodes[r - 1] == u->_nodes[r]);` (src/util/np_skiplist.c:154-156)
from the value of `r` before. -/
def skip (heap : Nat → Option (Node α)) (u : Nat) : Nat → Option Nat
  | 0 => some 0
  | r + 1 =>
    if r = 0 then some 0
    else
      match nodeAt heap u (r - 1), nodeAt heap u r with
      | some a, some b => if a = b then skip heap u r else some r
      | _, _ => none

/-- The outer loop of `np_skiplist_find`, src/util/np_skiplist.c:147-157.  The first argument bounds
the number of rounds. -/
def findLoop (c : α → Int) (heap : Nat → Option (Node α)) (fuel : Nat) :
    Nat → Nat → Nat → Int → Option (Nat × Int)
  | 0, _, _, _ => none
  | k + 1, r, u, comp =>
    if r = 0 then some (u, comp)
    else
      match advance c heap (r - 1) fuel u comp with
      | none => none
      | some (u', comp') =>
        match skip heap u' r with
        | none => none
        | some r' => findLoop c heap fuel k r' u' comp'

/-- src/util/np_skiplist.c:138-166 `np_skiplist_find`: whether the item was found, and what `*item` is
afterwards (`none`: the null pointer of the sentinel). -/
def find (cmp : α → α → Int) (s : Sl α) (x : α) : Option (Bool × Option α) :=
  match findLoop (fun y => cmp y x) s.heap (s.fresh + 1) (height s + 1) (height s) 0 (-1) with
  | none => none
  | some (u, comp) =>
    if 0 ≤ comp ∧ height s ≠ 0 then
      match nodeAt s.heap u 0 with
      | none => none
      | some (some v) =>
        match itemAt s.heap v with
        | none => none
        | some y => some (decide (comp = 0), some y)
      | some none => some (decide (comp = 0), itemAt s.heap u)
    else some (false, some x)

/-- src/util/np_skiplist.c:108-121: takes the successor of `u` on level `l` out of that level if the
last comparison found it equal.  Result: the heap and `to_remove`. -/
def cut (heap : Nat → Option (Node α)) (u l : Nat) (comp : Int) (del : Option Nat) :
    Option ((Nat → Option (Node α)) × Option Nat) :=
  match nodeAt heap u l with
  | none => none
  | some none => some (heap, del)
  | some (some v) =>
    if comp = 0 then
      match nodeAt heap v l with
      | none => none
      | some w => (setNode heap u l w).map fun h => (h, some v)
    else some (heap, del)

/-- The loop `do { … } while` of `np_skiplist_remove`, src/util/np_skiplist.c:107-126, from the value
of `r` before: cuts on each level and goes down.  Result: the heap, the new `r`, `to_remove`. -/
def unlink (u : Nat) (comp : Int) :
    Nat → (Nat → Option (Node α)) → Option Nat → Option ((Nat → Option (Node α)) × Nat × Option Nat)
  | 0, heap, del => some (heap, 0, del)
  | r + 1, heap, del =>
    match cut heap u r comp del with
    | none => none
    | some (heap', del') =>
      if r = 0 then some (heap', 0, del')
      else
        match nodeAt heap' u (r - 1), nodeAt heap' u r with
        | some a, some b => if a = b then unlink u comp r heap' del' else some (heap', r, del')
        | _, _ => none

/-- The outer loop of `np_skiplist_remove`, src/util/np_skiplist.c:102-127. -/
def removeLoop (c : α → Int) (fuel : Nat) :
    Nat → Nat → Nat → Int → (Nat → Option (Node α)) → Option Nat →
      Option ((Nat → Option (Node α)) × Option Nat)
  | 0, _, _, _, _, _ => none
  | k + 1, r, u, comp, heap, del =>
    if r = 0 then some (heap, del)
    else
      match advance c heap (r - 1) fuel u comp with
      | none => none
      | some (u', comp') =>
        match unlink u' comp' r heap del with
        | none => none
        | some (heap', r', del') => removeLoop c fuel k r' u' comp' heap' del'

/-- src/util/np_skiplist.c:94-136 `np_skiplist_remove`.  Freeing a node that is already freed is
undefined behaviour. -/
def remove (cmp : α → α → Int) (s : Sl α) (x : α) : Option (Bool × Sl α) :=
  match removeLoop (fun y => cmp y x) (s.fresh + 1) (height s + 1) (height s) 0 (-1) s.heap none with
  | none => none
  | some (heap, none) => some (false, { s with heap := heap })
  | some (heap, some v) =>
    match heap v with
    | none => none
    | some _ => some (true, { s with heap := release heap v, count := s.count - 1 })

/-- `do { stack[r - 1] = u; r--; } while (r > 0 && u->_nodes[r - 1] == u->_nodes[r]);`
(src/util/np_skiplist.c:196-199). -/
def push (heap : Nat → Option (Node α)) (u : Nat) :
    Nat → List (Option Nat) → Option (Nat × List (Option Nat))
  | 0, stack => some (0, stack)
  | r + 1, stack =>
    let stack' := stack.set r (some u)
    if r = 0 then some (0, stack')
    else
      match nodeAt heap u (r - 1), nodeAt heap u r with
      | some a, some b => if a = b then push heap u r stack' else some (r, stack')
      | _, _ => none

/-- The outer loop of `np_skiplist_add`, src/util/np_skiplist.c:185-200; `some none`: the element
already exists. -/
def addLoop (c : α → Int) (heap : Nat → Option (Node α)) (fuel : Nat) :
    Nat → Nat → Nat → List (Option Nat) → Option (Option (List (Option Nat)))
  | 0, _, _, _ => none
  | k + 1, r, u, stack =>
    if r = 0 then some (some stack)
    else
      match advance c heap (r - 1) fuel u 0 with
      | none => none
      | some (u', comp) =>
        match nodeAt heap u' (r - 1) with
        | none => none
        | some next =>
          if next.isSome ∧ comp = 0 then some none
          else
            match push heap u' r stack with
            | none => none
            | some (r', stack') => addLoop c heap fuel k r' u' stack'

/-- src/util/np_skiplist.c:223-230: the new node `p` is linked in behind the nodes of the stack, from
level `i` on for `n` levels. -/
def link (p : Nat) : Nat → Nat → List (Option Nat) → (Nat → Option (Node α)) →
    Option (Nat → Option (Node α))
  | 0, _, _, heap => some heap
  | n + 1, i, stack, heap =>
    match stack[i]? with
    | some (some u) =>
      match nodeAt heap u i with
      | none => none
      | some next =>
        match setNode heap p i next with
        | none => none
        | some h1 =>
          match setNode h1 u i (some p) with
          | none => none
          | some h2 => link p n (i + 1) stack h2
    | _ => none

/-- src/util/np_skiplist.c:212-221: the root gets the height of the new node if that is larger. -/
def raise (heap : Nat → Option (Node α)) (k : Nat) (stack : List (Option Nat)) :
    Option ((Nat → Option (Node α)) × List (Option Nat)) :=
  match heap 0 with
  | none => none
  | some n =>
    let h := n.nodes.length
    if h < k then
      some (fun p => if p = 0 then some { n with nodes := n.nodes ++ List.replicate (k - h) none } else heap p,
        (List.range (k - h)).foldl (fun st i => st.set (h + i) (some 0)) stack)
    else some (heap, stack)

/-- src/util/np_skiplist.c:168-236 `np_skiplist_add` for the random number `z`.  The stack starts with
the successors of the root (lines 180-183). -/
def add (cmp : α → α → Int) (s : Sl α) (x : α) (z : BitVec 31) : Option (Bool × Sl α) :=
  let k := pickHeight s.count z + 1
  let r := height s
  let stack := List.replicate (if k > r then k else r) (none : Option Nat)
  let stack := (List.range r).foldl (fun st i => st.set i ((nodeAt s.heap 0 i).getD none)) stack
  match addLoop (fun y => cmp y x) s.heap (s.fresh + 1) (r + 1) r 0 stack with
  | none => none
  | some none => some (false, s)
  | some (some stack) =>
    let p := s.fresh
    let heap := fun q => if q = p then some ⟨some x, List.replicate k none⟩ else s.heap q
    match raise heap k stack with
    | none => none
    | some (heap, stack) =>
      match link p k 0 stack heap with
      | none => none
      | some heap => some (true, { heap := heap, fresh := s.fresh + 1, count := s.count + 1 })

/-- The second loop of `np_skiplist_map`, src/util/np_skiplist.c:258-262, for a map function that
always asks for more: the items it is called with. -/
def mapRest (heap : Nat → Option (Node α)) : Nat → Nat → Option (List (Option α))
  | 0, _ => none
  | f + 1, u =>
    match nodeAt heap u 0 with
    | none => none
    | some none => some []
    | some (some v) =>
      match itemAt heap v with
      | none => none
      | some y => (mapRest heap f v).map fun l => some y :: l

/-- src/util/np_skiplist.c:238-263 `np_skiplist_map` for a map function that always asks for more;
`below` says that `mr->cmp` of the item is negative (only the sign is used; the variable `comp` is
not used by this function).  Result: what the map function is called with,
in order (`none`: the null pointer of the sentinel). -/
def map (below : α → Bool) (s : Sl α) : Option (List (Option α)) :=
  match findLoop (fun y => if below y then -1 else 1) s.heap (s.fresh + 1) (height s + 1)
      (height s) 0 (-1) with
  | none => none
  | some (u, _) =>
    if height s = 0 then some [none]
    else
      match s.heap u with
      | none => none
      | some n => (mapRest s.heap (s.fresh + 1) u).map fun l => n.item :: l

/-- The loop of `np_skiplist_destroy`, src/util/np_skiplist.c:80-89: `n` is `_num_elements`, the next
argument `u`.  The first argument bounds the number of rounds. -/
def freeLoop : Nat → Nat → Option Nat → (Nat → Option (Node α)) → Option (Nat → Option (Node α))
  | _, 0, _, heap => some heap
  | 0, _ + 1, _, _ => none
  | _ + 1, _ + 1, none, _ => none
  | f + 1, n + 1, some u, heap =>
    match nodeAt heap u 0 with
    | none => none
    | some v => if u = 0 then freeLoop f (n + 1) v heap else freeLoop f n v (release heap u)

/-- src/util/np_skiplist.c:74-92 `np_skiplist_destroy`: the heap afterwards.  The root is not
allocated by the list; its array is freed (line 91). -/
def destroy (s : Sl α) : Option (Nat → Option (Node α)) :=
  (freeLoop (s.count + 1) s.count (some 0) s.heap).map fun heap => release heap 0

end Np.Skip
