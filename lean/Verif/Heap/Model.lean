/-!
# Model of the binary heap, include/util/np_heap.h

The element array is a function from indices to elements, `elements[0]` is the sentinel. Indices are `uint16_t`: the child indices are
reduced modulo 65536 as the code does. A failing `assert` and a loop that does not end within its fuel are the result `none`.
Simplification: an element is only its `data`; the fields `priority`, `sentinel` and `id` are never used in a comparison
(`id` is never written, so `binheap_find`, lines 174-178, unused in the library, cannot work and is left out).
-/
namespace Np.Heap

/-- `TYPE##_binheap_s`, lines 55-60. -/
structure Heap (α : Type) where
  count : Nat
  size : Nat
  e : Nat → α

variable {α : Type}

/-- `HEAP_SWAP`, lines 22-27, on array positions. -/
def swap (e : Nat → α) (i j : Nat) : Nat → α := fun k => if k = i then e j else if k = j then e i else e k

/-- Assignment to an array position. -/
def set (e : Nat → α) (i : Nat) (v : α) : Nat → α := fun k => if k = i then v else e k

/-- `HEAP_LEFT` stored in a `uint16_t`, lines 19, 86. -/
def left (i : Nat) : Nat := 2 * i % 65536
/-- `HEAP_RIGHT` stored in a `uint16_t`, lines 20, 87. -/
def right (i : Nat) : Nat := (2 * i + 1) % 65536
/-- `HEAP_PARENT`, line 21. -/
def parent (i : Nat) : Nat := if i = 1 then 1 else i / 2

/-- `TYPE##_binheapify`, lines 85-100; `lt` is `TYPE##_compare`, `n` is `heap->count`. The first number is the recursion fuel. -/
def heapify (lt : α → α → Bool) (n : Nat) : Nat → (Nat → α) → Nat → Option (Nat → α)
  | 0, _, _ => none
  | f + 1, e, i =>
    let l := left i
    let r := right i
    let largest := if l ≤ n ∧ lt (e l) (e i) = true then l else i
    let largest := if r ≤ n ∧ lt (e r) (e largest) = true then r else largest
    if largest ≠ i then heapify lt n f (swap e i largest) largest else some e

/-- The loop of `TYPE##_binheap_insert`, lines 126-130. -/
def siftUp (lt : α → α → Bool) : Nat → (Nat → α) → Nat → Option (Nat → α)
  | 0, _, _ => none
  | f + 1, e, i =>
    if i > 1 ∧ lt (e i) (e (parent i)) = true then siftUp lt f (swap e i (parent i)) (parent i) else some e

/-- `TYPE##_binheap_init`, lines 150-159 (`zero` is the zeroed element). -/
def init (zero : α) (maxNodes : Nat) : Heap α := ⟨0, maxNodes, fun _ => zero⟩

/-- `TYPE##_binheap_is_empty`, lines 106-108. -/
def isEmpty (h : Heap α) : Bool := h.count == 0

/-- `TYPE##_binheap_first`, lines 101-105. -/
def first (h : Heap α) : Option α := if h.count > 0 then some (h.e 1) else none

/-- `TYPE##_binheap_head`, lines 109-118. -/
def head (lt : α → α → Bool) (h : Heap α) : Option (Heap α × α) :=
  if h.count > 0 then do
    let ret := h.e 1
    let e := set h.e 1 (h.e h.count)
    let e := set e h.count (e 0)
    let e ← heapify lt (h.count - 1) (65536 * 65536) e 1
    pure (⟨h.count - 1, h.size, e⟩, ret)
  else none

/-- `TYPE##_binheap_insert`, lines 119-131. `++count` cannot overflow as `count < size ≤ 65535`. -/
def insert (lt : α → α → Bool) (h : Heap α) (v : α) : Option (Heap α) :=
  if h.count < h.size then do
    let i := h.count + 1
    let e := set h.e i v
    let e ← siftUp lt (i + 1) e i
    pure ⟨i, h.size, e⟩
  else none

/-- `TYPE##_binheap_remove`, lines 132-141; the zeroed element returned for a bad index is `none` inside. -/
def remove (lt : α → α → Bool) (h : Heap α) (i : Nat) : Option (Heap α × Option α) :=
  if i ≤ h.count ∧ i ≥ 1 then do
    let deleted := h.e i
    let e := swap h.e i h.count
    let e ← heapify lt (h.count - 1) (65536 * 65536) e i
    pure (⟨h.count - 1, h.size, e⟩, some deleted)
  else some (h, none)

/-- `TYPE##_binheap_increase_idx_priority`, lines 142-149. -/
def increaseIdxPriority (lt : α → α → Bool) (h : Heap α) (i : Nat) : Option (Heap α) :=
  if i ≤ h.count ∧ i ≥ 1 then do
    let e ← heapify lt h.count (65536 * 65536) (swap h.e i h.count) i
    pure { h with e := e }
  else none

/-- `TYPE##_binheap_clear`, lines 164-168 (the memset does not matter: only elements up to `count` are read). -/
def clear (h : Heap α) : Heap α := { h with count := 0 }

/-- Operations of a history. -/
inductive Op (α : Type) where
  | insert (v : α) | head | first | isEmpty | clear

inductive Out (α : Type) where
  | unit | val (v : α) | bool (b : Bool)
deriving DecidableEq

def step (lt : α → α → Bool) (h : Heap α) : Op α → Option (Heap α × Out α)
  | .insert v => do let h ← insert lt h v; pure (h, .unit)
  | .head => do let (h, v) ← head lt h; pure (h, .val v)
  | .first => do let v ← first h; pure (h, .val v)
  | .isEmpty => some (h, .bool (isEmpty h))
  | .clear => some (clear h, .unit)

def run (lt : α → α → Bool) : Heap α → List (Op α) → Option (Heap α × List (Out α))
  | h, [] => some (h, [])
  | h, op :: ops => do
    let (h, o) ← step lt h op
    let (h, os) ← run lt h ops
    pure (h, o :: os)

/-- A caller takes `n` elements. -/
def drain (lt : α → α → Bool) : Nat → Heap α → Option (List α)
  | 0, _ => some []
  | n + 1, h => do
    let (h, v) ← head lt h
    let vs ← drain lt n h
    pure (v :: vs)

/-- A caller inserts the elements of a list one after the other. -/
def insertAll (lt : α → α → Bool) : List α → Heap α → Option (Heap α)
  | [], h => some h
  | v :: vs, h => do let h ← insert lt h v; insertAll lt vs h

end Np.Heap
