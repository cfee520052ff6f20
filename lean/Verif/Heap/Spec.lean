import Verif.Heap.Model
/-! # Specification of a priority queue: a bag of elements, of which a smallest one is handed out -/
namespace Np.Heap.Spec
variable {α : Type}

/-- The elements stored in a heap, in array order. Only the bag (up to permutation) matters. -/
def content (h : Heap α) : List α := (List.range' 1 h.count).map h.e

/-- A strict weak order ("comes before"). -/
structure StrictWeak (lt : α → α → Bool) : Prop where
  irrefl : ∀ a, lt a a = false
  trans : ∀ a b c, lt a b = true → lt b c = true → lt a c = true
  negtrans : ∀ a b c, lt a b = false → lt b c = false → lt a c = false

/-- `m` is one of the elements and nothing comes before it. -/
def Smallest (lt : α → α → Bool) (m : α) (bag : List α) : Prop := m ∈ bag ∧ ∀ x ∈ bag, lt x m = false

/-- The operation is allowed (no assertion fails). -/
def Allowed (size : Nat) (bag : List α) : Op α → Prop
  | .insert _ => bag.length < size
  | .head => bag ≠ []
  | .first => bag ≠ []
  | _ => True

/-- What an operation does to the bag and what it returns. -/
def Step (lt : α → α → Bool) (bag : List α) : Op α → Out α → List α → Prop
  | .insert v, out, bag' => out = .unit ∧ bag'.Perm (v :: bag)
  | .head, out, bag' => ∃ m, out = .val m ∧ Smallest lt m bag ∧ bag.Perm (m :: bag')
  | .first, out, bag' => ∃ m, out = .val m ∧ Smallest lt m bag ∧ bag' = bag
  | .isEmpty, out, bag' => out = .bool (decide (bag = [])) ∧ bag' = bag
  | .clear, out, bag' => out = .unit ∧ bag' = []

/-- Nothing comes before its predecessor. -/
def Sorted (lt : α → α → Bool) (l : List α) : Prop := l.Pairwise fun a b => lt b a = false

/-- The heap shape: nothing comes before its parent. -/
def IsHeap (lt : α → α → Bool) (h : Heap α) : Prop := ∀ k, 2 ≤ k → k ≤ h.count → lt (h.e k) (h.e (k / 2)) = false

end Np.Heap.Spec
