import Verif.Rb.Model

/-! # What is asked of the tree -/
namespace Np.Rb.Spec

open Np.Rb

variable {α : Type}

/-- The comparison with an element sought agrees with the order of the elements: what follows an element that is not smaller than the one
sought is greater. -/
def Cuts (cmp : α → Int) (l : List α) : Prop := l.Pairwise fun x y => cmp x ≤ 0 → cmp y < 0

instance (cmp : α → Int) (l : List α) : Decidable (Cuts cmp l) := inferInstanceAs (Decidable (l.Pairwise _))

/-- The number of nodes on the longest way down. -/
def depth : T α → Nat
  | .leaf => 0
  | .node _ l _ r => 1 + max (depth l) (depth r)

/-- The colours and the number of black nodes are right: no red node has a red child, and on all ways down there are `n` black nodes. -/
inductive Rb : T α → Color → Nat → Prop
  | leaf : Rb .leaf .black 0
  | red {l r : T α} {x : α} {n : Nat} : Rb l .black n → Rb r .black n → Rb (.node .red l x r) .red n
  | black {l r : T α} {x : α} {n : Nat} {c d : Color} : Rb l c n → Rb r d n → Rb (.node .black l x r) .black (n + 1)

/-- A tree as it is between the calls. -/
def Valid (t : T α) : Prop := ∃ n, Rb t .black n

end Np.Rb.Spec
