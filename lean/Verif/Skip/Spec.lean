import Verif.Skip.Model

/-! # What is asked of a skip list: it behaves as a set -/
namespace Np.Skip.Spec

open Np.Skip

variable {α : Type}

/-- The comparison function orders the items (items that compare as equal need not be identical). -/
structure Order (cmp : α → α → Int) : Prop where
  swap : ∀ a b, cmp a b < 0 ↔ 0 < cmp b a
  trans : ∀ a b c, cmp a b ≤ 0 → cmp b c ≤ 0 → cmp a c ≤ 0

/-- The operations.  `add` comes with the random number that decides the height. -/
inductive Op (α : Type)
  | add (x : α) (z : BitVec 31)
  | remove (x : α)
  | find (x : α)
  | size
  | map (below : α → Bool)

/-- What an operation reports. -/
inductive Out (α : Type)
  | done (b : Bool)
  | found (b : Bool) (x : Option α)
  | size (n : Nat)
  | items (l : List (Option α))

/-- One operation of the skip list. -/
def perform (cmp : α → α → Int) (s : Sl α) : Op α → Option (Out α × Sl α)
  | .add x z => (add cmp s x z).map fun r => (.done r.1, r.2)
  | .remove x => (remove cmp s x).map fun r => (.done r.1, r.2)
  | .find x => (find cmp s x).map fun r => (.found r.1 r.2, s)
  | .size => some (.size (size s), s)
  | .map below => (Np.Skip.map below s).map fun l => (.items l, s)

/-- A sequence of operations. -/
def perform' (cmp : α → α → Int) : Sl α → List (Op α) → Option (List (Out α) × Sl α)
  | s, [] => some ([], s)
  | s, o :: os =>
    (perform cmp s o).bind fun r => (perform' cmp r.2 os).map fun q => (r.1 :: q.1, q.2)

/-- The set after an operation; the set is a list without order. -/
def next (cmp : α → α → Int) (S : List α) : Op α → List α
  | .add x _ => if ∃ y ∈ S, cmp y x = 0 then S else x :: S
  | .remove x => S.filter fun y => decide (cmp y x ≠ 0)
  | _ => S

/-- The report is the one a set gives. -/
def Agrees (cmp : α → α → Int) (S : List α) : Op α → Out α → Prop
  | .add x _, .done b => b = true ↔ ¬ ∃ y ∈ S, cmp y x = 0
  | .remove x, .done b => b = true ↔ ∃ y ∈ S, cmp y x = 0
  | .find x, .found b r =>
    (b = true ↔ ∃ y ∈ S, cmp y x = 0) ∧
    -- found: the stored item; else the next larger one if there is one
    (b = true → ∃ y ∈ S, cmp y x = 0 ∧ r = some y) ∧
    (b = false → (r = some x ∧ ∀ y ∈ S, cmp y x < 0) ∨
      ∃ y ∈ S, r = some y ∧ 0 < cmp y x ∧ ∀ y' ∈ S, 0 < cmp y' x → cmp y y' ≤ 0)
  | .size, .size n => n = S.length
  | .map below, .items l =>
    -- a cut of the ordered items: first the last one below (or null), then all that are not below
    (∀ a ∈ S, ∀ b ∈ S, cmp a b < 0 → below b = true → below a = true) →
    ∃ low high : List α, (low ++ high).Perm S ∧ (low ++ high).Pairwise (fun a b => cmp a b < 0) ∧
      (∀ y ∈ low, below y = true) ∧ (∀ y ∈ high, below y = false) ∧
      l = low.getLast? :: high.map some
  | _, _ => False

/-- All reports agree with the set. -/
def AllAgree (cmp : α → α → Int) : List α → List (Op α) → List (Out α) → Prop
  | _, [], [] => True
  | S, o :: os, r :: rs => Agrees cmp S o r ∧ AllAgree cmp (next cmp S o) os rs
  | _, _, _ => False

end Np.Skip.Spec
