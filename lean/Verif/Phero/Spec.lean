import Verif.Phero.Model
import Verif.Dhkey.Spec

/-! # What is asked of the pheromone table -/
namespace Np.Phero.Spec

open Np.Dhkey Np.Bloom

/-- A list of next hops recorded in the table. -/
def Recorded (t : Table) (l : List Hop) : Prop := ∃ i e x, t.entry i = some e ∧ x ∈ e.slots ∧ (l = x.send ∨ l = x.recv)

/-- Ordered by distance to the own id, nearest first or farthest first. -/
def OrderedNear (own : Dhkey) (l : List Hop) : Prop := List.Pairwise (fun a b => Np.Spec.num (distance own a.id) ≤ Np.Spec.num (distance own b.id)) l
def OrderedFar (own : Dhkey) (l : List Hop) : Prop := List.Pairwise (fun a b => Np.Spec.num (distance own b.id) ≤ Np.Spec.num (distance own a.id)) l

/-- The position of the table an operation writes to. -/
def writesTo (i : Nat) : Nat × Op → Bool
  | (_, .inhale s) => decide (s.pos.natAbs - 1 = i)
  | (_, .exhale _) => false

def writes (i : Nat) (l : List (Nat × Op)) : Nat := (l.filter (writesTo i)).length

/-- The scent of one target, at its position, from one of the peers. -/
def Honest (peers : List Dhkey) (s : Scent) : Prop := ∃ target source dir, source ∈ peers ∧ scentOf target source dir = some s

/-- All scents of the history are such. -/
def HonestRun (peers : List Dhkey) (l : List (Nat × Op)) : Prop := ∀ now s, (now, Op.inhale s) ∈ l → Honest peers s

/-- No two peers are equally far away. -/
def DistinctDistances (own : Dhkey) (peers : List Dhkey) : Prop :=
  ∀ p ∈ peers, ∀ q ∈ peers, distance own p = distance own q → p = q

/-- What is stored at the position of an id. -/
def slotsAt (t : Table) (i : Nat) : List Slot := match t.entry i with | some e => e.slots | none => []

end Np.Phero.Spec
