import Verif.Route.Model
import Verif.Dhkey.Spec

/-! # The routing module as its callers see it -/
namespace Np.Route.Spec

open Np.Dhkey Np.Route

/-- How far a peer is from the own id: the distance of ids as a number. -/
def dist (me x : Dhkey) : Nat := Np.Spec.num (distance x me)

/-- Nearest first. -/
def NearestFirst (me : Dhkey) (l : List Dhkey) : Prop := l.Pairwise fun a b => dist me a ≤ dist me b

/-- The peers in the routing table, slot by slot. -/
def peers (s : State) : List Dhkey := (List.range 3072).filterMap s.table

/-- Slot `i` is one of the three in the row and column that belong to the id `x`: the row is the number of leading hex digits
which the printed ids have in common, the column is the next digit of `x`. -/
def RightPlace (me x : Dhkey) (i : Nat) : Prop :=
  ∃ row col e, row = Np.Spec.commonPrefix (idStr me.bytes) (idStr x.bytes) ∧
    (idStr x.bytes)[row]? = some (hexDigit col) ∧ col < 16 ∧ e < 3 ∧ i = 3 * (16 * row + col) + e

/-- All peers the node may use for routing. -/
def known (s : State) : List Dhkey := peers s ++ s.leaf.left ++ s.leaf.right

/-- A path on which every node has a longer prefix in common with the target than the one before. -/
def Approaching (target : Dhkey) : List Dhkey → Prop
  | a :: b :: r => Np.Spec.commonPrefix (idStr a.bytes) (idStr target.bytes) < Np.Spec.commonPrefix (idStr b.bytes) (idStr target.bytes) ∧
      Approaching target (b :: r)
  | _ => True

end Np.Route.Spec
