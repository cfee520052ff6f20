import Verif.Bloom.Model

/-! # What the filters are asked to do -/
namespace Np.Bloom.Spec

open Np.Dhkey

/-- The ids that must be in a filter built in the given way. -/
def Contains : Build → Dhkey → Prop
  | .new, _ => False
  | .add b x, id => id = x ∨ Contains b id
  | .union a b, id => Contains a id ∨ Contains b id
  | .intersect a b, id => Contains a id ∧ Contains b id

/-- A filter to which the ids have been added one after the other. -/
def addAll (ids : List Dhkey) : Build := ids.foldl Build.add .new

/-- How often a history ages the filter, and how often it adds something. -/
def agings (l : List NbOp) : Nat := (l.filter fun o => match o with | .age => true | .add _ => false).length
def additions (l : List NbOp) : Nat := (l.filter fun o => match o with | .age => false | .add _ => true).length

/-- The ids added in a history. -/
def Added (l : List NbOp) (id : Dhkey) : Prop := NbOp.add id ∈ l

/-- The attributes carry what is required. -/
def Carries (attrs : List (String × List (BitVec 8))) : String × Option (List (BitVec 8)) → Prop
  | (k, none) => ∃ v, (k, v) ∈ attrs
  | (k, some v) => (k, v) ∈ attrs

def Compliant (policy : List (String × Option (List (BitVec 8)))) (attrs : List (String × List (BitVec 8))) : Prop :=
  ∀ r ∈ policy, Carries attrs r

/-- The entries a policy needs in its filter. -/
def entries : List (String × Option (List (BitVec 8))) → Nat
  | [] => 0
  | (_, none) :: r => 1 + entries r
  | (_, some _) :: r => 2 + entries r

end Np.Bloom.Spec
