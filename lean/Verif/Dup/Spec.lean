import Verif.Dup.Model

/-! # Specification of the check for messages that were handled before -/
namespace Np.Dup.Spec

open Np.Dup
open Np.Dhkey

/-- What happens to a node that handles one part at a time. -/
inductive Event
  /-- A part of the message arrives; `complete` says whether it completes the message. -/
  | part (id : Dhkey) (complete : Bool)
  | decay
  | adjust (peers : Nat)

/-- The steps of these events: the two steps of a part follow each other. -/
def steps : List Event → List Step
  | [] => []
  | .part id c :: l => .check 0 id :: .commit 0 c :: steps l
  | .decay :: l => .decay :: steps l
  | .adjust n :: l => .adjust n :: steps l

/-- The number of decays. -/
def decays : List Step → Nat
  | [] => 0
  | .decay :: l => decays l + 1
  | _ :: l => decays l

/-- The number of peers never changes the size of the filter: it always gives the same modifier. -/
def Steady (m : Nat) : List Step → Prop
  | [] => True
  | .adjust n :: l => modifier n = m ∧ Steady m l
  | _ :: l => Steady m l

/-- The filter has the size and the shift that belong to a modifier. -/
def Tuned (m : Nat) (f : Filter) : Prop := f.size = (if m > 0 then m * baseSize else baseSize) ∧ f.p = if m > 1 then m else 1

/-- There are never 512 peers or more. -/
def Few : List Step → Prop
  | [] => True
  | .adjust n :: l => n < 512 ∧ Few l
  | _ :: l => Few l

/-- At most `n` parts are handled between two decays; `k` have been since the last. -/
def Calm (n : Nat) : Nat → List Step → Prop
  | _, [] => True
  | k, .commit _ _ :: l => k < n ∧ Calm n (k + 1) l
  | _, .decay :: l => Calm n 0 l
  | k, _ :: l => Calm n k l

end Np.Dup.Spec
