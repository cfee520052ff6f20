import Verif.Group.Model
/-! # What is asked of the keys of a channel -/
namespace Np.Group.Spec
open _root_.Np.Group

variable {Fp Id K : Type}

/-- The ids of sessions do not clash, for the own fingerprints `O` and those of receivers `R`. -/
structure Free (ids : Ids Fp Id) (O R : List Fp) : Prop where
  own : ∀ a ∈ O, ∀ b ∈ O, ids.own a = ids.own b → a = b
  priv : ∀ a ∈ O, ∀ r ∈ R, ∀ b ∈ O, ∀ q ∈ R, ids.priv a r = ids.priv b q → a = b ∧ r = q
  init : ∀ a ∈ O, ∀ r ∈ R, ∀ b ∈ O, ∀ q ∈ R, ids.init a r = ids.init b q → a = b ∧ r = q
  ownPriv : ∀ a ∈ O, ∀ b ∈ O, ∀ q ∈ R, ids.own a ≠ ids.priv b q
  ownInit : ∀ a ∈ O, ∀ b ∈ O, ∀ q ∈ R, ids.own a ≠ ids.init b q
  privInit : ∀ a ∈ O, ∀ r ∈ R, ∀ b ∈ O, ∀ q ∈ R, ids.priv a r ≠ ids.init b q
  apart : ∀ a ∈ O, a ∉ R

/-- The fingerprints of the own intents of a history. -/
def fps : List (Op Fp K) → List Fp
  | [] => []
  | .refresh f _ :: l => f :: fps l
  | _ :: l => fps l

/-- The fingerprints that occur are among `O` and `R`. -/
def Within (O R : List Fp) (l : List (Op Fp K)) : Prop :=
  ∀ o ∈ l, match o with
    | .refresh f _ => f ∈ O
    | .announce => True
    | .add r _ => r ∈ R
    | .remove r => r ∈ R

/-- A channel whose first intent has been made and announced. -/
def started [DecidableEq Id] (ids : Ids Fp Id) (zero f : Fp) (k : K) : Chan Fp Id K := announce (refresh ids (Chan.new zero) f k)

/-- The receiver `r` was sent the key `k` under the name `f`, in a message that it can read. -/
def Told (ids : Ids Fp Id) (s : Chan Fp Id K) (O : List Fp) (r f : Fp) (k : K) : Prop := ∃ c ∈ O, (⟨ids.init c r, f, some k⟩ : Rekey Fp Id K) ∈ s.out

/-- The messages that making a new intent sends. -/
def renewal [DecidableEq Id] (ids : Ids Fp Id) (s : Chan Fp Id K) (f : Fp) (k : K) : List (Rekey Fp Id K) := (refresh ids s f k).out.drop s.out.length

/-- The number of intents of receivers in a history. -/
def adds (l : List (Op Fp K)) : Nat := l.countP fun o => match o with
  | .add _ _ => true
  | _ => false

/-- The new intents of `fs`, each announced and then met by the receiver `r`. -/
def renewals (r : Fp) (fs : List (Fp × K)) : List (Op Fp K) := fs.flatMap fun f => [.refresh f.1 f.2, .announce, .add r true]

end Np.Group.Spec
