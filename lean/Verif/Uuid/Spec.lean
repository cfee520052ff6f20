import Verif.Uuid.Model
/-! # What is asked of ids -/
namespace Np.Uuid.Spec
open _root_.Np.Uuid

/-- A time from January 2004 to January 2038: 2^30 seconds and more, less than 2^31. -/
def Now (t : Nat) : Prop := 2 ^ 52 ≤ t ∧ t < 2 ^ 53

/-- Two ways of making an id hash different things, whatever the hash is. -/
def Apart (a b : (hash : Text → Nat) → Nat) : Prop := ∃ x y : Text, x ≠ y ∧ ∀ hash, a hash = hash x ∧ b hash = hash y

end Np.Uuid.Spec
