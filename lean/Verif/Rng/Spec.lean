import Verif.Rng.Model

/-!
# What is expected of random numbers
-/
namespace Np.Rng.Spec

/-- Exactly `n` things have a property: there is a list of `n` different ones that contains all of them and nothing else. -/
def Exactly {α : Type} (n : Nat) (P : α → Prop) : Prop :=
  ∃ g : Fin n → α, (∀ i j, g i = g j → i = j) ∧ ∀ x, P x ↔ ∃ i, g i = x

/-- The generator after a number of draws. -/
def after : Nat → State → State
  | 0, r => r
  | k + 1, r => after k (advance r)

/-- The increment is odd, as in every generator that was seeded. -/
def OddInc (r : State) : Prop := r.inc.toNat % 2 = 1

/-- From the state `s` a number below the bound is delivered with the first draw, and it is `v`. -/
def DrawsFirst (inc : BitVec 64) (bound v : BitVec 32) (s : BitVec 64) : Prop :=
  ∃ r', nextBounded 1 { state := s, inc := inc } bound = .value v r'

end Np.Rng.Spec
