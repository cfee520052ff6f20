import Verif.Sm.Model
/-!
# What a user expects of the state machine
-/
namespace Np.Sm.Spec
open _root_.Np.Sm

/-- A rule applies to an event. -/
def Applies {W E : Type} (m : Machine W) (e : E) (r : Rule W E) : Prop :=
  r.active = true ∧ ∀ c, r.cond = some c → c m e = true

/-- It is the first one of the rules that applies: no earlier one does. -/
def First {W E : Type} (m : Machine W) (e : E) (rules : List (Rule W E)) (r : Rule W E) : Prop :=
  ∃ before after, rules = before ++ r :: after ∧ Applies m e r ∧ ∀ x ∈ before, ¬ Applies m e x

/-- Every state is found under its own number. -/
def Numbered {W E : Type} (t : Table W E) : Prop := ∀ k, (t k).id = k

/-- A function that leaves the current state alone: it makes no nested call. -/
def Flat {W E : Type} (f : Func W E) : Prop := ∀ m e, (f m e).cur = m.cur

/-- What a function that leaves the state alone does to the data. -/
def effect {W E : Type} (f : Func W E) (k : Nat) (w : W) (e : E) : W := (f ⟨k, w⟩ e).data

end Np.Sm.Spec
