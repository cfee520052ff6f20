import Verif.SCache.Model

/-! # What is asked of the simple cache -/
namespace Np.SCache.Spec

/-- Two buffers hold the same key: their first 32 bytes agree. -/
def SameKey (a b : Bytes) : Prop := a.take 32 = b.take 32

instance (a b : Bytes) : Decidable (SameKey a b) := inferInstanceAs (Decidable (_ = _))

/-- The value of the first insertion for the key. -/
def firstAdd {α : Type} (key : Bytes) (l : List (Bytes × α)) : Option α := (l.find? fun x => decide (SameKey x.1 key)).map Prod.snd

/-- All buffers hold a whole key. -/
def Whole {α : Type} (l : List (Bytes × α)) : Prop := ∀ x ∈ l, 32 ≤ x.1.length

end Np.SCache.Spec
