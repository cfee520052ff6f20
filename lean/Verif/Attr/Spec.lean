import Verif.Attr.Model
import Verif.Data.Spec
/-! # What is asked of the attributes a user sets -/
namespace Np.Attr.Spec
open _root_.Np.Cbor _root_.Np.Data _root_.Np.Data.Spec _root_.Np.Attr

/-- What the scopes are documented to mean, include/neuropil_attributes.h:109-122. -/
def Includes : Scope → Target → Prop
  | .user, .message => True
  | .intent, .intent => True
  | .identity, .identity => True
  | .identityUser, .message => True
  | .identityUser, .identity => True
  | .intentUser, .message => True
  | .intentUser, .intent => True
  | .intentIdentity, .intent => True
  | .intentIdentity, .identity => True
  | _, _ => False

/-- The value of the last successful call for this key and scope. -/
def lastSet (c : Scope) (k : Key) : List (Call × Ret) → Option Data.Value
  | [] => none
  | (x, r) :: rest => (lastSet c k rest).or (if x.1 = some c ∧ x.2.1.take 254 = k ∧ r = .ok then some (.bin x.2.2) else none)

/-- All caches are empty, of `n` bytes, as after the start. -/
def Fresh (n : Nat) (s : State) : Prop := ∀ c, Built n [] (s c)

/-- A direction of a channel that was given these requirements one after the other; `none` if the channel is not used in this direction. -/
def Has (h : Bloom.Hash) : Option (List Req) → Side → Prop
  | none, side => side = none
  | some rs, side => (side = some none ∧ rs = []) ∨ ∃ p, side = some (some p) ∧ Bloom.policyOf h Bloom.Nb.create rs = some p

/-- Whether an intent with these attributes is accepted in this direction (src/core/np_comp_msgproperty.c:2313-2314). -/
def accepts (h : Bloom.Hash) (side : Option Bloom.Nb) (attrs : List (String × List (BitVec 8))) : Option Bool := Bloom.checkCompliance h side (some attrs)

end Np.Attr.Spec
