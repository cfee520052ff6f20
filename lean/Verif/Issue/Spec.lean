import Verif.Issue.Model
import Verif.Token.Spec
import Verif.Data.Spec
/-! # What is asked of the tokens a node issues -/
namespace Np.Issue.Spec
open _root_.Np.Token _root_.Np.Token.Spec _root_.Np.Issue

/-- The own identity or node token: private, with its secret key, of the sizes the C structure enforces. -/
structure Own (E : Env) (t : Tok) : Prop where
  scope : t.scope = scopePrivate
  key : t.privateKeySet = true
  pair : KeyPair E t.issuerSecret t.publicKey
  sized : Sized t

/-- What is assumed of the functions on attributes: they work on buffers of a fixed size that stay well formed, a value that was set is found, and other values stay. -/
structure LawfulOps (E : Env) (O : Ops) : Prop where
  uint : ∀ a k v b, O.setUint a k v = some b → (∃ n, E.attrSize a = some n) →
    b.length = a.length ∧ (∃ n, E.attrSize b = some n) ∧ E.attrGet b k = some (.uint v) ∧ ∀ j, j ≠ k → E.attrGet b j = E.attrGet a j
  bin : ∀ a k v b, O.setBin a k v = some b → (∃ n, E.attrSize a = some n) →
    b.length = a.length ∧ (∃ n, E.attrSize b = some n) ∧ ∀ j, j ≠ k → E.attrGet b j = E.attrGet a j
  merge : ∀ a s, (∃ n, E.attrSize a = some n) →
    (O.merge a s).length = a.length ∧ (∃ n, E.attrSize (O.merge a s) = some n) ∧ ∀ j, E.attrGet s j = none → E.attrGet (O.merge a s) j = E.attrGet a j
  setBin : ∀ k v, k.length = 64 → v.length = 96 → (E.attrSetBin E.attrInit k v).length = E.attrInit.length

/-- None of the caches has a value for the key. -/
def Without (E : Env) (k : Caches) (key : Bytes) : Prop := E.attrGet k.a key = none ∧ E.attrGet k.b key = none ∧ E.attrGet k.c key = none

/-- Any other node reads the token from the message it is sent in and accepts it as one of type `ty`, exactly until it expires. -/
def AcceptedUntilExpiry (E : Env) (keyOk : Bytes → Bool) (t : Tok) (ty : TokType) : Prop :=
  ∃ w t', encode E [] t = some (w, t') ∧ ∀ (uuid : Bytes) (t0 ex now : BitVec 64),
    ∃ r, decode keyOk w (freshTok E uuid t0 ex) = some (r, true) ∧ ((isValid E now r ty).2 = true ↔ dgt now t.expiresAt = false)

/-- The attributes are the datablocks of the library, of `n` bytes. -/
structure Blocks (E : Env) (n : Nat) : Prop where
  init : Data.Spec.Built n [] E.attrInit
  /-- The result of this call is not looked at, src/np_aaatoken.c:724-726. -/
  set : ∀ a k v r b, Data.setData a k (.bin v) = .ok (r, b) → E.attrSetBin a k v = b

end Np.Issue.Spec
