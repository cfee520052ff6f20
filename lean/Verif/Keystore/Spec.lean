import Verif.Keystore.Model
import Verif.Skip.Spec
/-! # What the properties of the key store mean -/
namespace Np.Keystore.Spec
open Np.Keystore
open Np.Token (UserTok)
open Np.Ident (Bytes World St Ret Out fingerprint)

/-- `memcmp` orders the fingerprints, and only equal ones compare as equal. -/
structure MemOk (K : Lib) : Prop where
  swap : ∀ a b, K.mem a b < 0 ↔ 0 < K.mem b a
  trans : ∀ a b c, K.mem a b ≤ 0 → K.mem b c ≤ 0 → K.mem a c ≤ 0
  same : ∀ a b, K.mem a b = 0 ↔ a = b

/-- A program's calls of the key store. -/
inductive Call
  | store (w : World) (t : UserTok) (z : BitVec 31)
  | check (t : UserTok)

/-- One call and what it returned. -/
def step (K : Lib) (k : Ks) : Call → Out (Ret × Ks)
  | .store w t z => Keystore.store K w k t z
  | .check t => match Keystore.check K k t with | .ok r => .ok (r, k) | .crash => .crash

/-- All calls with their results, and the key store afterwards. -/
def run (K : Lib) : Ks → List Call → Out (List (Call × Ret) × Ks)
  | k, [] => .ok ([], k)
  | k, c :: cs =>
    match step K k c with
    | .crash => .crash
    | .ok (r, k') => match run K k' cs with | .crash => .crash | .ok (l, e) => .ok ((c, r) :: l, e)

/-- The token was stored with success. -/
def Stored (log : List (Call × Ret)) (t : UserTok) : Prop := ∃ w z, (Call.store w t z, Ret.ok) ∈ log

end Np.Keystore.Spec
