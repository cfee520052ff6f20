import Verif.Keys.Model

/-! # What a user expects of connections and of switched-off channels -/
namespace Np.Keys.Spec

open Np (Dhkey)
open Np.Keys

/-- The authentication callback accepted a token for the connection `a`, or a token whose peer has the id `a`. -/
def Authenticated (trace : List Effect) (a : Dhkey) : Prop :=
  ∃ t c, Effect.authn t c true ∈ trace ∧ (c = a ∨ (if t.ttype &&& 2 = 2 then t.fp else t.partner) = a)

/-- The subjects a peer has to use in order to become authenticated: handshake, join and leave. -/
def Admission (env : Env) (s : Dhkey) : Prop := s = env.hsS ∨ s = env.joinS ∨ s = env.leaveS

/-- `e` is a use of something that arrived on connection `a`: a message, not one of those of the admission, was handed to
receive callbacks of the application or of the library, a chunk was forwarded, or a chunk was used for discovery. -/
def Uses (env : Env) (a : Dhkey) : Effect → Prop
  | .delivered _ m => m.via = some a ∧ ¬ Admission env m.subject
  | .processed _ m => m.via = some a ∧ ¬ Admission env m.subject
  | .forwarded p => p.via = some a
  | .discovered p => p.via = some a
  | _ => False

/-- An event that other parts of the library raise: it carries no message from the network, no authentication result and
does not switch a channel. -/
def Foreign (e : Event) : Prop :=
  (∀ p, e.payload = .part p → p.via = none) ∧
  (∀ m, e.payload = .msg m → m.via = none) ∧
  (∀ t, e.payload = .tok t → ¬ (e.type &&& 0x121 = 0x121)) ∧
  e.payload ≠ .run

/-- The inputs a running node can see. -/
def Allowed : Input → Prop
  | .other _ e => Foreign e
  | _ => True

/-- A node that just started: nothing happened, nothing is waiting, no connection is in use and no message is cached. -/
def Fresh (w : World) : Prop :=
  w.trace = [] ∧ w.pending = [] ∧ ∀ k key, (k, key) ∈ w.keys → key.state ≠ .useAlias ∧ key.cache = []

end Np.Keys.Spec
