import Verif.Dial.Model
/-!
# What a user expects of the connection attempts
-/
namespace Np.Dial.Spec
open _root_.Np.Dial

/-- Five seconds and ten seconds, in nanoseconds. -/
def fiveSeconds : Nat := 5 * 1000000000
def tenSeconds : Nat := 10 * 1000000000

/-- The handshakes and the joins among what was sent, the newest first. -/
def handshakes (l : List Sent) : List Sent := l.filter (fun s => s.kind = .handshake)
def joins (l : List Sent) : List Sent := l.filter (fun s => s.kind = .join)

/-- Any two of them are more than five seconds apart. -/
def Apart (l : List Sent) : Prop := l.Pairwise (fun newer older => older.time + fiveSeconds < newer.time)

/-- When an event happens. -/
def time : Ev → Option Nat
  | .tick now _ _ => some now
  | .token now _ => some now
  | .session => none
  | .authn now _ => some now
  | .shutdown now => some now

/-- No event happens before the key was created. -/
def After (t : Nat) (evs : List Ev) : Prop := ∀ e ∈ evs, ∀ now, time e = some now → t ≤ now

/-- The peer never answers: it is in no table and is not authenticated. -/
def silent : Ev → Bool
  | .tick _ listed _ => !listed
  | .authn _ _ => false
  | _ => true

/-- No token of the peer arrives. -/
def noToken : Ev → Bool
  | .token _ _ => false
  | _ => true

/-- No handshake token of the peer arrives. -/
def noHandshakeToken : Ev → Bool
  | .token _ handshake => !handshake
  | _ => true

end Np.Dial.Spec
