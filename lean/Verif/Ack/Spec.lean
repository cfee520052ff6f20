import Verif.Ack.Model
import Verif.Tree.Spec

/-! # What is asked of acknowledgements -/
namespace Np.Ack.Spec

open Np.Ack

/-- How often the application sent a message with this uuid. -/
def sends (u : BitVec 128) : List Op → Nat
  | [] => 0
  | .send v _ :: os => (if v = u then 1 else 0) + sends u os
  | _ :: os => sends u os

/-- This is a report about the message. -/
def Reports (u : BitVec 128) : Seen → Bool
  | .acked v => decide (v = u)
  | .timedOut v => decide (v = u)
  | .sent _ => false

/-- How often a report about the message was made. -/
def reports (u : BitVec 128) (log : List Seen) : Nat := log.countP (Reports u)

/-- How often the message was transmitted. -/
def transmissions (u : BitVec 128) (log : List Seen) : Nat := log.countP fun x => decide (x = .sent u)

/-- The messages waiting for an acknowledgement. -/
def waiting (s : St) : List (BitVec 128) := (Tree.elems s.handlers).map fun e => e.val.uuid

/-- The messages that will be sent again. -/
def redelivered (s : St) : List (BitVec 128) := (Tree.elems s.pending).map fun e => e.val.uuid

end Np.Ack.Spec
