import Verif.Tree.Model

/-! # Model of acknowledgements, timeouts and redelivery

For messages of one application channel whose acknowledgement mode is `NP_MX_ACK_DESTINATION`. Each function runs as one step; the events it adds
to the current run are handled in the same step. Times are natural numbers, 0 being "never". -/
namespace Np.Ack

open Np.Tree

/-- `np_responsecontainer_t`, include/np_responsecontainer.h:18-31. The destination is the message channel; containers of pings are left out. -/
structure Container where
  uuid : BitVec 128
  sendAt : Nat
  expiresAt : Nat
  receivedAt : Nat
  deriving DecidableEq

/-- `np_redelivery_data_t`, src/core/np_comp_msgproperty.c:52-57. -/
structure Pending where
  uuid : BitVec 128
  redeliveryAt : Nat
  deriving DecidableEq

/-- The settings of the channel: `msg_ttl`, and `resend_interval`, src/core/np_comp_msgproperty.c:949, 2208. -/
structure Cfg where
  ttl : Nat
  interval : Nat

/-- What can be seen from outside. -/
inductive Seen where
  /-- The message is handed on to be transmitted. -/
  | sent (u : BitVec 128)
  /-- The channel is told that the message was acknowledged. -/
  | acked (u : BitVec 128)
  /-- The channel is told that the time for an acknowledgement has passed. -/
  | timedOut (u : BitVec 128)
  deriving DecidableEq

/-- `response_handler` of the property `_NP.ACK`, `redelivery_messages` of the channel, and what was seen. -/
structure St where
  handlers : Tree Container
  pending : Tree Pending
  log : List Seen
  deriving DecidableEq

/-- `_np_msgproperty_run_t_new`, src/core/np_comp_msgproperty.c:151-153. -/
def init : St := { handlers := create, pending := create, log := [] }

/-- `_np_message_add_response_handler`, src/np_message.c:817-847, and the first part of `__np_response_handler_set`,
src/core/np_comp_msgproperty.c:2240-2246. -/
def addHandler (cfg : Cfg) (u : BitVec 128) (tstamp : Nat) (t : Tree Container) : Except Fault (Tree Container) :=
  match find t (.uuid u) with
  | some _ => .ok t
  | none => insert t (.uuid u) { uuid := u, sendAt := tstamp, expiresAt := tstamp + cfg.ttl, receivedAt := 0 }

/-- `__np_property_redelivery_set`, src/core/np_comp_msgproperty.c:2197-2226. -/
def addPending (cfg : Cfg) (u : BitVec 128) (sendAt : Nat) (t : Tree Pending) : Except Fault (Tree Pending) :=
  match find t (.uuid u) with
  | some _ => .ok t
  | none => insert t (.uuid u) { uuid := u, redeliveryAt := sendAt + cfg.interval }

/-- `_np_out_callback_wrapper`, src/np_axon.c:61-117, for a message sent at `sendAt` with the time stamp `tstamp`. -/
def send (cfg : Cfg) (u : BitVec 128) (sendAt tstamp : Nat) (s : St) : Except Fault St :=
  match addHandler cfg u tstamp s.handlers with
  | .error f => .error f
  | .ok h =>
    match addPending cfg u sendAt s.pending with
    | .error f => .error f
    | .ok p => .ok { handlers := h, pending := p, log := s.log ++ [.sent u] }

/-- The sixteen bytes of a uuid. -/
def bytes (u : BitVec 128) : List Nat := (List.range 16).map fun i => (u.toNat / 256 ^ (15 - i)) % 256

/-- `_np_in_ack`, src/np_dendrit.c:573-619: the handler is searched with `np_tree_find_str`, and what is found is marked as received. -/
def ack (u : BitVec 128) (now : Nat) (s : St) : St :=
  match find s.handlers (.str ((bytes u).takeWhile (· ≠ 0))) with
  | none => s
  | some e => { s with handlers := { s.handlers with root := setVal (sought (.str ((bytes u).takeWhile (· ≠ 0)))) { e.val with receivedAt := now } s.handlers.root } }

/-- What is reported about a handler, src/core/np_comp_msgproperty.c:579-585. -/
def due (now : Nat) (c : Container) : Option Seen :=
  if c.expiresAt < now then some (.timedOut c.uuid) else if c.receivedAt ≠ 0 then some (.acked c.uuid) else none

/-- The loop over the handlers, src/core/np_comp_msgproperty.c:567-640; `max_events` is 30 at first, and the loop ends after the handler that
meets 0. -/
def visited (t : Tree Container) : List (Elem Container) := (elems t).take 31

/-- `np_tree_del_uuid` for a list, src/core/np_comp_msgproperty.c:652-655. -/
def delAll {V : Type} : List (BitVec 128) → Tree V → Except Fault (Tree V)
  | [], t => .ok t
  | u :: us, t =>
    match del t (.uuid u) with
    | .error f => .error f
    | .ok t' => delAll us t'

/-- `_np_msgproperty_cleanup_response_handler`, src/core/np_comp_msgproperty.c:555-658, and for each report the second part of
`__np_response_handler_set`, 2247-2264, which ends the redelivery. -/
def cleanup (now : Nat) (s : St) : Except Fault St :=
  let reported := (visited s.handlers).filter fun e => (due now e.val).isSome
  match delAll (reported.map fun e => e.val.uuid) s.handlers with
  | .error f => .error f
  | .ok h =>
    match delAll (reported.map fun e => e.val.uuid) s.pending with
    | .error f => .error f
    | .ok p => .ok { handlers := h, pending := p, log := s.log ++ reported.filterMap fun e => due now e.val }

/-- The loop of `__np_msgproperty_redeliver_messages`, src/core/np_comp_msgproperty.c:954-992: a copy of each message that is due is sent, with the
time it was due as its time stamp, and the time of the next attempt is set. -/
def redeliverLoop (cfg : Cfg) (now : Nat) : List (Elem Pending) → St → Except Fault St
  | [], s => .ok s
  | e :: es, s =>
    if e.val.redeliveryAt < now then
      match send cfg e.val.uuid (e.val.redeliveryAt - cfg.interval) e.val.redeliveryAt
        { s with pending := { s.pending with root := setVal (sought (.uuid e.val.uuid)) { e.val with redeliveryAt := e.val.redeliveryAt + cfg.interval } s.pending.root } } with
      | .error f => .error f
      | .ok s' => redeliverLoop cfg now es s'
    else redeliverLoop cfg now es s

/-- What can happen. -/
inductive Op where
  /-- The application sends a message. -/
  | send (u : BitVec 128) (now : Nat)
  /-- An acknowledgement naming `u` arrives. -/
  | ack (u : BitVec 128) (now : Nat)
  | cleanup (now : Nat)
  | redeliver (now : Nat)

/-- One of them. -/
def step (cfg : Cfg) (s : St) : Op → Except Fault St
  | .send u now => send cfg u now now s
  | .ack u now => .ok (ack u now s)
  | .cleanup now => cleanup now s
  | .redeliver now => redeliverLoop cfg now (elems s.pending) s

/-- A history. -/
def run (cfg : Cfg) (s : St) : List Op → Except Fault St
  | [] => .ok s
  | o :: os =>
    match step cfg s o with
    | .error f => .error f
    | .ok s' => run cfg s' os

end Np.Ack
