import Verif.Channel.Model
import Verif.Dhkey.Model

/-!
# Model of the settings of a data channel: `np_set_mx_properties`, `np_get_mx_properties`, `np_mx_properties_enable`, `np_mx_properties_disable` and the
calls that create a channel on the fly, `np_send` and `np_add_receive_cb` (src/neuropil.c, src/core/np_comp_msgproperty.c)

A channel has two halves, one key of the key cache for each: its id is the subject plus a constant, one constant for receiving and one for sending
(`_np_msgproperty_tweaked_dhkey`, src/core/np_comp_msgproperty.c:60-69). Simplifications:

* the halves of all channels have different ids, i.e. no subject is another one plus the difference of the constants (hash values in practice);
* each call runs without another one in between;
* a `double` is finite and given as the number of units of 2^-1074, of which every finite double is a multiple; the functions use only comparison with
  zero and the conversion to `uint32_t`;
* enumerations have only their named values;
* subjects of the library itself are left out.
-/
namespace Np.Mx

open Np (Dhkey)
open Np.Channel (flagCmp Policy policyFlags FIFO OVERFLOW_REJECT)

/-- `enum np_mx_role`, include/neuropil.h. -/
inductive Role | provider | consumer | prosumer
deriving DecidableEq, Repr

/-- `enum np_mx_ackmode`, include/neuropil.h:279-283. -/
inductive Ack | none | destination | client
deriving DecidableEq, Repr

/-- `enum np_mx_audience_type`, include/neuropil.h. -/
inductive Audience | pub | virt | prot | priv
deriving DecidableEq, Repr

/-- `struct np_mx_properties`, include/neuropil.h:292-310. -/
structure Props where
  role : Role
  ack : Ack
  reply : List Nat
  audience : Audience
  audienceId : Dhkey
  policy : Policy
  cacheSize : BitVec 16
  parallel : BitVec 8
  retry : BitVec 8
  intentTtl : Int
  intentUpdate : Int
  messageTtl : Int
deriving DecidableEq

/-- `np_msg_mode_type`, include/core/np_comp_msgproperty.h:92-96. -/
def INBOUND : BitVec 8 := 1
def OUTBOUND : BitVec 8 := 2
def DEFAULT_MODE : BitVec 8 := 3

/-- `np_msg_ack_type`, include/core/np_comp_msgproperty.h:281-287. -/
def ACK_NONE : BitVec 8 := 1
def ACK_DESTINATION : BitVec 8 := 2
def ACK_CLIENT : BitVec 8 := 4

/-- `np_msgproperty_conf_t`, include/core/np_comp_msgproperty.h:308-355, without `msg_subject`, `mep_type`, `priority`, `is_internal`,
`unique_uuids_check` and the derived ids. `replyKey` is `reply_dhkey`, all zero as nothing writes it. -/
structure Conf where
  subject : Dhkey
  rep : Option (List Nat)
  mode : BitVec 8
  ack : BitVec 8
  msgTtl : Int
  retry : BitVec 8
  maxTtl : BitVec 32
  minTtl : BitVec 32
  policy : BitVec 8
  cacheSize : BitVec 16
  maxThreshold : BitVec 32
  audience : Audience
  audienceId : Dhkey
  replyKey : List Nat
deriving DecidableEq

/-- 32 bytes of zero -/
def zeros : List Nat := List.replicate 32 0

/-- `_np_msgproperty_conf_t_new`, src/core/np_comp_msgproperty.c:102-137, for the subject and the mode of `_np_msgproperty_get_or_create`. `ttl` is
`MSGPROPERTY_DEFAULT_MSG_TTL`, the other values are in include/np_settings.h:118-127. -/
def newConf (ttl : Int) (mode : BitVec 8) (s : Dhkey) : Conf :=
  ⟨s, none, mode, ACK_NONE, ttl, 3, 180, 3, FIFO ||| Channel.OVERFLOW_PURGE, 16, 2, .pub, Dhkey.zero, zeros⟩

/-- How many units make a second. -/
def second : Int := 2 ^ 1074

/-- The conversion of a positive `double` to `uint32_t`: the fraction is dropped; undefined if the result does not fit (C17 6.3.1.4). -/
def toU32 (d : Int) : Option (BitVec 32) := if d / second < 2 ^ 32 then some (BitVec.ofNat 32 (d / second).toNat) else none

/-- The text `strndup(src->reply_id, 255)` yields: the bytes before the first zero byte. The bytes after the id are those of `audience_type`, of which at
most one is not zero. src/core/np_comp_msgproperty.c:1519 -/
def replyText (p : Props) : List Nat :=
  (p.reply ++ [match p.audience with | .pub => 0 | .virt => 1 | .prot => 2 | .priv => 3]).takeWhile (· ≠ 0)

/-- The mode stored for a role, src/core/np_comp_msgproperty.c:1482-1485. -/
def modeOf : Role → BitVec 8
  | .consumer => INBOUND
  | .provider => OUTBOUND
  | .prosumer => DEFAULT_MODE

/-- What is stored for an acknowledgement mode, src/core/np_comp_msgproperty.c:1530-1540. -/
def ackOf : Ack → BitVec 8
  | .destination => ACK_DESTINATION
  | .client => ACK_CLIENT
  | .none => ACK_NONE

/-- `np_msgproperty_from_user`, src/core/np_comp_msgproperty.c:1475-1561. `none`: undefined behaviour. -/
def fromUser (d : Conf) (p : Props) : Option Conf :=
  let d := { d with mode := modeOf p.role }
  match (if p.intentTtl > 0 then toU32 p.intentTtl else some d.maxTtl) with
  | none => none
  | some maxTtl =>
    match (if p.intentUpdate > 0 then toU32 p.intentUpdate else some 3) with
    | none => none
    | some minTtl =>
      let d := { d with maxTtl := maxTtl, minTtl := minTtl }
      let d := { d with msgTtl := if p.messageTtl > 0 then p.messageTtl else d.msgTtl }
      let d := { d with retry := if p.retry.toNat > 0 then p.retry else d.retry }
      let d := { d with cacheSize := if p.cacheSize.toNat > 0 then p.cacheSize else d.cacheSize }
      let d := { d with maxThreshold := if p.parallel.toNat > 0 then p.parallel.setWidth 32 else d.maxThreshold }
      let d := { d with rep := if p.reply.headD 0 ≠ 0 ∧ d.rep ≠ some (replyText p) then some (replyText p) else none }
      let d := { d with audience := p.audience, audienceId := p.audienceId }
      let d := { d with ack := ackOf p.ack }
      some { d with policy := policyFlags p.policy }

/-- `np_msgproperty4user`, src/core/np_comp_msgproperty.c:1425-1473, into a zeroed structure. The first value of each enumeration is zero. -/
def toUser (c : Conf) : Props where
  messageTtl := c.msgTtl
  intentTtl := c.maxTtl.toNat * second
  intentUpdate := c.minTtl.toNat * second
  cacheSize := c.cacheSize
  parallel := c.maxThreshold.setWidth 8
  retry := c.retry
  role :=
    if flagCmp c.mode DEFAULT_MODE then .prosumer
    else if flagCmp c.mode OUTBOUND then .provider
    else if flagCmp c.mode INBOUND then .consumer
    else .provider
  reply := if c.rep.isSome then c.replyKey else zeros
  audience := .pub
  audienceId := Dhkey.zero
  ack := if c.ack = ACK_DESTINATION then .destination else if c.ack = ACK_CLIENT then .client else .none
  policy :=
    if flagCmp c.policy FIFO then
      if flagCmp c.policy OVERFLOW_REJECT then .fifoReject else .fifoPurge
    else
      if flagCmp c.policy OVERFLOW_REJECT then .lifoReject else .lifoPurge

/-- A structure that is zero everywhere. -/
def noProps : Props := ⟨.provider, .none, zeros, .pub, Dhkey.zero, .fifoReject, 0, 0, 0, 0, 0, 0⟩

/-- One half of a channel: its key is in state `IN_USE_MSGPROPERTY`, or in state `ON_HOLD_MSGPROPERTY` if `hold`, and `entity_array[0]` points to the
settings number `conf`. -/
structure Half where
  conf : Nat
  hold : Bool
deriving DecidableEq

/-- The settings that were allocated, and the halves of the channels. -/
structure St where
  confs : List Conf
  rx : Dhkey → Option Half
  tx : Dhkey → Option Half

def init : St := ⟨[], fun _ => none, fun _ => none⟩

/-- One value of a function is replaced. -/
def upd {β : Type} (f : Dhkey → β) (s : Dhkey) (b : β) : Dhkey → β := fun x => if x = s then b else f x

/-- `_np_msgproperty_conf_get`, src/core/np_comp_msgproperty.c:288-339. -/
def confGet (st : St) (mode : BitVec 8) (s : Dhkey) : Option Nat :=
  if flagCmp mode INBOUND then (st.rx s).map (·.conf)
  else if flagCmp mode OUTBOUND then (st.tx s).map (·.conf)
  else none

/-- `_np_msgproperty_get_or_create`, src/core/np_comp_msgproperty.c:375-408. -/
def getOrCreate (ttl : Int) (st : St) (mode : BitVec 8) (s : Dhkey) : St × Nat :=
  match confGet st mode s with
  | some i => (st, i)
  | none => ({ st with confs := st.confs ++ [newConf ttl mode s] }, st.confs.length)

/-- The key handles an event with settings: `__np_set_property` if it is new, `__np_property_update` (`*old_property = *new_property`) if it is in use,
nothing if it is on hold. src/np_key.c:205-207, 466-468, 474-481; src/core/np_comp_msgproperty.c:1614-1658 -/
def handle (confs : List Conf) (h : Option Half) (i : Nat) : List Conf × Half :=
  match h with
  | none => (confs, ⟨i, false⟩)
  | some h =>
    if h.hold then (confs, h)
    else match confs[i]? with
      | some c => (confs.set h.conf c, h)
      | none => (confs, h)

/-- `np_msgproperty_register`, src/core/np_comp_msgproperty.c:410-466. -/
def register (st : St) (i : Nat) : St :=
  match st.confs[i]? with
  | none => st
  | some c =>
    let st := if flagCmp c.mode INBOUND then
        let r := handle st.confs (st.rx c.subject) i
        { st with confs := r.1, rx := upd st.rx c.subject (some r.2) }
      else st
    if flagCmp c.mode OUTBOUND then
      let r := handle st.confs (st.tx c.subject) i
      { st with confs := r.1, tx := upd st.tx c.subject (some r.2) }
    else st

/-- `np_set_mx_properties` refuses these properties. src/neuropil.c:921-923 -/
def refused (p : Props) : Bool := decide (p.audience = .prot) && Dhkey.equal p.audienceId Dhkey.zero

/-- `np_set_mx_properties`, src/neuropil.c:908-934. The Boolean is `true` for `np_ok`, `false` for `np_invalid_operation`. `none`: undefined behaviour. -/
def set (ttl : Int) (st : St) (s : Dhkey) (p : Props) : Option (St × Bool) :=
  if refused p then some (st, false)
  else
    match getOrCreate ttl st DEFAULT_MODE s with
    | (st, i) =>
      match st.confs[i]? with
      | none => none
      | some c =>
        match fromUser c p with
        | none => none
        | some c => some (register { st with confs := st.confs.set i c } i, true)

/-- `np_get_mx_properties`, src/neuropil.c:839-852. -/
def get (st : St) (s : Dhkey) : Props :=
  match (confGet st DEFAULT_MODE s).bind (st.confs[·]?) with
  | some c => toUser c
  | none => noProps

/-- `np_add_receive_listener`, src/np_legacy.c:299-328, without the callback itself. -/
def listen (ttl : Int) (st : St) (s : Dhkey) : St :=
  match getOrCreate ttl st INBOUND s with
  | (st, i) => register st i

/-- `np_send_to`, src/neuropil.c:641-738, up to the event it submits. The second component tells whether the key handles that event; on hold there is no
transition for it (src/np_key.c:474-481). `none`: `np_invalid_operation`. -/
def send (ttl : Int) (st : St) (s : Dhkey) : Option (St × Bool) :=
  match getOrCreate ttl st OUTBOUND s with
  | (st, i) =>
    match st.confs[i]? with
    | none => none
    | some c =>
      if c.audience = .virt then none
      else
        let st := register st i
        some (st, match st.tx s with | some h => !h.hold | none => false)

/-- A message for the channel arrives, and its key handles it. -/
def arrives (st : St) (s : Dhkey) : Bool := match st.rx s with | some h => !h.hold | none => false

/-- The key changes from in use to on hold, or back. src/np_key.c:438-440, 479-481 -/
def putHold (b : Bool) (h : Option Half) : Option Half := h.map fun h => { h with hold := b }

/-- `np_mx_properties_disable` (`b`) and `np_mx_properties_enable` (`¬ b`), src/neuropil.c:936-995. For the receiving half the event is sent to the key
with the id of the subject itself, which is not the key of the receiving half. That key, if there is one, is not in a state that has a transition for the
event. -/
def setHold (b : Bool) (st : St) (s : Dhkey) : St :=
  { st with tx := upd st.tx s (putHold b (st.tx s)) }

/-- The calls. -/
inductive Op
  | set (s : Dhkey) (p : Props)
  | listen (s : Dhkey)
  | send (s : Dhkey)
  | disable (s : Dhkey)
  | enable (s : Dhkey)

/-- A call; `none` only if the behaviour is undefined. A `np_send` that is rejected may leave a new object behind, which nothing refers to. -/
def step (ttl : Int) (st : St) : Op → Option St
  | .set s p => (set ttl st s p).map (·.1)
  | .listen s => some (listen ttl st s)
  | .send s => some (match send ttl st s with | some r => r.1 | none => st)
  | .disable s => some (setHold true st s)
  | .enable s => some (setHold false st s)

def run (ttl : Int) : St → List Op → Option St
  | st, [] => some st
  | st, o :: os => match step ttl st o with
    | some st => run ttl st os
    | none => none

end Np.Mx
