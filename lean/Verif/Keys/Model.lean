import Verif.Dhkey.Model

/-!
# Model of the key state machine: `src/np_key.c`, `src/util/np_statemachine.c` and the conditions and actions in
`src/core/np_comp_alias.c`, `np_comp_node.c`, `np_comp_identity.c`, `np_comp_msgproperty.c` and `src/np_dendrit.c`

Every key (a connection, a peer, a local identity, one direction of a message exchange) is a state machine.  Network
packets, API calls and timers become events that are handed to a key; the first transition of its current state whose
condition holds is taken.

What is abstracted, everywhere in this file:

* Results of code that is not modelled here (decryption, reassembly of chunks, bloom filters, the clock, the routing
  table, user callbacks, `_np_aaatoken_is_valid`) are read from an `Oracle` that may be different in every step.  The
  theorems hold for all oracles.
* Events that the code puts into the job queue or chains to the running event are put into `pending`.  Any pending
  event may be executed next, so every schedule of the worker threads is covered.  That one event is handled
  atomically is guaranteed by the key lock (src/np_key.c:571-608).
* `via` is a ghost field: the connection a message arrived on.  No condition reads it.
-/
namespace Np.Keys

open Np (Dhkey)

/-- `FLAG_CMP`, include/np_util.h:53. -/
def flagCmp {n : Nat} (a f : BitVec n) : Bool := (a &&& f) == f

/-! ## Events, include/util/np_event.h:17-46 -/
abbrev Flags := BitVec 16
def evtInternal : Flags := 0x0001
def evtExternal : Flags := 0x0002
def evtTimeout : Flags := 0x0004
def evtUserspace : Flags := 0x0008
def evtMessage : Flags := 0x0010
def evtToken : Flags := 0x0020
def evtProperty : Flags := 0x0040
def evtResponse : Flags := 0x0080
def evtAuthn : Flags := 0x0100
def evtAuthz : Flags := 0x0200
def evtRedeliver : Flags := 0x0800
def evtShutdown : Flags := 0x1000
def evtDisable : Flags := 0x2000
def evtEnable : Flags := 0x4000

/-- Token types, include/np_aaatoken.h:82-87. -/
def tIdentity : BitVec 8 := 0x01
def tNode : BitVec 8 := 0x02
def tHandshake : BitVec 8 := 0x04
def tIntent : BitVec 8 := 0x10

/-- Key types, include/np_key.h:42-56. -/
def kUnknown : BitVec 8 := 0x01
def kAlias : BitVec 8 := 0x02
def kNode : BitVec 8 := 0x04
def kWildcard : BitVec 8 := 0x08
def kIdent : BitVec 8 := 0x10
def kInterface : BitVec 8 := 0x20
def kSubject : BitVec 8 := 0x40

/-- The parts of `np_aaatoken_t` (include/np_aaatoken.h:103-170) that the state machine reads.  `serial` stands for the
rest of its content, `fp` for its fingerprint, `partner` for the `_np.partner_fp` attribute. -/
structure Tok where
  serial : Nat
  ttype : BitVec 8
  pk : Nat
  fp : Dhkey
  partner : Dhkey
  issuer : Option Dhkey
  hasPriv : Bool
  authenticated : Bool
deriving DecidableEq

/-- The entries of a message body that the internal callbacks read: `_NP_URN_NODE_PREFIX`, `_NP_URN_IDENTITY_PREFIX`,
`_NP_URN_HANDSHAKE_PREFIX` and everything else. -/
structure Body where
  node : Option Tok
  ident : Option Tok
  hs : Option Tok
  data : Nat
deriving DecidableEq

/-- `struct np_e2e_message_s` (include/np_message.h): subject, audience, uuid and body, and the ghost `via`. -/
structure Msg where
  uuid : Nat
  subject : Dhkey
  audience : Dhkey
  body : Body
  via : Option Dhkey
deriving DecidableEq

/-- `struct np_n2n_messagepart_s` (include/np_messagepart.h): one chunk of a message, and the ghost `via`. -/
structure Part where
  uuid : Nat
  subject : Dhkey
  audience : Dhkey
  via : Option Dhkey
deriving DecidableEq

/-- The internal callback registered for a built-in subject (`_default_msgproperties`, src/np_legacy.c and
src/core/np_comp_msgproperty.c `__np_msgproperty_internal_register`); `user` for channels of the application. -/
inductive Handler | join | leave | handshake | other | user
deriving DecidableEq

/-- `np_msgproperty_conf_t` (include/core/np_comp_msgproperty.h): subject, the two keys derived from it by
`np_msgproperty_register` (src/core/np_comp_msgproperty.c:419-422), direction, `is_internal`, whether the audience type
is `NP_MX_AUD_VIRTUAL`, and the internal callback. -/
structure Conf where
  subject : Dhkey
  inKey : Dhkey
  outKey : Dhkey
  inbound : Bool
  outbound : Bool
  isInternal : Bool
  isVirtual : Bool
  handler : Handler
deriving DecidableEq

/-- `event.user_data` together with its runtime type (src/np_memory.c:352). -/
inductive Payload
  | none
  | blob (n : Nat)
  | part (p : Part)
  | msg (m : Msg)
  | tok (t : Tok)
  | node (validAddress wildcard : Bool)
  | conf (c : Conf)
  | run
  | resp (n : Nat)
deriving DecidableEq

/-- `np_util_event_t`, include/util/np_event.h:50-64.  `__source_dhkey` is the key the event is handed to
(src/np_eventqueue.c:141) and so is not stored. -/
structure Event where
  type : Flags
  payload : Payload
  target : Dhkey
deriving DecidableEq

/-! ## Keys -/

/-- `enum NP_KEY_STATES`, src/np_key.c:60-74. -/
inductive KState
  | unused | setupNode | setupAlias | setupWildcard | setupIdentity | useIdentity | useNode | useAlias
  | useProperty | holdProperty | destroy
deriving DecidableEq

/-- `np_key_t`, include/np_key.h:70-103: state, type flags, parent, the tokens in `entity_array`, whether there is a
node structure, whether a leave has been noted for it (`leave_send_at > join_send_at`), the message exchange
configuration and its cache. -/
structure Key where
  state : KState := .unused
  type : BitVec 8 := 0
  parent : Dhkey := Dhkey.zero
  hsTok : Option Tok := none
  tok : Option Tok := none
  hasNode : Bool := false
  left : Bool := false
  conf : Option Conf := none
  cache : List Msg := []
deriving DecidableEq

/-- What happens outside of the key table. -/
inductive Effect
  /-- the authentication callback was asked about `t` for the connection `conn` and answered `ok` -/
  | authn (t : Tok) (conn : Dhkey) (ok : Bool)
  /-- the receive callbacks of the application were called for a message (key `k`) -/
  | delivered (k : Dhkey) (m : Msg)
  /-- the internal callback of a built-in subject was called -/
  | processed (k : Dhkey) (m : Msg)
  /-- a chunk was handed on to other peers -/
  | forwarded (p : Part)
  /-- a chunk of a discovery message was used to update the pheromone table or handed on -/
  | discovered (p : Part)
  /-- a message of the channel with sending key `k` was handed to the network layer -/
  | sent (k : Dhkey)
  /-- the peer `k` was marked as having left; it is removed by the next check -/
  | peerLeft (k : Dhkey)
deriving DecidableEq

/-- Constants of the running node: the two keys `__local_rx_dhkey` and `__local_tx_dhkey`, the hashes of the built-in
subjects, the own node and identity. -/
structure Env where
  rx : Dhkey
  tx : Dhkey
  joinS : Dhkey
  leaveS : Dhkey
  hsS : Dhkey
  availRecvS : Dhkey
  availSendS : Dhkey
  pheromoneS : Dhkey
  ackS : Dhkey
  pingS : Dhkey
  piggyS : Dhkey
  updateS : Dhkey
  forwardS : Dhkey
  myNode : Dhkey
  myIdent : Dhkey

/-- `_np_msgproperty_tweaked_dhkey(INBOUND, s)`, src/core/np_comp_msgproperty.c:60-68. -/
def Env.inKey (env : Env) (s : Dhkey) : Dhkey := Dhkey.add env.rx s
/-- `_np_msgproperty_tweaked_dhkey(OUTBOUND, s)`, src/core/np_comp_msgproperty.c:60-68. -/
def Env.outKey (env : Env) (s : Dhkey) : Dhkey := Dhkey.add env.tx s

/-- Results of the code that is not modelled, chosen anew in every step. -/
structure Oracle where
  /-- `_np_aaatoken_is_valid` -/
  valid : Tok → BitVec 8 → Bool := fun _ _ => true
  /-- `__is_unused`, src/core/np_comp_alias.c:397 -/
  unused : Bool := false
  /-- the time and link dependent part of `__is_alias_invalid`, src/core/np_comp_alias.c:1226 -/
  aliasBad : Bool := false
  /-- BAD_LINK_REMOVE_GRACETIME after creation has passed -/
  graceOver : Bool := false
  /-- the link dependent part of `__is_node_invalid` and `__has_to_leave`, src/core/np_comp_node.c:120-283 -/
  nodeBad : Bool := false
  identBad : Bool := false
  wildcardBad : Bool := false
  /-- result of decrypting a packet and reading its header (`__np_alias_decrypt`): uuid, subject, audience -/
  decrypted : Option (Nat × Dhkey × Dhkey) := none
  /-- result of reading an unencrypted packet (`__np_extract_handshake`): uuid, subject, audience, body -/
  plain : Option (Nat × Dhkey × Dhkey × Body) := none
  /-- `_np_alias_check_msgpart_cache` and `_np_message_deserialize_chunks`: the body if the message is complete -/
  assembled : Option Body := none
  /-- `__np_msgproperty_threshold_breached` -/
  breached : Bool := false
  /-- `_np_intent_has_crypto_session` -/
  session : Bool := true
  /-- duplicate filter of the identity -/
  duplicate : Bool := false
  /-- answer of the authentication callback -/
  authn : Bool := false
  realmClient : Bool := false
  /-- `is_in_leafset || is_in_routing_table` of the node of the connection -/
  inRoute : Bool := true
  /-- `__is_new_np_messagepart` -/
  newPart : Bool := true
  /-- `_np_pheromone_inhale_target` -/
  inhale : Bool := true
  /-- uniqueness check and internal callbacks of a channel succeeded -/
  cbOk : Bool := true
  /-- after `_np_in_handshake` created the node key it has type node -/
  nodeCreated : Bool := true
  /-- handshake status of the node of the connection is at least `np_node_status_Initiated` -/
  initiated : Bool := true
  /-- how many cached messages `_np_msgproperty_check_msgcache` hands out again -/
  release : Nat := 0
  /-- creating the client network failed -/
  netFailed : Bool := false

/-! ## Conditions -/

/-- `event.user_data` is a message part. -/
def Payload.part? : Payload → Option Part | .part p => some p | _ => Option.none
def Payload.msg? : Payload → Option Msg | .msg m => some m | _ => Option.none
def Payload.tok? : Payload → Option Tok | .tok t => some t | _ => Option.none
def Payload.isBlob : Payload → Bool | .blob _ => true | _ => false
def Payload.isPart (p : Payload) : Bool := p.part?.isSome
def Payload.isMsg (p : Payload) : Bool := p.msg?.isSome

abbrev Cond := Env → Oracle → Dhkey → Key → Event → Bool

/-- `__is_wildcard_key`, src/core/np_comp_node.c:285-301. -/
def isWildcardKey : Cond := fun _ _ _ _ ev =>
  flagCmp ev.type evtInternal && (match ev.payload with | .node ok w => ok && w | _ => false)
/-- `__is_node_info`, src/core/np_comp_node.c:303-321. -/
def isNodeInfo : Cond := fun _ _ _ _ ev =>
  flagCmp ev.type evtInternal && (match ev.payload with | .node ok w => ok && !w | _ => false)
/-- `__is_alias_node_info`, src/core/np_comp_alias.c:425-440. -/
def isAliasNodeInfo : Cond := fun _ _ _ _ ev =>
  flagCmp ev.type evtExternal && (match ev.payload with | .node ok _ => ok | _ => false)

/-- `__is_alias_handshake_token`, src/core/np_comp_alias.c:246-269: a valid handshake token that some other key issued. -/
def isAliasHandshake : Cond := fun _ o k _ ev =>
  flagCmp ev.type evtToken && flagCmp ev.type evtExternal &&
    (match ev.payload with
     | .tok t => (t.ttype == tHandshake) && (match t.issuer with | some i => i != k | none => true) && o.valid t t.ttype
     | _ => false)

/-- `__is_node_handshake_token`, src/core/np_comp_node.c:34-64: a valid handshake token that the peer itself issued. -/
def isNodeHandshake : Cond := fun _ o k _ ev =>
  flagCmp ev.type evtToken && flagCmp ev.type evtExternal &&
    (match ev.payload with
     | .tok t => flagCmp t.ttype tHandshake && (match t.issuer with | some i => i == k | none => true) && o.valid t t.ttype
     | _ => false)

/-- `__is_node_token`, src/core/np_comp_node.c:98-117.  Nothing relates the token to the key. -/
def isNodeToken : Cond := fun _ o _ _ ev =>
  flagCmp ev.type evtToken && flagCmp ev.type evtExternal &&
    (match ev.payload with
     | .tok t => flagCmp t.ttype tNode && !t.hasPriv && o.valid t t.ttype
     | _ => false)

/-- `__is_node_authn`, src/core/np_comp_node.c:352-372. -/
def isNodeAuthn : Cond := fun _ _ _ _ ev =>
  flagCmp ev.type evtInternal && flagCmp ev.type evtToken && flagCmp ev.type evtAuthn &&
    (match ev.payload with | .tok _ => true | _ => false)

/-- `__is_node_identity_authn`, src/core/np_comp_node.c:374-403. -/
def isNodeIdentAuthn : Cond := fun _ _ k _ ev =>
  flagCmp ev.type evtInternal && flagCmp ev.type evtToken && flagCmp ev.type evtAuthn &&
    (match ev.payload with | .tok t => flagCmp t.ttype tIdentity && (t.partner == k) | _ => false)

/-- `__is_shutdown_event`, src/core/np_comp_node.c:66-96.  An external shutdown carries a token (src/np_dendrit.c:358);
with another payload the cast in the code is undefined and the model takes the condition as false. -/
def isShutdown : Cond := fun _ o k key ev =>
  flagCmp ev.type evtShutdown &&
    (if flagCmp ev.type evtExternal then
      (match ev.payload with
       | .tok t => o.valid t tNode && (match key.tok with | some l => l.pk == t.pk | none => true)
       | _ => false)
     else true) &&
    (if flagCmp ev.type evtInternal then ev.target == k else true)

/-- `__is_identity_aaatoken`, src/core/np_comp_identity.c:37-64; the scope test accepts every scope that is not
undefined, it is true for all tokens that reach it and left out. -/
def isIdentityToken : Cond := fun _ o _ _ ev =>
  flagCmp ev.type evtInternal && flagCmp ev.type evtToken &&
    (match ev.payload with
     | .tok t => (flagCmp t.ttype tIdentity || flagCmp t.ttype tNode || flagCmp t.ttype tHandshake) && o.valid t t.ttype
     | _ => false)

/-- `__is_msgproperty`, src/core/np_comp_msgproperty.c:1565-1577. -/
def isProperty : Cond := fun _ _ _ _ ev =>
  flagCmp ev.type evtProperty && flagCmp ev.type evtInternal && (match ev.payload with | .conf _ => true | _ => false)
/-- `__is_msgproperty_lifecycle_enable`, src/core/np_comp_msgproperty.c:1579-1592. -/
def isEnable : Cond := fun _ _ _ _ ev =>
  flagCmp ev.type evtEnable && flagCmp ev.type evtProperty && flagCmp ev.type evtInternal &&
    (match ev.payload with | .run => true | _ => false)
/-- `__is_msgproperty_lifecycle_disable`, src/core/np_comp_msgproperty.c:1594-1607. -/
def isDisable : Cond := fun _ _ _ _ ev =>
  flagCmp ev.type evtDisable && flagCmp ev.type evtProperty && flagCmp ev.type evtInternal &&
    (match ev.payload with | .run => true | _ => false)

/-- `__is_unused`, src/core/np_comp_alias.c:397-403. -/
def isUnused : Cond := fun _ o _ _ _ => o.unused

/-- `__is_crypted_message`, src/core/np_comp_alias.c:556-573. -/
def isCrypted : Cond := fun _ _ _ key ev =>
  flagCmp key.type kAlias && flagCmp ev.type evtMessage && flagCmp ev.type evtExternal && ev.payload.isBlob

/-- The common start of `__is_join_in_message`, `__is_forward_message`, `__is_pheromone_message`, `__is_dht_message`
and `__is_usr_in_message`, e.g. src/core/np_comp_alias.c:709-719: an alias key got a chunk from the network. -/
def partIn (key : Key) (ev : Event) : Option Part :=
  if flagCmp key.type kAlias && flagCmp ev.type evtMessage && flagCmp ev.type evtExternal then ev.payload.part? else none

/-- `__is_join_in_message`, src/core/np_comp_alias.c:704-735. -/
def isJoinIn : Cond := fun env _ _ key ev =>
  match partIn key ev with
  | some p => Dhkey.equal p.subject env.joinS || Dhkey.equal p.subject env.leaveS
  | none => false
/-- `__is_forward_message`, src/core/np_comp_alias.c:737-773. -/
def isForward : Cond := fun env o _ key ev =>
  match partIn key ev with
  | some p => (key.hasNode && o.inRoute) && !Dhkey.equal env.myNode p.audience
  | none => false
/-- `__is_discovery_message`, src/core/np_comp_alias.c:775-804. -/
def isDiscovery : Cond := fun env o k key ev =>
  isForward env o k key ev &&
    (match ev.payload.part? with
     | some p => Dhkey.equal p.subject env.availRecvS || Dhkey.equal p.subject env.availSendS
     | none => false)
/-- `__is_pheromone_message`, src/core/np_comp_alias.c:806-845. -/
def isPheromone : Cond := fun env o _ key ev =>
  match partIn key ev with
  | some p => (key.hasNode && o.inRoute) && Dhkey.equal p.subject env.pheromoneS
  | none => false
/-- `__is_dht_message`, src/core/np_comp_alias.c:847-912. -/
def isDht : Cond := fun env o _ key ev =>
  match partIn key ev with
  | some p => (key.hasNode && o.inRoute) &&
      (Dhkey.equal p.subject env.ackS || Dhkey.equal p.subject env.pingS || Dhkey.equal p.subject env.piggyS ||
        Dhkey.equal p.subject env.updateS || Dhkey.equal p.subject env.leaveS) && Dhkey.equal env.myNode p.audience
  | none => false

/-- `__is_usr_in_message`, src/core/np_comp_alias.c:914-950.  The configuration looked up for the subject is passed in
by `transitions`. -/
def isUsrIn (confIn : Dhkey → Option Conf) : Cond := fun _ _ _ key ev =>
  match partIn key ev with
  | some p => (match confIn p.subject with | some c => !c.isInternal && !c.isVirtual | none => false)
  | none => false

/-- `__is_alias_invalid`, src/core/np_comp_alias.c:1226-1342. -/
def isAliasInvalid : Cond := fun _ o _ key _ => flagCmp key.type kUnknown || (o.graceOver && o.aliasBad)

/-- `__is_handshake_message`, src/core/np_comp_node.c:1838-1867. -/
def isHsOut : Cond := fun env _ _ key ev =>
  flagCmp ev.type evtInternal && flagCmp ev.type evtMessage && (flagCmp key.type kWildcard || flagCmp key.type kNode) &&
    (match ev.payload.part? with | some p => Dhkey.equal p.subject env.hsS | none => false)
/-- `__is_join_out_message`, src/core/np_comp_node.c:1887-1915. -/
def isJoinOut : Cond := fun env _ _ _ ev =>
  flagCmp ev.type evtMessage && flagCmp ev.type evtInternal &&
    (match ev.payload.part? with
     | some p => Dhkey.equal p.subject env.joinS || Dhkey.equal p.subject env.leaveS
     | none => false)
/-- `__is_invalid_message`, src/core/np_comp_node.c:1869-1885. -/
def isInvalidMsg : Cond := fun _ _ _ _ ev =>
  flagCmp ev.type evtMessage && flagCmp ev.type evtInternal && ev.payload.isPart
/-- `__is_np_message`, src/core/np_comp_node.c:1789-1805. -/
def isNpMessage : Cond := fun _ _ _ key ev =>
  flagCmp ev.type evtInternal && flagCmp ev.type evtMessage && flagCmp key.type kNode && ev.payload.isMsg
/-- `__is_np_messagepart`, src/core/np_comp_node.c:1807-1836. -/
def isNpPart : Cond := fun env o _ key ev =>
  flagCmp ev.type evtInternal && flagCmp ev.type evtMessage && flagCmp key.type kNode &&
    (match ev.payload.part? with | some p => o.newPart && !Dhkey.equal p.subject env.hsS | none => false)
/-- `__is_node_invalid`, src/core/np_comp_node.c:120-227; the test of `evt_noop` at its start is always true. -/
def isNodeInvalid : Cond := fun _ o _ key _ =>
  flagCmp key.type kUnknown || (o.graceOver && (!key.hasNode || key.left || o.nodeBad))
/-- `__has_to_leave`, src/core/np_comp_node.c:230-283. -/
def hasToLeave : Cond := fun _ o _ key _ =>
  !flagCmp key.type kNode || (o.graceOver && (!key.hasNode || (!key.left && o.nodeBad)))
/-- `__is_wildcard_invalid`, src/core/np_comp_node.c:1456-1468. -/
def isWildcardInvalid : Cond := fun _ o _ key _ => flagCmp key.type kWildcard && o.wildcardBad
/-- `__is_response_event`, src/core/np_comp_msgproperty.c:2281-2294. -/
def isResponse : Cond := fun _ _ _ _ ev =>
  flagCmp ev.type evtResponse && (flagCmp ev.type evtTimeout || flagCmp ev.type evtInternal) &&
    (match ev.payload with | .resp _ => true | _ => false)

/-- `__is_unencrypted_np_message`, src/core/np_comp_identity.c:305-320. -/
def isUnencrypted : Cond := fun _ _ _ _ ev =>
  flagCmp ev.type evtExternal && flagCmp ev.type evtMessage && ev.payload.isBlob
/-- `__is_authn_request`, src/core/np_comp_identity.c:396-444. -/
def isAuthnRequest : Cond := fun _ o _ _ ev =>
  flagCmp ev.type evtAuthn && flagCmp ev.type evtExternal && flagCmp ev.type evtToken &&
    (match ev.payload with
     | .tok t => !o.duplicate && (flagCmp t.ttype tIdentity || flagCmp t.ttype tNode) && o.valid t t.ttype
     | _ => false)
/-- `__is_authz_request`, src/core/np_comp_identity.c:446-494. -/
def isAuthzRequest : Cond := fun _ o _ _ ev =>
  flagCmp ev.type evtAuthz && flagCmp ev.type evtExternal && flagCmp ev.type evtToken &&
    (match ev.payload with
     | .tok t => !o.duplicate && (flagCmp t.ttype tIdentity || flagCmp t.ttype tNode || flagCmp t.ttype tIntent) &&
         o.valid t t.ttype
     | _ => false)
/-- `__is_identity_invalid`, src/core/np_comp_identity.c:67-91. -/
def isIdentityInvalid : Cond := fun _ o _ _ _ => o.identBad
/-- `__is_noop_event`, src/np_key.c:115-118: every flag word contains `evt_noop = 0`, so this is always true. -/
def isNoop : Cond := fun _ _ _ _ ev => flagCmp ev.type 0

/-- `__is_external_message_event`, src/core/np_comp_msgproperty.c:1982-1993. -/
def isExtMsg (ev : Event) : Bool := flagCmp ev.type evtMessage && flagCmp ev.type evtExternal && ev.payload.isMsg
/-- `__is_internal_message_event`, src/core/np_comp_msgproperty.c:2055-2070. -/
def isIntMsg (ev : Event) : Bool :=
  flagCmp ev.type evtMessage && flagCmp ev.type evtInternal && !flagCmp ev.type evtRedeliver &&
    (ev.payload.isMsg || ev.payload.isPart)
/-- `is_internal`, or below the threshold and there is a session; src/core/np_comp_msgproperty.c:2084-2092. -/
def mayPass (o : Oracle) (key : Key) : Bool :=
  match key.conf with | some c => c.isInternal || (!o.breached && o.session) | none => false
/-- `__is_sender_token_available`, src/core/np_comp_msgproperty.c:2072-2095. -/
def isSenderAvail : Cond := fun _ o _ key ev => isExtMsg ev && mayPass o key
/-- `__is_receiver_token_available`, src/core/np_comp_msgproperty.c:2097-2123. -/
def isReceiverAvail : Cond := fun _ o _ key ev => isIntMsg ev && mayPass o key
/-- `__is_no_token_available`, src/core/np_comp_msgproperty.c:2125-2145. -/
def isNoToken : Cond := fun _ _ _ _ ev => ev.payload.isMsg || isIntMsg ev || isExtMsg ev
/-- `__is_message_redelivery_event`, src/core/np_comp_msgproperty.c:2267-2279. -/
def isRedelivery : Cond := fun _ _ _ _ ev =>
  flagCmp ev.type evtMessage && flagCmp ev.type evtRedeliver && flagCmp ev.type evtInternal && ev.payload.isMsg
/-- `__is_intent_authz`, src/core/np_comp_intent.c:522-544. -/
def isIntentAuthz : Cond := fun _ o _ _ ev =>
  flagCmp ev.type evtAuthz && flagCmp ev.type evtExternal && flagCmp ev.type evtToken &&
    (match ev.payload with | .tok t => flagCmp t.ttype tIntent && o.valid t tIntent | _ => false)

/-! ## Actions -/

/-- What an action does: the changed key, the events it raises, effects, keys it creates, keys whose parent it sets. -/
structure Out where
  key : Key
  raised : List (Dhkey × Event) := []
  effects : List Effect := []
  create : List Dhkey := []
  reparent : List (Dhkey × Dhkey) := []

/-- `exists'` is `_np_keycache_exists`. -/
abbrev Action := Env → Oracle → (Dhkey → Bool) → Dhkey → Key → Event → Out

/-- `__keystate_noop`, `__np_property_lifecycle_set`, `__np_node_discard_message`, a `NULL` action, and actions whose
results are not modelled. -/
def aNoop : Action := fun _ _ _ _ key _ => { key }

/-- `__np_wildcard_set`, src/core/np_comp_node.c:501-515. -/
def aWildcardSet : Action := fun _ _ _ _ key _ => { key := { key with type := key.type ||| kWildcard, hasNode := true } }
/-- `__np_node_set_node`, src/core/np_comp_node.c:323-350. -/
def aNodeSetNode : Action := fun _ _ _ _ key _ => { key := { key with type := key.type ||| kNode, hasNode := true } }
/-- `__np_alias_set_node`, src/core/np_comp_alias.c:442-469. -/
def aAliasSetNode : Action := fun _ _ _ _ key _ =>
  { key := if key.hasNode then key else { key with type := key.type ||| kAlias, hasNode := true } }
/-- `__np_alias_set`, src/core/np_comp_alias.c:271-395, without the network handling. -/
def aAliasSet : Action := fun _ _ exists' _ key ev =>
  match ev.payload with
  | .tok t => { key := { key with
      type := key.type ||| kAlias, hasNode := true, hsTok := key.hsTok.or (some t),
      parent := (match t.issuer with | some i => if exists' i then i else key.parent | none => key.parent) } }
  | _ => { key }
/-- `__np_node_set`, src/core/np_comp_node.c:405-499, without the handling of passive nodes and wildcards. -/
def aNodeSet : Action := fun _ _ _ _ key ev =>
  match ev.payload with
  | .tok t => { key := { key with
      type := key.type ||| kNode, hasNode := true,
      hsTok := if t.ttype == tHandshake then some t else key.hsTok,
      tok := if t.ttype == tNode then some t else key.tok } }
  | _ => { key }
/-- `__np_set_identity`, src/core/np_comp_identity.c:134-246, without the partner fingerprints. -/
def aSetIdentity : Action := fun env _ _ _ key ev =>
  match ev.payload with
  | .tok t =>
    if flagCmp t.ttype tHandshake then
      { key := { key with type := key.type ||| kNode ||| kInterface, hsTok := some t, parent := env.myNode } }
    else if flagCmp t.ttype tNode then { key := { key with type := key.type ||| kNode, tok := some t } }
    else { key := { key with tok := some t } }
  | _ => { key }
/-- `__np_set_property`, src/core/np_comp_msgproperty.c:1614-1643. -/
def aSetProperty : Action := fun _ _ _ _ key ev =>
  match ev.payload with
  | .conf c => { key := { key with type := key.type ||| kSubject, conf := some c } }
  | _ => { key }
/-- `__np_property_update`, src/core/np_comp_msgproperty.c:1645-1658. -/
def aPropertyUpdate : Action := fun _ _ _ _ key ev =>
  match ev.payload with
  | .conf c => { key := { key with conf := some c } }
  | _ => { key }

/-- `__np_alias_decrypt`, src/core/np_comp_alias.c:590-702: a chunk that could be decrypted is handed to the same key. -/
def aDecrypt : Action := fun _ o _ k key _ =>
  match o.decrypted with
  | some (u, s, a) =>
    { key, raised := [(k, { type := evtExternal ||| evtMessage, payload := .part ⟨u, s, a, some k⟩, target := k })] }
  | none => { key }

/-- `__np_handle`, src/core/np_comp_alias.c:952-994: if the message is complete it is handed to the receiving key of
its subject.  The message takes its subject and audience from the chunk. -/
def handleRaised (env : Env) (o : Oracle) (ev : Event) : List (Dhkey × Event) :=
  match ev.payload, o.assembled with
  | .part p, some b =>
    [(env.inKey p.subject, { ev with payload := .msg ⟨p.uuid, p.subject, p.audience, b, p.via⟩ })]
  | _, _ => []

/-- `__np_handle_np_message`, src/core/np_comp_alias.c:1138-1144. -/
def aHandleNp : Action := fun env o _ _ key ev => { key, raised := handleRaised env o ev }

/-- `__np_handle_np_forward`, src/core/np_comp_alias.c:1146-1209. -/
def aForward : Action := fun env _ _ _ key ev =>
  match ev.payload with
  | .part p =>
    { key, effects := [.forwarded p],
      raised := [(env.outKey (if Dhkey.equal env.ackS p.subject then env.ackS else env.forwardS),
                  { ev with target := key.parent, type := evtInternal ||| evtMessage })] }
  | _ => { key }

/-- `__np_handle_usr_msg`, src/core/np_comp_alias.c:1211-1224. -/
def aHandleUsr : Action := fun env o ex k key ev =>
  match ev.payload with
  | .part p =>
    let usr : Event := { ev with target := p.audience }
    let f := aForward env o ex k key usr
    { f with raised := f.raised ++ handleRaised env o usr }
  | _ => { key }

/-- `__np_handle_pheromone`, src/core/np_comp_alias.c:1106-1136. -/
def aPheromone : Action := fun env o exists' k key ev =>
  if Dhkey.equal k ev.target && exists' key.parent && key.hasNode && o.inRoute then
    { key, raised := handleRaised env o { ev with target := key.parent } }
  else { key }

/-- `__np_handle_np_discovery`, src/core/np_comp_alias.c:996-1104. -/
def aDiscovery : Action := fun env o exists' _ key ev =>
  match ev.payload with
  | .part p =>
    let findReceiver := Dhkey.equal env.availSendS p.subject
    let findSender := Dhkey.equal env.availRecvS p.subject
    let fwd := if o.inhale then
        [(env.outKey p.subject, { ev with target := key.parent, type := evtInternal ||| evtMessage })] else []
    let lookup := if findSender then env.outKey p.audience else if findReceiver then env.inKey p.audience else Dhkey.zero
    { key, effects := [.discovered p],
      raised := fwd ++ (if exists' lookup then handleRaised env o { ev with target := key.parent } else []) }
  | _ => { key }

/-- `__np_node_update_token`, src/core/np_comp_node.c:1083-1159.  The join message it may send is not modelled. -/
def aUpdateToken : Action := fun _ _ _ _ key ev =>
  match ev.payload with
  | .tok t => { key := { key with
      hsTok := if (t.ttype == tHandshake) && key.hsTok.isNone then some t else key.hsTok,
      tok := if (t.ttype == tNode) && key.tok.isNone then some t else key.tok } }
  | _ => { key }

/-- `__np_node_upgrade`, src/core/np_comp_node.c:999-1081.  The update message it may send is not modelled. -/
def aUpgrade : Action := fun _ _ _ _ key ev =>
  match ev.payload with
  | .tok t => { key := { key with tok := key.tok.or (some t) } }
  | _ => { key }

/-- `__np_alias_shutdown`, src/core/np_comp_alias.c:1344-1352. -/
def aAliasShutdown : Action := fun _ _ _ _ key _ => { key := { key with parent := Dhkey.zero, type := kUnknown } }
/-- `__np_alias_destroy` (src/core/np_comp_alias.c:1354-1392), `__np_node_destroy` (np_comp_node.c:1161-1194) and
`__np_identity_destroy` (np_comp_identity.c:101-132). -/
def aDestroy : Action := fun _ _ _ _ key _ => { key := { key with type := kUnknown } }
/-- `__np_wildcard_destroy`, src/core/np_comp_node.c:1470-1490. -/
def aWildcardDestroy : Action := fun _ _ _ _ key _ => { key := { key with type := key.type &&& ~~~kWildcard } }

/-- `__np_node_split_message`, src/core/np_comp_node.c:1578-1608, for a message of one chunk: the chunk is handed to the
same key. -/
def aSplit : Action := fun _ _ _ k key ev =>
  match ev.payload with
  | .msg m => { key, raised := [(k, { ev with payload := .part ⟨m.uuid, m.subject, m.audience, m.via⟩ })] }
  | _ => { key }

/-- `__np_node_send_shutdown`, src/core/np_comp_node.c:1209-1255: notes that the peer left.  The leave message it sends
when this node itself ended the connection is not modelled. -/
def aSendShutdown : Action := fun _ _ _ k key _ => { key := { key with left := true }, effects := [.peerLeft k] }
/-- `__np_node_send_shutdown_event`, src/core/np_comp_node.c:1196-1207. -/
def aShutdownEvent : Action := fun _ _ _ k key _ =>
  { key, raised := [(k, { type := evtInternal ||| evtShutdown, payload := .none, target := k })] }

/-- `__np_extract_handshake`, src/core/np_comp_identity.c:322-374. -/
def aExtractHandshake : Action := fun env o _ _ key ev =>
  match o.plain with
  | some (u, s, a, b) =>
    let e : Event :=
      { type := evtExternal ||| evtMessage, payload := .msg ⟨u, s, a, b, some ev.target⟩, target := ev.target }
    if Dhkey.equal env.hsS s then { key, raised := [(env.inKey env.hsS, e)] } else { key }
  | none => { key }

/-- `__np_identity_handle_authn`, src/core/np_comp_identity.c:496-560. -/
def aHandleAuthn : Action := fun _ o _ _ key ev =>
  match ev.payload with
  | .tok t =>
    if t.authenticated then { key }
    else
      let nodeKey := if flagCmp t.ttype tNode then t.fp else t.partner
      let ok : Event := { type := evtInternal ||| evtToken ||| evtAuthn, payload := .tok t, target := nodeKey }
      { key, effects := [.authn t ev.target o.authn],
        raised :=
          if o.authn && !o.realmClient then [(nodeKey, ok), (ev.target, ok)]
          else if !o.authn && !o.realmClient then
            [(t.fp, { type := evtInternal ||| evtShutdown, payload := .none, target := t.fp })]
          else [] }
  | _ => { key }

/-- `_np_in_join`, src/np_dendrit.c:391-571. -/
def inJoin (env : Env) (o : Oracle) (exists' : Dhkey → Bool) (conn : Dhkey) (b : Body) : List (Dhkey × Event) :=
  match b.node with
  | none => []
  | some nt =>
    if !o.valid nt tNode then []
    else
      let authn (t : Tok) : Event := { type := evtAuthn ||| evtExternal ||| evtToken, payload := .tok t, target := conn }
      match b.ident with
      | none => if exists' nt.fp then [(nt.fp, authn nt), (conn, authn nt), (env.myIdent, authn nt)] else []
      | some it =>
        if !o.valid it tIdentity then []
        else if Dhkey.equal Dhkey.zero it.partner || !Dhkey.equal nt.fp it.partner then []
        else if Dhkey.equal Dhkey.zero nt.partner || !Dhkey.equal it.fp nt.partner then []
        else if exists' nt.fp then
          let token : Event := { type := evtToken ||| evtExternal, payload := .tok nt, target := nt.fp }
          [(nt.fp, token), (conn, token), (env.myIdent, authn it)]
        else []

/-- `_np_in_leave`, src/np_dendrit.c:342-383. -/
def inLeave (conn : Dhkey) (b : Body) : List (Dhkey × Event) :=
  match b.node with
  | none => []
  | some nt =>
    [(nt.fp, { type := evtShutdown ||| evtExternal, payload := .tok nt, target := nt.fp }),
     (conn, { type := evtShutdown ||| evtExternal, payload := .tok nt, target := conn })]

/-- `_np_in_handshake`, src/np_dendrit.c:937-1039, without the wildcard key.  The event to the node key is started as a
chain of its own and is pending here. -/
def inHandshake (o : Oracle) (key : Key) (conn : Dhkey) (m : Msg) : Out :=
  match m.body.hs with
  | some t =>
    if o.valid t tHandshake then
      match t.issuer with
      | some i =>
        let e : Event := { type := evtExternal ||| evtToken, payload := .tok t, target := conn }
        if o.nodeCreated then
          { key, create := [i, conn], reparent := [(conn, i)], raised := [(i, e), (conn, e)] }
        else { key, create := [i], raised := [(i, e)] }
      | none => { key }
    else { key }
  | none => { key }

/-- `_np_msgproperty_check_msgcache` (src/core/np_comp_msgproperty.c:660-750) and `_np_msgproperty_check_msgcache_for`
(752-835): some cached messages are handed to the key again.  Which ones is modelled in `Verif/Channel`; here any number
may be. -/
def releaseCache (o : Oracle) (k : Dhkey) (key : Key) : Key × List (Dhkey × Event) :=
  match key.conf with
  | some c =>
    if k == c.outKey then
      ({ key with cache := key.cache.drop o.release },
       (key.cache.take o.release).map fun m =>
         (c.outKey, { type := evtInternal ||| evtUserspace ||| evtMessage, payload := .msg m, target := m.audience }))
    else if k == c.inKey then
      ({ key with cache := key.cache.drop o.release },
       (key.cache.take o.release).map fun m =>
         (c.inKey, { type := evtExternal ||| evtMessage, payload := .msg m, target := m.audience }))
    else (key, [])
  | none => (key, [])

/-- `__np_property_handle_in_msg`, src/core/np_comp_msgproperty.c:1995-2053. -/
def aHandleIn : Action := fun env o exists' k key ev =>
  match ev.payload, key.conf with
  | .msg m, some c =>
    if c.isInternal then
      let base : Out :=
        if o.cbOk then
          match c.handler with
          | .join => { key, raised := inJoin env o exists' ev.target m.body }
          | .leave => { key, raised := inLeave ev.target m.body }
          | .handshake => inHandshake o key ev.target m
          | _ => { key }
        else { key }
      { base with effects := [.processed k m] }
    else
      let (key', again) := releaseCache o k key
      { key := key', raised := again, effects := if !c.isVirtual && o.cbOk then [.delivered k m] else [] }
  | _, _ => { key }

/-- `__np_property_handle_out_msg`, src/core/np_comp_msgproperty.c:2147-2195: the message or chunk is handed to the
sending functions of np_axon.c, which address it to node keys. -/
def aHandleOut : Action := fun _ _ _ k key _ => { key, effects := [.sent k] }

/-- `__np_property_add_msg_to_cache`, src/core/np_comp_msgproperty.c:878-935; overflow
handling is modelled in `Verif/Channel`, here the message is appended. -/
def aAddToCache : Action := fun _ _ _ _ key ev =>
  match ev.payload with
  | .msg m => { key := { key with cache := key.cache ++ [m] } }
  | _ => { key }

/-- `__np_property_check`, src/core/np_comp_msgproperty.c:1938-1980: hands out cached messages; the intents and
pheromones it sends are not modelled. -/
def aPropertyCheck : Action := fun _ o _ k key _ =>
  match key.conf with
  | some c =>
    if c.isInternal then { key } else
      let (key', again) := releaseCache o k key
      { key := key', raised := again }
  | none => { key }

/-! ## The state table, src/np_key.c:160-494 -/

/-- `struct np_util_statemachine_transition_s`, include/util/np_statemachine.h:30-35. -/
structure Transition where
  target : KState
  cond : Cond
  act : Action

/-- A `NULL` condition, src/util/np_statemachine.c:41. -/
def always : Cond := fun _ _ _ _ _ => true

/-- The transitions of every state in the order in which `__np_key_populate_states` adds them, src/np_key.c:170-486. -/
def transitions (confIn : Dhkey → Option Conf) : KState → List Transition
  | .unused => [
      ⟨.setupWildcard, isWildcardKey, aWildcardSet⟩,
      ⟨.setupNode, isNodeInfo, aNodeSetNode⟩,
      ⟨.setupAlias, isAliasHandshake, aAliasSet⟩,
      ⟨.unused, isAliasNodeInfo, aAliasSetNode⟩,
      ⟨.setupNode, isNodeHandshake, aNodeSet⟩,
      ⟨.setupNode, isNodeToken, aNodeSet⟩,
      ⟨.useIdentity, isIdentityToken, aSetIdentity⟩,
      ⟨.useProperty, isProperty, aSetProperty⟩,
      ⟨.destroy, isUnused, aNoop⟩]
  | .setupAlias => [
      ⟨.setupAlias, isCrypted, aDecrypt⟩,
      ⟨.setupAlias, isJoinIn, aHandleNp⟩,
      ⟨.setupAlias, isNodeToken, aUpdateToken⟩,
      ⟨.useAlias, isNodeAuthn, aUpgrade⟩,
      ⟨.destroy, isAliasInvalid, aDestroy⟩]
  | .setupNode => [
      ⟨.setupNode, isHsOut, aNoop⟩,
      ⟨.setupNode, isJoinOut, aNoop⟩,
      ⟨.setupNode, isInvalidMsg, aNoop⟩,
      ⟨.setupNode, isNpMessage, aSplit⟩,
      ⟨.setupNode, isNodeHandshake, aUpdateToken⟩,
      ⟨.setupNode, isNodeToken, aUpdateToken⟩,
      ⟨.useNode, isNodeIdentAuthn, aNoop⟩,
      ⟨.useNode, isNodeAuthn, aUpgrade⟩,
      ⟨.destroy, isShutdown, aDestroy⟩,
      ⟨.destroy, isNodeInvalid, aDestroy⟩,
      ⟨.setupNode, always, aNoop⟩]
  | .setupIdentity => [
      ⟨.destroy, isIdentityInvalid, aDestroy⟩]
  | .setupWildcard => [
      ⟨.setupWildcard, isHsOut, aNoop⟩,
      ⟨.destroy, isNodeHandshake, aWildcardDestroy⟩,
      ⟨.destroy, isWildcardInvalid, aWildcardDestroy⟩,
      ⟨.setupWildcard, always, aNoop⟩]
  | .useAlias => [
      ⟨.useAlias, isCrypted, aDecrypt⟩,
      ⟨.useAlias, isUsrIn confIn, aHandleUsr⟩,
      ⟨.useAlias, isDht, aHandleNp⟩,
      ⟨.useAlias, isPheromone, aPheromone⟩,
      ⟨.useAlias, isDiscovery, aDiscovery⟩,
      ⟨.useAlias, isForward, aForward⟩,
      ⟨.destroy, isAliasInvalid, aDestroy⟩,
      ⟨.useAlias, isShutdown, aAliasShutdown⟩,
      ⟨.useAlias, isNodeAuthn, aNoop⟩,
      ⟨.useAlias, always, aNoop⟩]
  | .useNode => [
      ⟨.useNode, isNpPart, aNoop⟩,
      ⟨.useNode, isNpMessage, aSplit⟩,
      ⟨.useNode, isResponse, aNoop⟩,
      ⟨.useNode, isShutdown, aSendShutdown⟩,
      ⟨.useNode, hasToLeave, aShutdownEvent⟩,
      ⟨.destroy, isNodeInvalid, aSendShutdown⟩,
      ⟨.useNode, always, aNoop⟩]
  | .useIdentity => [
      ⟨.useIdentity, isUnencrypted, aExtractHandshake⟩,
      ⟨.useIdentity, isAuthnRequest, aHandleAuthn⟩,
      ⟨.useIdentity, isAuthzRequest, aNoop⟩,
      ⟨.destroy, isShutdown, aNoop⟩,
      ⟨.destroy, isIdentityInvalid, aNoop⟩,
      ⟨.useIdentity, isNoop, aNoop⟩]
  | .useProperty => [
      ⟨.holdProperty, isDisable, aNoop⟩,
      ⟨.useProperty, isResponse, aNoop⟩,
      ⟨.useProperty, isRedelivery, aNoop⟩,
      ⟨.useProperty, isSenderAvail, aHandleIn⟩,
      ⟨.useProperty, isReceiverAvail, aHandleOut⟩,
      ⟨.useProperty, isIntentAuthz, aNoop⟩,
      ⟨.useProperty, isNoToken, aAddToCache⟩,
      ⟨.useProperty, isProperty, aPropertyUpdate⟩,
      ⟨.useProperty, isNoop, aPropertyCheck⟩]
  | .holdProperty => [
      ⟨.useProperty, isEnable, aNoop⟩]
  | .destroy => []

/-- The exit functions of the states, src/np_key.c:368-431: leaving `IN_USE_NODE` or `IN_USE_IDENTITY` destroys the
attached structures, the other states have `__keystate_noop`. -/
def onExit : KState → Key → Key
  | .useNode, key => { key with type := kUnknown }
  | .useIdentity, key => { key with type := kUnknown }
  | _, key => key

/-- The entry functions of the states, src/np_key.c:214-486: creating the client network may fail
(src/core/np_comp_node.c:1440-1450); sessions, leafset and interfaces are not modelled here. -/
def onEnter (o : Oracle) : KState → Key → Key
  | .setupNode, key => if o.netFailed then { key with type := kUnknown } else key
  | .setupWildcard, key => if o.netFailed then { key with type := kUnknown } else key
  | _, key => key

/-! ## The node -/

/-- All keys (`np_keycache`), the events waiting to be handled, and everything that happened. -/
structure World where
  keys : List (Dhkey × Key) := []
  pending : List (Dhkey × Event) := []
  trace : List Effect := []

/-- `_np_keycache_find`, src/np_keycache.c. -/
def World.find (w : World) (k : Dhkey) : Option Key := w.keys.lookup k
/-- `_np_keycache_exists`, src/np_keycache.c. -/
def World.has (w : World) (k : Dhkey) : Bool := (w.find k).isSome
/-- Replace the key with id `k`. -/
def setKey (k : Dhkey) (key : Key) : List (Dhkey × Key) → List (Dhkey × Key)
  | [] => []
  | (j, x) :: r => if j == k then (j, key) :: r else (j, x) :: setKey k key r
/-- `_np_keycache_find_or_create`, src/np_keycache.c. -/
def World.findOrCreate (w : World) (k : Dhkey) : World := if w.has k then w else { w with keys := w.keys ++ [(k, {})] }
/-- `_np_keycache_remove`, called by the entry function of `IN_DESTROY`, src/np_key.c:138-143, 505-525. -/
def World.remove (w : World) (k : Dhkey) : World := { w with keys := w.keys.filter fun e => e.1 != k }
/-- Set the parent of a key, src/np_dendrit.c:995. -/
def World.reparent (w : World) (kp : Dhkey × Dhkey) : World :=
  match w.find kp.1 with
  | some key => { w with keys := setKey kp.1 { key with parent := kp.2 } w.keys }
  | none => w

/-- `_np_msgproperty_conf_get(context, INBOUND, s)`, src/core/np_comp_msgproperty.c:288-339. -/
def World.confIn (w : World) (env : Env) (s : Dhkey) : Option Conf := (w.find (env.inKey s)).bind (·.conf)

/-- `np_util_statemachine_invoke_auto_transition`, src/util/np_statemachine.c:22-74: the first transition whose
condition holds. -/
def firstTransition (env : Env) (o : Oracle) (k : Dhkey) (key : Key) (ev : Event) : List Transition → Option Transition
  | [] => none
  | t :: r => if t.cond env o k key ev then some t else firstTransition env o k key ev r

/-- The key after a transition: action, exit function, state, entry function; src/util/np_statemachine.c:47-62. -/
def afterTransition (o : Oracle) (old : KState) (target : KState) (key : Key) : Key :=
  if target == old then key
  else onEnter o target { onExit old key with state := target }

/-- Apply the result of an action to the world. -/
def World.apply (w : World) (o : Oracle) (k : Dhkey) (old target : KState) (out : Out) : World :=
  let key := afterTransition o old target out.key
  let w1 : World := if target == .destroy then w.remove k else { w with keys := setKey k key w.keys }
  let w2 := out.create.foldl World.findOrCreate w1
  let w3 := out.reparent.foldl World.reparent w2
  { w3 with pending := w3.pending ++ out.raised, trace := w3.trace ++ out.effects }

/-- `_np_keycache_execute_event` (src/np_keycache.c:383-425) and `_np_key_handle_event` (src/np_key.c:571-608): an event
for a key that does not exist, or that no transition accepts, is dropped. -/
def handle (env : Env) (o : Oracle) (w : World) (k : Dhkey) (ev : Event) : World :=
  match w.find k with
  | none => w
  | some key =>
    match firstTransition env o k key ev (transitions (w.confIn env) key.state) with
    | none => w
    | some t => w.apply o k key.state t.target (t.act env o w.has k key ev)

/-- What can happen next. -/
inductive Input
  /-- a worker thread takes the `i`-th pending event -/
  | exec (i : Nat)
  /-- the socket owned by key `owner` receives a packet from the address with key `conn` -/
  | packet (owner conn : Dhkey) (n : Nat)
  /-- the periodic check of a key -/
  | tick (k : Dhkey)
  /-- `np_msgproperty_register` -/
  | register (c : Conf)
  /-- `np_mx_properties_enable` -/
  | enable (s : Dhkey)
  /-- `np_mx_properties_disable` -/
  | disable (s : Dhkey)
  /-- `np_send`: a message of the application -/
  | send (s : Dhkey) (m : Msg)
  /-- an event raised by code outside of this model -/
  | other (k : Dhkey) (e : Event)

/-- Put an event into the queue. -/
def World.post (w : World) (k : Dhkey) (e : Event) : World := { w with pending := w.pending ++ [(k, e)] }

/-- `_np_network_read`, src/np_network.c:700-815, and `__create_new_alias_key`, 465-497: the packet goes to the owner of
the socket while no handshake has been started with the sender and to the connection afterwards. -/
def onPacket (o : Oracle) (w : World) (owner conn : Dhkey) (n : Nat) : World :=
  let ev : Event := { type := evtExternal ||| evtMessage, payload := .blob n, target := conn }
  if w.has conn then
    if o.initiated then w.post conn ev else w.post owner ev
  else
    ((w.findOrCreate conn).post conn { type := evtExternal, payload := .node true false, target := conn }).post owner ev

/-- `np_msgproperty_register`, src/core/np_comp_msgproperty.c:410-466. -/
def onRegister (env : Env) (o : Oracle) (w : World) (c0 : Conf) : World :=
  let c := { c0 with inKey := env.inKey c0.subject, outKey := env.outKey c0.subject }
  let w1 := if c.inbound then
      handle env o (w.findOrCreate c.inKey) c.inKey
        { type := evtProperty ||| evtInternal, payload := .conf c, target := c.inKey } else w
  if c.outbound then
    handle env o (w1.findOrCreate c.outKey) c.outKey
      { type := evtProperty ||| evtInternal, payload := .conf c, target := c.outKey } else w1

/-- `np_mx_properties_enable` and `np_mx_properties_disable`, src/neuropil.c:936-995: the event for the receiving
direction is started at the key `subject_dhkey`, the one for the sending direction at `out_dhkey`. -/
def onLifecycle (env : Env) (o : Oracle) (w : World) (flag : Flags) (s : Dhkey) : World :=
  let ev : Event := { type := flag ||| evtInternal ||| evtProperty, payload := .run, target := s }
  let w1 := if w.has (env.inKey s) then handle env o w s ev else w
  if w1.has (env.outKey s) then handle env o w1 (env.outKey s) ev else w1

/-- `np_send_to`, src/neuropil.c:641-738: the message is handed to the sending key of the subject. -/
def onSend (env : Env) (w : World) (s : Dhkey) (m : Msg) : World :=
  w.post (env.outKey s)
    { type := evtInternal ||| evtUserspace ||| evtMessage, payload := .msg { m with subject := s, via := none },
      target := m.audience }

/-- One step. -/
def step (env : Env) (w : World) (i : Oracle × Input) : World :=
  match i.2 with
  | .exec n =>
    match w.pending[n]? with
    | some (k, e) => handle env i.1 { w with pending := w.pending.eraseIdx n } k e
    | none => w
  | .packet owner conn n => onPacket i.1 w owner conn n
  | .tick k => handle env i.1 w k { type := 0, payload := .none, target := Dhkey.zero }
  | .register c => onRegister env i.1 w c
  | .enable s => onLifecycle env i.1 w evtEnable s
  | .disable s => onLifecycle env i.1 w evtDisable s
  | .send s m => onSend env w s m
  | .other k e => w.post k e

/-- A history. -/
def run (env : Env) (w : World) (is : List (Oracle × Input)) : World := is.foldl (step env) w

end Np.Keys
