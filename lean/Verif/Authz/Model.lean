import Verif.Token.Model
import Verif.Lists.Spec
/-!
# Model of message intents: authorization, the intent ledger of a channel, and sessions

Models `src/core/np_comp_intent.c`, the authorization part of `src/core/np_comp_identity.c`, the handling of intents in
`src/core/np_comp_msgproperty.c` and the choice of the handshake role in `src/core/np_comp_alias.c`.

Token objects live on a heap (a list, the address is the position), because the ledger keeps pointers and a token is
changed after it was stored. The priority lists are used through their specification `Np.Lists.Spec` (the pointer level
lists refine it, see area Lists). Reference counting, logging, the acknowledgement tree, the shared session of a node with
itself and the sending of messages are left out. `none` stands for a crash: NULL dereference or a failing `ASSERT`.
-/
namespace Np.Authz
open Np.Token

/-- External functions. -/
structure World where
  E : Env
  /-- `crypto_sign_ed25519_pk_to_curve25519`, src/np_crypto.c:187-190: the derived key of a public key. -/
  kx : Bytes → Bytes
  /-- `crypto_kx_server_session_keys` on the derived keys of (own public, own secret, remote public): the key to read
  with and the key to write with; `none` if libsodium reports an error. -/
  kxServer : (pk sk remote : Bytes) → Option (Bytes × Bytes)
  /-- `crypto_kx_client_session_keys`. -/
  kxClient : (pk sk remote : Bytes) → Option (Bytes × Bytes)

/-! ## Comparing intents -/

/-- Conversion of an `int` to `int8_t`. -/
def int8 (x : Int) : Int := (BitVec.ofInt 8 x).toInt

/-- `memcmp` / `strncmp`: the difference of the first two bytes that differ; a text ends with a NUL. -/
def strncmp : Nat → Bytes → Bytes → Int
  | 0, _, _ => 0
  | _ + 1, [], [] => 0
  | _ + 1, [], b :: _ => -(b.toNat : Int)
  | _ + 1, a :: _, [] => a.toNat
  | n + 1, a :: as, b :: bs => if a = b then strncmp n as bs else (a.toNat : Int) - b.toNat

/-- `memcmp(a, b, 16)` on two uuids. -/
def uuidCmp (a b : Bytes) : Int := strncmp 16 a b

/-- `_np_intent_cmp`, src/core/np_comp_intent.c:37-65 (behind the pointer checks). -/
def cmpTok (a b : Tok) : Int :=
  if int8 (uuidCmp a.uuid b.uuid) = 0 then 0
  else if int8 (strncmp 65 a.issuer b.issuer) ≠ 0 then int8 (strncmp 65 a.issuer b.issuer)
  else if int8 (strncmp (a.subject.take 255).length a.subject b.subject) ≠ 0 then
    int8 (strncmp (a.subject.take 255).length a.subject b.subject)
  else if int8 (strncmp (a.realm.take 255).length a.realm b.realm) ≠ 0 then
    int8 (strncmp (a.realm.take 255).length a.realm b.realm)
  else 0

/-- `_np_intent_cmp_exact`, src/core/np_comp_intent.c:67-88. `sodium_memcmp` gives 0 or -1. -/
def cmpTokExact (W : World) (a b : Tok) : Int :=
  if W.kx a.publicKey ≠ W.kx b.publicKey then -1
  else if int8 (uuidCmp a.uuid b.uuid) ≠ 0 then int8 (uuidCmp a.uuid b.uuid)
  else cmpTok a b

/-- `_np_aaatoken_cmp`, src/core/np_comp_msgproperty.c:1003-1027. -/
def cmpOwn (a b : Tok) : Int :=
  if int8 (strncmp 65 a.issuer b.issuer) ≠ 0 then int8 (strncmp 65 a.issuer b.issuer)
  else if int8 (strncmp (a.subject.take 255).length a.subject b.subject) ≠ 0 then
    int8 (strncmp (a.subject.take 255).length a.subject b.subject)
  else int8 (strncmp (a.realm.take 255).length a.realm b.realm)

/-! ## State -/

/-- A token object. `mine`: made by this node (`_np_token_factory_new_message_intent_token`), otherwise read from the
network. -/
structure Obj where
  tok : Tok
  mine : Bool

abbrev Heap := List Obj

/-- Two pointers, with the pointer checks of the comparison functions: same pointer, NULL. -/
def cmpPtr (cmp : Tok → Tok → Int) (h : Heap) (p q : Nat) : Int :=
  if p = q then 0
  else match h[p]?, h[q]? with
    | some a, some b => cmp a.tok b.tok
    | _, _ => -1

/-- `IS_AUTHORIZED`, include/np_aaatoken.h:71. -/
def isAuthorized (t : Tok) : Bool := flagCmp t.state aaaAuthorized

inductive Mode where
  | inbound | outbound
deriving DecidableEq, Repr

inductive Role where
  | server | client
deriving DecidableEq, Repr

inductive Kind where
  | priv | initial | blank
deriving DecidableEq, Repr

/-- `np_crypto_session_t`, include/np_crypto.h. `role` records which libsodium function made the keys. -/
structure Session where
  kind : Kind
  role : Role
  read : Bytes
  write : Bytes
deriving DecidableEq

/-- The key of a channel in one direction: parts of `np_msgproperty_conf_t` (`mep`, `ack`) and `np_msgproperty_run_t`
(`hasAuthz`, `currentFp`), the ledger (src/core/np_comp_intent.c:30-35) and the tree of sessions.
An inbound key keeps its own intents in `recv_tokens` and the intents of peers in `send_tokens`, an outbound key the
other way round; they are `own` and `peers` here. The session tree is a map from ids. -/
structure Chan where
  mep : BitVec 32
  ack : BitVec 32
  hasAuthz : Bool
  currentFp : Dhkey
  own : List Nat
  peers : List Nat
  sessions : Dhkey → Option Session

/-- One question to an authorization callback. -/
inductive Asked where
  | chanIn | chanOut | global
deriving DecidableEq, Repr

structure Call where
  asked : Asked
  ptr : Nat
  tok : Tok
  answer : Bool

/-- `chans m sid`: the key of direction `m` of the channel with subject id `sid`. `calls` is not in the code: it
records which callback was asked about which token and what it answered. -/
structure Node where
  heap : Heap
  chans : Mode → Bytes → Option Chan
  realmClient : Bool
  calls : List Call

def Node.setChan (n : Node) (m : Mode) (sid : Bytes) (c : Chan) : Node :=
  { n with chans := fun m' s' => if m' = m ∧ s' = sid then some c else n.chans m' s' }

def setTok (h : Heap) (p : Nat) (t : Tok) : Heap := h.modify p fun o => { o with tok := t }

/-! ## Sessions -/

/-- A dhkey from the 32 bytes of a hash. -/
def toDhkey (b : Bytes) : Dhkey :=
  let w (i : Nat) : BitVec 32 := Dhkey.wordOf (b.getD i 0) (b.getD (i + 1) 0) (b.getD (i + 2) 0) (b.getD (i + 3) 0)
  ⟨w 0, w 4, w 8, w 12, w 16, w 20, w 24, w 28⟩

/-- `np_aaatoken_get_fingerprint(token, false)`, src/np_aaatoken.c:274-308. -/
def tokFp (W : World) (t : Tok) : Dhkey := toDhkey (W.E.hash (getHash W.E t ++ t.signature))

/-- `np_crypto_session`, src/np_crypto.c:278-314: if the remote is the client we are the server. -/
def cryptoSession (W : World) (k : Kind) (my remote : Tok) (remoteIsClient : Bool) : Option Session :=
  if remoteIsClient then
    (W.kxServer my.publicKey my.issuerSecret remote.publicKey).map fun x => ⟨k, .server, x.1, x.2⟩
  else
    (W.kxClient my.publicKey my.issuerSecret remote.publicKey).map fun x => ⟨k, .client, x.1, x.2⟩

/-- The two session ids. Inbound: src/core/np_comp_intent.c:748-751; outbound: 936-939. -/
def privateId (W : World) (m : Mode) (mine : Dhkey) (peer : Tok) : Dhkey :=
  match m with
  | .inbound => Dhkey.add (tokFp W peer) mine
  | .outbound => Dhkey.add mine (tokFp W peer)
def initialId (W : World) (m : Mode) (mine : Dhkey) (peer : Tok) : Dhkey :=
  match m with
  | .inbound => Dhkey.xor (tokFp W peer) mine
  | .outbound => Dhkey.xor mine (tokFp W peer)

/-- Which side computes which session as server. Inbound: lines 780-797 (private as server, initial as client);
outbound: lines 965-982 (the other way round). -/
def remoteIsClient (m : Mode) (k : Kind) : Bool :=
  match m, k with
  | .inbound, .priv => true
  | .inbound, _ => false
  | .outbound, .priv => false
  | .outbound, _ => true

/-- A session object whose keys were never computed (`np_new_obj`, lines 740-744). -/
def blankSession : Session := ⟨.blank, .client, [], []⟩

/-- `_np_intent_update_sender_session` (lines 721-863, inbound) and `_np_intent_update_receiver_session` (lines
910-1043, outbound) without the acknowledgement tree and the rekey message. `del`: `crud_delete`, otherwise create or
update. `none`: `pll_first(…)->val` of an empty list of own intents.
An existing session is looked up before computing; as soon as one of the two is missing both are replaced. -/
def updSession (W : World) (m : Mode) (h : Heap) (c : Chan) (p : Nat) (del : Bool) : Option Chan :=
  match c.own with
  | [] => none
  | o :: _ =>
    match h[o]?, h[p]? with
    | some my, some peer =>
      let same : Bool := match m with
        | .inbound => decide (p = o)
        | .outbound => Dhkey.equal (tokFp W peer.tok) c.currentFp
      let priv := privateId W m c.currentFp peer.tok
      let init := initialId W m c.currentFp peer.tok
      if same then some c
      else if del then
        some { c with sessions := fun i => if i = priv ∨ i = init then none else c.sessions i }
      else
        let a := if c.sessions priv = none then cryptoSession W .priv my.tok peer.tok (remoteIsClient m .priv)
                 else some blankSession
        let b := if c.sessions init = none then cryptoSession W .initial my.tok peer.tok (remoteIsClient m .initial)
                 else some blankSession
        match a, b with
        | some a, some b =>
          if c.sessions priv = none ∨ c.sessions init = none then
            some { c with sessions := fun i => if i = init then some b else if i = priv then some a else c.sessions i }
          else some c
        | _, _ => some c
    | _, _ => none

/-! ## The ledger -/

/-- `SINGLE_SENDER`, `SINGLE_RECEIVER` and the masks, include/core/np_comp_msgproperty.h:155-170. -/
def modeMask : Mode → BitVec 32
  | .inbound => 0xF0
  | .outbound => 0x0F
def singleFlag : Mode → BitVec 32
  | .inbound => 0x10
  | .outbound => 0x01

def keyMep : Bytes := "mep_type".toList.map fun c => BitVec.ofNat 8 c.toNat
def keyAck : Bytes := "ack_mode".toList.map fun c => BitVec.ofNat 8 c.toNat
def keyPartner : Bytes := "_np.partner_fp".toList.map fun c => BitVec.ofNat 8 c.toNat

/-- `np_get_data(token->attributes, key)` with a default, src/core/np_comp_intent.c:114-141, 304-322. -/
def attrUint (W : World) (t : Tok) (key : Bytes) (dflt : BitVec 32) : BitVec 32 :=
  match W.E.attrGet t.attributes key with
  | some v => asUint W.E v
  | none => dflt

/-- The message exchange pattern announced by an intent (default `DEFAULT_TYPE` = 0). -/
def announcedMep (W : World) (t : Tok) : BitVec 32 := attrUint W t keyMep 0

/-- Lines 143-180 / 324-362: replace an equal intent or insert. The comparison used for replacing is the exact one
unless the channel is marked single sender (receiver). The result is the new list and the intent that was replaced. -/
def store (W : World) (h : Heap) (single : Bool) (peers : List Nat) (p : Nat) : List Nat × Option Nat :=
  let cmpReplace := if single then cmpPtr cmpTok h else cmpPtr (cmpTokExact W) h
  match Np.Lists.Spec.replace cmpReplace p peers with
  | (l, some q) => (l, some q)
  | (_, none) => ((Np.Lists.Spec.insert (cmpPtr cmpTok h) (!single) p peers).1, none)

/-- `token->state = ret->state` (lines 179, 361): the state of a new intent that replaced the intent `q`. -/
def inherited (h : Heap) (t : Tok) (q : Option Nat) : BitVec 8 :=
  match q.bind (h[·]?) with
  | some o => o.tok.state
  | none => t.state

/-- `_np_intent_add_sender` (lines 92-192, inbound) and `_np_intent_add_receiver` (lines 276-370, outbound). Only the
former copies the acknowledgement mode. -/
def addPeer (W : World) (m : Mode) (h : Heap) (c : Chan) (p : Nat) : Option (Heap × Chan) :=
  match h[p]? with
  | none => none
  | some o =>
    let mep := c.mep ||| (announcedMep W o.tok &&& modeMask m)
    let c1 : Chan := { c with
      mep := mep, ack := match m with | .inbound => attrUint W o.tok keyAck 1 | .outbound => c.ack }
    if attrUint W o.tok keyMax 0 = 0#32 then some (h, c1)
    else
      let single := (mep &&& modeMask m) &&& singleFlag m == singleFlag m
      let r := store W h single c1.peers p
      let c2 := { c1 with peers := r.1 }
      let t : Tok := { o.tok with state := inherited h o.tok r.2 }
      let h1 := setTok h p t
      if isAuthorized t then (updSession W m h1 c2 p false).map fun c3 => (h1, c3)
      else some (h1, c2)

/-- `np_aaatoken_get_partner_fp`, src/np_aaatoken.c:618-656. `none`: an attribute of the wrong size fails an `ASSERT`.
(An error other than "not found" fails an `ASSERT` as well; `attrGet` does not tell them apart.) -/
def partnerFp (W : World) (t : Tok) : Option Dhkey :=
  match W.E.attrGet t.attributes keyPartner with
  | none => some (if t.issuer = [] then tokFp W t else toDhkey (fromHash t.issuer))
  | some (.bin b) => if b.length = 32 then some (toDhkey b) else none
  | some (.str b) => if b.length = 32 then some (toDhkey b) else none
  | some _ => none

/-- `__is_intent_authz` (src/core/np_comp_intent.c:522-544) and `__np_property_handle_intent`
(src/core/np_comp_msgproperty.c:2296-2423). `compliant`: the result of the policy and audience checks, lines 2308-2317.
The result says as well whether the identity is asked for authorization. Delivery of cached messages is left out. -/
def handleIntent (W : World) (m : Mode) (now : BitVec 64) (compliant : Bool) (h : Heap) (c : Chan) (p : Nat) :
    Option (Heap × Chan × Bool) :=
  match h[p]? with
  | none => none
  | some o =>
    match isValid W.E now o.tok typeIntent with
    | (t1, false) => some (setTok h p t1, c, false)
    | (t1, true) =>
      let h1 := setTok h p t1
      if compliant then
        match partnerFp W t1 with
        | none => none
        | some _ =>
          match addPeer W m h1 c p with
          | none => none
          | some (h2, c2) =>
            match h2[p]? with
            | some o2 => some (h2, c2, !isAuthorized o2.tok)
            | none => none
      else some (h1, c, false)

/-! ## Authorization -/

/-- What the three callbacks say when asked about the token now. -/
structure Answers where
  chanIn : Bool
  chanOut : Bool
  global : Bool

/-- A callback is set on the key of this direction (`authorize_func != NULL`). -/
def hasCallback (n : Node) (m : Mode) (sid : Bytes) : Bool :=
  match n.chans m sid with
  | some c => c.hasAuthz
  | none => false

/-- The decision of `__np_identity_handle_authz`, src/core/np_comp_identity.c:586-611, and the questions asked. -/
def decide3 (hasIn hasOut : Bool) (a : Answers) : Bool × List (Asked × Bool) :=
  let r : Bool × List (Asked × Bool) := (false, [])
  let r := if hasIn then (a.chanIn, r.2 ++ [(.chanIn, a.chanIn)]) else r
  let r := if hasOut then (a.chanOut, r.2 ++ [(.chanOut, a.chanOut)]) else r
  if !r.1 then (a.global, r.2 ++ [(.global, a.global)]) else r

/-- `__is_authz_request` (src/core/np_comp_identity.c:446-493) and `__np_identity_handle_authz` (562-640).
`dup`: the answer of the duplicate filter. -/
def handleAuthz (W : World) (n : Node) (p : Nat) (now : BitVec 64) (dup : Bool) (a : Answers) : Node :=
  match n.heap[p]? with
  | none => n
  | some o =>
    if dup then n
    else
      let typeOk := flagCmp o.tok.type typeIdentity || flagCmp o.tok.type typeNode || flagCmp o.tok.type typeIntent
      match isValid W.E now o.tok o.tok.type with
      | (t1, valid) =>
        let n1 := { n with heap := setTok n.heap p t1 }
        if typeOk && valid && t1.type == typeIntent && !isAuthorized t1 then
          let sid := fromHash t1.subject
          let d := decide3 (hasCallback n .inbound sid) (hasCallback n .outbound sid) a
          let n2 := { n1 with calls := n1.calls ++ d.2.map fun x => ⟨x.1, p, t1, x.2⟩ }
          if d.1 && !n.realmClient then
            { n2 with heap := setTok n2.heap p { t1 with state := t1.state ||| aaaAuthorized } }
          else n2
        else n1

/-! ## Own intents and periodic check -/

/-- `_np_msgproperty_upsert_token`, src/core/np_comp_msgproperty.c:1294-1423, for a list of at most one own intent:
make one if there is none, replace it if it is about to expire (`renew`). `t` is the new intent
(`_np_token_factory_new_message_intent_token`, src/np_token_factory.c:214-306, sets the state). -/
def upsertOwn (h : Heap) (c : Chan) (t : Tok) (renew : Bool) : Heap × Chan :=
  let h1 := h ++ [⟨{ t with state := aaaAuthorized ||| aaaAuthenticated ||| aaaValid }, true⟩]
  match c.own with
  | [] => (h1, { c with own := [h.length] })
  | _ :: _ =>
    if renew then (h1, { c with own := (Np.Lists.Spec.replace (cmpPtr cmpOwn h1) h.length c.own).1 })
    else (h, c)

/-- The loops of `__np_intent_check`, src/core/np_comp_intent.c:567-611: the first token of the list that is not valid
any more. -/
def firstInvalid (W : World) (now : BitVec 64) : Heap → List Nat → Heap × Option Nat
  | h, [] => (h, none)
  | h, p :: ps =>
    match h[p]? with
    | none => (h, none)
    | some o =>
      match isValid W.E now o.tok typeIntent with
      | (t1, true) => firstInvalid W now (setTok h p t1) ps
      | (t1, false) => (setTok h p t1, some p)

/-- `__np_intent_check` for the intents of peers: inbound lines 567-588, outbound lines 590-611. One invalid intent is
taken out, with its sessions. The check of the own intents, which are renewed before they expire, is left out. -/
def checkPeers (W : World) (m : Mode) (now : BitVec 64) (h : Heap) (c : Chan) : Option (Heap × Chan) :=
  match firstInvalid W now h c.peers with
  | (h1, none) => some (h1, c)
  | (h1, some p) =>
    (updSession W m h1 c p true).map fun c1 =>
      (h1, { c1 with peers := c1.peers.eraseP fun x => cmpPtr (cmpTokExact W) h1 x p = 0 })

/-! ## Looking up peers -/

/-- `_np_intent_get_sender_token`, src/core/np_comp_intent.c:194-273. `none`: abort in `np_aaatoken_get_partner_fp`. -/
def getSender (W : World) (now : BitVec 64) (sender : Dhkey) : Heap → List Nat → Option (Heap × Option Nat)
  | h, [] => some (h, none)
  | h, p :: ps =>
    match h[p]? with
    | none => none
    | some o =>
      match isValid W.E now o.tok typeIntent with
      | (t1, false) => getSender W now sender (setTok h p t1) ps
      | (t1, true) =>
        match partnerFp W t1 with
        | none => none
        | some fp =>
          if !Dhkey.equal sender Dhkey.zero && !Dhkey.equal fp sender then getSender W now sender (setTok h p t1) ps
          else if isAuthorized t1 then some (setTok h p t1, some p)
          else getSender W now sender (setTok h p t1) ps

/-- `_np_intent_get_receiver`, src/core/np_comp_intent.c:372-465. `me`: identity and node key of this node. -/
def getReceiver (W : World) (now : BitVec 64) (me : Dhkey × Dhkey) (target : Dhkey) :
    Heap → List Nat → Option (Heap × Option Nat)
  | h, [] => some (h, none)
  | h, p :: ps =>
    match h[p]? with
    | none => none
    | some o =>
      match isValid W.E now o.tok typeIntent with
      | (t1, false) => getReceiver W now me target (setTok h p t1) ps
      | (t1, true) =>
        let issuer := toDhkey (fromHash t1.issuer)
        if Dhkey.equal issuer me.1 || Dhkey.equal issuer me.2 then getReceiver W now me target (setTok h p t1) ps
        else if !Dhkey.equal Dhkey.zero target && !Dhkey.equal issuer target then
          getReceiver W now me target (setTok h p t1) ps
        else if isAuthorized t1 then some (setTok h p t1, some p)
        else getReceiver W now me target (setTok h p t1) ps

/-- `_np_intent_get_all_receiver`, src/core/np_comp_intent.c:467-520. -/
def getAllReceiver (W : World) (now : BitVec 64) (currentFp audience : Dhkey) : Heap → List Nat → Option (Heap × List Nat)
  | h, [] => some (h, [])
  | h, p :: ps =>
    match h[p]? with
    | none => none
    | some o =>
      match isValid W.E now o.tok typeIntent with
      | (t1, valid) =>
        let keep := valid && isAuthorized t1 &&
          (Dhkey.equal audience (toDhkey (fromHash t1.issuer)) || Dhkey.equal audience (toDhkey (fromHash t1.audience)) ||
            Dhkey.equal audience currentFp)
        (getAllReceiver W now currentFp audience (setTok h p t1) ps).map fun r =>
          (r.1, if keep then p :: r.2 else r.2)

/-! ## Histories -/

/-- What can happen on a node. The events are processed one at a time; their order is not restricted any further than
by the arguments. -/
inductive Op where
  /-- A token is read from the network (`np_token_factory_read_from_tree`); its state starts as `AAA_UNKNOWN`. -/
  | receive (t : Tok)
  /-- An intent arrives at the key of a channel (first time or after authorization). -/
  | intent (m : Mode) (sid : Bytes) (p : Nat) (now : BitVec 64) (compliant : Bool)
  /-- The identity is asked to authorize. -/
  | authz (p : Nat) (now : BitVec 64) (dup : Bool) (a : Answers)
  /-- The channel is created with a message exchange pattern (`__np_set_property`). -/
  | register (m : Mode) (sid : Bytes) (mep : BitVec 32)
  /-- `np_set_authorize_cb` for the channel. -/
  | setAuthz (m : Mode) (sid : Bytes)
  /-- Own intent made or renewed. -/
  | upsert (m : Mode) (sid : Bytes) (t : Tok) (renew : Bool)
  /-- Own intent sent out: `current_fp` becomes its fingerprint, src/core/np_comp_msgproperty.c:1764-1767. -/
  | announce (m : Mode) (sid : Bytes)
  /-- Periodic check. -/
  | check (m : Mode) (sid : Bytes) (now : BitVec 64)

/-- Only token objects read from the network are passed to the channel and the identity as intents of peers. -/
def isPeers (n : Node) (p : Nat) : Bool :=
  match n.heap[p]? with
  | some o => !o.mine
  | none => false

def step (W : World) (n : Node) : Op → Option Node
  | .receive t => some { n with heap := n.heap ++ [⟨{ t with state := 0 }, false⟩] }
  | .intent m sid p now compliant =>
    if isPeers n p then
      match n.chans m sid with
      | none => some n
      | some c => (handleIntent W m now compliant n.heap c p).map fun r => { n with heap := r.1 }.setChan m sid r.2.1
    else some n
  | .authz p now dup a => if isPeers n p then some (handleAuthz W n p now dup a) else some n
  | .register m sid mep =>
    match n.chans m sid with
    | some _ => some n
    | none => some (n.setChan m sid ⟨mep, 0, false, Dhkey.zero, [], [], fun _ => none⟩)
  | .setAuthz m sid =>
    match n.chans m sid with
    | none => some n
    | some c => some (n.setChan m sid { c with hasAuthz := true })
  | .upsert m sid t renew =>
    match n.chans m sid with
    | none => some n
    | some c => let r := upsertOwn n.heap c t renew; some ({ n with heap := r.1 }.setChan m sid r.2)
  | .announce m sid =>
    match n.chans m sid with
    | none => some n
    | some c =>
      match c.own.head?.bind (n.heap[·]?) with
      | none => some n
      | some o => some (n.setChan m sid { c with currentFp := tokFp W o.tok })
  | .check m sid now =>
    match n.chans m sid with
    | none => some n
    | some c => (checkPeers W m now n.heap c).map fun r => { n with heap := r.1 }.setChan m sid r.2

def start (realmClient : Bool) : Node := ⟨[], fun _ _ => none, realmClient, []⟩

def run (W : World) : Node → List Op → Option Node
  | n, [] => some n
  | n, op :: ops => (step W n op).bind fun n => run W n ops

/-! ## Handshake -/

/-- `__np_create_session`, src/core/np_comp_alias.c:511-544: the role a node takes in the session with a direct
neighbour, from its own priority and the priority in the neighbour's handshake token. -/
def handshakeRole (mine remote : BitVec 32) : Role := if remote.toNat < mine.toNat then .client else .server

/-- The session itself. -/
def handshakeSession (W : World) (my remote : Tok) (mine theirs : BitVec 32) : Option Session :=
  cryptoSession W .priv my remote (handshakeRole mine theirs = .server)

end Np.Authz
