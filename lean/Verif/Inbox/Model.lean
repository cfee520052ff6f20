import Verif.Ser.Model
import Verif.Chunk.Model
import Verif.Dhkey.Model
import Verif.Addr.Model

/-! # Model of what a node does with the bytes it receives

The handlers of the system messages in src/np_dendrit.c, the reading of tokens and nodes out of the trees they carry (src/np_aaatoken.c,
src/np_token_factory.c, src/np_node.c), the extraction of a handshake from an unencrypted packet (src/core/np_comp_identity.c), and the end-to-end
decryption with the import of session keys (src/np_message.c, src/np_dendrit.c, src/core/np_comp_intent.c).

A value of a tree is a C union together with its type, and the code reads members of the union without looking at the type. What such a read does is
spelled out by `memory`, `subtree` and `shown`. -/
namespace Np.Inbox

open Np.Ser (Val Ents Wrap Lib)
open Np.Tree (Name Tree)

abbrev Byte := BitVec 8

/-- How handling a message can go wrong. -/
inductive Fault where
  /-- A null pointer is followed. -/
  | null
  /-- A number or the like is followed as if it were a pointer. -/
  | wild
  /-- Memory behind an object is read or written. -/
  | over
  /-- A pointer to a variable that no longer exists is followed. -/
  | dangling
  /-- An assertion fails. -/
  | abort
  deriving DecidableEq, Repr

abbrev Out (α : Type) := Except Fault α

/-- The key of an entry. -/
def key (s : String) : Name := .str (s.toList.map Char.toNat)

/-- `np_tree_find_str` on a tree that is the value of an entry. Simplified: the entries are searched one after the other. -/
def look (n : Name) : Ents → Option Val
  | .nil => none
  | .cons m v es => if m = n then some v else look n es

/-- The bytes of a C string. -/
def cText (s : List Byte) : List Byte := s.takeWhile (· ≠ 0)

/-- The memory behind `val.value.bin`: that of a binary, of a hash, or of a text up to its NUL (`strndup`, src/util/np_treeval.c:64). An undefined value has a null pointer; of all others
the bits of the number, key or structure are taken as the pointer. -/
def memory : Val → Out (List Byte)
  | .bin b => .ok b
  | .hash b => .ok b
  | .str s => .ok (cText s ++ [0])
  | .other _ => .error .null
  | _ => .error .wild

/-- `memcpy` of `n` bytes from `val.value.bin`. -/
def copy (n : Nat) (v : Val) : Out (List Byte) :=
  match memory v with
  | .error f => .error f
  | .ok b => if b.length < n then .error .over else .ok (b.take n)

/-- `val.size` where there is memory behind the value. -/
def memSize : Val → Nat
  | .bin b => b.length
  | .hash b => b.length
  | .str s => s.length
  | _ => 0

/-- `memcpy` of `fmin(val.size, n)` bytes from `val.value.bin`. -/
def copyUpTo (n : Nat) (v : Val) : Out (List Byte) := copy (min (memSize v) n) v

/-- `val.value.tree`. -/
def subtree : Val → Out Ents
  | .tree _ es => .ok es
  | .other _ => .error .null
  | _ => .error .wild

mutual
/-- `np_treeval_to_str`, src/util/np_treeval.c:166-353, does not fail: there is no single character in the value. Of a character the address of a
parameter is returned (line 235); a tree is printed value by value (lines 281-336), one with a CWT or COSE type is not (line 346). -/
def printable : Val → Bool
  | .char _ => false
  | .tree .plain es => printables es
  | _ => true
/-- All values of a tree. -/
def printables : Ents → Bool
  | .nil => true
  | .cons _ v es => printable v && printables es
end

/-- The attributes of the process and the functions modelled elsewhere. -/
structure World where
  /-- The text `np_treeval_to_str` makes of a value that is not a text. -/
  print : Val → List Byte
  /-- `np_cryptofactory_by_public` succeeds. -/
  keyOk : List Byte → Bool

/-- The token read from a tree. Fields that are numbers are kept as the values they were read from. -/
structure Fields where
  uuid : List Byte
  type : Val
  realm : Option (List Byte)
  issuer : List Byte
  subject : List Byte
  audience : Option (List Byte)
  publicKey : List Byte
  expires : Val
  issued : Option Val
  notBefore : Option Val
  signature : List Byte
  /-- The attributes and their signature. -/
  attributes : Option (List Byte × List Byte)

/-- `strncpy(target, np_treeval_to_str(val, NULL, NULL), n)`. -/
def shown (W : World) (n : Nat) (v : Val) : Out (List Byte) :=
  if printable v then
    match v with
    | .str s => .ok ((cText s).take n)
    | v => .ok ((cText (W.print v)).take n)
  else .error .dangling

/-- A mandatory field: reading ends without a token if it is missing. -/
def need {α β : Type} (es : Ents) (k : String) (get : Val → Out α) (go : α → Out (Option β)) : Out (Option β) :=
  match look (key k) es with
  | none => .ok none
  | some v =>
    match get v with
    | .error f => .error f
    | .ok a => go a

/-- An optional field. -/
def may {α β : Type} (es : Ents) (k : String) (get : Val → Out α) (go : Option α → Out (Option β)) : Out (Option β) :=
  match look (key k) es with
  | none => go none
  | some v =>
    match get v with
    | .error f => .error f
    | .ok a => go (some a)

/-- `np_aaatoken_decode`, src/np_aaatoken.c:170-261: `ok none` is the result false. -/
def decode (W : World) (es : Ents) : Out (Option Fields) :=
  need es "np.t.u" (copy 16) fun uuid =>
  need es "np.t.type" .ok fun type =>
  may es "np.t.r" (shown W 255) fun realm =>
  need es "np.t.i" (shown W 65) fun issuer =>
  need es "np.t.s" (shown W 255) fun subject =>
  may es "np.t.a" (shown W 255) fun audience =>
  need es "np.t.p" (copy 32) fun publicKey =>
  if W.keyOk publicKey = false then .ok none
  else
  need es "np.t.ex" .ok fun expires =>
  may es "np.t.ia" .ok fun issued =>
  may es "np.t.nb" .ok fun notBefore =>
  need es "np.t.si" (copy 64) fun signature =>
  may es "np.t.e" (copyUpTo 10240) fun attributes =>
  match attributes with
  | none => .ok (some ⟨uuid, type, realm, issuer, subject, audience, publicKey, expires, issued, notBefore, signature, none⟩)
  | some a =>
    need es "np.t.sie" (copyUpTo 64) fun asig =>
    .ok (some ⟨uuid, type, realm, issuer, subject, audience, publicKey, expires, issued, notBefore, signature, some (a, asig)⟩)

/-- What is asked about tokens. `valid f type` is `_np_aaatoken_is_valid`, modelled in `Verif/Token`; an incomplete token is never valid. `partner f` is
the attribute `_np.partner_fp` that `np_get_data` finds (`Verif/Data`). -/
structure Judge where
  valid : Fields → Nat → Bool
  fingerprint : Fields → Dhkey
  partner : Fields → Option (List Byte)
  /-- The key cache knows a key. -/
  known : Dhkey → Bool

/-- `np_aaatoken_type_undefined`, `_identity`, `_node`, `_handshake`, include/np_aaatoken.h. -/
def tUndefined : Nat := 0
def tIdentity : Nat := 1
def tNode : Nat := 2
def tHandshake : Nat := 4

/-- `np_token_factory_read_from_tree`, src/np_token_factory.c:487-515. A null pointer is caught by the assertion in `np_aaatoken_decode`. -/
def readToken (W : World) (J : Judge) (v : Val) : Out (Option Fields) :=
  match subtree v with
  | .error f => .error f
  | .ok es =>
    match decode W es with
    | .error f => .error f
    | .ok none => .ok none
    | .ok (some f) =>
      if J.valid f tUndefined then
        if f.subject.length > 1 then .ok (some f) else .error .abort
      else .ok none

/-- A node from a piggy message, `_np_node_decode_from_jrb`, src/np_node.c:292-352. -/
structure NodeInfo where
  protocol : Val
  host : List Byte
  port : List Byte
  hostKey : List Byte

/-- `_np_node_decode_from_jrb`, src/np_node.c:292-353. -/
def decodeNode (W : World) (es : Ents) : Out (Option NodeInfo) :=
  need es "np.n.pr" .ok fun protocol =>
  need es "np.n.d" (shown W 40) fun host =>
  need es "np.n.p" (shown W 5) fun port =>
  may es "np.n.k" (shown W 255) fun hostKey =>
  .ok (some ⟨protocol, host, port, hostKey.getD [42]⟩)

/-- The loop of `_np_node_decode_multiple_from_jrb`, src/np_node.c:492-513: the entry of number `i` has to be there. -/
def decodeNodes (W : World) (t : Tree Val) : List Nat → Out (List NodeInfo)
  | [] => .ok []
  | i :: is =>
    match Tree.find t (.int (BitVec.ofNat 16 i)) with
    | none => .error .null
    | some e =>
      match subtree e.val with
      | .error f => .error f
      | .ok es =>
        match decodeNode W es with
        | .error f => .error f
        | .ok n =>
          match decodeNodes W t is with
          | .error f => .error f
          | .ok ns => .ok (n.toList ++ ns)

/-- What handling a message leads to: the events that are added. -/
inductive Act where
  /-- `_np_in_leave`: the node of the token and the alias shut down. -/
  | shutdown (f : Fields)
  /-- `_np_in_join`: a token is to be authenticated. -/
  | authenticate (f : Fields)
  /-- A token is stored with the node and the alias. -/
  | store (f : Fields)
  /-- `_np_in_available_…`: an intent for the channel of this id, of a sender or of a receiver. -/
  | intent (sender : Bool) (subject : List Byte) (f : Fields)
  /-- `_np_in_handshake`: the handshake token goes to the node it names as issuer. -/
  | handshake (f : Fields)
  /-- `_np_in_update`: the token of another node. -/
  | introduce (f : Fields)
  /-- `_np_in_piggy`: a node to join. Simplified: passive nodes, and those that are known or for which there is no room, are not sorted out. -/
  | node (n : NodeInfo)

/-- The system messages. -/
inductive Kind where
  | ping | piggy | leave | join | ack | update | availableSender | availableReceiver
  deriving DecidableEq, Repr

/-- `_NP_URN_NODE_PREFIX`, `_NP_URN_IDENTITY_PREFIX`, `_NP_URN_INTENT_PREFIX`, `_NP_URN_HANDSHAKE_PREFIX`, include/core/np_comp_msgproperty.h:48-53. -/
def urnNode : Name := key "urn:np:node"
def urnIdentity : Name := key "urn:np:id"
def urnIntent : Name := key "urn:np:intent"
def urnHandshake : Name := key "urn:np:hs"

/-- The value of an entry. -/
def value (t : Tree Val) (n : Name) : Option Val := (Tree.find t n).map (·.val)

/-- `np_aaatoken_get_partner_fp`, src/np_aaatoken.c:618-656. -/
def partnerFp (J : Judge) (f : Fields) : Out Dhkey :=
  match J.partner f with
  | none => .ok Dhkey.zero
  | some b => if b.length = 32 then .ok (Addr.ofBytes b) else .error .abort

/-- The bytes as characters. -/
def chars (b : List Byte) : List Char := b.map fun x => Char.ofNat x.toNat

/-- `_np_in_leave`, src/np_dendrit.c:342-383. -/
def inLeave (W : World) (J : Judge) (t : Tree Val) : Out (List Act) :=
  match value t urnNode with
  | none => .ok []
  | some v =>
    match readToken W J v with
    | .error f => .error f
    | .ok none => .ok []
    | .ok (some f) => .ok [.shutdown f]

/-- The end of `_np_in_join`, src/np_dendrit.c:498-558. -/
def joinEnd (J : Judge) (node : Fields) (ident : Option Fields) : List Act :=
  if J.known (J.fingerprint node) then
    match ident with
    | none => [.authenticate node]
    | some i => [.store node, .authenticate i]
  else []

/-- `_np_in_join`, src/np_dendrit.c:391-571. -/
def inJoin (W : World) (J : Judge) (t : Tree Val) : Out (List Act) :=
  match value t urnNode with
  | none => .ok []
  | some v =>
    match readToken W J v with
    | .error f => .error f
    | .ok none => .ok []
    | .ok (some node) =>
      if J.valid node tNode = false then .ok []
      else
        match value t urnIdentity with
        | none => .ok (joinEnd J node none)
        | some w =>
          match readToken W J w with
          | .error f => .error f
          | .ok none => .ok []
          | .ok (some ident) =>
            if J.valid ident tIdentity = false then .ok []
            else
              match partnerFp J ident with
              | .error f => .error f
              | .ok p =>
                if p = Dhkey.zero ∨ J.fingerprint node ≠ p then .ok []
                else
                  match partnerFp J node with
                  | .error f => .error f
                  | .ok q =>
                    if q = Dhkey.zero ∨ J.fingerprint ident ≠ q then .ok []
                    else .ok (joinEnd J node (some ident))

/-- `_np_in_update`, src/np_dendrit.c:627-682: the entry is not looked for before it is used, and the result of decoding is not looked at. The message
is forwarded as well, which is not an event of its own here. -/
def inUpdate (W : World) (J : Judge) (t : Tree Val) : Out (List Act) :=
  match value t urnNode with
  | none => .error .null
  | some v =>
    match subtree v with
    | .error f => .error f
    | .ok es =>
      match decode W es with
      | .error f => .error f
      | .ok none => .ok []
      | .ok (some f) =>
        if J.valid f tHandshake = false then .ok []
        else if J.known (Addr.fromHash (chars f.issuer)) then .ok []
        else .ok [.introduce f]

/-- `np_str_id` and the event, src/np_dendrit.c:708-721, 757-770: the subject has to be an id. -/
def announce (sender : Bool) (f : Fields) : Out (List Act) :=
  match strId (chars f.subject) with
  | none => .error .abort
  | some id => .ok [.intent sender id f]

/-- `_np_in_available_sender`, src/np_dendrit.c:686-742, and `_np_in_available_receiver`, 743-789, which does not test that the entry is there. -/
def inAvailable (W : World) (J : Judge) (sender : Bool) (t : Tree Val) : Out (List Act) :=
  match value t urnIntent with
  | none => if sender then .ok [] else .error .null
  | some v =>
    match readToken W J v with
    | .error f => .error f
    | .ok none => .ok []
    | .ok (some f) => announce sender f

/-- `_np_in_piggy`, src/np_dendrit.c:179-276. -/
def inPiggy (W : World) (t : Tree Val) : Out (List Act) :=
  match decodeNodes W t (List.range (t.size % 65536)) with
  | .error f => .error f
  | .ok ns => .ok (ns.map .node)

/-- `_np_in_handshake`, src/np_dendrit.c:937-1039: the entry is used without a test. -/
def inHandshake (W : World) (J : Judge) (t : Tree Val) : Out (List Act) :=
  match value t urnHandshake with
  | none => .error .null
  | some v =>
    match readToken W J v with
    | .error f => .error f
    | .ok none => .ok []
    | .ok (some f) => if J.valid f tHandshake then .ok [.handshake f] else .ok []

/-- The handler of a system message with a body that was read. The acknowledgement handler (572-617) only tests for an entry and compares its pointer;
what it finds is the subject of `Verif/Ack`. -/
def handle (W : World) (J : Judge) : Kind → Tree Val → Out (List Act)
  | .ping, _ => .ok []
  | .ack, _ => .ok []
  | .piggy, t => inPiggy W t
  | .leave, t => inLeave W J t
  | .join, t => inJoin W J t
  | .update, t => inUpdate W J t
  | .availableSender, t => inAvailable W J true t
  | .availableReceiver, t => inAvailable W J false t

/-! ## The body of a message -/

/-- `_np_message_readbody`, src/np_message.c:544-572, for a binary message: the body begins behind the 124 bytes of nonce, mac and header, but the length
handed on is that of the whole message, so that 124 bytes behind the message are part of the buffer. -/
def readBody (lib : Lib) (bin behind : List Byte) : Except Ser.Stop (Tree Val) :=
  match Ser.read lib Tree.create ((bin ++ behind).drop Chunk.FIXED |>.take bin.length) with
  | .error s => .error s
  | .ok (t, _) => .ok t

/-- What happens after reading: a body that cannot be read is reported and the handler returns. -/
def withBody (r : Except Ser.Stop (Tree Val)) (go : Tree Val → Out (List Act)) : Out (List Act) :=
  match r with
  | .error .reported => .ok []
  | .error .crash => .error .abort
  | .ok t => go t

/-- A system message with these bytes. Ping does not read the body. -/
def receive (lib : Lib) (W : World) (J : Judge) (k : Kind) (bin behind : List Byte) : Out (List Act) :=
  if k = .ping then .ok []
  else withBody (readBody lib bin behind) (handle W J k)

/-- The subject of a packet: the first 32 bytes of the header, `__set_header_pointer`, src/np_message.c:62-91. -/
def subjectOf (p : Chunk.Pkt) : List Byte := p.header.take 32

/-- `__np_extract_handshake`, src/core/np_comp_identity.c:322-374, with the handshake handler: what the node does with a packet that is not encrypted.
`subject` is the id of the handshake channel. The results of `_np_message_add_chunk` and `_np_message_deserialize_chunks` are not looked at, and
`_np_message_readbody` asserts that the message is complete. -/
def extract (lib : Lib) (W : World) (J : Judge) (subject packet behind : List Byte) : Out (List Act) :=
  let p := Chunk.parsePacket packet
  if subjectOf p = subject then
    match Chunk.addChunk Chunk.FUEL Chunk.Msg.new p with
    | none => .error .over
    | some (m, _) =>
      match Chunk.deserializeChunks m with
      | none => .error .abort
      | some bin => withBody (readBody lib bin behind) (inHandshake W J)
  else .ok []

/-! ## End-to-end encryption -/

/-- `crypto_aead_chacha20poly1305_ietf_encrypt_detached` and `…_decrypt_detached`: key, nonce, additional data, text. -/
structure Aead where
  enc : List Byte → List Byte → List Byte → List Byte → List Byte × List Byte
  dec : List Byte → List Byte → List Byte → List Byte → List Byte → Option (List Byte)

/-- A binary message in its parts: nonce, mac, header, body. -/
structure Plain where
  nonce : List Byte
  mac : List Byte
  header : List Byte
  body : List Byte
deriving DecidableEq

/-- The four parts of a binary message. -/
def split (bin : List Byte) : Plain :=
  ⟨bin.take 12, Chunk.slice 12 16 bin, Chunk.slice 28 96 bin, bin.drop Chunk.FIXED⟩

/-- The parts as one message. -/
def Plain.join (p : Plain) : List Byte := p.nonce ++ p.mac ++ p.header ++ p.body

/-- `_np_message_encrypt_payload`, src/np_message.c:744-782: the body is replaced by its cipher text, the mac is written, the header is protected. -/
def encrypt (A : Aead) (writeKey nonce : List Byte) (bin : List Byte) : List Byte :=
  let p := split bin
  let c := A.enc writeKey nonce p.header p.body
  Plain.join ⟨nonce, c.2, p.header, c.1⟩

/-- `_np_message_decrypt_payload`, src/np_message.c:784-815. The message keeps nonce, mac and header. -/
def decrypt (A : Aead) (readKey : List Byte) (bin : List Byte) : Option (List Byte) :=
  let p := split bin
  (A.dec readKey p.nonce p.header p.body p.mac).map fun b => Plain.join ⟨p.nonce, p.mac, p.header, b⟩

/-- `np_crypto_session_type`. -/
inductive SessionType where
  | initial | priv | shared
  deriving DecidableEq, Repr

/-- The members of `np_crypto_session_t` that are used by a receiver. -/
structure Session where
  readKey : List Byte
  type : SessionType
  deriving DecidableEq

/-- The sessions of a channel by their id, `crypto_tree`. -/
abbrev Sessions := List (Dhkey × Session)

/-- `np_tree_find_dhkey`. -/
def Sessions.find (s : Sessions) (id : Dhkey) : Option Session := (s.find? fun e => e.1 == id).map (·.2)

/-- The session of this id is replaced or entered. -/
def Sessions.set (s : Sessions) (id : Dhkey) (x : Session) : Sessions := (id, x) :: s.filter fun e => e.1 != id

/-- The key of an entry read as an id. Simplified: the union member of a key of another type is taken to be the zero id. -/
def idOf : Name → Dhkey
  | .dhkey k => k
  | _ => Dhkey.zero

/-- `_np_intent_import_session`, src/core/np_comp_intent.c:865-907: the read key of every session that is named is overwritten. -/
def importSession : Sessions → List (Name × Val) → Out Sessions
  | s, [] => .ok s
  | s, (n, v) :: es =>
    match copy 32 v with
    | .error f => .error f
    | .ok k => importSession (s.set (idOf n) ⟨k, .shared⟩) es

/-- The audience of a message: the second id of the header. -/
def audienceOf (bin : List Byte) : Dhkey := Addr.ofBytes (Chunk.slice 60 32 bin)

/-- What comes of a message for a channel. -/
structure Result where
  sessions : Sessions
  delivered : Option (Tree Val)

/-- `__is_sender_token_available`, src/core/np_comp_msgproperty.c:2072-2095, and `_np_in_callback_wrapper`, src/np_dendrit.c:287-333: a message without a
session is not handled now; otherwise it is decrypted and read, and either keys are imported or the body goes to the callbacks. -/
def incoming (A : Aead) (lib : Lib) (s : Sessions) (bin behind : List Byte) : Out Result :=
  match s.find (audienceOf bin) with
  | none => .ok ⟨s, none⟩
  | some x =>
    match decrypt A x.readKey bin with
    | none => .ok ⟨s, none⟩
    | some plain =>
      match readBody lib plain behind with
      | .error .reported => .ok ⟨s, none⟩
      | .error .crash => .error .abort
      | .ok t =>
        if x.type = .initial then
          match importSession s (Tree.Spec.entries t) with
          | .error f => .error f
          | .ok s' => .ok ⟨s', none⟩
        else .ok ⟨s, some t⟩

/-- A channel: its sessions and the uuids of the messages that were seen. Simplified: uuids are not forgotten. -/
structure Channel where
  sessions : Sessions
  seen : List (List Byte)

/-- The uuid of a message, at offset 64 of the header. -/
def uuidOf (bin : List Byte) : List Byte := Chunk.slice 92 16 bin

/-- A message for a channel, `__np_property_handle_in_msg`, src/core/np_comp_msgproperty.c:1995-2053: `_np_msgproperty_check_msg_uniquety` notes the uuid
before the message is decrypted. -/
def Channel.step (A : Aead) (lib : Lib) (c : Channel) (bin behind : List Byte) : Out (Channel × Option (Tree Val)) :=
  match c.sessions.find (audienceOf bin) with
  | none => .ok (c, none)
  | some _ =>
    if c.seen.contains (uuidOf bin) then .ok (c, none)
    else
      match incoming A lib c.sessions bin behind with
      | .error f => .error f
      | .ok r => .ok (⟨r.sessions, uuidOf bin :: c.seen⟩, r.delivered)

/-- Messages one after the other, with the binaries and bodies that are delivered. -/
def Channel.run (A : Aead) (lib : Lib) (c : Channel) : List (List Byte × List Byte) → Out (Channel × List (List Byte × Tree Val))
  | [] => .ok (c, [])
  | (bin, behind) :: ms =>
    match c.step A lib bin behind with
    | .error f => .error f
    | .ok (c1, d) =>
      match c1.run A lib ms with
      | .error f => .error f
      | .ok (c2, ds) => .ok (c2, (d.map fun t => (bin, t)).toList ++ ds)

end Np.Inbox
