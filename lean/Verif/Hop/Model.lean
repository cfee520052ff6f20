import Verif.Chunk.Model
/-!
# Model of the way of a packet from node to node

`__np_node_send_encrypted` of src/core/np_comp_node.c, `__np_alias_decrypt` of src/core/np_comp_alias.c, `_np_out_forward` of src/np_axon.c and what they use of
src/np_message.c, at the level of bytes.  A packet has 1046 bytes: mac of the link (16), sequence number (4), number of hops (2), part of the message (1012) and nonce (12).
The cipher of libsodium is a parameter.  Which node a packet is handed to is modelled in areas Axon and Route; the chunks of a message are those of area Chunk.
-/
namespace Np.Hop
open Np.Chunk

/-- `crypto_aead_chacha20poly1305_ietf_encrypt_detached` and its inverse, src/np_crypto.c:205-275: key, nonce, additional data, text; the result is mac and cipher text. -/
structure Cipher (K : Type) where
  enc : K → List Byte → List Byte → List Byte → List Byte × List Byte
  dec : K → List Byte → List Byte → List Byte → List Byte → Option (List Byte)

/-- The two bytes of a number. -/
def bytes16 (x : BitVec 16) : List Byte := put16 [0, 0] x

/-- The encryption in place, src/core/np_comp_node.c:1653-1666: everything between mac and nonce.  Simplification: the session key is set and the link has a
network; otherwise nothing is sent, src/core/np_comp_node.c:1625-1634. -/
def closeLink {K : Type} (c : Cipher K) (k : K) (pkt : List Byte) : List Byte :=
  let r := c.enc k (pkt.drop 1034) [] (slice 16 1018 pkt)
  r.1 ++ r.2 ++ pkt.drop 1034

/-- The decryption in place, src/core/np_comp_alias.c:630-658; `none`: the packet is dropped. -/
def openLink {K : Type} (c : Cipher K) (k : K) (pkt : List Byte) : Option (List Byte) :=
  (c.dec k (pkt.drop 1034) [] (pkt.take 16) (slice 16 1018 pkt)).map fun d => pkt.take 16 ++ d ++ pkt.drop 1034

/-- `__is_msgpart_expired`, src/core/np_comp_alias.c:575-588; `deadline` is the sum of time stamp and time to live in a header, in the unit of the clock. -/
def expired (deadline : List Byte → Nat) (now : Nat) (pkt : List Byte) : Bool := now > deadline (parsePacket pkt).header

/-- What a node reads of a packet that arrives over a link, src/core/np_comp_alias.c:590-702. -/
def receive {K : Type} (c : Cipher K) (deadline : List Byte → Nat) (k : K) (now : Nat) (pkt : List Byte) : Option (List Byte) :=
  match openLink c k pkt with
  | none => none
  | some d => if expired deadline now d then none else some d

/-- The number of hops in a packet, src/np_message.c:432-433. -/
def hopOf (pkt : List Byte) : BitVec 16 := num16 (slice 20 2 pkt)

/-- `_np_node_build_network_packet` of a part that is forwarded, src/core/np_comp_node.c:1503-1505: only sequence number and number of hops are written. -/
def stamp (seq : List Byte) (hop : BitVec 16) (pkt : List Byte) : List Byte := pkt.take 16 ++ seq ++ bytes16 hop ++ pkt.drop 22

/-- A node passes on what it has read: src/np_axon.c:292-318 with `np_messagepart_clone`, src/np_message.c:470-488, and `__np_node_send_encrypted`,
src/core/np_comp_node.c:1610-1718. -/
def forward {K : Type} (c : Cipher K) (k : K) (seq pkt : List Byte) : List Byte := closeLink c k (stamp seq (hopOf pkt + 1) pkt)

/-- The first node: `_np_node_build_network_packet`, src/core/np_comp_node.c:1492-1537, with no hops (src/np_message.c:396), and the encryption; `old` are the first bytes
of the blob. -/
def send {K : Type} (c : Cipher K) (k : K) (old seq : List Byte) (p : Part) : List Byte := closeLink c k (buildPacket (old ++ seq ++ bytes16 0) p)

/-- A node on the way: the time at which the packet comes in, and the key and the sequence number of the link on which it goes out. -/
structure Stop (K : Type) where
  now : Nat
  key : K
  seq : List Byte

/-- The way of a packet that comes in over a link with key `k`: over the nodes of the list, and to the last one, at which it arrives at `last`. -/
def way {K : Type} (c : Cipher K) (deadline : List Byte → Nat) (k : K) (pkt : List Byte) (last : Nat) : List (Stop K) → Option (List Byte)
  | [] => receive c deadline k last pkt
  | s :: l => match receive c deadline k s.now pkt with
    | none => none
    | some d => way c deadline s.key (forward c s.key s.seq d) last l

/-- `_np_message_create`, src/np_message.c:604-667: the memory of the message is not cleared, and nonce and mac are not written; `old` is what was there.  All fields of the
header are written, src/np_message.c:609-641. -/
def create (old hdr data pad : List Byte) : List Byte := Np.Chunk.create (slice 0 12 old) (slice 12 16 old) hdr data pad

/-- `_np_message_encrypt_payload`, src/np_message.c:744-775, which is called for messages of users only, src/np_axon.c:109-112; `rnd` are the random bytes. -/
def encryptPayload {K : Type} (c : Cipher K) (k : K) (rnd bin : List Byte) : List Byte :=
  let hdr := slice 28 96 bin
  let r := c.enc k rnd hdr (bin.drop 124)
  rnd ++ r.1 ++ hdr ++ r.2

/-- The packets of a message as they go out on the first link, src/np_message.c:357-416 and src/core/np_comp_node.c:1610-1718; `blob` and `seq` give the first bytes of the
blob and the sequence number of each packet. -/
def wire {K : Type} (c : Cipher K) (k : K) (blob seq : Nat → List Byte) (bin : List Byte) : Option (List (List Byte)) :=
  (serializeChunked bin).map fun ps => ps.map fun p => send c k (blob p.chunkOffset) (seq p.chunkOffset) p

end Np.Hop
