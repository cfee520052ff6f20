/-!
# Model of message chunking and reassembly

`src/np_message.c` (chunking, `_np_message_add_chunk`, `_np_message_deserialize_chunks`), `src/core/np_comp_node.c`
(`_np_node_build_network_packet`) and `src/core/np_comp_alias.c` (`_np_alias_check_msgpart_cache`), at the level of bytes.

A message in binary form is the byte string nonce (12) ‖ mac (16) ‖ header (96) ‖ body. Writes and reads outside an allocation are the
result `none`. Simplifications: the host is little endian (the code mixes libsodium's little endian numbers with native `uint16_t`); the
encryption of packets between neighbours and the end-to-end encryption are not part of this model; reference counts are not modelled.
-/
namespace Np.Chunk

abbrev Byte := BitVec 8

/-- A sub string of a buffer. -/
def slice (off len : Nat) (l : List Byte) : List Byte := (l.drop off).take len

/-- `MSG_NONCE_SIZE`, `MSG_MAC_SIZE`, `MSG_HEADER_SIZE`, `MSG_INSTRUCTIONS_SIZE`, include/np_settings.h. -/
def NONCE : Nat := 12
def MAC : Nat := 16
def HEADER : Nat := 96
def INSTR : Nat := 22
/-- `fixed_header_bytes`, src/np_message.c:150. -/
def FIXED : Nat := NONCE + MAC + HEADER
/-- `MSG_CHUNK_SIZE_1024 - fixed_header_bytes`. -/
def BODY : Nat := 1024 - FIXED

/-- The number in the first two bytes, little endian (`uint16_t` and libsodium's number functions with length 2). -/
def num16 (l : List Byte) : BitVec 16 :=
  match l with
  | a :: b :: _ => b ++ a
  | _ => 0

/-- Replaces the first two bytes by a number. -/
def put16 (l : List Byte) (x : BitVec 16) : List Byte :=
  match l with
  | _ :: _ :: r => x.extractLsb' 0 8 :: x.extractLsb' 8 8 :: r
  | l => l

/-- `binary_length` for a serialized body of `objectSize` bytes, `_np_message_create` lines 594-606 and `_np_message_setbody` lines 677-688. -/
def binaryLength (objectSize : Nat) : Nat :=
  (if objectSize % BODY = 0 then objectSize / BODY else objectSize / BODY + 1) * BODY + FIXED

/-- `_np_message_calculate_chunking`, lines 145-169: the length is cut to 16 bits before the division. The test for more than 65535
chunks can never be true after that. -/
def calculateChunking (binLength : Nat) : Nat := (binLength - FIXED) % 65536 / BODY

/-- The offset of the field `parts` in the header, `__set_header_pointer` lines 62-91: two ids, uuid, tstamp and ttl before it. -/
def PARTS_OFF : Nat := 32 + 32 + 16 + 8 + 4

/-- `_np_message_create` lines 585-666 after the header fields other than `parts` are set in `hdr`; `data` is the serialized body, `pad` the
random padding (its length is what `randombytes_buf` is asked for). -/
def create (nonce mac hdr data pad : List Byte) : List Byte :=
  let parts := calculateChunking (binaryLength data.length)
  nonce ++ mac ++ (hdr.take PARTS_OFF ++ put16 (hdr.drop PARTS_OFF) (BitVec.ofNat 16 parts)) ++ data ++ pad

/-- The fields of a message part that are used, `struct np_n2n_messagepart_s`; the pointers into the message are the bytes they point to. -/
structure Part where
  mac : List Byte
  header : List Byte
  body : List Byte
  nonce : List Byte
  chunkOffset : Nat
deriving DecidableEq

/-- `*msg->parts` of a binary message. -/
def binParts (bin : List Byte) : Nat := (num16 (slice (NONCE + MAC + PARTS_OFF) 2 bin)).toNat

/-- `_np_message_serialize_chunked`, lines 357-416; `none` if a chunk's body would lie beyond the end of the message. -/
def serializeChunked (bin : List Byte) : Option (List Part) :=
  if FIXED + BODY * binParts bin ≤ bin.length then
    some ((List.range (binParts bin)).map fun i =>
      { mac := slice NONCE MAC bin, header := slice (NONCE + MAC) HEADER bin, body := slice (FIXED + BODY * i) BODY bin,
        nonce := slice 0 NONCE bin, chunkOffset := i })
  else none

/-- `_np_node_build_network_packet`, src/core/np_comp_node.c:1492-1537, for a part that is not forwarded: `seq` (4 bytes) and `hop` (2
bytes) are the instructions, the first 16 bytes are left for the mac of the link. -/
def buildPacket (instr : List Byte) (p : Part) : List Byte :=
  instr ++ put16 p.mac (num16 p.mac + BitVec.ofNat 16 p.chunkOffset) ++ p.header ++ p.body ++
    (if p.chunkOffset > 0 then put16 p.nonce (num16 p.nonce - BitVec.ofNat 16 p.chunkOffset) else p.nonce)

/-- A received message part: the bytes its pointers point to. -/
structure Pkt where
  mac : List Byte
  header : List Byte
  body : List Byte
  nonce : List Byte
deriving DecidableEq

/-- `_np_message_deserialize_header_and_instructions`, src/np_message.c:418-468. -/
def parsePacket (buf : List Byte) : Pkt :=
  { mac := slice INSTR MAC buf, header := slice (INSTR + MAC) HEADER buf, body := slice (INSTR + MAC + HEADER) BODY buf,
    nonce := slice (INSTR + MAC + HEADER + BODY) NONCE buf }

/-- The chunk number of a packet: the first two bytes of the mac. -/
def Pkt.ctr (p : Pkt) : Nat := (num16 p.mac).toNat
/-- `*e2e_msg_part.parts`. -/
def Pkt.parts (p : Pkt) : Nat := (num16 (slice PARTS_OFF 2 p.header)).toNat

/-- The fields of `struct np_e2e_message_s` used while a message is assembled. `msg_chunks == NULL` is the empty list. -/
structure Msg where
  chunks : List (Option Pkt)
  counter : Nat
deriving DecidableEq

/-- A new message object. -/
def Msg.new : Msg := ⟨[], 0⟩

/-- `_np_message_add_chunk`, lines 171-299. The fields of the message that point into the base chunk (`mac_e`, `parts`, ...) always point into
`msg_chunks[0]`. The result tells `np_ok` (true) from `np_operation_failed`. The first number is recursion fuel. -/
def addChunk : Nat → Msg → Pkt → Option (Msg × Bool)
  | 0, _, _ => none
  | f + 1, m, c =>
    match m.chunks with
    | [] => if c.parts = 0 then none else some (⟨some c :: List.replicate (c.parts - 1) none, m.counter + 1⟩, true)
    | none :: _ => none
    | some base :: rest =>
      if c.ctr = base.ctr then some (m, false)
      else if c.ctr < base.ctr then do
        let r ← addChunk f { m with chunks := some c :: rest } base
        pure (r.1, true)
      else
        match m.chunks[c.ctr - base.ctr]? with
        | none => none
        | some (some d) =>
          if c.mac = d.mac then some (m, false)
          else do
            let r ← addChunk f { m with chunks := m.chunks.set (c.ctr - base.ctr) (some c) } d
            pure (r.1, true)
        | some none => some (⟨m.chunks.set (c.ctr - base.ctr) (some c), m.counter + 1⟩, true)

/-- Fuel that suffices for every message (chunk numbers grow with every re-insertion). -/
def FUEL : Nat := 65538

/-- `*msg->parts` of a message under assembly. -/
def Msg.parts (m : Msg) : Nat :=
  match m.chunks with
  | some base :: _ => base.parts
  | _ => 0

/-- The loop of `_np_message_deserialize_chunks`, lines 513-528: the bodies of the first `n` chunks. -/
def bodies : Nat → List (Option Pkt) → Option (List Byte)
  | 0, _ => some []
  | _ + 1, [] => none
  | _ + 1, none :: _ => none
  | n + 1, some c :: r => do
    let b ← bodies n r
    pure (c.body ++ b)

/-- `_np_message_deserialize_chunks`, lines 490-542: the binary message; `none` for the result `false` and for reads beyond the chunk array. -/
def deserializeChunks (m : Msg) : Option (List Byte) :=
  match m.chunks with
  | some base :: _ => do
    let b ← bodies base.parts m.chunks
    pure (base.nonce ++ base.mac ++ base.header ++ b)
  | _ => none

/-- The name under which the chunks of a message are collected, `check_dhkey` of `_np_alias_check_msgpart_cache`,
src/core/np_comp_alias.c:51-60: uuid and the last 14 bytes of the mac. Simplification: the two values themselves, not their hash. -/
def Pkt.key (p : Pkt) : List Byte × List Byte := (slice 64 16 p.header, p.mac.drop 2)

/-- The reassembly state of a node: `msg_part_cache` and `msg_part_filter`. Simplification: the filter is exact (the bloom filter of the code
may report false positives and forgets with time). -/
structure Node where
  cache : List ((List Byte × List Byte) × Msg)
  seen : List (List Byte × List Byte)

def Node.init : Node := ⟨[], []⟩

/-- `np_tree_find_dhkey` on `msg_part_cache`. -/
def Node.find (n : Node) (k : List Byte × List Byte) : Option Msg := (n.cache.find? (fun e => e.1 == k)).map (·.2)

/-- Replacement or insertion of an entry. -/
def Node.store (n : Node) (k : List Byte × List Byte) (m : Msg) : Node :=
  { n with cache := (k, m) :: n.cache.filter (fun e => e.1 != k) }

/-- `np_tree_del_dhkey` and the addition to the filter, lines 116-118. -/
def Node.finish (n : Node) (k : List Byte × List Byte) : Node :=
  { cache := n.cache.filter (fun e => e.1 != k), seen := k :: n.seen }

/-- `_np_alias_check_msgpart_cache`, lines 38-164: the completed message, if any. `none` is a memory error. -/
def checkMsgpartCache (n : Node) (p : Pkt) : Option (Node × Option Msg) :=
  if n.seen.contains p.key then some (n, none)
  else if p.parts > 1 then
    match n.find p.key with
    | some m => do
      let r ← addChunk FUEL m p
      if r.1.counter ≠ r.1.parts then pure (n.store p.key r.1, none)
      else pure (n.finish p.key, some r.1)
    | none => do
      let r ← addChunk FUEL Msg.new p
      pure (n.store p.key r.1, none)
  else do
    let r ← addChunk FUEL Msg.new p
    pure ({ n with seen := p.key :: n.seen }, some r.1)

/-- A received packet: reassembly, and for a complete message `_np_message_deserialize_chunks`. The output is the binary message handed on. -/
def receive (n : Node) (buf : List Byte) : Option (Node × Option (List Byte)) := do
  let (n, m) ← checkMsgpartCache n (parsePacket buf)
  pure (n, m.bind deserializeChunks)

/-- A sequence of arriving packets and what is handed on at each. -/
def receiveAll : Node → List (List Byte) → Option (Node × List (Option (List Byte)))
  | n, [] => some (n, [])
  | n, p :: ps => do
    let (n, o) ← receive n p
    let (n, os) ← receiveAll n ps
    pure (n, o :: os)

/-- What `__np_node_split_message` (src/core/np_comp_node.c:1578-1608) sends for a binary message. -/
def packets (instr : List Byte) (bin : List Byte) : Option (List (List Byte)) :=
  (serializeChunked bin).map fun ps => ps.map (buildPacket instr)

end Np.Chunk
