import Verif.Chunk.Model
/-! # Specification of chunking: what a well-formed message is and what complete means -/
namespace Np.Chunk.Spec

/-- A message in binary form with `k` chunks: 12 bytes nonce, 16 bytes mac, 96 bytes header that says `k`, 900 bytes of body per chunk. -/
structure Message where
  nonce : List Byte
  mac : List Byte
  header : List Byte
  body : List Byte
  k : Nat
deriving DecidableEq

def Message.binary (m : Message) : List Byte := m.nonce ++ m.mac ++ m.header ++ m.body

/-- The start value of the chunk counter of a message. -/
def Message.start (m : Message) : Nat := (num16 m.mac).toNat

structure Message.WF (m : Message) : Prop where
  nonce : m.nonce.length = 12
  mac : m.mac.length = 16
  header : m.header.length = 96
  body : m.body.length = 900 * m.k
  pos : 1 ≤ m.k
  parts : (num16 (m.header.drop 92)).toNat = m.k
  /-- the chunk counter does not overflow -/
  fits : m.start + m.k ≤ 65536

/-- What identifies a message: its uuid (16 bytes at offset 64 of the header) and all of its mac but the counter. -/
def Message.id (m : Message) : List Byte × List Byte := ((m.header.drop 64).take 16, m.mac.drop 2)

/-- Packet `i` of a message as it travels: link instructions, mac with counter, header, the `i`-th 900 bytes of the body, nonce. -/
def Message.packet (m : Message) (instr : List Byte) (i : Nat) : List Byte :=
  buildPacket instr { mac := m.mac, header := m.header, body := (m.body.drop (900 * i)).take 900, nonce := m.nonce, chunkOffset := i }

/-- An arriving packet: which message (by position in a list of messages), which chunk, and the link instructions it came with. -/
structure Arrival where
  msg : Nat
  chunk : Nat
  instr : List Byte

/-- The packet of an arrival. -/
def bytesOf (ms : List Message) (a : Arrival) : List Byte :=
  match ms[a.msg]? with
  | some m => m.packet a.instr a.chunk
  | none => []

/-- All chunks of message `j` are among the arrivals. -/
def Complete (k : Nat) (j : Nat) (as : List Arrival) : Prop := ∀ i, i < k → ∃ a ∈ as, a.msg = j ∧ a.chunk = i

instance (k j : Nat) (as : List Arrival) : Decidable (Complete k j as) := by unfold Complete; exact inferInstance

end Np.Chunk.Spec
