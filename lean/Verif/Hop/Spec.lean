import Verif.Hop.Model
import Verif.Chunk.Spec
/-! # What is asked of the way of a packet -/
namespace Np.Hop.Spec
open Np.Chunk
open _root_.Np.Hop

/-- What is assumed of the cipher: what was encrypted is decrypted by the same key, nonce and additional data; the mac has 16 bytes, the cipher text is as long as the text. -/
structure Lawful {K : Type} (c : Cipher K) : Prop where
  inverse : ∀ k n a p, c.dec k n a (c.enc k n a p).1 (c.enc k n a p).2 = some p
  mac : ∀ k n a p, (c.enc k n a p).1.length = 16
  length : ∀ k n a p, (c.enc k n a p).2.length = p.length

/-- The lengths of the fields of a part. -/
structure Sized (p : Part) : Prop where
  mac : p.mac.length = 16
  header : p.header.length = 96
  body : p.body.length = 900
  nonce : p.nonce.length = 12

/-- The nonce under which a packet is encrypted for a link: its last 12 bytes. -/
def nonceOf (pkt : List Byte) : List Byte := pkt.drop 1034

/-- The cipher text is the text, with the bytes of a stream that depends on key and nonce only added to it. -/
def Streams {K : Type} (c : Cipher K) : Prop :=
  ∃ stream : K → List Byte → Nat → Byte, ∀ k n a p i, (c.enc k n a p).2[i]? = (p[i]?).map (· ^^^ stream k n i)

/-- The packets that are sent for messages over a link, one after the other; each has its own link instructions. -/
def sent (ms : List Np.Chunk.Spec.Message) (instr : Nat → Nat → List Byte) : List (List Byte) :=
  (ms.zipIdx.map fun m => (List.range m.1.k).map fun i => m.1.packet (instr m.2 i) i).flatten

end Np.Hop.Spec
