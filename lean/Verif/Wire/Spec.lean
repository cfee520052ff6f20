import Verif.Wire.Model

/-! # Specification of the transport of packets -/
namespace Np.Wire.Spec

open Np.Wire

/-- The answers of the operating system to one call: either nothing at all is transferred, or a whole packet before the first refusal. -/
def Whole (rs : List Int) : Prop :=
  (rs.takeWhile (0 < ·)) = [] ∨ (size : Int) ≤ (rs.takeWhile (0 < ·)).sum

/-- A history in which all packets have the right size and no call is stopped in the middle of a packet, and the other side does not close the
connection. -/
def Smooth : List TcpStep → Prop
  | [] => True
  | .append p :: l => p.length = size ∧ Smooth l
  | .write _ rs :: l => Whole rs ∧ Smooth l
  | .read _ rs :: l => Whole rs ∧ (∀ r ∈ rs, r ≠ 0) ∧ Smooth l

/-- No call of `_np_network_read` drops a packet because of the limit of messages per second. -/
def Unlimited : List TcpStep → Prop
  | [] => True
  | .read pass _ :: l => pass = true ∧ Unlimited l
  | _ :: l => Unlimited l

/-- `bytes` consists of the packets, each of the right size, in order, with anything in between. -/
inductive Cut : List Packet → List Byte → Prop
  | done (rest : List Byte) : Cut [] rest
  | packet (gap p : List Byte) (ps : List Packet) (bytes : List Byte) : p.length = size → Cut ps bytes → Cut (p :: ps) (gap ++ p ++ bytes)

/-- The packets a history asks to send. -/
def packets : List TcpStep → List Packet
  | [] => []
  | .append p :: l => p :: packets l
  | _ :: l => packets l

/-- The datagrams that arrive in a history. -/
def datagrams {α : Type} : List (UdpStep α) → List (α × List Byte)
  | [] => []
  | .arrive a d :: l => (a, d) :: datagrams l
  | _ :: l => datagrams l

/-- No packet is dropped because of the limit of messages per second. -/
def UdpUnlimited {α : Type} : List (UdpStep α) → Prop
  | [] => True
  | .read pass _ :: l => pass = true ∧ UdpUnlimited l
  | _ :: l => UdpUnlimited l

end Np.Wire.Spec
