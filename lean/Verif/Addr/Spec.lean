import Verif.Addr.Model

/-! # Specification of addresses

An address names a protocol, a host, a port, and either the key of one node or any node. Its text has four fields separated by colons; only the host
may contain colons. -/
namespace Np.Addr.Spec

/-- The protocols an address can name. -/
inductive Proto where
  | udp4 | udp6 | tcp4 | tcp6 | pas4 | pas6
deriving DecidableEq, Repr

/-- Name of a protocol. -/
def Proto.name : Proto → String
  | .udp4 => "udp4" | .udp6 => "udp6" | .tcp4 => "tcp4" | .tcp6 => "tcp6" | .pas4 => "pas4" | .pas6 => "pas6"

/-- The number the code uses for a protocol. -/
def Proto.code : Proto → BitVec 16
  | .udp4 => 0x12#16 | .udp6 => 0x14#16 | .tcp4 => 0x22#16 | .tcp6 => 0x24#16 | .pas4 => 0x102#16 | .pas6 => 0x104#16

/-- A protocol one can connect to. -/
def Proto.active : Proto → Bool
  | .pas4 => false | .pas6 => false | _ => true

/-- The text `a:b:c:d`. -/
def fields (a b c d : List Char) : List Char := a ++ [':'] ++ b ++ [':'] ++ c ++ [':'] ++ d

/-- A text names a protocol if it starts with its name. -/
def names (b : List Char) (p : Proto) : Prop := p.name.toList <+: b

/-- `text` is the address with these fields: only the host may contain colons. -/
def IsAddress (text key : List Char) (p : Proto) (host port : List Char) : Prop :=
  ∃ b, names b p ∧ ':' ∉ key ∧ ':' ∉ b ∧ ':' ∉ port ∧ text = fields key b host port

/-- The text of a key in an address: 64 hex digits. -/
def keyText (k : Dhkey) : List Char := idStr k.bytes

/-- The number a text of decimal digits stands for. -/
def numeral (q : List Char) : Nat := q.foldl (fun a c => 10 * a + (c.toNat - 48)) 0

/-- The C string in a buffer: the text before the first NUL; `none` if there is no NUL. -/
def cString : List Char → Option (List Char)
  | [] => none
  | c :: cs => if c = '\x00' then some [] else (cString cs).map (c :: ·)

/-- The sockets a node listens on. -/
def listening (s : St) : List (BitVec 16 × List Char × List Char) := (s.ifaces.filter (·.socket)).map fun i => (i.node.protocol, i.node.ip, i.node.port)

/-- Peers the node knows under keys that are not its own. -/
def knows (s : St) (ip port : List Char) : Prop := ∃ k n, (k, n) ∈ s.peers ∧ k ≠ s.nodeKey ∧ k ≠ s.identity ∧ n.ip = ip ∧ n.port = port

/-- `sub` occurs somewhere in `s`. -/
def occurs (sub s : List Char) : Prop := ∃ a b, s = a ++ sub ++ b

/-- The four numbers of an IPv4 address. -/
def octet (a : BitVec 32) (i : Nat) : Nat := a.toNat / 256 ^ (3 - i) % 256

/-- Private IPv4 addresses (RFC 1918): 10/8, 172.16/12, 192.168/16. -/
def Private4 (a : BitVec 32) : Prop :=
  octet a 0 = 10 ∨ (octet a 0 = 172 ∧ 16 ≤ octet a 1 ∧ octet a 1 ≤ 31) ∨ (octet a 0 = 192 ∧ octet a 1 = 168)

/-- Private IPv6 addresses: unique local (RFC 4193, fc00::/7) and link local (RFC 4291, fe80::/10). -/
def Private6 (a : List (BitVec 8)) : Prop :=
  ∃ b0 b1 rest, a = b0 :: b1 :: rest ∧ (b0.toNat / 2 = 0xfc / 2 ∨ (b0 = 0xfe#8 ∧ b1.toNat / 64 = 0x80 / 64))

/-- A private address in text form, as the operating system reads it. -/
def PrivateIp (e : Env) (ip : List Char) : Prop :=
  (∃ a, e.pton4 ip = some a ∧ Private4 a) ∨ (e.pton4 ip = none ∧ ∃ a, e.pton6 ip = some a ∧ Private6 a)

/-- Number of leading numbers two IPv4 addresses have in common. -/
def commonOctets (a b : BitVec 32) : Nat :=
  if octet a 0 ≠ octet b 0 then 0 else if octet a 1 ≠ octet b 1 then 1 else if octet a 2 ≠ octet b 2 then 2 else if octet a 3 ≠ octet b 3 then 3 else 4

/-- Assumption about the own addresses the operating system reports: they have at most 40 characters, and none is the beginning of another. -/
structure Locals (P : List Char → Prop) : Prop where
  short : ∀ ip, P ip → ip.length ≤ 40
  text : ∀ ip, P ip → '\x00' ∉ ip
  free : ∀ a b, P a → P b → a <+: b → a = b

/-- All own addresses reported during a call satisfy `P`. -/
def reports (e : Env) (P : List Char → Prop) : Prop := ∀ h p ip, e.localIp h p = some ip → P ip

/-- The operating system during an operation. -/
def env : Op → Option Env
  | .listen e _ _ _ => some e
  | .join e _ => some e
  | .run e => some e
  | .stop => none
  | .peers _ => none

/-- All own addresses reported during a history satisfy `P`. -/
def reportsAll (ops : List Op) (P : List Char → Prop) : Prop := ∀ o ∈ ops, ∀ e, env o = some e → reports e P

end Np.Addr.Spec
