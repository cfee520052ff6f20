import Verif.Tun.Model
/-! # What is asked of the tunnel -/
namespace Np.Tun.Spec
open _root_.Np.Tun

/-- A text of C. -/
def NoZero (t : Text) : Prop := ∀ c ∈ t, c ≠ 0

/-- The texts of a configuration are such. -/
def GoodCfg (c : Cfg) : Prop := NoZero c.domain ∧ NoZero c.ip ∧ NoZero c.netmask

/-- A whole packet of IP version 4: it has the length that is written in it, and at least the header. -/
structure Whole (p : List Nat) : Prop where
  header : 20 ≤ p.length
  version : p.getD 0 0 / 16 = 4
  total : p.length = 256 * p.getD 2 0 + p.getD 3 0
  words : 5 ≤ p.getD 0 0 % 16

/-- The destination of a packet, as a text. -/
def destination (p : List Nat) : Text := ipText (p.getD 16 0) (p.getD 17 0) (p.getD 18 0) (p.getD 19 0)

/-- The byte `i` of the netmask of a network with `n` bits. -/
def maskByte (n i : Nat) : Nat := 256 - 2 ^ (8 - min 8 (n - 8 * i))

/-- The calls of a user. -/
inductive Op
  | init (y : Sys)
  | start (y : Sys)
  | stop
  | destroy (y : Sys)

def step (hash : Text → Subject) (c : Cfg) (t : Tun) : Op → Except Fault Tun
  | .init y => Tun.init hash c y t
  | .start y => Tun.start hash c y t
  | .stop => .ok (Tun.stop t)
  | .destroy y => Tun.destroy y t

/-- A history of calls. -/
def run (hash : Text → Subject) (c : Cfg) : Tun → List Op → Except Fault Tun
  | t, [] => .ok t
  | t, o :: os => match step hash c t o with
    | .error f => .error f
    | .ok t => run hash c t os

/-- Packets are read from the file of the tunnel and the subjects are open. -/
def Flows (t : Tun) : Prop := t.watched = some t.fd ∧ t.enabled = true

/-- No packets are read and the subjects are closed. -/
def Quiet (t : Tun) : Prop := t.watched = none ∧ t.enabled = false

end Np.Tun.Spec
