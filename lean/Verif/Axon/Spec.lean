import Verif.Axon.Model
import Verif.Phero.Spec
import Verif.Route.Spec

/-! # What is asked of the sending side -/
namespace Np.Axon.Spec

open Np.Dhkey Np.Bloom

/-- The table has recorded a trail for the id: the position of the id is in use, its summary contains the id, and one of its
elements contains the id and lists the hop.  `sender` tells trails to senders from trails to receivers. -/
def Trail (t : Phero.Table) (id : Dhkey) (sender : Bool) (hop : Dhkey) : Prop :=
  ∃ e, t.entry (id.t0.toNat % 257) = some e ∧ e.zero.check id = true ∧
    ∃ x ∈ e.slots, x.bloom.check id = true ∧ ∃ h ∈ (if sender then x.send else x.recv), h.id = hop

/-- All trails for the id have at least this strength, in 1/256. -/
def Strong (t : Phero.Table) (id : Dhkey) (k : Nat) : Prop :=
  ∀ e, t.entry (id.t0.toNat % 257) = some e → ∀ c ∈ cellsOf id, k ≤ e.zero.age c

/-- A peer the node can hand a message to. -/
def Peer (n : Node) (x : Dhkey) : Prop := x ≠ n.me ∧ n.exists? x = true

/-- The node has a connection. -/
def Connected (n : Node) : Prop := Route.hasConnection n.route = true

/-- How many elements of the position of the id list the hop as a receiver or sender. -/
def timesRecorded (t : Phero.Table) (id : Dhkey) (sender : Bool) (hop : Dhkey) : Nat :=
  match t.entry (id.t0.toNat % 257) with
  | none => 0
  | some e => (e.slots.filter fun x => x.bloom.check id && ((if sender then x.send else x.recv).any fun h => decide (h.id = hop))).length

/-- The routing module is one that arises from joins and leaves. -/
def Routed (n : Node) (me : Dhkey) (cap : Nat) (ops : List Route.Op) : Prop := n.route = Route.run (Route.State.init me cap) ops

end Np.Axon.Spec
