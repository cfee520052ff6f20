/-!
# Model of the quality of a link to a peer

`__np_node_handle_response` and `__np_node_update` in `src/core/np_comp_node.c`.  Times, averages and latencies are rational numbers
instead of floating point numbers: a success rate is a multiple of 1/31, none of which is near the limits 1/4 and 3/4.
-/
namespace Np.Link

/-- `NP_NODE_SUCCESS_WINDOW`, include/np_settings.h:317. -/
def W : Nat := 31

/-- `BAD_LINK` and `GOOD_LINK`, include/np_settings.h:243-248. -/
def badLink : Rat := 1 / 4
def goodLink : Rat := 3 / 4

/-- `MISC_SEND_PINGS_SEC`, include/np_settings.h:236-238, with pi in six digits, `MISC_SEND_PINGS_MAX_EVERY_X_SEC` and
`BAD_LINK_REMOVE_GRACETIME`, 239-253. -/
def pingSec : Rat := 31415926 / 1000000
def pingMaxSec : Rat := pingSec * 3
def graceSec : Rat := pingMaxSec + 3

/-- The part of `struct np_node_s`, include/np_node.h:36-82, about the link, the time the key was created, and whether a leave message was
sent after the join message. -/
structure Node where
  sWin : List Bool
  sIdx : Nat
  avg : Rat
  lWin : List Rat
  lIdx : Nat
  latency : Rat
  nextPing : Rat
  inTable : Bool
  inLeafset : Bool
  created : Rat
  left : Bool
  passive : Bool

/-- `_np_node_t_new`, src/np_node.c:52-92; the first ping after a random delay. -/
def Node.fresh (now delay : Rat) (passive : Bool) : Node :=
  { sWin := (List.range W).map fun i => i % 2 == 1
    sIdx := 0
    avg := 1 / 2
    lWin := List.replicate W (1 / 100)
    lIdx := 0
    latency := -1
    nextPing := now + delay
    inTable := false
    inLeafset := false
    created := now
    left := false
    passive := passive }

/-- What becomes of a request sent to the peer: an answer after some time, or none within the time allowed. -/
inductive Event
  | response (latency : Rat)
  | timeout (waited : Rat)

/-- The next place in a window, src/core/np_comp_node.c:1924-1931. -/
def nextIdx (i : Nat) : Nat := if i + 1 = W then 0 else i + 1

/-- `__np_node_handle_response`, src/core/np_comp_node.c:1917-1966.  Events of other types do not come here (`__is_response_event`,
src/core/np_comp_msgproperty.c:2281-2294). -/
def Node.handle (n : Node) : Event → Node
  | .timeout w =>
    { n with sIdx := nextIdx n.sIdx, lIdx := nextIdx n.lIdx, sWin := n.sWin.set (nextIdx n.sIdx) false, lWin := n.lWin.set (nextIdx n.lIdx) w }
  | .response l =>
    { n with
      sIdx := nextIdx n.sIdx
      lIdx := nextIdx n.lIdx
      sWin := n.sWin.set (nextIdx n.sIdx) true
      lWin := (if n.latency = -1 then List.replicate W l else n.lWin).set (nextIdx n.lIdx) (if 0 < l then l else n.latency) }

/-- The sum of a window. -/
def total : List Rat → Rat
  | [] => 0
  | x :: r => x + total r

/-- The averages, src/core/np_comp_node.c:820-833. -/
def Node.average (n : Node) : Node :=
  { n with avg := (n.sWin.countP id : Rat) / W, latency := total n.lWin / W }

/-- What `__np_node_update` does besides. -/
inductive Action
  | insert
  | ping
  | remove
  deriving DecidableEq

/-- The latest outcome, `success_win[success_win_index]`. -/
def Node.latest (n : Node) : Bool := n.sWin.getD n.sIdx false

/-- Insertion in the routing table, src/core/np_comp_node.c:859-885.  `accepted`: the table took the peer in. -/
def Node.tryInsert (n : Node) (now : Rat) (accepted : Bool) : Node × List Action :=
  if n.inTable = false ∧ n.latest = true ∧ n.created + pingSec < now ∧ n.passive = false then ({ n with inTable := accepted }, [.insert])
  else (n, [])

/-- Pings, src/core/np_comp_node.c:889-929. -/
def Node.tryPing (n : Node) (now : Rat) : Node × List Action :=
  if badLink < n.avg ∧ n.nextPing ≤ now then
    ({ n with nextPing := if n.latest then now + pingMaxSec * n.avg else now + pingSec }, [.ping])
  else (n, [])

/-- Removal from the routing table, src/core/np_comp_node.c:934-937. -/
def Node.tryRemove (n : Node) : Node × List Action :=
  if n.latest = false ∧ n.inTable = true ∧ n.avg ≤ goodLink then ({ n with inTable := false }, [.remove]) else (n, [])

/-- `__np_node_update`, src/core/np_comp_node.c:795-997, without the exchange of routing rows and the rate of the duplicate filter. -/
def Node.update (n : Node) (now : Rat) (accepted : Bool) : Node × List Action :=
  let n := n.average
  if n.left then (n, [])
  else
    let a := n.tryInsert now accepted
    let b := a.1.tryPing now
    let c := b.1.tryRemove
    (c.1, a.2 ++ b.2 ++ c.2)

/-- `__is_node_invalid`, src/core/np_comp_node.c:120-227, for a key of known type with a node.  `tokenValid`: the key has a token and it is
valid. -/
def Node.isInvalid (n : Node) (now : Rat) (attempts : Nat) (tokenValid : Bool) : Bool :=
  if now < n.created + graceSec then false
  else if 15 < attempts then true
  else if n.left then true
  else if !n.inLeafset && !n.inTable then true
  else if n.avg < badLink then true
  else !tokenValid

/-- `__has_to_leave`, src/core/np_comp_node.c:230-283, for a node key with a node. -/
def Node.hasToLeave (n : Node) (now : Rat) : Bool :=
  if now + 31415926 / 10000000 < n.created + graceSec then false
  else if n.left then false
  else (!n.inLeafset && !n.inTable) || decide (n.avg < badLink)

/-- Histories of a link. -/
inductive Op
  | event (e : Event)
  | update (now : Rat) (accepted : Bool)

def Node.step (n : Node) : Op → Node
  | .event e => n.handle e
  | .update now a => (n.update now a).1

def Node.run (n : Node) : List Op → Node
  | [] => n
  | o :: r => (n.step o).run r

end Np.Link
