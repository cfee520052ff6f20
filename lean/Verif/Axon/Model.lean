import Verif.Route.Model
import Verif.Phero.Model

/-! # Model of the sending side

`src/np_axon.c`: which peers an outgoing or forwarded message is handed to.  Sending a message to a peer is one entry of a list of
ids, in the order of the calls of `np_jobqueue_submit_event`.  `none` stands for the end of the process.  The aging of the table at
the end of some of the functions is `Phero.exhale`, an operation of its own.  Target probabilities are numbers `p` with
`p - 1 < 256 * probability ≤ p`, so that `p ≤ h` says the same as `probability ≤ h / 256`. -/
namespace Np.Axon

open Np.Dhkey

/-- What the functions read: the routing module, the pheromone table, the ids in the key cache, and what is found in the key of a
peer. -/
structure Node where
  route : Route.State
  trails : Phero.Table
  /-- `_np_keycache_exists` -/
  exists? : Dhkey → Bool
  /-- `_np_key_get_node` is not NULL, for ids in the key cache -/
  hasNode : Dhkey → Bool
  /-- the success rate of a peer is above `BAD_LINK`, and the comparison of latencies: parameters of `Route.lookup` -/
  good : Dhkey → Bool
  worse : Dhkey → Dhkey → Bool

/-- The id of the node, `context->my_node_key->dhkey`. -/
def Node.me (n : Node) : Dhkey := n.route.leaf.me

/-- The condition in the loop of `__np_axon_send_chunks`, src/np_axon.c:179-180, and of `_np_out_forward`, 298-299. -/
def Node.reachable (n : Node) (x : Dhkey) : Bool := !equal x n.me && n.exists? x

/-- `__np_axon_send_chunks`, src/np_axon.c:167-236.  The result is true if something has been sent. -/
def sendChunks (n : Node) (l : List Dhkey) : List Dhkey × Bool := (l.filter n.reachable, (l.filter n.reachable) ≠ [])

/-- `sll_remove` with `__dhkey_compare`, and the loop with `sll_delete` and `break`, src/np_axon.c:267 and 272-290: the first
element with this id. -/
def removeFirst (x : Dhkey) : List Dhkey → List Dhkey
  | [] => []
  | y :: r => if equal y x then r else y :: removeFirst x r

/-- `target_age -= 0.1` after `_np_pheromone_snuffle`, which has set it to a multiple of 1/256. -/
def lower (p : Nat) : Nat := p - 25

/-- The loop of `_np_out_forward`, src/np_axon.c:260-270: at most `k` further rounds. -/
def forwardLoop (t : Phero.Table) (subject prev : Dhkey) : Nat → Nat → List Dhkey
  | 0, _ => []
  | k + 1, p =>
    let r := Phero.snuffle t subject p false
    if removeFirst prev r.1 = [] then forwardLoop t subject prev k (lower r.2) else removeFirst prev r.1

/-- `_np_out_forward`, src/np_axon.c:242-355. -/
def outForward (n : Node) (subject prev : Dhkey) : List Dhkey × Bool :=
  if Route.hasConnection n.route then
    sendChunks n (removeFirst prev (forwardLoop n.trails subject prev 8 256))
  else ([], false)

/-- The loop of `_np_out_default`, src/np_axon.c:376-384. -/
def defaultLoop (t : Phero.Table) (subject : Dhkey) : Nat → Nat → List Dhkey
  | 0, _ => []
  | k + 1, p =>
    let r := Phero.snuffle t subject p false
    if r.1 = [] then defaultLoop t subject k (lower r.2) else r.1

/-- `_np_out_default`, src/np_axon.c:357-404. -/
def outDefault (n : Node) (subject : Dhkey) : List Dhkey × Bool :=
  if Route.hasConnection n.route then
    let l := defaultLoop n.trails subject 8 256
    if l = [] then ([], false) else sendChunks n l
  else ([], false)

/-- `original_target_age` in round `i`, which is `1.0 - i / 10`. -/
def targetOf (i : Nat) : Nat := (256 * (10 - i) + 9) / 10

/-- The loop of `_np_out_available_messages`, src/np_axon.c:460-487. -/
def availableLoop (t : Phero.Table) (audience : Dhkey) (sender : Bool) : Nat → Nat → List Dhkey
  | 0, _ => []
  | k + 1, i =>
    let r := Phero.snuffle t audience (targetOf i) sender
    if r.1 = [] then availableLoop t audience sender k (i + 1) else r.1

/-- The two discovery messages, src/np_axon.c:446-456. -/
inductive Search
  | findReceiver | findSender | neither

/-- `_np_out_available_messages`, src/np_axon.c:406-523. -/
def outAvailable (n : Node) (audience : Dhkey) (what : Search) (prev : Dhkey) : List Dhkey × Bool :=
  if Route.hasConnection n.route then
    let l := removeFirst prev (match what with
      | .findReceiver => availableLoop n.trails audience false 9 0
      | .findSender => availableLoop n.trails audience true 9 0
      | .neither => [])
    if l = [] then ([], false) else sendChunks n l
  else ([], false)

/-- `_np_route_get_table`, src/np_route.c:349-371: the entries in the order of the slots. -/
def tableOf (s : Route.State) : List Dhkey := (List.range 3072).filterMap s.table

/-- The hops of `_np_out_pheromone`, src/np_axon.c:539-569.  With an empty table `sll_first` would be NULL. -/
def pheromoneHops (n : Node) (audience target : Dhkey) : Option (List Dhkey) :=
  if equal audience target then
    (Route.lookup n.route n.good n.worse target 2).bind fun l =>
      if l = [] ∧ n.route.count > 0 then (Route.sortCpm target (tableOf n.route)).head?.map fun x => [x]
      else some (l.take 1)
  else if n.route.count > 0 then (Route.sortCpm target (tableOf n.route)).head?.map fun x => [target, x]
  else some [target]

/-- `_np_out_pheromone`, src/np_axon.c:525-594. -/
def outPheromone (n : Node) (audience target : Dhkey) : Option (List Dhkey × Bool) :=
  if Route.hasConnection n.route then (pheromoneHops n audience target).map (sendChunks n)
  else some ([], false)

/-- `_np_in_pheromone`, src/np_dendrit.c:796-935, for a body with one element: the table is updated and, if that succeeds, the
message is forwarded in the direction of its audience, then to the trails found.  The search for trails uses the table before
the update. -/
def onPheromone (n : Node) (debug : Bool) (now : Nat) (w : Phero.Wire) (delay : Nat) (last audience : Dhkey) :
    Option (Phero.Table × List (List Dhkey × Bool)) :=
  (Phero.inPheromone debug n.me now n.trails w delay last).bind fun r =>
    if r.2 then
      (outPheromone { n with trails := r.1 } audience audience).bind fun a =>
        let age := match (Phero.deserialize w) with
          | some f => (Phero.ageBy delay f).intersectAge (Phero.ageBy delay f)
          | none => 0
        (((Phero.snuffle n.trails audience age (decide (0 < w.key))).1.filter fun x => !equal x last && !equal x n.me).mapM fun x =>
          outPheromone { n with trails := r.1 } audience x).map fun b => (r.1, a :: b)
    else some (r.1, [])

/-- How a call ends: the process crashes, the call has not returned after the given number of rounds, or it hands the message to
these hops and returns this value. -/
inductive Outcome
  | crash
  | running
  | sent (hops : List Dhkey) (ok : Bool)
  deriving DecidableEq

def Outcome.of (r : List Dhkey × Bool) : Outcome := .sent r.1 r.2

/-- The loop of `_np_out_ack`, src/np_axon.c:643-646, for at most `k` rounds: `none` if it goes on.  The bound is `BAD_LINK`,
64 / 256. -/
def ackLoop (t : Phero.Table) (id : Dhkey) : Nat → Nat → Option (List Dhkey)
  | 0, p => if p > 64 then none else some []
  | k + 1, p =>
    if p > 64 then
      let r := Phero.snuffle t id p false
      if r.1 = [] then ackLoop t id k (lower r.2) else some r.1
    else some []

def ackTrail (n : Node) (trail : Dhkey) (rounds : Nat) : Outcome :=
  match ackLoop n.trails trail rounds 256 with
  | none => .running
  | some l => .of (sendChunks n l)

/-- `_np_out_ack`, src/np_axon.c:600-675.  `trail` is the id composed of the audience and the subject of acknowledgements.  An id in
the key cache without a node is a NULL dereference. -/
def outAck (n : Node) (audience trail : Dhkey) (rounds : Nat) : Outcome :=
  if Route.hasConnection n.route then
    if n.exists? audience then
      if n.hasNode audience then
        if n.route.inLeaf audience || n.route.inTable audience then .of (sendChunks n [audience]) else .of (sendChunks n [])
      else .crash
    else ackTrail n trail rounds
  else .sent [] false

/-- The loop of `_np_out_update`, src/np_axon.c:736-745. -/
def updateLoop (n : Node) (target : Dhkey) : Nat → Nat → Option (List Dhkey)
  | 0, _ => some []
  | k + 1, i =>
    (Route.lookup n.route n.good n.worse target i).bind fun l => if l = [] then updateLoop n target k (i + 1) else some l

/-- `_np_out_update`, src/np_axon.c:724-789: the peer the message is handed to. -/
def outUpdate (n : Node) (target : Dhkey) : Option (Option Dhkey) :=
  if Route.hasConnection n.route then
    (updateLoop n target 4 1).map fun l =>
      match l.head? with
      | none => none
      | some x => if equal x n.me then none else some x
  else some none

/-- What an update message carries: no token, one that is not valid, or a valid one of this node. -/
inductive UpdateBody
  | missing
  | invalid
  | token (issuer : Dhkey)

/-- `_np_in_update`, src/np_dendrit.c:627-682: what is done with an update from a peer, that is the hop it is passed on to.  A body
without a token is a NULL dereference.  `prop` is the id of the property for outgoing updates, which is also the target of the
event. -/
def onUpdate (n : Node) (prop : Dhkey) : UpdateBody → Option (Option Dhkey)
  | .missing => none
  | .invalid => some none
  | .token _ => outUpdate n prop

end Np.Axon
