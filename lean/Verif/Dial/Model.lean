/-!
# Model of the connection attempts to a peer

`__np_node_handle_completion`, `__np_node_update_token`, `__np_node_upgrade`, `__np_node_identity_upgrade`, `__is_node_invalid`,
`__is_wildcard_invalid` in `src/core/np_comp_node.c` and the transitions of `IN_SETUP_NODE` and `IN_SETUP_WILDCARD` in `src/np_key.c`.

Times are natural numbers of nanoseconds (the program uses `double` seconds).  Of the events those that send a message of the application are left
out: their transitions neither send handshakes nor joins nor change the fields here.  That the tables of the node list the peer, and the state of
its token, are parameters of every event.
-/
namespace Np.Dial

/-- `msg_ttl` of the handshake and of the join message, src/np_msgproperty_init.c.part:83, 129: 5 s. -/
def ttl : Nat := 5000000000

/-- `BAD_LINK_REMOVE_GRACETIME`, include/np_settings.h:66, 236-252: 3 * 31.415926535 s + 3 s. -/
def grace : Nat := 97247779605

/-- The life of a wildcard key, src/core/np_comp_node.c:1456-1468: 10 s. -/
def wildcardLife : Nat := 10000000000

/-- `enum np_node_status`, include/np_node.h:27-31; the program compares `< Connected`, that is `≠ connected`. -/
inductive Status | disconnected | initiated | connected
  deriving DecidableEq, Repr

/-- The states `IN_SETUP_NODE` (or `IN_SETUP_WILDCARD`), `IN_USE_NODE` and `IN_DESTROY` of the key, src/np_key.c:59-74. -/
inductive Phase | setup | inUse | gone
  deriving DecidableEq, Repr

inductive Kind | handshake | join
  deriving DecidableEq, Repr

/-- A message that goes out to the peer. -/
structure Sent where
  time : Nat
  kind : Kind
  deriving DecidableEq, Repr

/-- The key of the peer and its `np_node_t`, include/np_node.h:38-56.  `unknown`: creating the network failed and the type of the key was reset
(src/core/np_comp_node.c:1442-1450).  `sent`: what was sent so far, the newest first. -/
structure Peer where
  wildcard : Bool
  created : Nat
  unknown : Bool
  phase : Phase
  hs : Status
  hsAt : Nat
  joined : Status
  joinAt : Nat
  leaveAt : Nat
  session : Bool
  attempts : Nat
  sent : List Sent
  deriving DecidableEq, Repr

/-- A new key, src/np_key.c:529-555, and node, src/np_node.c:63-74, in the state for its setup.  `before`: a node key that follows a wildcard key takes
over the time of its last handshake and its status (src/core/np_comp_node.c:483-488).  Creating the network is the enter function of both states
(src/np_key.c:239-241, 301-303), hence `unknown`.  `session`: the node is shared with an alias that has its session key already. -/
def fresh (wildcard unknown session : Bool) (before : Option Nat) (created : Nat) : Peer :=
  { wildcard := wildcard, created := created, unknown := unknown, phase := .setup,
    hs := if before.isSome then .initiated else .disconnected, hsAt := before.getD 0, joined := .disconnected,
    joinAt := 0, leaveAt := 0, session := session, attempts := 0, sent := [] }

/-- `__np_node_handle_completion`, src/core/np_comp_node.c:661-775.  `connection_attempts` is a `uint8_t`. -/
def complete (p : Peer) (now : Nat) : Peer :=
  if p.hs ≠ .connected ∧ p.hsAt + ttl < now then
    { p with hs := .initiated, hsAt := now, attempts := (p.attempts + 1) % 256, sent := ⟨now, .handshake⟩ :: p.sent }
  else if p.session ∧ p.joined ≠ .connected ∧ p.joinAt + ttl < now then
    { p with joined := .initiated, joinAt := now, attempts := (p.attempts + 1) % 256, sent := ⟨now, .join⟩ :: p.sent }
  else p

/-- `__is_node_invalid`, src/core/np_comp_node.c:120-227, for a key with a node.  `listed`: in the leafset or the routing table.  `bad`: the link is bad or the token is
missing or invalid. -/
def invalid (p : Peer) (now : Nat) (listed bad : Bool) : Bool :=
  p.unknown || (decide (¬ now < p.created + grace) && (decide (15 < p.attempts) || decide (p.joinAt < p.leaveAt) || !listed || bad))

/-- `__is_wildcard_invalid`, src/core/np_comp_node.c:1456-1468: a key whose type was reset is no wildcard key any more. -/
def wildcardInvalid (p : Peer) (now : Nat) : Bool := !p.unknown && decide (p.created + wildcardLife < now)

/-- `__np_node_update_token`, src/core/np_comp_node.c:1083-1159, for a node key: the join message. -/
def updateToken (p : Peer) (now : Nat) : Peer :=
  if p.session ∧ p.joined ≠ .connected then
    { p with joined := .connected, joinAt := now, sent := ⟨now, .join⟩ :: p.sent }
  else p

/-- What happens to the key.  `tick`: an event without a transition of its own (the periodic check of all keys, src/np_keycache.c:232-303).
`token`: a valid token of the peer came (`handshake`: a handshake token).  `session`: the alias of the peer computed the session key
(src/core/np_comp_alias.c:471-554).  `authn`: the peer was authenticated (`nodeToken`: its own token was accepted, `__np_node_upgrade`, or its key
holds a node token; src/core/np_comp_node.c:777-793, 999-1037).  `shutdown`: a valid shutdown event, 66-96. -/
inductive Ev
  | tick (now : Nat) (listed bad : Bool)
  | token (now : Nat) (handshake : Bool)
  | session
  | authn (now : Nat) (nodeToken : Bool)
  | shutdown (now : Nat)

/-- The rest of the transitions of the two states: invalid or completion, src/np_key.c:278-285, 312-319. -/
def rest (p : Peer) (now : Nat) (listed bad : Bool) : Peer :=
  if p.wildcard then
    if wildcardInvalid p now then { p with phase := .gone } else complete p now
  else if invalid p now listed bad then { p with phase := .gone }
  else complete p now

/-- The transitions of `IN_SETUP_NODE` (src/np_key.c:242-285) and `IN_SETUP_WILDCARD` (304-319).  After these states the key is not followed here. -/
def step (p : Peer) (e : Ev) : Peer :=
  match p.phase with
  | .setup =>
    match e with
    | .tick now listed bad => rest p now listed bad
    | .token now handshake =>
      if p.wildcard then
        if handshake then { p with phase := .gone } else rest p now false false
      else updateToken p now
    | .session => { p with session := true }
    | .authn now nodeToken =>
      if p.wildcard then rest p now false false
      else { complete p now with joined := if nodeToken then .connected else (complete p now).joined, phase := .inUse }
    | .shutdown now => if p.wildcard then rest p now false false else { p with phase := .gone }
  | _ => p

def run (p : Peer) : List Ev → Peer
  | [] => p
  | e :: r => run (step p e) r

end Np.Dial
