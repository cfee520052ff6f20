import Verif.Dhkey.Model

/-!
# Model of event chains, `src/np_eventqueue.c`

An event is handed to a key; the code that handles it may raise further events.  These are not handled recursively but
appended to the chain of the running event (`_np_event_runtime_add_event`) or, if there is no running chain, started as a
chain of their own (`_np_event_runtime_start_with_event`).

What handling an event does is arbitrary: a program over an arbitrary state type `S` that may depend on everything
(including what other threads do meanwhile, which can be made part of `S`).
-/
namespace Np.Events

open Np (Dhkey)

/-- `np_util_event_t`, include/util/np_event.h:50-64: type and `user_data` (a reference counted object or `NULL`).  The
other fields are not used by the chain. -/
structure Event where
  type : Nat
  payload : Option Nat
deriving DecidableEq

/-- An event and the key it is handed to (`__source_dhkey`, src/np_eventqueue.c:141). -/
structure Chained where
  key : Dhkey
  event : Event
deriving DecidableEq

/-- What is observed, in order.  The first argument is the chain. -/
inductive Entry
  /-- the event was raised for the chain -/
  | raised (c : Nat) (x : Chained)
  /-- a reference to the payload was taken by the chain -/
  | taken (c : Nat) (o : Nat)
  /-- the key starts to handle the event -/
  | begin (c : Nat) (x : Chained)
  /-- the key is done with the event -/
  | finish (c : Nat) (x : Chained)
  /-- a reference to the payload was released by the chain -/
  | released (c : Nat) (o : Nat)
deriving DecidableEq

/-- What a handler does. -/
inductive Prog (S : Type) : Type
  /-- it ends, leaving this state -/
  | ret (s : S)
  /-- `_np_event_runtime_add_event(context, event.current_run, …)` -/
  | raise (x : Chained) (rest : Prog S)
  /-- `_np_event_runtime_start_with_event`, or `_np_event_runtime_add_event` without a running chain
  (src/np_eventqueue.c:70-73): the new chain runs now, then the handler goes on with the state it left -/
  | start (s : S) (x : Chained) (rest : S → Prog S)

/-- The node: its state, the number of chains started so far and the log. -/
structure St (S : Type) where
  state : S
  next : Nat
  log : List Entry

/-- `full`: the assertion in `_np_event_runtime_add_event` failed and the process was aborted.  `deep`: the stack was
used up by chains started inside of chains. -/
inductive Outcome | ok | full | deep
deriving DecidableEq

/-- `np_event_runtime_max_size`, src/np_eventqueue.c:47. -/
def maxSize : Nat := 255

/-- Result of running code: the node, how it ended and the events of the chain, `__chained_events`. -/
structure Res (S : Type) where
  st : St S
  outcome : Outcome
  chain : List Chained

/-- Append to the log. -/
def St.write {S : Type} (st : St S) (l : List Entry) : St S := { st with log := st.log ++ l }

/-- `__np_event_runtime_add_event`, src/np_eventqueue.c:62-149, with a chain: check of the size, reference to the
payload, append. -/
def add {S : Type} (c : Nat) (x : Chained) (r : Res S) : Res S :=
  if r.chain.length < maxSize then
    { st := r.st.write (match x.event.payload with | some o => [.taken c o] | none => []),
      outcome := .ok, chain := r.chain ++ [x] }
  else { r with outcome := .full }

/-- A call of `_np_event_runtime_add_event` is noted in the log. -/
def raise {S : Type} (c : Nat) (x : Chained) (r : Res S) : Res S := add c x { r with st := r.st.write [.raised c x] }

/-- Run the handler of an event of chain `c`.  `start` runs a new chain. -/
def runProg {S : Type} (start : Chained → St S → Outcome × St S) (c : Nat) : Prog S → Res S → Res S
  | .ret s, r => { r with st := { r.st with state := s }, outcome := .ok }
  | .raise x rest, r =>
    match raise c x r with
    | ⟨st, .ok, chain⟩ => runProg start c rest ⟨st, .ok, chain⟩
    | r' => r'
  | .start s x rest, r =>
    match start x { r.st with state := s } with
    | (.ok, st) => runProg start c (rest st.state) { r with st := st }
    | (o, st) => { r with st := st, outcome := o }

/-- The first loop of `__np_event_runtime_start_with_event`, src/np_eventqueue.c:177-199.  The first argument bounds the
number of rounds; it is never used up, because the chain has at most `maxSize` events. -/
def loop {S : Type} (h : S → Chained → Prog S) (start : Chained → St S → Outcome × St S) (c : Nat) :
    Nat → Nat → Res S → Res S
  | 0, _, r => r
  | n + 1, idx, r =>
    match r.chain[idx]? with
    | none => r
    | some x =>
      match runProg start c (h r.st.state x) { r with st := r.st.write [.begin c x] } with
      | ⟨st, .ok, chain⟩ => loop h start c n (idx + 1) ⟨st.write [.finish c x], .ok, chain⟩
      | r' => r'

/-- The second loop of `__np_event_runtime_start_with_event`, src/np_eventqueue.c:202-214. -/
def cleanup (c : Nat) : List Chained → List Entry
  | [] => []
  | x :: r => (match x.event.payload with | some o => [.released c o] | none => []) ++ cleanup c r

/-- `__np_event_runtime_start_with_event`, src/np_eventqueue.c:157-221.  `rounds` bounds the rounds of the first loop, see
`start`; the next argument bounds how deep chains are started inside of chains (the size of the stack). -/
def startN {S : Type} (h : S → Chained → Prog S) (rounds : Nat) : Nat → Chained → St S → Outcome × St S
  | 0, _, st => (.deep, st)
  | n + 1, x, st =>
    let c := st.next
    let r := raise c x ⟨{ st with next := st.next + 1 }, .ok, []⟩
    match loop h (startN h rounds n) c rounds 0 r with
    | ⟨st', .ok, chain⟩ => (.ok, st'.write (cleanup c chain))
    | ⟨st', o, _⟩ => (o, st')

/-- `_np_event_runtime_start_with_event`: more rounds than the chain can have events. -/
def start {S : Type} (h : S → Chained → Prog S) (depth : Nat) (x : Chained) (st : St S) : Outcome × St S :=
  startN h (maxSize + 1) depth x st

end Np.Events
