/-! # The life of a context

The calls that start, stop and reconfigure a context, as threads that interleave between the points
where the code takes the lock of a shared variable.  One `go` of a thread is one critical section
(or one stretch without shared accesses).  Reading or writing the context after `free(context)` is
the outcome `none` of a step.  Not modelled: what the modules do, the jobs executed by `np_run`, the
join of the worker threads (they only read the status), the events sent to the own keys while
shutting down. -/
namespace Np.Life

/-- include/neuropil.h:107-114 `enum np_status`; `np_error` and `np_uninitialized` are never stored
once `np_new_context` has returned. -/
inductive Status
  | running
  | stopped
  | shutdown
  deriving DecidableEq, Repr

/-- include/neuropil.h:36-46 `enum np_return`, the two values used here. -/
inductive Ret
  | ok
  | invalidOperation
  deriving DecidableEq, Repr

/-- What can be in the list of shutdown callbacks: a null pointer, a function of the application, or
src/np_shutdown.c:152 `_np_shutdown_notify_others`. -/
inductive Cb
  | null
  | user (n : Nat)
  | notify
  deriving DecidableEq, Repr

/-- The calls (src/neuropil.c:997 `np_run`, :1091 `np_destroy`, :497 `np_use_identity`, :1046
`np_add_shutdown_cb`).  Identities are numbered. -/
inductive Call
  | run
  | destroy (gracefully : Bool)
  | useIdentity (i : Nat)
  | addCb (c : Cb)
  deriving DecidableEq, Repr

/-- The fields of `np_state_t` that the calls use.  `listening` is `main_ip != NULL`; `callbacks` is
`none` until src/np_shutdown.c:85 `_np_shutdown_init` has run; `locked` says that the lock of the
callback list is held by a callback that waits for it. -/
structure Ctx where
  status : Status := .stopped
  started : Bool := false
  freed : Bool := false
  callbacks : Option (List Cb) := none
  locked : Bool := false
  listening : Bool := false
  identity : Nat := 0
  deriving DecidableEq, Repr

/-- Where a thread is.  The number in the name is the position in the function. -/
inductive Pc
  | idle
  | run0
  | run1
  | run2
  | run3
  | run4
  | use0 (i : Nat)
  | use1 (i : Nat)
  | add0 (c : Cb)
  | des0 (gracefully : Bool)
  | des1 (gracefully : Bool)
  | des2
  | des3
  | des4
  | stuck
  deriving DecidableEq, Repr

/-- What happens: a call returns, the worker threads are started, `np_run` begins to execute jobs,
the identity is replaced, a shutdown callback is called, the context is torn down. -/
inductive Out
  | returned (c : Call) (r : Ret)
  | workers
  | entered
  | identity (i : Nat)
  | called (c : Cb)
  | torn
  deriving DecidableEq, Repr

/-- Where a call begins. -/
def enter : Call → Pc
  | .run => .run0
  | .destroy g => .des0 g
  | .useIdentity i => .use0 i
  | .addCb c => .add0 c

/-- src/np_shutdown.c:133-150 `_np_shutdown_run_callbacks`: calls and removes the head of the list
until the list is empty or the head is a null pointer.  The lock is held, so a callback that itself
calls `np_add_shutdown_cb` never comes back (`adds`).  Result: the callbacks called, what is left,
and whether the thread is stuck. -/
def runCallbacks (adds : Nat → Bool) : List Cb → List Cb × List Cb × Bool
  | [] => ([], [], false)
  | .null :: rest => ([], rest, false)
  | .notify :: rest =>
    let (called, left, stuck) := runCallbacks adds rest
    (.notify :: called, left, stuck)
  | .user n :: rest =>
    if adds n then ([.user n], rest, true)
    else
      let (called, left, stuck) := runCallbacks adds rest
      (.user n :: called, left, stuck)

/-- src/np_shutdown.c:74-83 `np_shutdown_add_callback`: nothing happens before the module is
initialised. -/
def addCallback (x : Ctx) (c : Cb) : Ctx :=
  match x.callbacks with
  | none => x
  | some l => { x with callbacks := some (l ++ [c]) }

/-- One step of the thread inside a call, on a context that is not freed.  `b` is what the world
answers: that listening succeeded (`run0`), that the duration is over (`run4`).

* `run0`: src/neuropil.c:1005-1010; the result of `np_listen` is overwritten at line 1033.
* `run1`: lines 1012-1034.
* `run2`: lines 1036-1039.
* `run3`: line 1040 `TSP_SET(context->status, np_running)`.
* `run4`: line 1041, one round of src/np_jobqueue.c:683-697 `np_jobqueue_run_jobs_for`.
* `use0`: src/neuropil.c:500-501; `use1`: lines 503-519.
* `add0`: line 1048, with the return value of line 1050.
* `des0`: lines 1096-1101; `des1`: lines 1103-1105; `des2`: line 1106; `des3`: line 1127;
  `des4`: lines 1128-1150. -/
def act (adds : Nat → Bool) (x : Ctx) (b : Bool) : Pc → Ctx × Pc × List Out
  | .idle => (x, .idle, [])
  | .stuck => (x, .stuck, [])
  | .run0 => (if x.listening then x else { x with listening := b }, .run1, [])
  | .run1 =>
    if x.status = .stopped then
      ({ x with callbacks := some (x.callbacks.getD []) }, .run2, [.workers])
    else (x, .run2, [])
  | .run2 =>
    if x.status = .shutdown then (x, .idle, [.returned .run .invalidOperation])
    else (x, .run3, [])
  | .run3 => ({ x with status := .running }, .run4, [.entered])
  | .run4 =>
    if b || x.status = .shutdown then (x, .idle, [.returned .run .ok]) else (x, .run4, [])
  | .use0 i =>
    if x.status = .running then (x, .idle, [.returned (.useIdentity i) .invalidOperation])
    else (x, .use1 i, [])
  | .use1 i => ({ x with identity := i }, .idle, [.identity i, .returned (.useIdentity i) .ok])
  | .add0 c =>
    if x.callbacks.isSome && x.locked then (x, .add0 c, [])
    else (addCallback x c, .idle, [.returned (.addCb c) .ok])
  | .des0 g =>
    if x.started then (x, .idle, [.returned (.destroy g) .ok])
    else ({ x with started := true }, .des1 g, [])
  | .des1 g =>
    if g then
      if x.callbacks.isSome && x.locked then (x, .des1 g, []) else (addCallback x .notify, .des2, [])
    else (x, .des2, [])
  | .des2 =>
    match x.callbacks with
    | none => (x, .des3, [])
    | some l =>
      let (called, left, stuck) := runCallbacks adds l
      if stuck then ({ x with callbacks := some left, locked := true }, .stuck, called.map .called)
      else ({ x with callbacks := some left }, .des3, called.map .called)
  | .des3 => ({ x with status := .shutdown }, .des4, [])
  | .des4 => ({ x with freed := true }, .idle, [.torn, .returned (.destroy true) .ok])

/-- The context, where each thread is, and what has happened so far (the latest last), with the
thread it happened in. -/
structure World where
  ctx : Ctx := {}
  pc : Nat → Pc := fun _ => .idle
  trace : List (Nat × Out) := []

/-- What the scheduler can choose: a thread makes a call, or a thread goes on. -/
inductive Ev
  | call (t : Nat) (c : Call)
  | go (t : Nat) (b : Bool)
  deriving DecidableEq, Repr

/-- One choice of the scheduler.  A call is only made by a thread that is in no call.  `none`: the
freed context is accessed. -/
def step (adds : Nat → Bool) (w : World) : Ev → Option World
  | .call t c =>
    if w.pc t = .idle then some { w with pc := fun u => if u = t then enter c else w.pc u }
    else some w
  | .go t b =>
    if w.pc t = .idle ∨ w.pc t = .stuck then some w
    else if w.ctx.freed then none
    else
      let (x, p, o) := act adds w.ctx b (w.pc t)
      some
        { ctx := x
          pc := fun u => if u = t then p else w.pc u
          trace := w.trace ++ o.map fun e => (t, e) }

/-- A schedule. -/
def run (adds : Nat → Bool) : World → List Ev → Option World
  | w, [] => some w
  | w, e :: es => (step adds w e).bind fun w' => run adds w' es

/-- src/neuropil.c:190-286 `np_new_context`. -/
def init : World := {}

/-! ## Starting the worker threads -/

/-- src/np_threads.c:1107-1153: an event thread is started while the pool is larger than
`worker_threads`; the comparison is of `uint8_t` values. -/
def afterEvents (pool worker : BitVec 8) : Nat × BitVec 8 :=
  let one := fun (x : Nat × BitVec 8) => if worker < x.2 then (x.1 + 1, x.2 - 1) else x
  one (one (one (0, pool)))

/-- src/np_threads.c:1156-1164: `for (int8_t i = 0; i < pool_size; i++)`, where `i` is sign extended
and `pool_size` zero extended for the comparison.  The first argument bounds the number of rounds;
`none`: the loop has not ended by then. -/
def workerLoop (pool : BitVec 8) : Nat → BitVec 8 → Nat → Option Nat
  | 0, _, _ => none
  | k + 1, i, n => if i.toInt < (pool.toNat : Int) then workerLoop pool k (i + 1) (n + 1) else some n

/-- src/np_threads.c:1069-1175 `np_threads_start_workers` with `settings->n_threads`
(src/neuropil.c:1016; a `uint32_t` passed as `uint8_t`): the number of threads started, or `none` if
this takes more than `rounds` rounds. -/
def startWorkers (rounds : Nat) (nThreads : BitVec 32) : Option Nat :=
  let pool := nThreads.setWidth 8
  let worker := pool / 2 + 1
  let (events, rest) := afterEvents pool worker
  (workerLoop rest rounds 0 0).map fun k => events + k

end Np.Life
