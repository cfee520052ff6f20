import Verif.Heap.Model
/-!
# Model of the job queue, src/np_jobqueue.c

Two heaps of jobs (periodic jobs and others), each guarded by its own spin lock. Every critical section is one atomic step of
the model, so the steps of any number of worker threads and submitters interleave at exactly the points where the code releases
a lock. Times are integers. What a job does is not modelled, only that it is handed out (pop) and finished.
-/
namespace Np.JobQueue
open Np.Heap

/-- The fields of `np_job_s` used for scheduling, src/np_jobqueue.c:45-65; `id` is ghost: it names the submission. -/
structure Job where
  id : Nat
  tstamp : Int
  priority : Nat
  interval : Int
  periodic : Bool
deriving DecidableEq, Repr

/-- `_np_job_compare_job_scheduling`, lines 69-81. -/
def compareScheduling (new old : Job) : Int :=
  if old.tstamp > new.tstamp then -1
  else if old.tstamp < new.tstamp then 1
  else if old.priority > new.priority then -1
  else if old.priority < new.priority then 1
  else 0

/-- `np_job_t_compare`, lines 83-85. -/
def jobLt (new old : Job) : Bool := compareScheduling new old == -1

/-- `struct np_jobqueue_job_list` and the matching entry of `next_job_schedule`, lines 95-106. -/
structure Queue where
  heap : Heap Job
  next : Int

/-- The zeroed `np_job_t`. -/
def zeroJob : Job := ⟨0, 0, 0, 0, false⟩

/-- The phases of a worker thread: inside the loop of `__np_jobqueue_select_job_to_run` before looking at queue `idx` (lines 134-156), after
the loop with a chosen queue (line 162), executing a job (`__np_jobqueue_run_once`, line 464). -/
inductive Worker where
  | scan (now : Int) (idx : Nat) (queueIndex : Option Nat) (lowest : Int)
  | take (now : Int) (q : Nat)
  | exec (job : Job)
  | idle
deriving DecidableEq

structure State where
  q : Nat → Queue                 -- queues 0 and 1 (`NP_PRIORITY_MAX_QUEUES`, include/np_constants.h:82)
  workers : List Worker
  accepted : List Job             -- ghost: the accepted submissions
  finished : List Job             -- ghost: the jobs freed after execution
  handedOut : List (Int × Job)    -- ghost: the jobs handed out, each with the `now` its worker selected it for

/-- `_np_jobqueue_init`, lines 367-378: both queues empty with the configured capacity. The four periodic jobs submitted there are
ordinary submissions of a history. -/
def init (jobqueueSize : Nat) : State :=
  { q := fun _ => ⟨Heap.init zeroJob jobqueueSize, 0⟩, workers := [], accepted := [], finished := [], handedOut := [] }

/-- `JOBQUEUE_MAX_SIZE`, include/np_settings.h:273. -/
def MAX_SIZE : Nat := 512

def setQ (s : State) (i : Nat) (q : Queue) : State := { s with q := fun j => if j = i then q else s.q j }

/-- `queue_idx`, line 201. -/
def queueIdx (j : Job) : Nat := if j.periodic then 0 else 1

/-- `_np_jobqueue_insert`, lines 193-240. The outer `none` is an abort (the heap's assertion). -/
def insertJob (s : State) (j : Job) : Option (State × Bool) :=
  let q := s.q (queueIdx j)
  if q.heap.count + 1 ≥ MAX_SIZE then some (s, false)
  else do
    let h ← Heap.insert jobLt q.heap j
    let f ← Heap.first h
    pure (setQ s (queueIdx j) ⟨h, f.tstamp⟩, true)

/-- One pass of the loop body in `__np_jobqueue_select_job_to_run` for queue `idx`, lines 135-155; `locked` is the result of the trylock. -/
def scanQueue (s : State) (locked : Bool) (now : Int) (idx : Nat) (qi : Option Nat) (lowest : Int) : Option Nat × Int :=
  let q := s.q idx
  if locked = true ∧ q.next < now ∧ Heap.isEmpty q.heap = false then
    (if q.next < lowest then some idx else qi, if q.next < lowest then q.next else lowest)
  else (qi, lowest)

/-- The second critical section of `__np_jobqueue_select_job_to_run`, lines 164-187. -/
def takeJob (s : State) (qi : Nat) : Option (State × Option Job) :=
  let q := s.q qi
  if Heap.isEmpty q.heap then some (s, none)
  else do
    let (h, j) ← Heap.head jobLt q.heap
    let next ← if Heap.isEmpty h then some 0 else (Heap.first h).map (·.tstamp)
    pure (setQ s qi ⟨h, next⟩, some j)

/-- Replacement of worker `k`. -/
def setW (s : State) (k : Nat) (w : Worker) : State := { s with workers := s.workers.set k w }

inductive Op where
  | submit (j : Job)              -- any of the submit functions, lines 248-361
  | spawn                         -- a further worker thread
  | start (k : Nat) (now : Int)   -- worker `k` enters the selection with its clock reading
  | scan (k : Nat) (locked : Bool)
  | take (k : Nat)
  | finish (k : Nat) (startedAt : Int)
deriving DecidableEq

inductive Out where
  | unit | accepted | refused
deriving DecidableEq

/-- One atomic step. `none` is an abort of the process. -/
def step (s : State) : Op → Option (State × Out)
  | .submit j => do
    let (s', ok) ← insertJob s j
    pure (if ok then ({ s' with accepted := s'.accepted ++ [j] }, .accepted) else (s', .refused))
  | .spawn => some ({ s with workers := s.workers ++ [.idle] }, .unit)
  | .start k now =>
    match s.workers[k]? with
    | some .idle => some (setW s k (.scan now 0 none (now + 9)), .unit)
    | _ => some (s, .unit)
  | .scan k locked =>
    match s.workers[k]? with
    | some (.scan now idx qi lowest) =>
      let r := scanQueue s locked now idx qi lowest
      if idx + 1 < 2 then some (setW s k (.scan now (idx + 1) r.1 r.2), .unit)
      else match r.1 with
        | some q => some (setW s k (.take now q), .unit)
        | none => some (setW s k .idle, .unit)     -- sleep
    | _ => some (s, .unit)
  | .take k =>
    match s.workers[k]? with
    | some (.take now q) => do
      let (s', j) ← takeJob s q
      match j with
      | some j => pure ({ setW s' k (.exec j) with handedOut := s'.handedOut ++ [(now, j)] }, .unit)
      | none => pure (setW s' k .idle, .unit)
    | _ => some (s, .unit)
  | .finish k startedAt =>
    match s.workers[k]? with
    | some (.exec j) =>
      if j.periodic then do                        -- lines 638-646
        let (s', ok) ← insertJob (setW s k .idle) { j with tstamp := max (startedAt + j.interval) startedAt }
        if ok then pure (s', .unit) else none      -- ABORT
      else some ({ setW s k .idle with finished := s.finished ++ [j] }, .unit)
    | _ => some (s, .unit)

def run : State → List Op → Option (State × List Out)
  | s, [] => some (s, [])
  | s, op :: ops => do
    let (s, o) ← step s op
    let (s, os) ← run s ops
    pure (s, o :: os)

/-- A selection that no other thread interrupts: start, both scans with the locks free, take. -/
def selectAlone (k : Nat) (now : Int) : List Op := [.start k now, .scan k true, .scan k true, .take k]

end Np.JobQueue
