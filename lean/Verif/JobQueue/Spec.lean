import Verif.JobQueue.Model
import Verif.Heap.Spec
/-! # Specification vocabulary for the job queue -/
namespace Np.JobQueue.Spec
open Np.Heap.Spec

/-- The jobs waiting in queue `i`. -/
def queued (s : State) (i : Nat) : List Job := content (s.q i).heap

/-- The jobs being executed by some worker. -/
def executing (ws : List Worker) : List Job := ws.flatMap fun w => match w with | .exec j => [j] | _ => []

/-- A job keeps its identity while a periodic job gets new due times. -/
def ident (j : Job) : Nat × Bool := (j.id, j.periodic)

/-- `a` is to run before `b`: earlier due time, then smaller priority number. -/
def Before (a b : Job) : Prop := a.tstamp < b.tstamp ∨ (a.tstamp = b.tstamp ∧ a.priority < b.priority)

/-- Between the first look at the queues and taking the job. -/
def selecting : Worker → Bool
  | .scan .. => true
  | .take .. => true
  | _ => false

/-- At no point of the history are two workers inside the selection at the same time. -/
def Serialized (size : Nat) (ops : List Op) : Prop :=
  ∀ pre, pre <+: ops → ∀ s os, run (init size) pre = some (s, os) → (s.workers.filter selecting).length ≤ 1

/-- Reachable by some history. -/
def Reachable (size : Nat) (s : State) : Prop := ∃ ops os, run (init size) ops = some (s, os)

end Np.JobQueue.Spec
