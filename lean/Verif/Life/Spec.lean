import Verif.Life.Model

/-! # What is asked of the life of a context -/
namespace Np.Life.Spec

open Np.Life

/-- How often the context was torn down. -/
def tornDown (trace : List (Nat × Out)) : Nat := trace.countP fun e => decide (e.2 = .torn)

/-- A call made and finished by one thread with nobody else running.  The world answers that
listening works and that the duration is over. -/
def whole (t : Nat) (c : Call) : List Ev :=
  .call t c :: List.replicate 5 (.go t true)

/-- The calls made one after the other by one thread. -/
def oneByOne (t : Nat) (cs : List Call) : List Ev := cs.flatMap (whole t)

/-- What the calls report, in order. -/
def reports (trace : List (Nat × Out)) : List (Call × Ret) :=
  trace.filterMap fun e => match e.2 with
    | .returned c r => some (c, r)
    | _ => none

/-- The identities put in place, in order. -/
def identities (trace : List (Nat × Out)) : List Nat :=
  trace.filterMap fun e => match e.2 with
    | .identity i => some i
    | _ => none

/-- The shutdown callbacks called, in order. -/
def called (trace : List (Nat × Out)) : List Cb :=
  trace.filterMap fun e => match e.2 with
    | .called c => some c
    | _ => none

/-- What each call should report, given whether `np_run` was called before: only the change of the
identity of a context that runs is refused. -/
def expected (ran : Bool) : List Call → List (Call × Ret)
  | [] => []
  | .run :: cs => (.run, .ok) :: expected true cs
  | .useIdentity i :: cs => (.useIdentity i, if ran then .invalidOperation else .ok) :: expected ran cs
  | c :: cs => (c, .ok) :: expected ran cs

/-- The calls before the first `np_run`. -/
def beforeRun (cs : List Call) : List Call := cs.takeWhile fun c => decide (c ≠ .run)

/-- The first `np_run` and the calls after it. -/
def fromRun (cs : List Call) : List Call := cs.dropWhile fun c => decide (c ≠ .run)

/-- The identity that is in force after the calls `cs`, where `old` was before. -/
def lastIdentity (old : Nat) (cs : List Call) : Nat :=
  cs.foldl (fun a c => match c with | .useIdentity i => i | _ => a) old

/-- The callbacks registered by these calls. -/
def registered (cs : List Call) : List Cb :=
  cs.filterMap fun c => match c with
    | .addCb x => some x
    | _ => none

/-- No call tears the context down. -/
def NoDestroy (cs : List Call) : Prop := ∀ c ∈ cs, ∀ g, c ≠ .destroy g

/-- How often `np_add_shutdown_cb` for this function has returned. -/
def additions (n : Nat) (trace : List (Nat × Out)) : Nat :=
  trace.countP fun e => decide (e.2 = .returned (.addCb (.user n)) .ok)

/-- How often this function was called as a shutdown callback. -/
def calls (n : Nat) (trace : List (Nat × Out)) : Nat :=
  trace.countP fun e => decide (e.2 = .called (.user n))

/-- The thread is inside `np_destroy`. -/
def Destroying : Pc → Prop
  | .des0 _ | .des1 _ | .des2 | .des3 | .des4 => True
  | _ => False

end Np.Life.Spec
