import Verif.Life.Lemmas4

/-! # The life of a context: C41, C75, C76, C77 -/
namespace Np.Life

open _root_.Np.Life.Spec

/-! ## C41 -/

/-- C41: however the calls of any number of threads interleave, the context is torn down at most
once. -/
theorem C41_destroy_once (adds : Nat → Bool) (evs : List Ev) (w : World)
    (h : run adds init evs = some w) : tornDown w.trace ≤ 1 := by
  rcases (run_invariant adds Once (once_step adds) evs init w once_init h).done with hd | hd
  · omega
  · omega

/-- Two threads destroy the same context; it is torn down, once. -/
example :
    (run (fun _ => false) init
      ([.call 0 (.destroy true), .call 1 (.destroy false), .go 1 true, .go 0 true] ++
        List.replicate 4 (.go 1 true))).map (fun w => tornDown w.trace) = some 1 := by
  decide +kernel

/-- C41, calls made one after the other before the context is destroyed: every `np_run` reports
`np_ok`, `np_use_identity` is refused exactly after the first `np_run`, the identity in force is
the one chosen last before the first `np_run`, and the worker threads are started once if at all.
The full property also asks that this holds for calls of several threads and after `np_destroy`: see
`C41_identity_refuted`, `C41_workers_refuted`, `C41_after_destroy_refuted`. -/
theorem C41_one_by_one_partial (adds : Nat → Bool) (t : Nat) (cs : List Call) (hd : NoDestroy cs) :
    ∃ w, run adds init (oneByOne t cs) = some w ∧
      reports w.trace = expected false cs ∧
      w.ctx.identity = lastIdentity 0 (beforeRun cs) ∧
      w.trace.countP (fun e => decide (e.2 = .workers)) = if .run ∈ cs then 1 else 0 := by
  obtain ⟨w, e1, _, e3, e4⟩ := run_oneByOne adds t cs hd init (quiet_init t)
  refine ⟨w, e1, ?_, ?_, ?_⟩
  · rw [e4]
    exact reports_shows t cs hd _ (by simp [init])
  · rw [e3]; exact identity_alone cs hd _ rfl
  · rw [e4]
    exact workers_alone t cs hd _ rfl

/-- A history with calls before and after `np_run`. -/
example : NoDestroy [.useIdentity 3, .run, .useIdentity 4, .addCb (.user 1), .run] ∧
    expected false [.useIdentity 3, .run, .useIdentity 4, .addCb (.user 1), .run] =
      [(.useIdentity 3, .ok), (.run, .ok), (.useIdentity 4, .invalidOperation),
        (.addCb (.user 1), .ok), (.run, .ok)] := by
  refine ⟨?_, rfl⟩
  intro c hc g
  simp at hc
  rcases hc with rfl | rfl | rfl | rfl | rfl <;> simp

/-- C41, any number of threads: once the context is in shutdown and no `np_run` is between its check
and its assignment of the status, the status stays, no worker threads are started, no `np_run`
begins to execute jobs, and every `np_run` called from then on reports `np_invalid_operation` if it
returns.  (It need not return: see `C41_after_destroy_refuted`.) -/
theorem C41_refused_partial (adds : Nat → Bool) (w w' : World) (evs : List Ev) (t : Nat)
    (hs : w.ctx.status = .shutdown) (h3 : ∀ u, w.pc u ≠ .run3) (ht : w.pc t = .idle)
    (h : run adds w evs = some w') :
    w'.ctx.status = .shutdown ∧
    ∃ s, w'.trace = w.trace ++ s ∧ (∀ e ∈ s, e.2 ≠ .entered ∧ e.2 ≠ .workers) ∧
      ∀ r, (t, .returned .run r) ∈ s → r = .invalidOperation := by
  have := run_invariant adds (Down t w) (down_step adds t w) evs w w'
    ⟨hs, h3, by rw [ht]; simp, [], by simp, by simp, by simp⟩ h
  exact ⟨this.status, this.since⟩

/-- A context that ran and is being destroyed by thread 1; `np_run` of thread 0 is refused. -/
example :
    ((run (fun _ => false) init (oneByOne 0 [.run] ++ .call 1 (.destroy true) ::
        List.replicate 4 (.go 1 true))).map fun w => (w.ctx.status, w.pc 0, w.pc 1)) =
      some (.shutdown, .idle, .des4) ∧
    ((run (fun _ => false) init (oneByOne 0 [.run] ++ .call 1 (.destroy true) ::
        List.replicate 4 (.go 1 true) ++ oneByOne 0 [.run])).map fun w => reports w.trace) =
      some [(.run, .ok), (.run, .invalidOperation)] := by
  decide +kernel

/-- C41, any number of threads: while the context runs and nobody destroys it, `np_use_identity`
called from then on changes nothing and is refused. -/
theorem C41_identity_partial (adds : Nat → Bool) (w w' : World) (evs : List Ev) (t : Nat)
    (hs : w.ctx.status = .running) (hd : ∀ u, ¬ Destroying (w.pc u)) (ht : w.pc t = .idle)
    (hevs : ∀ e ∈ evs, ∀ u g, e ≠ .call u (.destroy g))
    (h : run adds w evs = some w') :
    ∃ s, w'.trace = w.trace ++ s ∧ (∀ i, (t, .identity i) ∉ s) ∧
      ∀ i r, (t, .returned (.useIdentity i) r) ∈ s → r = .invalidOperation := by
  have := run_invariant' adds (Up t w) (fun e => ∀ u g, e ≠ .call u (.destroy g))
    (up_step adds t w) evs w w' hevs ⟨hs, hd, by rw [ht]; simp, [], by simp, by simp, by simp⟩ h
  exact this.since

/-- A running context, a thread that is in `np_run`, and one that tries to change the identity. -/
example :
    ((run (fun _ => false) init (.call 0 .run :: List.replicate 4 (.go 0 true))).map
        fun w => (w.ctx.status, w.pc 0, w.pc 1)) = some (.running, .run4, .idle) ∧
    ((run (fun _ => false) init (.call 0 .run :: List.replicate 4 (.go 0 true) ++
        oneByOne 1 [.useIdentity 7])).map fun w => (w.ctx.identity, reports w.trace)) =
      some (0, [(.useIdentity 7, .invalidOperation)]) := by
  decide +kernel

/-- C41, calls made one after the other: `np_destroy` puts the context into shutdown and tears it
down. -/
theorem C41_destroyed_partial (adds : Nat → Bool) (t : Nat) (cs : List Call) (hd : NoDestroy cs)
    (ha : ∀ n, .user n ∈ registered cs → adds n = false) (g : Bool) :
    ∃ w, run adds init (oneByOne t (cs ++ [.destroy g])) = some w ∧ w.ctx.status = .shutdown ∧
      tornDown w.trace = 1 := by
  obtain ⟨w, l, e1, e2, e3, e4, e5, _⟩ := run_destroyed adds t cs hd g ha
  refine ⟨w, e1, e4, ?_⟩
  have h1 := C41_destroy_once adds _ w e1
  have h2 : 0 < tornDown w.trace := List.countP_pos_iff.2 ⟨_, e5, by simp⟩
  omega

/-- C41 fails: `np_destroy` frees the context, so after it every call, `np_run` and a second
`np_destroy` among them, uses freed memory instead of being refused. -/
theorem C41_after_destroy_refuted (adds : Nat → Bool) (t : Nat) (cs : List Call)
    (hd : NoDestroy cs) (ha : ∀ n, .user n ∈ registered cs → adds n = false) (g : Bool) (c : Call) :
    run adds init (oneByOne t (cs ++ [.destroy g, c])) = none := by
  obtain ⟨w, l, e1, e2, e3, _⟩ := run_destroyed adds t cs hd g ha
  have : oneByOne t (cs ++ [.destroy g, c]) = oneByOne t (cs ++ [.destroy g]) ++ whole t c := by
    simp [oneByOne]
  rw [this, run_append, e1]
  exact run_freed adds t w c e2 e3

example : NoDestroy [.addCb (.user 1), .run, .addCb (.user 2)] ∧
    ∀ n, .user n ∈ registered [.addCb (.user 1), .run, .addCb (.user 2)] →
      (fun _ => false) n = false := by
  refine ⟨?_, fun _ _ => rfl⟩
  intro c hc g
  simp at hc
  rcases hc with rfl | rfl | rfl <;> simp

/-- C41 fails: an `np_run` that has read the status before `np_destroy` sets it puts the status back
to running, and a later `np_run` is accepted while the context is torn down. -/
theorem C41_revived_refuted :
    (run (fun _ => false) init
      (oneByOne 0 [.run] ++
        [.call 0 .run, .go 0 true, .go 0 true, .go 0 true] ++
        .call 1 (.destroy false) :: List.replicate 4 (.go 1 true) ++
        [.go 0 true] ++ oneByOne 2 [.run])).map
      (fun w => (w.ctx.status, w.pc 1, reports w.trace)) =
    some (.running, .des4, [(.run, .ok), (.run, .ok)]) := by
  decide +kernel

/-- C41 fails: `np_use_identity` reads the status once; if `np_run` starts after that, the identity
changes while the context runs, and the call reports `np_ok`. -/
theorem C41_identity_refuted :
    (run (fun _ => false) init
      ([.call 0 (.useIdentity 5), .go 0 true, .call 1 .run] ++ List.replicate 4 (.go 1 true) ++
        [.go 0 true])).map
      (fun w => (w.ctx.status, w.ctx.identity, w.pc 1, w.trace)) =
    some (.running, 5, .run4,
      [(1, .workers), (1, .entered), (0, .identity 5), (0, .returned (.useIdentity 5) .ok)]) := by
  decide +kernel

/-- C41: two `np_run` at the same time both start the worker threads. -/
theorem C41_workers_refuted :
    (run (fun _ => false) init
      [.call 0 .run, .call 1 .run, .go 0 true, .go 0 true, .go 1 true, .go 1 true]).map
      (fun w => w.trace.countP fun e => decide (e.2 = .workers)) = some 2 := by
  decide +kernel

/-! ## C75 -/

/-- C75, calls made one after the other, callbacks that are not null and do not add callbacks:
`np_destroy` calls exactly the callbacks added after the first `np_run`, in the order in which they
were added, and then its own.  The full property asks this for all callbacks: see
`C75_lost_refuted`, `C75_null_refuted`, `C75_deadlock_refuted`. -/
theorem C75_called_partial (adds : Nat → Bool) (t : Nat) (cs : List Call) (hd : NoDestroy cs)
    (hn : .null ∉ registered cs) (ha : ∀ n, .user n ∈ registered cs → adds n = false) (g : Bool) :
    ∃ w, run adds init (oneByOne t (cs ++ [.destroy g])) = some w ∧
      called w.trace = if .run ∈ cs then
        registered (fromRun cs) ++ (if g then [.notify] else []) else [] := by
  obtain ⟨w, l, e1, e2, e3, _, _, hl, hc⟩ := run_destroyed adds t cs hd g ha
  refine ⟨w, e1, ?_⟩
  rw [hc, ← hl]
  have hn' : .null ∉ l := by
    rw [hl]
    split
    · intro h
      rcases List.mem_append.1 h with h | h
      · exact hn (registered_mem cs _ h)
      · cases g <;> simp at h
    · simp
  have ha' : ∀ n, .user n ∈ l → adds n = false := by
    intro n
    rw [hl]
    split
    · intro h
      rcases List.mem_append.1 h with h | h
      · exact ha n (registered_mem cs _ h)
      · cases g <;> simp at h
    · simp
  rw [runCallbacks_all adds l hn' ha']

/-- Callbacks added before and after `np_run`. -/
example : NoDestroy [.addCb (.user 1), .run, .addCb (.user 2), .addCb (.user 3)] ∧
    registered (fromRun [.addCb (.user 1), .run, .addCb (.user 2), .addCb (.user 3)]) =
      [.user 2, .user 3] := by
  refine ⟨?_, rfl⟩
  intro c hc g
  simp at hc
  rcases hc with rfl | rfl | rfl | rfl <;> simp

/-- C75, any number of threads: a function is called at most as often as it was added. -/
theorem C75_at_most_once (adds : Nat → Bool) (evs : List Ev) (w : World)
    (h : run adds init evs = some w) (n : Nat) : calls n w.trace ≤ additions n w.trace := by
  have := run_invariant adds (Counted n) (counted_step adds n) evs init w
    (by simp [Counted, init, calls, additions]) h
  unfold Counted at this
  omega

example :
    (run (fun _ => false) init
      (oneByOne 0 [.run, .addCb (.user 1), .addCb (.user 1), .destroy true])).map
      (fun w => (calls 1 w.trace, additions 1 w.trace)) = some (2, 2) := by
  decide +kernel

/-- C75 fails: a callback added before the first `np_run` is accepted and never called. -/
theorem C75_lost_refuted (adds : Nat → Bool) (t n : Nat) (hn : adds n = false) :
    (∃ w, run adds init (oneByOne t [.addCb (.user n), .run]) = some w ∧
      reports w.trace = [(.addCb (.user n), .ok), (.run, .ok)]) ∧
    ∃ w, run adds init (oneByOne t [.addCb (.user n), .run, .destroy true]) = some w ∧
      called w.trace = [.notify] := by
  have hd : NoDestroy [.addCb (.user n), .run] := by
    intro c hc g; simp at hc; rcases hc with rfl | rfl <;> simp
  refine ⟨?_, ?_⟩
  · obtain ⟨w, e1, e2, _⟩ := C41_one_by_one_partial adds t _ hd
    exact ⟨w, e1, e2⟩
  · exact C75_called_partial adds t _ hd (by simp [registered])
      (by intro m hm; simp [registered] at hm; rw [hm]; exact hn) true

/-- C75 fails: a null pointer among the callbacks hides those added after it. -/
theorem C75_null_refuted :
    (run (fun _ => false) init
      (oneByOne 0 [.run, .addCb (.user 1), .addCb .null, .addCb (.user 2), .destroy true])).map
      (fun w => called w.trace) = some [.user 1] := by
  decide +kernel

/-- C75 fails: a callback that adds a callback waits for ever for the lock its caller holds; the
context is never torn down. -/
theorem C75_deadlock_refuted :
    (run (fun n => decide (n = 1)) init
      (oneByOne 0 [.run, .addCb (.user 1), .addCb (.user 2), .destroy true])).map
      (fun w => (called w.trace, w.pc 0, w.ctx.locked, tornDown w.trace)) =
    some ([.user 1], .stuck, true, 0) := by
  decide +kernel

/-! ## C76 -/

/-- C76, when listening never fails: whenever an `np_run` has begun to execute jobs, the context
listens. -/
theorem C76_listening_partial (adds : Nat → Bool) (evs : List Ev) (w : World)
    (hevs : ∀ e ∈ evs, ∀ u, e ≠ .go u false) (h : run adds init evs = some w)
    (he : ∃ t, (t, .entered) ∈ w.trace) : w.ctx.listening = true := by
  have := run_invariant' adds Heard (fun e => ∀ u, e ≠ .go u false) (heard_step adds) evs init w hevs
    ⟨fun t ht => by simp [init, Past] at ht, fun ⟨t, ht⟩ => by simp [init] at ht⟩ h
  exact this.trace he

example :
    (run (fun _ => false) init (oneByOne 0 [.run])).map (fun w => (w.trace, w.ctx.listening)) =
      some ([(0, .workers), (0, .entered), (0, .returned .run .ok)], true) := by
  decide +kernel

/-- C76 fails: if listening fails, `np_run` forgets it and reports `np_ok`. -/
theorem C76_forgotten_refuted (adds : Nat → Bool) (t : Nat) :
    (run adds init (.call t .run :: .go t false :: List.replicate 4 (.go t true))).map
      (fun w => (reports w.trace, w.ctx.listening)) = some ([(.run, .ok)], false) := by
  simp [run, step, init, enter, act, reports, List.replicate]

/-! ## C77 -/

/-- C77, up to 130 threads: exactly the configured number of threads is started. -/
theorem C77_threads_partial (n : BitVec 32) (h : n.toNat ≤ 130) (rounds : Nat) (hr : 256 ≤ rounds) :
    startWorkers rounds n = some n.toNat := by
  rw [startWorkers_end n (by omega) rounds hr]
  congr 1; omega

example : startWorkers 256 5 = some 5 ∧ startWorkers 256 130 = some 130 := by decide

/-- C77 fails: from 131 to 255 threads the loop that starts them never ends, because its counter is
an `int8_t`. -/
theorem C77_forever_refuted (n : BitVec 32) (h1 : 131 ≤ n.toNat) (h2 : n.toNat ≤ 255)
    (rounds : Nat) : startWorkers rounds n = none :=
  startWorkers_forever n (by omega) rounds

/-- C77 fails: a multiple of 256 threads is no thread at all, because the number is passed as an
`uint8_t`. -/
theorem C77_none_refuted (n : BitVec 32) (h : n.toNat % 256 = 0) (rounds : Nat)
    (hr : 256 ≤ rounds) : startWorkers rounds n = some 0 := by
  rw [startWorkers_end n (by omega) rounds hr, h]

end Np.Life
