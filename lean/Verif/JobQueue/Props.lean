import Verif.JobQueue.Lemmas
/-! # C14: the job queue -/
namespace Np.JobQueue
open Np.Heap Np.Heap.Spec Spec

/-- C14: in every interleaving of submitters and any number of workers, the accepted jobs are exactly those that are queued, being executed or
finished, each as often as it was accepted; a periodic job never ends. (Capacities 511 … 32768, the default is 512.) -/
theorem C14_neither_lost_nor_duplicated (size : Nat) (h1 : 511 ≤ size) (h2 : size ≤ 32768) (s : State) (h : Reachable size s) :
    (s.accepted.map ident).Perm ((queued s 0 ++ queued s 1 ++ executing s.workers ++ s.finished).map ident) ∧
    ∀ j ∈ s.finished, j.periodic = false := by
  have hi := inv_reachable size h1 h2 s h
  refine ⟨?_, hi.fin⟩
  rw [List.perm_iff_count]
  intro x
  have := hi.cons x
  simp only [cnt] at this
  simp only [List.map_append, List.count_append]
  exact this

/-- C14: a job handed out is one of its queue before which no other job of that queue is to run, and it leaves the queue — whatever
other threads did between choosing the queue and taking the job. -/
theorem C14_takes_first (size : Nat) (h1 : 511 ≤ size) (h2 : size ≤ 32768) (s : State) (h : Reachable size s) (k : Nat) (now : Int)
    (q : Nat) (hw : s.workers[k]? = some (.take now q)) (hne : queued s q ≠ []) :
    ∃ s' j, step s (.take k) = some (s', .unit) ∧ s'.workers[k]? = some (.exec j) ∧ s'.handedOut = s.handedOut ++ [(now, j)] ∧
      j ∈ queued s q ∧ (∀ j' ∈ queued s q, ¬ Before j' j) ∧ (queued s q).Perm (j :: queued s' q) := by
  have hi := inv_reachable size h1 h2 s h
  have hc : 0 < (s.q q).heap.count := by
    rcases Nat.eq_zero_or_pos (s.q q).heap.count with h | h
    · exact absurd ((content_nil _).2 h) hne
    · exact h
  obtain ⟨s1, e1, e2, e3, e4, e5, e6, e7, e8, e9, e10, e11⟩ := (takeJob_spec size h2 s q hi.good).2 hc
  have hk := (List.getElem?_eq_some_iff.1 hw).1
  refine ⟨{ setW s1 k (.exec ((s.q q).heap.e 1)) with handedOut := s1.handedOut ++ [(now, (s.q q).heap.e 1)] }, (s.q q).heap.e 1,
    by simp only [step, hw]; rw [e1]; rfl, ?_, ?_, e2.1, ?_, e3⟩
  · show (s1.workers.set k _)[k]? = _
    rw [e8]; simp [hk]
  · show s1.handedOut ++ _ = _
    rw [e11]
  · intro j' hj'
    rw [← jobLt_iff, e2.2 j' hj']; simp

/-- C14, proved part: no job is handed out before its time if no two workers are inside the selection at once — with any number of
submitters and of workers executing jobs at the same time. Missing: overlapping selections, see `C14_not_early_refuted`. -/
theorem C14_not_early_partial (size : Nat) (h1 : 511 ≤ size) (h2 : size ≤ 32768) (ops : List Op) (s : State) (os : List Out)
    (h : run (init size) ops = some (s, os)) (hser : Serialized size ops) : ∀ p ∈ s.handedOut, p.2.tstamp < p.1 :=
  (nb_run size h1 h2 ops _ _ _ (inv_init size) ⟨by simp [init], by simp [init], by simp [init]⟩ hser h).out

/-- The history of `C14_not_early_refuted`: jobs due at 1 and at 100; at time 10 two workers look at the queues before either takes. -/
def earlyHistory : List Op :=
  [.submit ⟨1, 1, 0, 0, false⟩, .submit ⟨2, 100, 0, 0, false⟩, .spawn, .spawn, .start 0 10, .start 1 10,
   .scan 0 true, .scan 1 true, .scan 0 true, .scan 1 true, .take 0, .take 1]

/-- C14 is violated: the due time is checked in one critical section and the job is taken in another (lines 134-156 and 164-187). With two
workers the second takes the next job although its time has not come: here a job due at 100 is run at 10. -/
theorem C14_not_early_refuted :
    ¬ ∀ (ops : List Op) (s : State) (os : List Out), run (init 512) ops = some (s, os) → ∀ p ∈ s.handedOut, p.2.tstamp < p.1 := by
  intro hall
  have e : (run (init 512) earlyHistory).map (fun r => r.1.handedOut) =
      some [((10 : Int), (⟨1, 1, 0, 0, false⟩ : Job)), (10, ⟨2, 100, 0, 0, false⟩)] := by decide +kernel
  cases h : run (init 512) earlyHistory with
  | none => rw [h] at e; cases e
  | some r =>
    rw [h] at e
    simp at e
    have := hall earlyHistory r.1 r.2 (by rw [h]) (10, ⟨2, 100, 0, 0, false⟩) (by rw [e]; simp)
    simp at this

/-- C14: a submission never aborts, and is refused exactly when 511 jobs of its kind are waiting. -/
theorem C14_refused_iff_full (size : Nat) (h1 : 511 ≤ size) (h2 : size ≤ 32768) (s : State) (h : Reachable size s) (j : Job) :
    ∃ s' o, step s (.submit j) = some (s', o) ∧ (o = .refused ↔ (queued s (if j.periodic then 0 else 1)).length = 511) ∧
      (o = .refused → s' = s) ∧ (o ≠ .refused → (queued s' (if j.periodic then 0 else 1)).Perm (j :: queued s (if j.periodic then 0 else 1))) := by
  have hi := inv_reachable size h1 h2 s h
  have hb : (queued s (queueIdx j)).length ≤ 511 := by
    have := hi.bound (queueIdx j)
    rw [queued, content_length]; exact this
  show ∃ s' o, step s (.submit j) = some (s', o) ∧ (o = .refused ↔ (queued s (queueIdx j)).length = 511) ∧
      (o = .refused → s' = s) ∧ (o ≠ .refused → (queued s' (queueIdx j)).Perm (j :: queued s (queueIdx j)))
  by_cases hl : (queued s (queueIdx j)).length < 511
  · obtain ⟨s1, e1, e2, e3, e4, e5⟩ := (insertJob_spec size h1 s j hi.good).2 hl
    refine ⟨_, _, by simp only [step]; rw [e1]; rfl, ?_, ?_, ?_⟩
    · simp; omega
    · simp
    · intro _; exact e2.perm
  · refine ⟨s, .refused, by simp only [step]; rw [(insertJob_spec size h1 s j hi.good).1 (by omega)]; rfl, ?_, by simp, by simp⟩
    simp; omega

/-- C14: the only step that ends the process is the end of a periodic job while 511 other periodic jobs are waiting (its re-insertion is
refused, lines 640-645). -/
theorem C14_abort_iff (size : Nat) (h1 : 511 ≤ size) (h2 : size ≤ 32768) (s : State) (h : Reachable size s) (op : Op) :
    step s op = none ↔ ∃ k t j, op = .finish k t ∧ s.workers[k]? = some (.exec j) ∧ j.periodic = true ∧ (queued s 0).length = 511 := by
  have hi := inv_reachable size h1 h2 s h
  have hb0 : (queued s 0).length ≤ 511 := by rw [queued, content_length]; exact hi.bound 0
  constructor
  · intro hn
    cases op with
    | submit j =>
      obtain ⟨s', o, e, _⟩ := C14_refused_iff_full size h1 h2 s h j
      rw [e] at hn; cases hn
    | spawn => cases hn
    | start k now => simp only [step] at hn; split at hn <;> cases hn
    | scan k l =>
      simp only [step] at hn
      split at hn
      · split at hn
        · cases hn
        · split at hn <;> cases hn
      · cases hn
    | take k =>
      simp only [step] at hn
      split at hn
      · next now q hw =>
        rcases Nat.eq_zero_or_pos (s.q q).heap.count with hc | hc
        · rw [(takeJob_spec size h2 s q hi.good).1 hc] at hn; cases hn
        · obtain ⟨s1, e1, _⟩ := (takeJob_spec size h2 s q hi.good).2 hc
          rw [e1] at hn; cases hn
      · cases hn
    | finish k t =>
      simp only [step] at hn
      split at hn
      · next j hw =>
        by_cases hp : j.periodic = true
        · refine ⟨k, t, j, rfl, hw, hp, ?_⟩
          by_cases hl : (queued s 0).length = 511
          · exact hl
          · rw [if_pos hp] at hn
            have hq : queueIdx { j with tstamp := max (t + j.interval) t } = 0 := by simp [queueIdx, hp]
            obtain ⟨s1, e1, _⟩ := (insertJob_spec size h1 (setW s k .idle) { j with tstamp := max (t + j.interval) t } hi.good).2
              (by rw [hq]; show (queued s 0).length < 511; omega)
            rw [e1] at hn; simp at hn
        · rw [if_neg hp] at hn; cases hn
      · cases hn
  · rintro ⟨k, t, j, rfl, hw, hp, hl⟩
    have hq : queueIdx { j with tstamp := max (t + j.interval) t } = 0 := by simp [queueIdx, hp]
    have := (insertJob_spec size h1 (setW s k .idle) { j with tstamp := max (t + j.interval) t } hi.good).1
              (by rw [hq]; show 511 ≤ (queued s 0).length; omega)
    simp only [step, hw]
    rw [if_pos hp, this]; simp

/-- C14: when a periodic job started at `t` ends, the same job is queued again for one interval after its start (not earlier than
the start), and nothing else is queued or lost. -/
theorem C14_periodic_again (size : Nat) (h1 : 511 ≤ size) (h2 : size ≤ 32768) (s : State) (h : Reachable size s) (k : Nat) (t : Int)
    (j : Job) (hw : s.workers[k]? = some (.exec j)) (hp : j.periodic = true) (s' : State) (o : Out)
    (hs : step s (.finish k t) = some (s', o)) :
    s'.workers[k]? = some .idle ∧ queued s' 1 = queued s 1 ∧
    ∃ j', ident j' = ident j ∧ (0 ≤ j.interval → j'.tstamp = t + j.interval) ∧ (j.interval ≤ 0 → j'.tstamp = t) ∧
      (queued s' 0).Perm (j' :: queued s 0) := by
  have hi := inv_reachable size h1 h2 s h
  have hk := (List.getElem?_eq_some_iff.1 hw).1
  have hq : queueIdx { j with tstamp := max (t + j.interval) t } = 0 := by simp [queueIdx, hp]
  have hb0 : (queued s 0).length ≤ 511 := by rw [queued, content_length]; exact hi.bound 0
  have hl : (queued s 0).length < 511 := by
    rcases Nat.lt_or_ge (queued s 0).length 511 with h5 | h5
    · exact h5
    · have := (C14_abort_iff size h1 h2 s h (.finish k t)).2 ⟨k, t, j, rfl, hw, hp, by omega⟩
      rw [this] at hs; cases hs
  obtain ⟨s1, e1, e2, _⟩ := (insertJob_spec size h1 (setW s k .idle) { j with tstamp := max (t + j.interval) t } hi.good).2
              (by rw [hq]; exact hl)
  simp only [step, hw] at hs
  rw [if_pos hp, e1] at hs
  simp at hs
  obtain ⟨rfl, rfl⟩ := hs
  refine ⟨?_, ?_, { j with tstamp := max (t + j.interval) t }, rfl, ?_, ?_, ?_⟩
  · rw [e2.workers]; simp [setW, hk]
  · have := e2.other 1 (by rw [hq]; omega)
    simp only [queued, this]; rfl
  · intro h5; simp; omega
  · intro h5; simp; omega
  · have := e2.perm
    rw [hq] at this; exact this

/-- Submitting the same kind of job over and over. -/
def flood (n : Nat) : List Op := (List.range n).map fun i => .submit ⟨i, 0, 0, 0, false⟩

/-- C14 is violated for a configured capacity other than the default: with `jobqueue_size` 1000 the 512th job is refused already (the
limit is the constant of line 207), with `jobqueue_size` 8 the ninth job ends the process by a failing assertion of the heap. -/
theorem C14_configured_size_refuted :
    (¬ ∀ (ops : List Op) (s : State) (os : List Out) (j : Job), run (init 1000) ops = some (s, os) →
        (queued s (queueIdx j)).length < 1000 → ∃ s', step s (.submit j) = some (s', .accepted)) ∧
    (¬ ∀ (ops : List Op) (s : State) (os : List Out) (j : Job), run (init 8) ops = some (s, os) → ∃ s' o, step s (.submit j) = some (s', o)) := by
  constructor
  · intro hall
    have e : (run (init 1000) (flood 511)).map (fun r => (r.1.q 1).heap.count) = some 511 := by decide +kernel
    cases h : run (init 1000) (flood 511) with
    | none => rw [h] at e; cases e
    | some r =>
      rw [h] at e; simp at e
      have hq : (queued r.1 (queueIdx ⟨0, 0, 0, 0, false⟩)).length = 511 := by
        rw [queued, content_length]; exact e
      obtain ⟨s', hs'⟩ := hall (flood 511) r.1 r.2 ⟨0, 0, 0, 0, false⟩ (by rw [h]) (by omega)
      have hi := inv_reachable 1000 (by omega) (by omega) r.1 ⟨_, _, h⟩
      simp only [step] at hs'
      rw [(insertJob_spec 1000 (by omega) r.1 ⟨0, 0, 0, 0, false⟩ hi.good).1 (by omega)] at hs'
      simp at hs'
  · intro hall
    have e : (run (init 8) (flood 8)).map (fun r => decide ((step r.1 (.submit ⟨9, 0, 0, 0, false⟩)).isNone)) = some true := by decide +kernel
    cases h : run (init 8) (flood 8) with
    | none => rw [h] at e; cases e
    | some r =>
      rw [h] at e
      obtain ⟨s', o, h2⟩ := hall (flood 8) r.1 r.2 ⟨9, 0, 0, 0, false⟩ (by rw [h])
      simp [h2] at e

/-- C14: an undisturbed selection by an idle worker takes a job that is due earliest among both queues, if any job is due, and otherwise
leaves the queues alone. -/
theorem C14_selection (size : Nat) (h1 : 511 ≤ size) (h2 : size ≤ 32768) (s : State) (h : Reachable size s) (k : Nat) (now : Int)
    (hw : s.workers[k]? = some .idle) :
    ∃ s' os, run s (selectAlone k now) = some (s', os) ∧
      ((∃ j, (j ∈ queued s 0 ∨ j ∈ queued s 1) ∧ j.tstamp < now) →
        ∃ j, s'.handedOut = s.handedOut ++ [(now, j)] ∧ s'.workers[k]? = some (.exec j) ∧ (j ∈ queued s 0 ∨ j ∈ queued s 1) ∧ j.tstamp < now ∧
          ∀ j', (j' ∈ queued s 0 ∨ j' ∈ queued s 1) → j.tstamp ≤ j'.tstamp) ∧
      ((∀ j, (j ∈ queued s 0 ∨ j ∈ queued s 1) → now ≤ j.tstamp) →
        s'.handedOut = s.handedOut ∧ s'.workers = s.workers ∧ ∀ i, s'.q i = s.q i) :=
  select_spec size h1 h2 s (inv_reachable size h1 h2 s h) k now hw

example : (run (init 512) [.submit ⟨1, 1, 0, 0, false⟩, .spawn, .start 0 10, .scan 0 true, .submit ⟨2, 0, 5, 7, true⟩, .scan 0 true,
    .take 0, .spawn, .finish 0 11, .start 1 20, .scan 1 true, .scan 1 true, .take 1]).map (fun r => r.1.handedOut.map (fun p => p.2.id)) =
    some [1, 2] := by decide +kernel
example : Reachable 512 (init 512) := ⟨[], [], rfl⟩

end Np.JobQueue
