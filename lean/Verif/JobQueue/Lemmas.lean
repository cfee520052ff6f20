import Verif.JobQueue.Spec
import Verif.Heap.Lemmas
set_option linter.unusedSimpArgs false
namespace Np.JobQueue
open Np.Heap Np.Heap.Spec Spec

theorem jobLt_iff (a b : Job) : jobLt a b = true ↔ Before a b := by
  unfold jobLt compareScheduling Before
  simp only [beq_iff_eq]
  repeat' split
  all_goals simp <;> omega

theorem jobLt_weak : StrictWeak jobLt := by
  have hf : ∀ a b, jobLt a b = false ↔ ¬ Before a b := by
    intro a b; rw [← jobLt_iff]; simp
  constructor
  · intro a; rw [hf]; unfold Before; omega
  · intro a b c; rw [jobLt_iff, jobLt_iff, jobLt_iff]; unfold Before; omega
  · intro a b c; rw [hf, hf, hf]; unfold Before; omega

def cnt (x : Nat × Bool) (l : List Job) : Nat := (l.map ident).count x

theorem cnt_append (x) (a b : List Job) : cnt x (a ++ b) = cnt x a + cnt x b := by simp [cnt]
theorem cnt_cons (x) (a : Job) (b : List Job) : cnt x (a :: b) = cnt x [a] + cnt x b := by
  rw [← List.singleton_append, cnt_append]
theorem cnt_perm (x) {a b : List Job} (h : a.Perm b) : cnt x a = cnt x b := (h.map ident).count_eq x
theorem cnt_nil (x) : cnt x [] = 0 := rfl

theorem executing_set (x) : ∀ (ws : List Worker) (k : Nat) (w w' : Worker), ws[k]? = some w →
    cnt x (executing (ws.set k w')) + cnt x (executing [w]) = cnt x (executing ws) + cnt x (executing [w'])
  | [], k, w, w', h => by simp at h
  | v :: ws, 0, w, w', h => by
    simp at h; subst h
    simp only [List.set_cons_zero, executing, List.flatMap_cons, cnt_append, List.flatMap_nil, cnt_nil]; omega
  | v :: ws, k + 1, w, w', h => by
    have ih := executing_set x ws k w w' (by simpa using h)
    simp only [List.set_cons_succ, executing, List.flatMap_cons, cnt_append, List.flatMap_nil, cnt_nil] at ih ⊢; omega

/-- What a worker phase promises about the state (for the bookkeeping of queue indices). -/
def WOk : Worker → Prop
  | .scan _ idx qi _ => idx < 2 ∧ ∀ q, qi = some q → q < 2
  | .take _ q => q < 2
  | _ => True

structure Inv (size : Nat) (s : State) : Prop where
  good : ∀ i, Good jobLt size (s.q i).heap
  next : ∀ i, 0 < (s.q i).heap.count → (s.q i).next = ((s.q i).heap.e 1).tstamp
  bound : ∀ i, (s.q i).heap.count ≤ 511
  kind : ∀ i, ∀ j ∈ queued s i, queueIdx j = i
  wok : ∀ w ∈ s.workers, WOk w
  cons : ∀ x, cnt x s.accepted = cnt x (queued s 0) + cnt x (queued s 1) + cnt x (executing s.workers) + cnt x s.finished
  fin : ∀ j ∈ s.finished, j.periodic = false

theorem inv_init (size : Nat) : Inv size (init size) where
  good i := good_init _ _ _
  next i h := by simp [init, Heap.init] at h
  bound i := by simp [init, Heap.init]
  kind i j hj := by simp [queued, init, content, Heap.init] at hj
  wok w hw := by simp [init] at hw
  cons x := by simp [init, queued, content, Heap.init, executing, cnt]
  fin j hj := by simp [init] at hj

theorem queueIdx_lt (j : Job) : queueIdx j < 2 := by unfold queueIdx; split <;> omega

/-- Effect of an insertion. -/
structure Inserted (s s' : State) (j : Job) : Prop where
  other : ∀ i, i ≠ queueIdx j → s'.q i = s.q i
  perm : (queued s' (queueIdx j)).Perm (j :: queued s (queueIdx j))
  workers : s'.workers = s.workers
  accepted : s'.accepted = s.accepted
  finished : s'.finished = s.finished
  handedOut : s'.handedOut = s.handedOut

theorem insertJob_spec (size : Nat) (hs : 511 ≤ size) (s : State) (j : Job)
    (good : ∀ i, Good jobLt size (s.q i).heap) :
    (511 ≤ (queued s (queueIdx j)).length → insertJob s j = some (s, false)) ∧
    ((queued s (queueIdx j)).length < 511 → ∃ s', insertJob s j = some (s', true) ∧ Inserted s s' j ∧
      (∀ i, Good jobLt size (s'.q i).heap) ∧
      (s'.q (queueIdx j)).next = ((s'.q (queueIdx j)).heap.e 1).tstamp ∧
      (s'.q (queueIdx j)).heap.count = (s.q (queueIdx j)).heap.count + 1) := by
  have hl : (queued s (queueIdx j)).length = (s.q (queueIdx j)).heap.count := content_length _
  constructor
  · intro h; simp only [insertJob]; rw [if_pos (by unfold MAX_SIZE; omega)]
  · intro h
    have hg := good (queueIdx j)
    obtain ⟨h', e1, e2, e3, e4, e5⟩ := insert_spec jobLt_weak (s.q (queueIdx j)).heap j (by rw [hg.hsize]; omega) hg.heap
    refine ⟨setQ s (queueIdx j) ⟨h', (h'.e 1).tstamp⟩, ?_, ?_, ?_, ?_, ?_⟩
    · simp only [insertJob]; rw [if_neg (by unfold MAX_SIZE; omega), e1]
      simp [first, e2]
    · exact ⟨fun i hi => by simp [setQ, hi], by simpa [queued, setQ] using e5, rfl, rfl, rfl, rfl⟩
    · intro i
      simp only [setQ]
      split
      · exact ⟨by rw [e3, hg.hsize], by rw [e2]; omega, e4⟩
      · exact good i
    · simp [setQ]
    · simp [setQ, e2]

/-- Effect of taking a job. -/
theorem takeJob_spec (size : Nat) (hs : size ≤ 32768) (s : State) (i : Nat) (good : ∀ i, Good jobLt size (s.q i).heap) :
    ((s.q i).heap.count = 0 → takeJob s i = some (s, none)) ∧
    (0 < (s.q i).heap.count → ∃ s', takeJob s i = some (s', some ((s.q i).heap.e 1)) ∧
      Smallest jobLt ((s.q i).heap.e 1) (queued s i) ∧ (queued s i).Perm ((s.q i).heap.e 1 :: queued s' i) ∧
      (∀ k, k ≠ i → s'.q k = s.q k) ∧ (∀ k, Good jobLt size (s'.q k).heap) ∧
      (0 < (s'.q i).heap.count → (s'.q i).next = ((s'.q i).heap.e 1).tstamp) ∧
      (s'.q i).heap.count = (s.q i).heap.count - 1 ∧
      s'.workers = s.workers ∧ s'.accepted = s.accepted ∧ s'.finished = s.finished ∧ s'.handedOut = s.handedOut) := by
  constructor
  · intro h; simp [takeJob, Heap.isEmpty, h]
  · intro h
    have hg := good i
    have hc := hg.count
    obtain ⟨h', e1, e2, e3, e4, e5⟩ := head_spec jobLt_weak (s.q i).heap h (by omega) hg.heap
    refine ⟨setQ s i ⟨h', if h'.count = 0 then 0 else (h'.e 1).tstamp⟩, ?_, first_smallest jobLt_weak _ h hg.heap, ?_, ?_, ?_, ?_, ?_,
      rfl, rfl, rfl, rfl⟩
    · have hne : (s.q i).heap.count ≠ 0 := by omega
      simp only [takeJob, Heap.isEmpty, beq_iff_eq, hne, if_false, e1, Option.bind_eq_bind, Option.bind_some]
      by_cases h0 : h'.count = 0
      · simp [h0]
      · simp [h0, first, Nat.pos_of_ne_zero h0]
    · simpa [queued, setQ] using e5
    · intro k hk; simp [setQ, hk]
    · intro k
      simp only [setQ]
      split
      · exact ⟨by rw [e3, hg.hsize], by rw [e2]; omega, e4⟩
      · exact good k
    · intro h5; simp only [setQ, if_true] at h5 ⊢; rw [if_neg (by omega)]
    · simp [setQ, e2]

/-- The sum over the two queues. -/
theorem queued_inserted (x) {s s' : State} {j : Job} (h : Inserted s s' j) :
    cnt x (queued s' 0) + cnt x (queued s' 1) = cnt x [j] + cnt x (queued s 0) + cnt x (queued s 1) := by
  have hp := cnt_perm x h.perm
  rw [cnt_cons] at hp
  have hq : queueIdx j = 0 ∨ queueIdx j = 1 := by have := queueIdx_lt j; omega
  rcases hq with hq | hq
  · rw [hq] at hp
    have := h.other 1 (by omega)
    have e : queued s' 1 = queued s 1 := by simp [queued, this]
    rw [e]; omega
  · rw [hq] at hp
    have := h.other 0 (by omega)
    have e : queued s' 0 = queued s 0 := by simp [queued, this]
    rw [e]; omega

theorem inv_inserted {size : Nat} {s s' : State} {j : Job} (hk : ∀ i, ∀ j ∈ queued s i, queueIdx j = i)
    (hb : ∀ i, (s.q i).heap.count ≤ 511) (hn : ∀ i, 0 < (s.q i).heap.count → (s.q i).next = ((s.q i).heap.e 1).tstamp)
    (hl : (queued s (queueIdx j)).length < 511) (h : Inserted s s' j)
    (h2 : (s'.q (queueIdx j)).next = ((s'.q (queueIdx j)).heap.e 1).tstamp)
    (h3 : (s'.q (queueIdx j)).heap.count = (s.q (queueIdx j)).heap.count + 1) :
    (∀ i, 0 < (s'.q i).heap.count → (s'.q i).next = ((s'.q i).heap.e 1).tstamp) ∧ (∀ i, (s'.q i).heap.count ≤ 511) ∧
    (∀ i, ∀ j ∈ queued s' i, queueIdx j = i) := by
  have hl' : (queued s (queueIdx j)).length = (s.q (queueIdx j)).heap.count := content_length _
  refine ⟨?_, ?_, ?_⟩
  · intro i hi
    by_cases e : i = queueIdx j
    · rw [e]; exact h2
    · rw [h.other i e] at hi ⊢; exact hn i hi
  · intro i
    by_cases e : i = queueIdx j
    · rw [e, h3]; omega
    · rw [h.other i e]; exact hb i
  · intro i k hkk
    by_cases e : i = queueIdx j
    · rw [e] at hkk
      have := h.perm.mem_iff.1 hkk
      rcases List.mem_cons.1 this with rfl | h5
      · exact e.symm
      · rw [e]; exact hk _ k h5
    · have e2 : queued s' i = queued s i := by simp [queued, h.other i e]
      rw [e2] at hkk; exact hk i k hkk

theorem mem_set_imp {α : Type} {l : List α} {k : Nat} {a b : α} (h : b ∈ l.set k a) : b ∈ l ∨ b = a := List.mem_or_eq_of_mem_set h

theorem executing_of (w : Worker) (h : ∀ j, w ≠ .exec j) : executing [w] = [] := by
  cases w <;> simp [executing]
  next j => exact h j rfl

theorem inv_setW {size : Nat} {s : State} (hi : Inv size s) (k : Nat) (w w' : Worker) (hw : s.workers[k]? = some w)
    (h1 : ∀ j, w ≠ .exec j) (h2 : ∀ j, w' ≠ .exec j) (hok : WOk w') : Inv size (setW s k w') where
  good := hi.good
  next := hi.next
  bound := hi.bound
  kind := hi.kind
  wok v hv := by
    rcases mem_set_imp hv with h | rfl
    · exact hi.wok v h
    · exact hok
  cons x := by
    have := executing_set x s.workers k w w' hw
    rw [executing_of w h1, executing_of w' h2] at this
    have h := hi.cons x
    show cnt x s.accepted = cnt x (queued s 0) + cnt x (queued s 1) + cnt x (executing (s.workers.set k w')) + cnt x s.finished
    rw [cnt_nil] at this; omega
  fin := hi.fin

theorem scanQueue_lt (s : State) (locked : Bool) (now : Int) (idx : Nat) (qi : Option Nat) (lowest : Int) (hidx : idx < 2)
    (h : ∀ q, qi = some q → q < 2) : ∀ q, (scanQueue s locked now idx qi lowest).1 = some q → q < 2 := by
  intro q hq
  simp only [scanQueue] at hq
  split at hq
  · simp only at hq
    split at hq
    · simp only [Option.some.injEq] at hq; omega
    · exact h q hq
  · exact h q hq

theorem inv_step (size : Nat) (hs : 511 ≤ size) (hs2 : size ≤ 32768) (s s' : State) (o : Out) (op : Op) (hi : Inv size s)
    (h : step s op = some (s', o)) : Inv size s' := by
  cases op with
  | submit j =>
    simp only [step] at h
    by_cases hl : (queued s (queueIdx j)).length < 511
    · obtain ⟨s1, e1, e2, e3, e4, e5⟩ := (insertJob_spec size hs s j hi.good).2 hl
      rw [e1] at h
      simp at h
      rw [← h.1]
      obtain ⟨f1, f2, f3⟩ := inv_inserted (size := size) hi.kind hi.bound hi.next hl e2 e4 e5
      refine ⟨e3, f1, f2, f3, ?_, ?_, ?_⟩
      · show ∀ w ∈ s1.workers, WOk w
        rw [e2.workers]; exact hi.wok
      · intro x
        have := queued_inserted x e2
        have h9 := hi.cons x
        show cnt x (s1.accepted ++ [j]) = cnt x (queued s1 0) + cnt x (queued s1 1) + cnt x (executing s1.workers) + cnt x s1.finished
        rw [cnt_append, e2.accepted, e2.workers, e2.finished]; omega
      · show ∀ w ∈ s1.finished, _
        rw [e2.finished]; exact hi.fin
    · rw [(insertJob_spec size hs s j hi.good).1 (by omega)] at h
      simp at h; rw [← h.1]; exact hi
  | spawn =>
    simp [step] at h
    rw [← h.1]
    refine ⟨hi.good, hi.next, hi.bound, hi.kind, ?_, ?_, hi.fin⟩
    · intro w hw
      simp at hw
      rcases hw with hw | rfl
      · exact hi.wok w hw
      · trivial
    · intro x
      have h9 := hi.cons x
      show cnt x s.accepted = cnt x (queued s 0) + cnt x (queued s 1) + cnt x (executing (s.workers ++ [.idle])) + cnt x s.finished
      simp only [executing, List.flatMap_append, cnt_append] at h9 ⊢
      simp [cnt_nil]; omega
  | start k now =>
    simp only [step] at h
    split at h
    · next hw =>
      simp at h; rw [← h.1]
      exact inv_setW hi k _ _ hw (by simp) (by simp) ⟨by omega, by simp⟩
    · simp at h; rw [← h.1]; exact hi
  | scan k locked =>
    simp only [step] at h
    split at h
    · next now idx qi lowest hw =>
      have hwok : WOk (.scan now idx qi lowest) := hi.wok _ (List.mem_of_getElem? hw)
      have hlt := scanQueue_lt s locked now idx qi lowest hwok.1 hwok.2
      split at h
      · simp at h; rw [← h.1]
        exact inv_setW hi k _ _ hw (by simp) (by simp) ⟨by omega, hlt⟩
      · split at h
        · next q hq =>
          simp at h; rw [← h.1]
          exact inv_setW hi k _ _ hw (by simp) (by simp) (hlt q hq)
        · simp at h; rw [← h.1]
          exact inv_setW hi k _ _ hw (by simp) (by simp) trivial
    · simp at h; rw [← h.1]; exact hi
  | take k =>
    simp only [step] at h
    split at h
    · next now q hw =>
      have hwok : WOk (.take now q) := hi.wok _ (List.mem_of_getElem? hw)
      by_cases hc : (s.q q).heap.count = 0
      · rw [(takeJob_spec size hs2 s q hi.good).1 hc] at h
        simp at h; rw [← h.1]
        exact inv_setW hi k _ _ hw (by simp) (by simp) trivial
      · obtain ⟨s1, e1, e2, e3, e4, e5, e6, e7, e8, e9, e10, e11⟩ := (takeJob_spec size hs2 s q hi.good).2 (by omega)
        rw [e1] at h
        simp at h; rw [← h.1]
        refine ⟨e5, ?_, ?_, ?_, ?_, ?_, ?_⟩
        · intro i hc2
          by_cases hiq : i = q
          · subst hiq; exact e6 hc2
          · have := e4 i hiq
            show (s1.q i).next = ((s1.q i).heap.e 1).tstamp
            have hc3 : 0 < (s1.q i).heap.count := hc2
            rw [this] at hc3 ⊢; exact hi.next i hc3
        · intro i
          show (s1.q i).heap.count ≤ 511
          have := hi.bound q
          by_cases hiq : i = q
          · subst hiq; omega
          · rw [e4 i hiq]; exact hi.bound i
        · intro i j hj
          have hj : j ∈ queued s1 i := hj
          by_cases hiq : i = q
          · subst hiq; exact hi.kind _ j (e3.mem_iff.2 (List.mem_cons_of_mem _ hj))
          · have e : queued s1 i = queued s i := by simp [queued, e4 i hiq]
            rw [e] at hj; exact hi.kind i j hj
        · intro v hv
          rw [show (_ : State).workers = s1.workers.set k _ from rfl] at hv
          rcases mem_set_imp hv with h | rfl
          · rw [e8] at h; exact hi.wok v h
          · trivial
        · intro x
          have h9 := hi.cons x
          have h10 := executing_set x s.workers k _ (.exec ((s.q q).heap.e 1)) hw
          have h11 := cnt_perm x e3
          rw [cnt_cons] at h11
          show cnt x s1.accepted = cnt x (queued s1 0) + cnt x (queued s1 1) + cnt x (executing (s1.workers.set k _)) + cnt x s1.finished
          rw [e8, e9, e10]
          rw [executing_of (.take now q) (by simp), cnt_nil] at h10
          simp only [executing, List.flatMap_cons, List.flatMap_nil, List.append_nil] at h10 h9 ⊢
          have hq : q = 0 ∨ q = 1 := by have : q < 2 := hwok; omega
          rcases hq with rfl | rfl
          · have e : queued s1 1 = queued s 1 := by simp [queued, e4 1 (by omega)]
            rw [e]; omega
          · have e : queued s1 0 = queued s 0 := by simp [queued, e4 0 (by omega)]
            rw [e]; omega
        · intro j hj
          have hj : j ∈ s1.finished := hj
          rw [e10] at hj
          exact hi.fin j hj
    · simp at h; rw [← h.1]; exact hi
  | finish k startedAt =>
    simp only [step] at h
    split at h
    · next j hw =>
      split at h
      · next hp =>
        generalize hj' : ({ j with tstamp := max (startedAt + j.interval) startedAt } : Job) = j' at h
        by_cases hl : (queued (setW s k .idle) (queueIdx j')).length < 511
        · obtain ⟨s1, e1, e2, e3, e4, e5⟩ := (insertJob_spec size hs (setW s k .idle) j' hi.good).2 hl
          rw [e1] at h
          simp at h; rw [← h.1]
          obtain ⟨f1, f2, f3⟩ := inv_inserted (size := size) (s := setW s k .idle) hi.kind hi.bound hi.next hl e2 e4 e5
          refine ⟨e3, f1, f2, f3, ?_, ?_, ?_⟩
          · rw [e2.workers]
            intro v hv
            rcases mem_set_imp hv with h | rfl
            · exact hi.wok v h
            · trivial
          · intro x
            have h9 := hi.cons x
            have h10 := queued_inserted x e2
            have h11 := executing_set x s.workers k _ .idle hw
            rw [e2.accepted, e2.workers, e2.finished]
            have h12 : cnt x (executing [.idle]) = 0 := rfl
            have h13 : cnt x (executing [.exec j]) = cnt x [j'] := by
              have : ident j = ident j' := by rw [← hj']; rfl
              simp [executing, cnt, this]
            have a1 : (setW s k .idle).accepted = s.accepted := rfl
            have a2 : (setW s k .idle).workers = s.workers.set k .idle := rfl
            have a3 : (setW s k .idle).finished = s.finished := rfl
            have a4 : queued (setW s k .idle) 0 = queued s 0 := rfl
            have a5 : queued (setW s k .idle) 1 = queued s 1 := rfl
            rw [a1, a2, a3]; rw [a4, a5] at h10; omega
          · rw [e2.finished]; exact hi.fin
        · rw [(insertJob_spec size hs (setW s k .idle) j' hi.good).1 (by omega)] at h
          simp at h
      · next hp =>
        simp at h; rw [← h.1]
        refine ⟨hi.good, hi.next, hi.bound, hi.kind, ?_, ?_, ?_⟩
        · intro v hv
          rcases mem_set_imp hv with h | rfl
          · exact hi.wok v h
          · trivial
        · intro x
          have h9 := hi.cons x
          have h11 := executing_set x s.workers k _ .idle hw
          have h12 : cnt x (executing [.idle]) = 0 := rfl
          have h13 : cnt x (executing [.exec j]) = cnt x [j] := by simp [executing]
          show cnt x s.accepted = cnt x (queued s 0) + cnt x (queued s 1) + cnt x (executing (s.workers.set k .idle)) + cnt x (s.finished ++ [j])
          rw [cnt_append]; omega
        · intro v hv
          have hv : v ∈ s.finished ++ [j] := hv
          rcases List.mem_append.1 hv with h | h
          · exact hi.fin v h
          · simp at h; rw [h]; simpa using hp
    · simp at h; rw [← h.1]; exact hi

theorem run_append (s : State) : ∀ (a b : List Op), run s (a ++ b) = (run s a).bind fun r => (run r.1 b).map fun t => (t.1, r.2 ++ t.2)
  | [], b => by cases h : run s b <;> simp [run, h]
  | op :: a, b => by
    simp only [List.cons_append, run]
    cases h : step s op with
    | none => rfl
    | some p =>
      simp only [Option.bind_eq_bind, Option.bind_some]
      rw [run_append p.1 a b]
      cases h2 : run p.1 a with
      | none => rfl
      | some r =>
        simp only [Option.bind_some, Option.pure_def]
        cases h3 : run r.1 b <;> simp

theorem inv_run (size : Nat) (hs : 511 ≤ size) (hs2 : size ≤ 32768) : ∀ (ops : List Op) (s s' : State) (os : List Out), Inv size s →
    run s ops = some (s', os) → Inv size s'
  | [], s, s', os, hi, h => by simp [run] at h; rw [← h.1]; exact hi
  | op :: ops, s, s', os, hi, h => by
    simp only [run] at h
    cases e : step s op with
    | none => simp [e] at h
    | some p =>
      simp only [e, Option.bind_eq_bind, Option.bind_some] at h
      cases e2 : run p.1 ops with
      | none => simp [e2] at h
      | some r =>
        simp [e2] at h
        exact inv_run size hs hs2 ops p.1 s' r.2 (inv_step size hs hs2 s p.1 p.2 op hi e) (by rw [e2, ← h.1])

theorem inv_reachable (size : Nat) (hs : 511 ≤ size) (hs2 : size ≤ 32768) (s : State) (h : Reachable size s) : Inv size s := by
  obtain ⟨ops, os, h⟩ := h
  exact inv_run size hs hs2 ops _ _ _ (inv_init size) h

/-! ## Never early, if selections do not overlap -/

theorem one_selecting (p : Worker → Bool) : ∀ (ws : List Worker) (i j : Nat) (a b : Worker), (ws.filter p).length ≤ 1 → ws[i]? = some a →
    ws[j]? = some b → p a = true → p b = true → i = j
  | [], i, j, a, b, _, hi, _, _, _ => by simp at hi
  | w :: ws, i, j, a, b, h, hi, hj, ha, hb => by
    have none_of : ∀ (k : Nat) (c : Worker), (ws.filter p).length = 0 → ws[k]? = some c → p c = true → False := by
      intro k c h0 hc hp
      have : c ∈ ws.filter p := List.mem_filter.2 ⟨List.mem_of_getElem? hc, hp⟩
      rw [List.length_eq_zero_iff.1 h0] at this; cases this
    cases i with
    | zero =>
      simp at hi; subst hi
      simp [List.filter_cons, ha] at h
      cases j with
      | zero => rfl
      | succ j =>
        simp at hj
        exact absurd hb (by rw [h b (List.mem_of_getElem? hj)]; simp)
    | succ i =>
      simp at hi
      cases j with
      | zero =>
        simp at hj; subst hj
        simp [List.filter_cons, hb] at h
        exact absurd ha (by rw [h a (List.mem_of_getElem? hi)]; simp)
      | succ j =>
        simp at hj
        have : (ws.filter p).length ≤ 1 := by
          rw [List.filter_cons] at h
          split at h
          · simp only [List.length_cons] at h; omega
          · exact h
        rw [one_selecting p ws i j a b this hi hj ha hb]

/-- What is known about the queue a worker has chosen. -/
def Due (s : State) (now : Int) (q : Nat) : Prop := 0 < (s.q q).heap.count ∧ (s.q q).next < now

structure NB (s : State) : Prop where
  out : ∀ p ∈ s.handedOut, p.2.tstamp < p.1
  scan : ∀ (k : Nat) now idx q lowest, s.workers[k]? = some (Worker.scan now idx (some q) lowest) → Due s now q
  take : ∀ (k : Nat) now q, s.workers[k]? = some (Worker.take now q) → Due s now q

theorem due_inserted {size : Nat} {s s' : State} {j : Job} (hi : ∀ i, 0 < (s.q i).heap.count → (s.q i).next = ((s.q i).heap.e 1).tstamp)
    (good : ∀ i, Good jobLt size (s.q i).heap) (h : Inserted s s' j) (good' : ∀ i, Good jobLt size (s'.q i).heap)
    (h2 : (s'.q (queueIdx j)).next = ((s'.q (queueIdx j)).heap.e 1).tstamp)
    (h3 : (s'.q (queueIdx j)).heap.count = (s.q (queueIdx j)).heap.count + 1) (now : Int) (q : Nat) (hd : Due s now q) : Due s' now q := by
  by_cases e : q = queueIdx j
  · subst e
    refine ⟨by omega, ?_⟩
    have hm := first_smallest jobLt_weak _ (by omega) (good' (queueIdx j)).heap
    have hm2 := first_smallest jobLt_weak _ hd.1 (good (queueIdx j)).heap
    have : (s.q (queueIdx j)).heap.e 1 ∈ queued s' (queueIdx j) := h.perm.mem_iff.2 (List.mem_cons_of_mem _ hm2.1)
    have h5 := hm.2 _ this
    have h6 : ¬ Before ((s.q (queueIdx j)).heap.e 1) ((s'.q (queueIdx j)).heap.e 1) := by
      rw [← jobLt_iff, h5]; simp
    have h7 := hi _ hd.1
    have h8 := hd.2
    unfold Before at h6
    omega
  · unfold Due; rw [h.other q e]; exact hd

theorem nb_step (size : Nat) (hs : 511 ≤ size) (hs2 : size ≤ 32768) (s s' : State) (o : Out) (op : Op) (hi : Inv size s) (hn : NB s)
    (hone : (s.workers.filter selecting).length ≤ 1) (h : step s op = some (s', o)) : NB s' := by
  -- replacing one worker keeps the facts about the others
  have setw : ∀ (k : Nat) (w' : Worker) (hw : k < s.workers.length), (∀ now idx q lowest, w' = .scan now idx (some q) lowest → Due s now q) →
      (∀ now q, w' = .take now q → Due s now q) → NB (setW s k w') := by
    intro k w' hw h1 h2
    refine ⟨hn.out, ?_, ?_⟩
    · intro k2 now idx q lowest hk
      simp only [setW] at hk
      rw [List.getElem?_set] at hk
      split at hk
      · simp [hw] at hk; exact h1 _ _ _ _ hk
      · exact hn.scan k2 now idx q lowest hk
    · intro k2 now q hk
      simp only [setW] at hk
      rw [List.getElem?_set] at hk
      split at hk
      · simp [hw] at hk; exact h2 _ _ hk
      · exact hn.take k2 now q hk
  cases op with
  | submit j =>
    simp only [step] at h
    by_cases hl : (queued s (queueIdx j)).length < 511
    · obtain ⟨s1, e1, e2, e3, e4, e5⟩ := (insertJob_spec size hs s j hi.good).2 hl
      rw [e1] at h
      simp at h
      rw [← h.1]
      have hd := due_inserted hi.next hi.good e2 e3 e4 e5
      refine ⟨?_, ?_, ?_⟩
      · show ∀ p ∈ s1.handedOut, _
        rw [e2.handedOut]; exact hn.out
      · intro k now idx q lowest hk
        have hk : s1.workers[k]? = _ := hk
        rw [e2.workers] at hk
        exact hd now q (hn.scan k now idx q lowest hk)
      · intro k now q hk
        have hk : s1.workers[k]? = _ := hk
        rw [e2.workers] at hk
        exact hd now q (hn.take k now q hk)
    · rw [(insertJob_spec size hs s j hi.good).1 (by omega)] at h
      simp at h; rw [← h.1]; exact hn
  | spawn =>
    simp [step] at h
    rw [← h.1]
    refine ⟨hn.out, ?_, ?_⟩
    · intro k now idx q lowest hk
      have hk : (s.workers ++ [.idle])[k]? = _ := hk
      by_cases hkl : k < s.workers.length
      · rw [List.getElem?_append_left hkl] at hk; exact hn.scan k now idx q lowest hk
      · rw [List.getElem?_append_right (by omega)] at hk
        by_cases h0 : k - s.workers.length = 0
        · simp [h0] at hk
        · obtain ⟨m, hm⟩ : ∃ m, k - s.workers.length = m + 1 := ⟨k - s.workers.length - 1, by omega⟩
          rw [hm] at hk; simp at hk
    · intro k now q hk
      have hk : (s.workers ++ [.idle])[k]? = _ := hk
      by_cases hkl : k < s.workers.length
      · rw [List.getElem?_append_left hkl] at hk; exact hn.take k now q hk
      · rw [List.getElem?_append_right (by omega)] at hk
        by_cases h0 : k - s.workers.length = 0
        · simp [h0] at hk
        · obtain ⟨m, hm⟩ : ∃ m, k - s.workers.length = m + 1 := ⟨k - s.workers.length - 1, by omega⟩
          rw [hm] at hk; simp at hk
  | start k now =>
    simp only [step] at h
    split at h
    · next hw =>
      simp at h; rw [← h.1]
      exact setw k _ (List.getElem?_eq_some_iff.1 hw).1 (by simp) (by simp)
    · simp at h; rw [← h.1]; exact hn
  | scan k locked =>
    simp only [step] at h
    split at h
    · next now idx qi lowest hw =>
      have hk := (List.getElem?_eq_some_iff.1 hw).1
      have hdue : ∀ q, (scanQueue s locked now idx qi lowest).1 = some q → Due s now q := by
        intro q hq
        simp only [scanQueue] at hq
        split at hq
        · next hc =>
          simp only at hq
          split at hq
          · simp only [Option.some.injEq] at hq; subst hq
            refine ⟨?_, hc.2.1⟩
            have := hc.2.2
            simp [Heap.isEmpty] at this; omega
          · rw [hq] at hw; exact hn.scan k now idx q lowest hw
        · simp only at hq; rw [hq] at hw; exact hn.scan k now idx q lowest hw
      split at h
      · simp at h; rw [← h.1]
        refine setw k _ hk ?_ (by simp)
        intro now' idx' q lowest' e
        simp at e
        rw [← e.1]; exact hdue q e.2.2.1
      · split at h
        · next q hq =>
          simp at h; rw [← h.1]
          refine setw k _ hk (by simp) ?_
          intro now' q' e
          simp at e
          rw [← e.1, ← e.2]; exact hdue q hq
        · simp at h; rw [← h.1]
          exact setw k _ hk (by simp) (by simp)
    · simp at h; rw [← h.1]; exact hn
  | take k =>
    simp only [step] at h
    split at h
    · next now q hw =>
      have hk := (List.getElem?_eq_some_iff.1 hw).1
      have hdue := hn.take k now q hw
      obtain ⟨s1, e1, e2, e3, e4, e5, e6, e7, e8, e9, e10, e11⟩ := (takeJob_spec size hs2 s q hi.good).2 hdue.1
      rw [e1] at h
      simp at h; rw [← h.1]
      have alone : ∀ (k2 : Nat) w2, (s1.workers.set k (.exec ((s.q q).heap.e 1)))[k2]? = some w2 → selecting w2 = true → False := by
        intro k2 w2 hk2 hsel
        rw [e8, List.getElem?_set] at hk2
        split at hk2
        · simp [hk] at hk2; rw [← hk2] at hsel; cases hsel
        · next hne => exact hne (one_selecting selecting s.workers k k2 _ w2 hone hw hk2 rfl hsel)
      refine ⟨?_, ?_, ?_⟩
      · intro p hp
        have hp : p ∈ s1.handedOut ++ [(now, (s.q q).heap.e 1)] := hp
        rw [e11] at hp
        rcases List.mem_append.1 hp with h | h
        · exact hn.out p h
        · simp at h; rw [h]
          have := hi.next q hdue.1
          have h8 := hdue.2
          show ((s.q q).heap.e 1).tstamp < now
          omega
      · intro k2 now' idx' q' lowest' hk2
        exact (alone k2 _ hk2 rfl).elim
      · intro k2 now' q' hk2
        exact (alone k2 _ hk2 rfl).elim
    · simp at h; rw [← h.1]; exact hn
  | finish k startedAt =>
    simp only [step] at h
    split at h
    · next j hw =>
      have hk := (List.getElem?_eq_some_iff.1 hw).1
      have hn' := setw k .idle hk (by simp) (by simp)
      split at h
      · next hp =>
        generalize hj' : ({ j with tstamp := max (startedAt + j.interval) startedAt } : Job) = j' at h
        by_cases hl : (queued (setW s k .idle) (queueIdx j')).length < 511
        · obtain ⟨s1, e1, e2, e3, e4, e5⟩ := (insertJob_spec size hs (setW s k .idle) j' hi.good).2 hl
          rw [e1] at h
          simp at h; rw [← h.1]
          have hd := due_inserted (s := setW s k .idle) hi.next hi.good e2 e3 e4 e5
          refine ⟨by rw [e2.handedOut]; exact hn.out, ?_, ?_⟩
          · intro k now idx q lowest hk
            rw [e2.workers] at hk
            exact hd now q (hn'.scan k now idx q lowest hk)
          · intro k now q hk
            rw [e2.workers] at hk
            exact hd now q (hn'.take k now q hk)
        · rw [(insertJob_spec size hs (setW s k .idle) j' hi.good).1 (by omega)] at h
          simp at h
      · simp at h; rw [← h.1]
        exact ⟨hn'.out, hn'.scan, hn'.take⟩
    · simp at h; rw [← h.1]; exact hn

theorem nb_run (size : Nat) (hs : 511 ≤ size) (hs2 : size ≤ 32768) : ∀ (ops : List Op) (s s' : State) (os : List Out), Inv size s → NB s →
    (∀ pre, pre <+: ops → ∀ t os, run s pre = some (t, os) → (t.workers.filter selecting).length ≤ 1) →
    run s ops = some (s', os) → NB s'
  | [], s, s', os, hi, hn, _, h => by simp [run] at h; rw [← h.1]; exact hn
  | op :: ops, s, s', os, hi, hn, hser, h => by
    simp only [run] at h
    cases e : step s op with
    | none => simp [e] at h
    | some p =>
      simp only [e, Option.bind_eq_bind, Option.bind_some] at h
      cases e2 : run p.1 ops with
      | none => simp [e2] at h
      | some r =>
        simp [e2] at h
        refine nb_run size hs hs2 ops p.1 s' r.2 (inv_step size hs hs2 s p.1 p.2 op hi e)
          (nb_step size hs hs2 s p.1 p.2 op hi hn (hser [] (List.nil_prefix) s [] rfl) e) ?_ (by rw [e2, ← h.1])
        intro pre hpre t os' ht
        exact hser (op :: pre) (by simpa using hpre) t (p.2 :: os') (by simp [run, e, ht])

/-! ## An undisturbed selection -/

theorem queued_min {size : Nat} {s : State} (hi : Inv size s) (i : Nat) (j : Job) (hj : j ∈ queued s i) :
    0 < (s.q i).heap.count ∧ (s.q i).next ≤ j.tstamp := by
  have hc : 0 < (s.q i).heap.count := by
    rcases Nat.eq_zero_or_pos (s.q i).heap.count with h | h
    · have : queued s i = [] := (content_nil _).2 h
      rw [this] at hj; cases hj
    · exact h
  refine ⟨hc, ?_⟩
  have hm := (first_smallest jobLt_weak _ hc (hi.good i).heap).2 j hj
  have hn := hi.next i hc
  have : ¬ Before j ((s.q i).heap.e 1) := by rw [← jobLt_iff, hm]; simp
  unfold Before at this; omega

theorem setW_setW (s : State) (k : Nat) (a b : Worker) : setW (setW s k a) k b = setW s k b := by
  simp [setW]

theorem scanQueue_setW (s : State) (k : Nat) (w : Worker) : scanQueue (setW s k w) = scanQueue s := rfl

theorem select_spec (size : Nat) (h1 : 511 ≤ size) (h2 : size ≤ 32768) (s : State) (hi : Inv size s) (k : Nat) (now : Int)
    (hw : s.workers[k]? = some .idle) :
    ∃ s' os, run s (selectAlone k now) = some (s', os) ∧
      ((∃ j, (j ∈ queued s 0 ∨ j ∈ queued s 1) ∧ j.tstamp < now) →
        ∃ j, s'.handedOut = s.handedOut ++ [(now, j)] ∧ s'.workers[k]? = some (.exec j) ∧ (j ∈ queued s 0 ∨ j ∈ queued s 1) ∧ j.tstamp < now ∧
          ∀ j', (j' ∈ queued s 0 ∨ j' ∈ queued s 1) → j.tstamp ≤ j'.tstamp) ∧
      ((∀ j, (j ∈ queued s 0 ∨ j ∈ queued s 1) → now ≤ j.tstamp) →
        s'.handedOut = s.handedOut ∧ s'.workers = s.workers ∧ ∀ i, s'.q i = s.q i) := by
  have hk := (List.getElem?_eq_some_iff.1 hw).1
  have hget : ∀ w, (setW s k w).workers[k]? = some w := by intro w; simp [setW, hk]
  have hidle : (setW s k .idle).workers = s.workers := by
    have := (List.getElem?_eq_some_iff.1 hw).2
    simp only [setW]; rw [← this]; simp
  -- the chosen queue
  let r0 := scanQueue s true now 0 none (now + 9)
  let r1 := scanQueue s true now 1 r0.1 r0.2
  have hrun : run s (selectAlone k now) = (match r1.1 with
      | some q => step (setW s k (.take now q)) (.take k)
      | none => step (setW s k .idle) (.take k)).map fun (r : State × Out) => (r.1, [Out.unit, Out.unit, Out.unit, r.2]) := by
    simp only [selectAlone, run]
    have e1 : step s (.start k now) = some (setW s k (.scan now 0 none (now + 9)), .unit) := by simp [step, hw]
    have e2 : step (setW s k (.scan now 0 none (now + 9))) (.scan k true) = some (setW s k (.scan now 1 r0.1 r0.2), .unit) := by
      simp only [step, hget]; simp [setW_setW, scanQueue_setW, r0]
    have e3 : step (setW s k (.scan now 1 r0.1 r0.2)) (.scan k true) = some (match r1.1 with
        | some q => setW s k (.take now q) | none => setW s k .idle, .unit) := by
      simp only [step, hget]
      simp only [scanQueue_setW, setW_setW]
      show (if 1 + 1 < 2 then _ else match r1.1 with | some q => _ | none => _) = _
      rw [if_neg (by omega)]
      cases r1.1 <;> rfl
    rw [e1]; simp only [Option.bind_eq_bind, Option.bind_some]
    rw [e2]; simp only [Option.bind_some]
    rw [e3]; simp only [Option.bind_some]
    cases r1.1 with
    | none => cases h : step (setW s k .idle) (.take k) <;> simp [h]
    | some q => cases h : step (setW s k (.take now q)) (.take k) <;> simp [h]
  -- what the choice means
  have hr0 : r0 = if (s.q 0).next < now ∧ 0 < (s.q 0).heap.count then (some 0, (s.q 0).next) else (none, now + 9) := by
    simp only [r0, scanQueue, Heap.isEmpty]
    by_cases hc : (s.q 0).next < now ∧ 0 < (s.q 0).heap.count
    · have : (s.q 0).heap.count ≠ 0 := by omega
      rw [if_pos ⟨trivial, hc.1, by simpa using this⟩, if_pos hc, if_pos (by omega), if_pos (by omega)]
    · rw [if_neg, if_neg hc]
      rintro ⟨_, h5, h6⟩
      exact hc ⟨h5, by simp at h6; omega⟩
  have hr1 : r1 = if (s.q 1).next < now ∧ 0 < (s.q 1).heap.count then
      (if (s.q 1).next < r0.2 then some 1 else r0.1, if (s.q 1).next < r0.2 then (s.q 1).next else r0.2) else r0 := by
    simp only [r1, scanQueue, Heap.isEmpty]
    by_cases hc : (s.q 1).next < now ∧ 0 < (s.q 1).heap.count
    · have : (s.q 1).heap.count ≠ 0 := by omega
      rw [if_pos ⟨trivial, hc.1, by simpa using this⟩, if_pos hc]
    · rw [if_neg, if_neg hc]
      rintro ⟨_, h5, h6⟩
      exact hc ⟨h5, by simp at h6; omega⟩
  have hcases : (r1.1 = none ∧ ¬ ((s.q 0).next < now ∧ 0 < (s.q 0).heap.count) ∧ ¬ ((s.q 1).next < now ∧ 0 < (s.q 1).heap.count)) ∨
      (∃ q, q < 2 ∧ r1.1 = some q ∧ (s.q q).next < now ∧ 0 < (s.q q).heap.count ∧
        ∀ i, i < 2 → 0 < (s.q i).heap.count → (s.q q).next ≤ (s.q i).next) := by
    have split2 : ∀ i, i < 2 → i = 0 ∨ i = 1 := by intro i hi; omega
    by_cases c0 : (s.q 0).next < now ∧ 0 < (s.q 0).heap.count
    · rw [if_pos c0] at hr0
      by_cases c1 : (s.q 1).next < now ∧ 0 < (s.q 1).heap.count
      · rw [if_pos c1, hr0] at hr1
        by_cases c2 : (s.q 1).next < (s.q 0).next
        · right; refine ⟨1, by omega, by rw [hr1]; simp [c2], c1.1, c1.2, ?_⟩
          intro i hi2 _
          rcases split2 i hi2 with rfl | rfl <;> omega
        · right; refine ⟨0, by omega, by rw [hr1]; simp [c2], c0.1, c0.2, ?_⟩
          intro i hi2 _
          rcases split2 i hi2 with rfl | rfl <;> omega
      · rw [if_neg c1, hr0] at hr1
        right; refine ⟨0, by omega, by rw [hr1], c0.1, c0.2, ?_⟩
        intro i hi2 hc
        rcases split2 i hi2 with rfl | rfl
        · omega
        · have : ¬ (s.q 1).next < now := fun h => c1 ⟨h, hc⟩
          omega
    · rw [if_neg c0] at hr0
      by_cases c1 : (s.q 1).next < now ∧ 0 < (s.q 1).heap.count
      · rw [if_pos c1, hr0] at hr1
        right; refine ⟨1, by omega, by rw [hr1]; simp only; rw [if_pos (by omega)], c1.1, c1.2, ?_⟩
        intro i hi2 hc
        rcases split2 i hi2 with rfl | rfl
        · have : ¬ (s.q 0).next < now := fun h => c0 ⟨h, hc⟩
          omega
        · omega
      · rw [if_neg c1, hr0] at hr1
        left; exact ⟨by rw [hr1], c0, c1⟩
  rcases hcases with ⟨hnone, n0, n1⟩ | ⟨q, hq2, hsome, hqn, hqc, hqmin⟩
  · rw [hnone] at hrun
    have e : step (setW s k .idle) (.take k) = some (setW s k .idle, .unit) := by simp [step, hget]
    simp only [e] at hrun
    refine ⟨setW s k .idle, _, hrun, ?_, ?_⟩
    · rintro ⟨j, hj, hjn⟩
      rcases hj with hj | hj
      · have := queued_min hi 0 j hj; exact absurd ⟨by omega, this.1⟩ n0
      · have := queued_min hi 1 j hj; exact absurd ⟨by omega, this.1⟩ n1
    · intro _; exact ⟨rfl, hidle, fun _ => rfl⟩
  · rw [hsome] at hrun
    have hg : ∀ i, Good jobLt size ((setW s k (.take now q)).q i).heap := hi.good
    obtain ⟨s1, e1, e2, e3, e4, e5, e6, e7, e8, e9, e10, e11⟩ := (takeJob_spec size h2 (setW s k (.take now q)) q hg).2 hqc
    have e : step (setW s k (.take now q)) (.take k) = some ({ setW s1 k (.exec ((s.q q).heap.e 1)) with
        handedOut := s1.handedOut ++ [(now, (s.q q).heap.e 1)] }, .unit) := by
      simp only [step, hget]; rw [e1]; rfl
    simp only [e] at hrun
    have hts := hi.next q hqc
    have hmem : (s.q q).heap.e 1 ∈ queued s 0 ∨ (s.q q).heap.e 1 ∈ queued s 1 := by
      have h5 : (s.q q).heap.e 1 ∈ queued s q := e2.1
      have : q = 0 ∨ q = 1 := by omega
      rcases this with h6 | h6
      · left; subst h6; exact h5
      · right; subst h6; exact h5
    refine ⟨_, _, hrun, ?_, ?_⟩
    · intro _
      refine ⟨(s.q q).heap.e 1, ?_, ?_, hmem, by omega, ?_⟩
      · show s1.handedOut ++ _ = _
        rw [e11]; rfl
      · show (s1.workers.set k _)[k]? = _
        rw [e8]; simp [setW, hk]
      · intro j' hj'
        rcases hj' with hj' | hj'
        · have h5 := queued_min hi 0 j' hj'; have := hqmin 0 (by omega) h5.1; omega
        · have h5 := queued_min hi 1 j' hj'; have := hqmin 1 (by omega) h5.1; omega
    · intro hall
      have := hall _ hmem
      omega

end Np.JobQueue
