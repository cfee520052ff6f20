import Verif.Life.Lemmas3

set_option linter.unusedSimpArgs false
set_option linter.unusedVariables false

/-! # What other threads see, and the worker threads -/
namespace Np.Life

open _root_.Np.Life.Spec

/-- A context in shutdown with no `np_run` past its check. -/
structure Down (t : Nat) (w0 w : World) : Prop where
  status : w.ctx.status = .shutdown
  none3 : ∀ u, w.pc u ≠ .run3
  not4 : w.pc t ≠ .run4
  since : ∃ s, w.trace = w0.trace ++ s ∧ (∀ e ∈ s, e.2 ≠ .entered ∧ e.2 ≠ .workers) ∧
    ∀ r, (t, .returned .run r) ∈ s → r = .invalidOperation

theorem act_down (adds : Nat → Bool) (x : Ctx) (b : Bool) (p : Pc) (hs : x.status = .shutdown)
    (h3 : p ≠ .run3) :
    let r := act adds x b p
    r.1.status = .shutdown ∧ r.2.1 ≠ .run3 ∧ (p ≠ .run4 → r.2.1 ≠ .run4) ∧
    (∀ e ∈ r.2.2, e ≠ .entered ∧ e ≠ .workers) ∧
    (p ≠ .run4 → ∀ q, .returned .run q ∈ r.2.2 → q = .invalidOperation) := by
  cases p with
  | idle => simp [act, hs]
  | stuck => simp [act, hs]
  | run0 => unfold act; simp only []; split <;> simp [hs]
  | run1 => simp [act, hs]
  | run2 => simp [act, hs]
  | run3 => exact absurd rfl h3
  | run4 => simp [act, hs]
  | use0 i => simp [act, hs]
  | use1 i => simp [act, hs]
  | add0 c =>
    unfold act; simp only []
    split
    · simp [hs]
    · simp [(addCallback_rest _ _).2.2.2.1, hs]
  | des0 g => unfold act; simp only []; split <;> simp [hs]
  | des1 g =>
    unfold act; simp only []
    split
    · split
      · simp [hs]
      · simp [(addCallback_rest _ _).2.2.2.1, hs]
    · simp [hs]
  | des2 =>
    unfold act; simp only []
    split
    · simp [hs]
    · split <;> simp [hs]
  | des3 => simp [act, hs]
  | des4 => simp [act, hs]

theorem enter_not (c : Call) : enter c ≠ .run3 ∧ enter c ≠ .run4 ∧ ∀ i, enter c ≠ .use1 i := by
  cases c <;> simp [enter]

theorem down_step (adds : Nat → Bool) (t : Nat) (w0 w : World) (e : Ev) (w' : World)
    (h : Down t w0 w) (hs : step adds w e = some w') : Down t w0 w' := by
  rcases step_cases hs with rfl | ⟨u, c, _, hi, rfl⟩ | ⟨u, b, _, _, _, _, rfl⟩
  · exact h
  · refine ⟨h.status, fun v => ?_, ?_, h.since⟩
    · simp only []
      split
      · exact (enter_not c).1
      · exact h.none3 v
    · simp only []
      split
      · exact (enter_not c).2.1
      · exact h.not4
  · obtain ⟨h1, h2, h3, h4, h5⟩ := act_down adds w.ctx b (w.pc u) h.status (h.none3 u)
    refine ⟨h1, fun v => ?_, ?_, ?_⟩
    · simp only []
      split
      · exact h2
      · exact h.none3 v
    · simp only []
      split
      · rename_i htu; exact h3 (htu ▸ h.not4)
      · exact h.not4
    · obtain ⟨s, e1, e2, e3⟩ := h.since
      refine ⟨s ++ (act adds w.ctx b (w.pc u)).2.2.map fun e => (u, e), ?_, ?_, ?_⟩
      · simp only []; rw [e1, List.append_assoc]
      · intro x hx
        rcases List.mem_append.1 hx with hx | hx
        · exact e2 x hx
        · obtain ⟨o, ho, rfl⟩ := List.mem_map.1 hx
          exact h4 o ho
      · intro r hr
        rcases List.mem_append.1 hr with hr | hr
        · exact e3 r hr
        · obtain ⟨o, ho, he⟩ := List.mem_map.1 hr
          simp only [Prod.mk.injEq] at he
          obtain ⟨rfl, rfl⟩ := he
          exact h5 h.not4 r ho

/-- A context that runs, with nobody destroying it. -/
structure Up (t : Nat) (w0 w : World) : Prop where
  status : w.ctx.status = .running
  none : ∀ u, ¬ Destroying (w.pc u)
  not1 : ∀ i, w.pc t ≠ .use1 i
  since : ∃ s, w.trace = w0.trace ++ s ∧ (∀ i, (t, .identity i) ∉ s) ∧
    ∀ i r, (t, .returned (.useIdentity i) r) ∈ s → r = .invalidOperation

theorem act_up (adds : Nat → Bool) (x : Ctx) (b : Bool) (p : Pc) (hs : x.status = .running)
    (hd : ¬ Destroying p) :
    let r := act adds x b p
    r.1.status = .running ∧ ¬ Destroying r.2.1 ∧ (∀ i, r.2.1 ≠ .use1 i) ∧
    ((∀ i, p ≠ .use1 i) → (∀ i, .identity i ∉ r.2.2) ∧
      ∀ i q, .returned (.useIdentity i) q ∈ r.2.2 → q = .invalidOperation) := by
  cases p with
  | idle => simp [act, hs, Destroying]
  | stuck => simp [act, hs, Destroying]
  | run0 => unfold act; simp only []; split <;> simp [hs, Destroying]
  | run1 => simp [act, hs, Destroying]
  | run2 => simp [act, hs, Destroying]
  | run3 => simp [act, hs, Destroying]
  | run4 => unfold act; simp only []; split <;> simp [hs, Destroying]
  | use0 i => simp [act, hs, Destroying]
  | use1 i => simp [act, hs, Destroying]
  | add0 c =>
    unfold act; simp only []
    split
    · simp [hs, Destroying]
    · simp [(addCallback_rest _ _).2.2.2.1, hs, Destroying]
  | des0 g => exact absurd trivial hd
  | des1 g => exact absurd trivial hd
  | des2 => exact absurd trivial hd
  | des3 => exact absurd trivial hd
  | des4 => exact absurd trivial hd

theorem up_step (adds : Nat → Bool) (t : Nat) (w0 w : World) (e : Ev) (w' : World)
    (hq : ∀ u g, e ≠ .call u (.destroy g)) (h : Up t w0 w) (hs : step adds w e = some w') :
    Up t w0 w' := by
  rcases step_cases hs with rfl | ⟨u, c, he, hi, rfl⟩ | ⟨u, b, _, _, _, _, rfl⟩
  · exact h
  · refine ⟨h.status, fun v => ?_, fun i => ?_, h.since⟩
    · simp only []
      split
      · cases c with
        | destroy g => exact absurd he (hq u g)
        | run => simp [enter, Destroying]
        | useIdentity i => simp [enter, Destroying]
        | addCb a => simp [enter, Destroying]
      · exact h.none v
    · simp only []
      split
      · exact (enter_not c).2.2 i
      · exact h.not1 i
  · obtain ⟨h1, h2, h3, h4⟩ := act_up adds w.ctx b (w.pc u) h.status (h.none u)
    refine ⟨h1, fun v => ?_, fun i => ?_, ?_⟩
    · simp only []
      split
      · exact h2
      · exact h.none v
    · simp only []
      split
      · exact h3 i
      · exact h.not1 i
    · obtain ⟨s, e1, e2, e3⟩ := h.since
      refine ⟨s ++ (act adds w.ctx b (w.pc u)).2.2.map fun e => (u, e), ?_, ?_, ?_⟩
      · simp only []; rw [e1, List.append_assoc]
      · intro i hx
        rcases List.mem_append.1 hx with hx | hx
        · exact e2 i hx
        · obtain ⟨o, ho, he⟩ := List.mem_map.1 hx
          simp only [Prod.mk.injEq] at he
          obtain ⟨rfl, rfl⟩ := he
          exact (h4 h.not1).1 i ho
      · intro i r hr
        rcases List.mem_append.1 hr with hr | hr
        · exact e3 i r hr
        · obtain ⟨o, ho, he⟩ := List.mem_map.1 hr
          simp only [Prod.mk.injEq] at he
          obtain ⟨rfl, rfl⟩ := he
          exact (h4 h.not1).2 i r ho

/-! ## Listening -/

/-- The thread is past the point where `np_run` listens. -/
def Past : Pc → Bool
  | .run1 | .run2 | .run3 | .run4 => true
  | _ => false

structure Heard (w : World) : Prop where
  pcs : ∀ t, Past (w.pc t) = true → w.ctx.listening = true
  trace : (∃ t, (t, .entered) ∈ w.trace) → w.ctx.listening = true

theorem act_heard (adds : Nat → Bool) (x : Ctx) (p : Pc) :
    let r := act adds x true p
    (x.listening = true → r.1.listening = true) ∧
    (Past r.2.1 = true → Past p = true ∨ r.1.listening = true) ∧
    (.entered ∈ r.2.2 → Past p = true) := by
  have hadd : ∀ c, (addCallback x c).listening = x.listening := by
    intro c; unfold addCallback; split <;> rfl
  cases p with
  | idle => simp [act, Past]
  | stuck => simp [act, Past]
  | run0 => unfold act; simp only []; split <;> simp_all [Past]
  | run1 => unfold act; simp only []; split <;> simp [Past]
  | run2 => unfold act; simp only []; split <;> simp [Past]
  | run3 => simp [act, Past]
  | run4 => simp [act, Past]
  | use0 i => unfold act; simp only []; split <;> simp [Past]
  | use1 i => simp [act, Past]
  | add0 c => unfold act; simp only []; split <;> simp [Past, hadd]
  | des0 g => unfold act; simp only []; split <;> simp [Past]
  | des1 g =>
    unfold act; simp only []
    split
    · split <;> simp [Past, hadd]
    · simp [Past]
  | des2 =>
    unfold act; simp only []
    split
    · simp [Past]
    · split <;> simp [Past]
  | des3 => simp [act, Past]
  | des4 => simp [act, Past]

theorem heard_step (adds : Nat → Bool) (w : World) (e : Ev) (w' : World)
    (hq : ∀ u, e ≠ .go u false) (h : Heard w) (hs : step adds w e = some w') : Heard w' := by
  rcases step_cases hs with rfl | ⟨u, c, he, hi, rfl⟩ | ⟨u, b, he, _, _, _, rfl⟩
  · exact h
  · refine ⟨fun t ht => ?_, h.trace⟩
    simp only [] at ht
    split at ht
    · cases c <;> simp [enter, Past] at ht
    · exact h.pcs t ht
  · have hb : b = true := by
      cases b with
      | true => rfl
      | false => exact absurd he (hq u)
    subst hb
    obtain ⟨h1, h2, h3⟩ := act_heard adds w.ctx (w.pc u)
    refine ⟨fun t ht => ?_, fun ⟨t, ht⟩ => ?_⟩
    · simp only [] at ht ⊢
      split at ht
      · rcases h2 ht with h | h'
        · exact h1 (Heard.pcs ‹_› u h)
        · exact h'
      · exact h1 (h.pcs t ht)
    · simp only [] at ht ⊢
      rcases List.mem_append.1 ht with ht | ht
      · exact h1 (h.trace ⟨t, ht⟩)
      · obtain ⟨o, ho, hh⟩ := List.mem_map.1 ht
        simp only [Prod.mk.injEq] at hh
        obtain ⟨rfl, rfl⟩ := hh
        exact h1 (h.pcs u (h3 ho))

/-! ## The worker threads -/

theorem workerLoop_end (pool : BitVec 8) (hp : pool.toNat ≤ 127) :
    ∀ (d : Nat) (i : BitVec 8) (n k : Nat), i.toNat + d = pool.toNat → d < k →
      workerLoop pool k i n = some (n + d) := by
  intro d
  induction d with
  | zero =>
    intro i n k h hk
    obtain ⟨k, rfl⟩ : ∃ j, k = j + 1 := ⟨k - 1, by omega⟩
    have : i.toInt = (i.toNat : Int) := by rw [BitVec.toInt_eq_toNat_cond]; split <;> omega
    simp only [workerLoop]
    rw [if_neg (by rw [this]; omega)]
    rfl
  | succ d ih =>
    intro i n k h hk
    obtain ⟨k, rfl⟩ : ∃ j, k = j + 1 := ⟨k - 1, by omega⟩
    have : i.toInt = (i.toNat : Int) := by rw [BitVec.toInt_eq_toNat_cond]; split <;> omega
    simp only [workerLoop]
    rw [if_pos (by rw [this]; omega)]
    have hn : (i + 1).toNat = i.toNat + 1 := by
      rw [BitVec.toNat_add]; simp; omega
    rw [ih (i + 1) (n + 1) k (by omega) (by omega)]
    congr 1; omega

theorem workerLoop_forever (pool : BitVec 8) (hp : 128 ≤ pool.toNat) :
    ∀ (k : Nat) (i : BitVec 8) (n : Nat), workerLoop pool k i n = none := by
  intro k
  induction k with
  | zero => intro i n; rfl
  | succ k ih =>
    intro i n
    have : i.toInt < 128 := by have := BitVec.toInt_lt (x := i); simpa using this
    simp only [workerLoop]
    rw [if_pos (by omega), ih]

/-- The event threads: three at most, and one thread less in the rest for each. -/
theorem afterEvents_spec (pool : BitVec 8) :
    let r := afterEvents pool (pool / 2 + 1)
    r.1 + r.2.toNat = pool.toNat ∧ (7 ≤ pool.toNat → r.1 = 3) ∧ r.1 ≤ 3 := by
  revert pool
  decide +kernel

theorem startWorkers_end (n : BitVec 32) (h : n.toNat % 256 ≤ 130) (k : Nat) (hk : 256 ≤ k) :
    startWorkers k n = some (n.toNat % 256) := by
  have hpool : (n.setWidth 8).toNat = n.toNat % 256 := by simp
  obtain ⟨h1, h2, h3⟩ := afterEvents_spec (n.setWidth 8)
  unfold startWorkers
  simp only []
  generalize afterEvents (n.setWidth 8) (n.setWidth 8 / 2 + 1) = r at *
  obtain ⟨a, b⟩ := r
  simp only at h1 h2 h3 ⊢
  have hb : b.toNat ≤ 127 := by
    by_cases h7 : 7 ≤ (n.setWidth 8).toNat
    · have := h2 h7; omega
    · omega
  rw [workerLoop_end b hb b.toNat 0 0 k (by simp) (by omega)]
  simp only [Option.map_some, Option.some.injEq]
  omega

theorem startWorkers_forever (n : BitVec 32) (h : 131 ≤ n.toNat % 256) (k : Nat) :
    startWorkers k n = none := by
  have hpool : (n.setWidth 8).toNat = n.toNat % 256 := by simp
  obtain ⟨h1, h2, h3⟩ := afterEvents_spec (n.setWidth 8)
  unfold startWorkers
  simp only []
  generalize afterEvents (n.setWidth 8) (n.setWidth 8 / 2 + 1) = r at *
  obtain ⟨a, b⟩ := r
  simp only at h1 h2 h3 ⊢
  have hb : 128 ≤ b.toNat := by
    omega
  rw [workerLoop_forever b hb k 0 0]
  rfl

end Np.Life
