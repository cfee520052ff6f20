import Verif.Life.Spec

set_option linter.unusedSimpArgs false
set_option linter.unusedVariables false

/-! # Lemmas about schedules -/
namespace Np.Life

open _root_.Np.Life.Spec

theorem run_append (adds : Nat → Bool) (w : World) (a b : List Ev) :
    run adds w (a ++ b) = (run adds w a).bind fun w' => run adds w' b := by
  induction a generalizing w with
  | nil => rfl
  | cons e es ih =>
    simp only [List.cons_append, run]
    cases step adds w e with
    | none => rfl
    | some w' => simp [ih]

/-- An invariant of the steps is an invariant of the schedules. -/
theorem run_invariant (adds : Nat → Bool) (P : World → Prop)
    (hstep : ∀ w e w', P w → step adds w e = some w' → P w') :
    ∀ evs w w', P w → run adds w evs = some w' → P w' := by
  intro evs
  induction evs with
  | nil => intro w w' hp h; simp only [run, Option.some.injEq] at h; subst h; exact hp
  | cons e es ih =>
    intro w w' hp h
    simp only [run] at h
    cases hs : step adds w e with
    | none => simp [hs] at h
    | some w1 =>
      simp only [hs, Option.bind_some] at h
      exact ih w1 w' (hstep w e w1 hp hs) h

/-- The same with a condition on the choices of the scheduler. -/
theorem run_invariant' (adds : Nat → Bool) (P : World → Prop) (Q : Ev → Prop)
    (hstep : ∀ w e w', Q e → P w → step adds w e = some w' → P w') :
    ∀ evs w w', (∀ e ∈ evs, Q e) → P w → run adds w evs = some w' → P w' := by
  intro evs
  induction evs with
  | nil => intro w w' _ hp h; simp only [run, Option.some.injEq] at h; subst h; exact hp
  | cons e es ih =>
    intro w w' hq hp h
    simp only [run] at h
    cases hs : step adds w e with
    | none => simp [hs] at h
    | some w1 =>
      simp only [hs, Option.bind_some] at h
      exact ih w1 w' (fun e' he => hq e' (List.mem_cons_of_mem _ he))
        (hstep w e w1 (hq e (List.mem_cons_self ..)) hp hs) h

/-- What a step does. -/
theorem step_cases {adds : Nat → Bool} {w w' : World} {e : Ev} (h : step adds w e = some w') :
    w' = w ∨
    (∃ t c, e = .call t c ∧ w.pc t = .idle ∧
      w' = { w with pc := fun u => if u = t then enter c else w.pc u }) ∨
    (∃ t b, e = .go t b ∧ w.pc t ≠ .idle ∧ w.pc t ≠ .stuck ∧ w.ctx.freed = false ∧
      w' = { ctx := (act adds w.ctx b (w.pc t)).1
             pc := fun u => if u = t then (act adds w.ctx b (w.pc t)).2.1 else w.pc u
             trace := w.trace ++ (act adds w.ctx b (w.pc t)).2.2.map fun e => (t, e) }) := by
  cases e with
  | call t c =>
    unfold step at h
    simp only [] at h
    split at h
    · rename_i hi
      simp only [Option.some.injEq] at h
      exact Or.inr (Or.inl ⟨t, c, rfl, hi, h.symm⟩)
    · simp only [Option.some.injEq] at h; exact Or.inl h.symm
  | go t b =>
    unfold step at h
    simp only [] at h
    split at h
    · simp only [Option.some.injEq] at h; exact Or.inl h.symm
    · rename_i hi
      split at h
      · simp at h
      · rename_i hf
        simp only [Option.some.injEq] at h
        refine Or.inr (Or.inr ⟨t, b, rfl, fun x => hi (Or.inl x), fun x => hi (Or.inr x), ?_, ?_⟩)
        · simpa using hf
        · exact h.symm

/-! ## Tearing down -/

/-- The thread has passed the test in `np_destroy`. -/
def Owner : Pc → Bool
  | .des1 _ | .des2 | .des3 | .des4 => true
  | _ => false

theorem tornDown_append (a b : List (Nat × Out)) :
    tornDown (a ++ b) = tornDown a + tornDown b := by
  simp [tornDown, List.countP_append]

/-- What one step does to the teardown. -/
theorem act_owner (adds : Nat → Bool) (x : Ctx) (b : Bool) (t : Nat) (p : Pc) :
    let r := act adds x b p
    (Owner p = false → Owner r.2.1 = true → x.started = false ∧ r.1.started = true) ∧
    (x.started = true → r.1.started = true) ∧
    (tornDown (r.2.2.map fun e => (t, e)) ≤ 1) ∧
    (tornDown (r.2.2.map fun e => (t, e)) = 1 → Owner p = true ∧ Owner r.2.1 = false) ∧
    (tornDown (r.2.2.map fun e => (t, e)) = 0 ∨ tornDown (r.2.2.map fun e => (t, e)) = 1) := by
  have hc : ∀ l : List Cb, tornDown (l.map ((fun e => (t, e)) ∘ Out.called)) = 0 := by
    intro l
    simp [tornDown]
  cases p with
  | idle => simp [act, tornDown]
  | stuck => simp [act, tornDown]
  | run0 => unfold act; simp only []; split <;> simp [Owner, tornDown]
  | run1 => unfold act; simp only []; split <;> simp [Owner, tornDown]
  | run2 => unfold act; simp only []; split <;> simp [Owner, tornDown]
  | run3 => simp [act, Owner, tornDown]
  | run4 => unfold act; simp only []; split <;> simp [Owner, tornDown]
  | use0 i => unfold act; simp only []; split <;> simp [Owner, tornDown]
  | use1 i => simp [act, Owner, tornDown]
  | add0 c =>
    unfold act addCallback; simp only []
    split
    · simp [Owner, tornDown]
    · split <;> simp [Owner, tornDown]
  | des0 g =>
    unfold act; simp only []
    split
    · rename_i h; simp [Owner, tornDown, h]
    · rename_i h; simp [Owner, tornDown]; simpa using h
  | des1 g =>
    unfold act addCallback; simp only []
    split
    · split
      · simp [Owner, tornDown]
      · split <;> simp [Owner, tornDown]
    · simp [Owner, tornDown]
  | des2 =>
    unfold act; simp only []
    split
    · simp [Owner, tornDown]
    · split
      · simp [Owner, hc]
      · simp [Owner, hc]
  | des3 => simp [act, Owner, tornDown]
  | des4 => simp [act, Owner, tornDown]

structure Once (w : World) : Prop where
  fresh : w.ctx.started = false → tornDown w.trace = 0 ∧ ∀ t, Owner (w.pc t) = false
  one : ∀ t u, Owner (w.pc t) = true → Owner (w.pc u) = true → t = u
  done : tornDown w.trace = 0 ∨ (tornDown w.trace = 1 ∧ ∀ t, Owner (w.pc t) = false)

theorem owner_enter (c : Call) : Owner (enter c) = false := by cases c <;> rfl

theorem once_step (adds : Nat → Bool) (w : World) (e : Ev) (w' : World) (h : Once w)
    (hs : step adds w e = some w') : Once w' := by
  rcases step_cases hs with rfl | ⟨t, c, _, hi, rfl⟩ | ⟨t, b, _, _, _, _, rfl⟩
  · exact h
  · have hpc : ∀ u, Owner (if u = t then enter c else w.pc u) = true → Owner (w.pc u) = true := by
      intro u hu
      by_cases hut : u = t
      · simp [hut, owner_enter] at hu
      · simpa [hut] using hu
    have hpf : ∀ u, Owner (w.pc u) = false → Owner (if u = t then enter c else w.pc u) = false := by
      intro u hu
      by_cases hut : u = t
      · simp [hut, owner_enter]
      · simpa [hut] using hu
    exact ⟨fun hf => ⟨(h.fresh hf).1, fun u => hpf u ((h.fresh hf).2 u)⟩,
      fun a b ha hb => h.one a b (hpc a ha) (hpc b hb),
      h.done.imp id fun hd => ⟨hd.1, fun u => hpf u (hd.2 u)⟩⟩
  · obtain ⟨h1, h2, h3, h4, h6⟩ := act_owner adds w.ctx b t (w.pc t)
    generalize hr : act adds w.ctx b (w.pc t) = r at *
    refine ⟨?_, ?_, ?_⟩
    · intro hf
      simp only [] at hf ⊢
      have hst : w.ctx.started = false := by
        cases hx : w.ctx.started with
        | false => rfl
        | true => rw [h2 hx] at hf; simp at hf
      obtain ⟨ht, ho⟩ := h.fresh hst
      have hnr : Owner r.2.1 = false := by
        cases hx : Owner r.2.1 with
        | false => rfl
        | true => have := (h1 (ho t) hx).2; rw [hf] at this; simp at this
      refine ⟨?_, ?_⟩
      · rw [tornDown_append, ht]
        rcases h6 with h6 | h6
        · omega
        · have := (h4 h6).1; rw [ho t] at this; simp at this
      · intro u
        by_cases hut : u = t
        · simp [hut, hnr]
        · simp [hut, ho u]
    · intro a c ha hc
      simp only [] at ha hc
      -- if the moving thread owns afterwards it owned before, or nobody did
      by_cases hat : a = t <;> by_cases hct : c = t
      · omega
      · simp only [hat, if_true, hct, if_false] at ha hc
        subst hat
        cases ho : Owner (w.pc a) with
        | true => exact h.one a c ho hc
        | false =>
          have := (h.fresh (h1 ho ha).1).2 c; rw [hc] at this; simp at this
      · simp only [hat, if_false, hct, if_true] at ha hc
        subst hct
        cases ho : Owner (w.pc c) with
        | true => exact h.one a c ha ho
        | false =>
          have := (h.fresh (h1 ho hc).1).2 a; rw [ha] at this; simp at this
      · simp only [hat, if_false, hct] at ha hc
        exact h.one a c ha hc
    · simp only [] 
      rw [tornDown_append]
      rcases h6 with h6 | h6
      · rw [h6]
        rcases h.done with hd | ⟨hd, hn⟩
        · exact Or.inl (by omega)
        · refine Or.inr ⟨by omega, fun u => ?_⟩
          by_cases hut : u = t
          · simp only [hut, if_true]
            cases hx : Owner r.2.1 with
            | false => rfl
            | true =>
              have hst := (h1 (hn t) hx).1
              have := (h.fresh hst).1
              omega
          · simp [hut, hn u]
      · rw [h6]
        obtain ⟨hp, hq⟩ := h4 h6
        rcases h.done with hd | ⟨hd, hn⟩
        · refine Or.inr ⟨by omega, fun u => ?_⟩
          by_cases hut : u = t
          · simp [hut, hq]
          · simp only [hut, if_false]
            cases hx : Owner (w.pc u) with
            | false => rfl
            | true => exact absurd (h.one u t hx hp) hut
        · rw [hn t] at hp; simp at hp

theorem once_init : Once init := by
  refine ⟨fun _ => ⟨rfl, fun _ => rfl⟩, fun t u h _ => ?_, Or.inl rfl⟩
  simp [init, Owner] at h

end Np.Life
