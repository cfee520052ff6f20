import Verif.Life.Lemmas

set_option linter.unusedSimpArgs false
set_option linter.unusedVariables false

/-! # Calls made one after the other -/
namespace Np.Life

open _root_.Np.Life.Spec

/-- A thread alone, answered `true` each time. -/
def solo (adds : Nat → Bool) : Nat → Ctx → Pc → Option (Ctx × Pc × List Out)
  | 0, x, p => some (x, p, [])
  | k + 1, x, p =>
    if p = .idle ∨ p = .stuck then some (x, p, [])
    else if x.freed then none
    else
      (solo adds k (act adds x true p).1 (act adds x true p).2.1).map fun s =>
        (s.1, s.2.1, (act adds x true p).2.2 ++ s.2.2)

theorem run_still (adds : Nat → Bool) (t k : Nat) (w : World)
    (h : w.pc t = .idle ∨ w.pc t = .stuck) :
    run adds w (List.replicate k (.go t true)) = some w := by
  induction k with
  | zero => rfl
  | succ k ih =>
    simp only [List.replicate_succ, run]
    have : step adds w (.go t true) = some w := by unfold step; simp only []; rw [if_pos h]
    rw [this]; exact ih

theorem run_solo (adds : Nat → Bool) (t k : Nat) (w : World) :
    (solo adds k w.ctx (w.pc t) = none →
      run adds w (List.replicate k (.go t true)) = none) ∧
    (∀ s, solo adds k w.ctx (w.pc t) = some s →
      ∃ w', run adds w (List.replicate k (.go t true)) = some w' ∧ w'.ctx = s.1 ∧
        w'.pc t = s.2.1 ∧ w'.trace = w.trace ++ s.2.2.map fun e => (t, e)) := by
  induction k generalizing w with
  | zero =>
    refine ⟨fun h => by simp [solo] at h, fun s hs => ?_⟩
    simp only [solo, Option.some.injEq] at hs
    subst hs
    exact ⟨w, rfl, rfl, rfl, by simp⟩
  | succ k ih =>
    by_cases hi : w.pc t = .idle ∨ w.pc t = .stuck
    · refine ⟨fun h => by simp [solo, hi] at h, fun s hs => ?_⟩
      simp only [solo, if_pos hi, Option.some.injEq] at hs
      subst hs
      exact ⟨w, run_still adds t (k + 1) w hi, rfl, rfl, by simp⟩
    · by_cases hf : w.ctx.freed = true
      · have hst : step adds w (.go t true) = none := by
          unfold step; simp only []; rw [if_neg hi, if_pos hf]
        refine ⟨fun _ => by simp only [List.replicate_succ, run]; rw [hst]; rfl, fun s hs => ?_⟩
        simp [solo, hi, hf] at hs
      · let w1 : World :=
          { ctx := (act adds w.ctx true (w.pc t)).1
            pc := fun u => if u = t then (act adds w.ctx true (w.pc t)).2.1 else w.pc u
            trace := w.trace ++ (act adds w.ctx true (w.pc t)).2.2.map fun e => (t, e) }
        have hst : step adds w (.go t true) = some w1 := by
          unfold step; simp only []; rw [if_neg hi, if_neg hf]
        have hp : w1.pc t = (act adds w.ctx true (w.pc t)).2.1 := by simp [w1]
        obtain ⟨i1, i2⟩ := ih w1
        rw [hp] at i1 i2
        simp only [List.replicate_succ, run]
        rw [hst]
        refine ⟨fun h => ?_, fun s hs => ?_⟩
        · simp only [solo, if_neg hi, if_neg hf, Option.map_eq_none_iff] at h
          exact i1 h
        · simp only [solo, if_neg hi, if_neg hf, Option.map_eq_some_iff] at hs
          obtain ⟨s', hs', rfl⟩ := hs
          obtain ⟨w', e1, e2, e3, e4⟩ := i2 s' hs'
          refine ⟨w', e1, e2, e3, ?_⟩
          rw [e4]
          simp [w1]

/-- A whole call. -/
theorem run_whole (adds : Nat → Bool) (t : Nat) (w : World) (c : Call) (hi : w.pc t = .idle) :
    (solo adds 5 w.ctx (enter c) = none → run adds w (whole t c) = none) ∧
    (∀ s, solo adds 5 w.ctx (enter c) = some s →
      ∃ w', run adds w (whole t c) = some w' ∧ w'.ctx = s.1 ∧
        w'.pc t = s.2.1 ∧ w'.trace = w.trace ++ s.2.2.map fun e => (t, e)) := by
  let w1 : World := { w with pc := fun u => if u = t then enter c else w.pc u }
  have hst : step adds w (.call t c) = some w1 := by
    unfold step; simp only []; rw [if_pos hi]
  have hp : w1.pc t = enter c := by simp [w1]
  have hr := run_solo adds t 5 w1
  rw [hp] at hr
  unfold whole
  simp only [run]
  rw [hst]
  exact hr

/-- The context is alive and nobody is in a call. -/
structure Quiet (t : Nat) (w : World) : Prop where
  idle : w.pc t = .idle
  live : w.ctx.freed = false
  lock : w.ctx.locked = false
  fresh : w.ctx.started = false
  up : w.ctx.status ≠ .shutdown
  ran : w.ctx.callbacks.isSome = decide (w.ctx.status = .running)

/-- The world after the call, for calls that do not destroy. -/
def after (x : Ctx) : Call → Ctx
  | .run =>
    { x with
      listening := true, status := .running
      callbacks := some (x.callbacks.getD []) }
  | .useIdentity i => if x.status = .running then x else { x with identity := i }
  | .addCb c => addCallback x c
  | .destroy _ => x

/-- What the call shows. -/
def shows (x : Ctx) : Call → List Out
  | .run => (if x.status = .stopped then [.workers] else []) ++ [.entered, .returned .run .ok]
  | .useIdentity i =>
    if x.status = .running then [.returned (.useIdentity i) .invalidOperation]
    else [.identity i, .returned (.useIdentity i) .ok]
  | .addCb c => [.returned (.addCb c) .ok]
  | .destroy _ => []

theorem solo_call (adds : Nat → Bool) (x : Ctx) (c : Call) (hd : ∀ g, c ≠ .destroy g)
    (hf : x.freed = false) (hl : x.locked = false) (hu : x.status ≠ .shutdown)
    (hran : x.callbacks.isSome = decide (x.status = .running)) :
    solo adds 5 x (enter c) = some (after x c, .idle, shows x c) := by
  obtain ⟨st, sd, fr, cbs, lk, ls, idn⟩ := x
  simp only at hf hl hu hran
  subst hf hl
  cases c with
  | destroy g => exact absurd rfl (hd g)
  | run =>
    cases st with
    | shutdown => exact absurd rfl hu
    | running =>
      cases cbs with
      | none => simp at hran
      | some l => cases ls <;> simp [enter, solo, act, after, shows]
    | stopped =>
      cases cbs with
      | none => cases ls <;> simp [enter, solo, act, after, shows]
      | some l => simp at hran
  | useIdentity i =>
    cases st with
    | shutdown => exact absurd rfl hu
    | running => simp [enter, solo, act, after, shows]
    | stopped => simp [enter, solo, act, after, shows]
  | addCb c =>
    cases cbs with
    | none => simp [enter, solo, act, after, shows, addCallback]
    | some l => simp [enter, solo, act, after, shows, addCallback]

theorem addCallback_rest (x : Ctx) (c : Cb) :
    (addCallback x c).freed = x.freed ∧ (addCallback x c).locked = x.locked ∧
    (addCallback x c).started = x.started ∧ (addCallback x c).status = x.status ∧
    (addCallback x c).callbacks.isSome = x.callbacks.isSome := by
  obtain ⟨st, sd, fr, cbs, lk, ls, idn⟩ := x
  cases cbs <;> simp [addCallback]

theorem quiet_after (adds : Nat → Bool) (t : Nat) (w : World) (c : Call) (hd : ∀ g, c ≠ .destroy g)
    (h : Quiet t w) :
    ∃ w', run adds w (whole t c) = some w' ∧ Quiet t w' ∧ w'.ctx = after w.ctx c ∧
      w'.trace = w.trace ++ (shows w.ctx c).map fun e => (t, e) := by
  obtain ⟨w', e1, e2, e3, e4⟩ := (run_whole adds t w c h.idle).2 _
    (solo_call adds w.ctx c hd h.live h.lock h.up h.ran)
  refine ⟨w', e1, ?_, e2, e4⟩
  have hran := h.ran
  refine ⟨e3, ?_, ?_, ?_, ?_, ?_⟩ <;> rw [e2] <;> cases c <;>
    simp only [after, (addCallback_rest _ _).1, (addCallback_rest _ _).2.1,
      (addCallback_rest _ _).2.2.1, (addCallback_rest _ _).2.2.2.1,
      (addCallback_rest _ _).2.2.2.2] <;> (try split) <;>
    first
      | exact h.live
      | exact h.lock
      | exact h.fresh
      | exact h.up
      | exact h.ran
      | (simp; done)
      | (simp_all; done)

theorem quiet_init (t : Nat) : Quiet t init := by
  refine ⟨rfl, rfl, rfl, rfl, by simp [init], rfl⟩

/-- The context after the calls. -/
def afterAll (x : Ctx) (cs : List Call) : Ctx := cs.foldl after x

/-- What the calls show. -/
def showsAll : Ctx → List Call → List Out
  | _, [] => []
  | x, c :: cs => shows x c ++ showsAll (after x c) cs

theorem run_oneByOne (adds : Nat → Bool) (t : Nat) (cs : List Call) (hd : NoDestroy cs) :
    ∀ w, Quiet t w → ∃ w', run adds w (oneByOne t cs) = some w' ∧ Quiet t w' ∧
      w'.ctx = afterAll w.ctx cs ∧
      w'.trace = w.trace ++ (showsAll w.ctx cs).map fun e => (t, e) := by
  induction cs with
  | nil => intro w h; exact ⟨w, rfl, h, rfl, by simp [showsAll]⟩
  | cons c cs ih =>
    intro w h
    obtain ⟨w1, e1, q1, c1, t1⟩ := quiet_after adds t w c (hd c (List.mem_cons_self ..)) h
    obtain ⟨w2, e2, q2, c2, t2⟩ := ih (fun c' hc => hd c' (List.mem_cons_of_mem _ hc)) w1 q1
    refine ⟨w2, ?_, q2, ?_, ?_⟩
    · simp only [oneByOne, List.flatMap_cons]
      rw [run_append, e1]
      exact e2
    · rw [c2, c1]; rfl
    · rw [t2, t1, c1]; simp [showsAll]

/-! ## What is shown -/

theorem reports_map (t : Nat) (o : List Out) (pre : List (Nat × Out)) :
    reports (pre ++ o.map fun e => (t, e)) = reports pre ++ reports (o.map fun e => (t, e)) := by
  simp [reports]

theorem reports_shows (t : Nat) (cs : List Call) (hd : NoDestroy cs) :
    ∀ x : Ctx, x.status ≠ .shutdown →
      reports ((showsAll x cs).map fun e => (t, e)) = expected (decide (x.status = .running)) cs := by
  induction cs with
  | nil => intro x _; rfl
  | cons c cs ih =>
    intro x hu
    have hd' : NoDestroy cs := fun c' hc => hd c' (List.mem_cons_of_mem _ hc)
    have hsplit : reports ((showsAll x (c :: cs)).map fun e => (t, e)) =
        reports ((shows x c).map fun e => (t, e)) ++
          reports ((showsAll (after x c) cs).map fun e => (t, e)) := by
      simp [showsAll, reports]
    rw [hsplit]
    cases c with
    | destroy g => exact absurd rfl (hd _ (List.mem_cons_self ..) g)
    | run =>
      rw [ih hd' _ (by simp [after])]
      cases hst : x.status <;> simp [shows, reports, expected, after, hst]
    | useIdentity i =>
      by_cases hst : x.status = .running
      · rw [show after x (.useIdentity i) = x by simp [after, hst], ih hd' x hu]
        simp [shows, reports, expected, hst]
      · rw [ih hd' _ (by simp [after, hst, hu])]
        simp [shows, reports, expected, after, hst]
    | addCb a =>
      have hs : (after x (.addCb a)).status = x.status := by
        unfold after addCallback; simp only []; split <;> rfl
      rw [ih hd' _ (by rw [hs]; exact hu), hs]
      simp [shows, reports, expected]

theorem identity_running (cs : List Call) (hd : NoDestroy cs) :
    ∀ x : Ctx, x.status = .running → (afterAll x cs).identity = x.identity := by
  induction cs with
  | nil => intro x _; rfl
  | cons c cs ih =>
    intro x hr
    have hd' : NoDestroy cs := fun c' hc => hd c' (List.mem_cons_of_mem _ hc)
    have h1 : (after x c).status = .running ∧ (after x c).identity = x.identity := by
      cases c with
      | destroy g => exact absurd rfl (hd _ (List.mem_cons_self ..) g)
      | run => simp [after]
      | useIdentity i => simp [after, hr]
      | addCb a => unfold after addCallback; simp only []; split <;> simp [hr]
    show (afterAll (after x c) cs).identity = _
    rw [ih hd' _ h1.1, h1.2]

theorem identity_alone (cs : List Call) (hd : NoDestroy cs) :
    ∀ x : Ctx, x.status = .stopped →
      (afterAll x cs).identity = lastIdentity x.identity (beforeRun cs) := by
  induction cs with
  | nil => intro x _; rfl
  | cons c cs ih =>
    intro x hs
    have hd' : NoDestroy cs := fun c' hc => hd c' (List.mem_cons_of_mem _ hc)
    show (afterAll (after x c) cs).identity = _
    cases c with
    | destroy g => exact absurd rfl (hd _ (List.mem_cons_self ..) g)
    | run => rw [identity_running cs hd' _ rfl]; simp [after, beforeRun, lastIdentity]
    | useIdentity i =>
      rw [ih hd' _ (by simp [after, hs])]
      simp [after, hs, beforeRun, lastIdentity]
    | addCb a =>
      have h1 : (after x (.addCb a)).status = x.status ∧ (after x (.addCb a)).identity = x.identity := by
        unfold after addCallback; simp only []; split <;> simp
      rw [ih hd' _ (by rw [h1.1]; exact hs), h1.2]
      simp [beforeRun, lastIdentity]

/-- How often the workers were started. -/
theorem workers_running (t : Nat) (cs : List Call) (hd : NoDestroy cs) :
    ∀ x : Ctx, x.status = .running →
      ((showsAll x cs).map fun e => (t, e)).countP (fun e => decide (e.2 = .workers)) = 0 := by
  induction cs with
  | nil => intro x _; rfl
  | cons c cs ih =>
    intro x hr
    have hd' : NoDestroy cs := fun c' hc => hd c' (List.mem_cons_of_mem _ hc)
    have h1 : (after x c).status = .running := by
      cases c with
      | destroy g => exact absurd rfl (hd _ (List.mem_cons_self ..) g)
      | run => simp [after]
      | useIdentity i => simp [after, hr]
      | addCb a => unfold after addCallback; simp only []; split <;> simp [hr]
    simp only [showsAll, List.map_append, List.countP_append, ih hd' _ h1]
    cases c <;> simp [shows, hr]

theorem workers_alone (t : Nat) (cs : List Call) (hd : NoDestroy cs) :
    ∀ x : Ctx, x.status = .stopped →
      ((showsAll x cs).map fun e => (t, e)).countP (fun e => decide (e.2 = .workers)) =
        if .run ∈ cs then 1 else 0 := by
  induction cs with
  | nil => intro x _; rfl
  | cons c cs ih =>
    intro x hs
    have hd' : NoDestroy cs := fun c' hc => hd c' (List.mem_cons_of_mem _ hc)
    simp only [showsAll, List.map_append, List.countP_append]
    cases c with
    | destroy g => exact absurd rfl (hd _ (List.mem_cons_self ..) g)
    | run => rw [workers_running t cs hd' _ rfl]; simp [shows, hs]
    | useIdentity i =>
      rw [ih hd' _ (by simp [after, hs])]
      simp [shows, hs]
    | addCb a =>
      have h1 : (after x (.addCb a)).status = x.status := by
        unfold after addCallback; simp only []; split <;> simp
      rw [ih hd' _ (by rw [h1]; exact hs)]
      simp [shows]

end Np.Life
