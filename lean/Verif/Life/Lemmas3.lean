import Verif.Life.Lemmas2

set_option linter.unusedSimpArgs false
set_option linter.unusedVariables false

/-! # Destroying, callbacks, and what other threads see -/
namespace Np.Life

open _root_.Np.Life.Spec

/-! ## Callbacks -/

theorem callbacks_running (cs : List Call) (hd : NoDestroy cs) :
    ∀ (x : Ctx) (l : List Cb), x.callbacks = some l →
      (afterAll x cs).callbacks = some (l ++ registered cs) := by
  induction cs with
  | nil => intro x l h; simp [afterAll, registered, h]
  | cons c cs ih =>
    intro x l h
    have hd' : NoDestroy cs := fun c' hc => hd c' (List.mem_cons_of_mem _ hc)
    show (afterAll (after x c) cs).callbacks = _
    cases c with
    | destroy g => exact absurd rfl (hd _ (List.mem_cons_self ..) g)
    | run => rw [ih hd' _ l (by simp [after, h])]; simp [registered]
    | useIdentity i => rw [ih hd' _ l (by simp only [after]; split <;> exact h)]; simp [registered]
    | addCb a =>
      rw [ih hd' _ (l ++ [a]) (by simp [after, addCallback, h])]
      simp [registered]

theorem callbacks_alone (cs : List Call) (hd : NoDestroy cs) :
    ∀ x : Ctx, x.callbacks = none →
      (afterAll x cs).callbacks =
        if .run ∈ cs then some (registered (fromRun cs)) else none := by
  induction cs with
  | nil => intro x h; simp [afterAll, h]
  | cons c cs ih =>
    intro x h
    have hd' : NoDestroy cs := fun c' hc => hd c' (List.mem_cons_of_mem _ hc)
    show (afterAll (after x c) cs).callbacks = _
    cases c with
    | destroy g => exact absurd rfl (hd _ (List.mem_cons_self ..) g)
    | run =>
      rw [callbacks_running cs hd' _ [] (by simp [after, h])]
      simp [fromRun, registered]
    | useIdentity i =>
      rw [ih hd' _ (by simp only [after]; split <;> exact h)]
      simp [fromRun]
    | addCb a =>
      rw [ih hd' _ (by simp [after, addCallback, h])]
      simp [fromRun]

/-- Callbacks that do not add callbacks, none of them null. -/
theorem runCallbacks_all (adds : Nat → Bool) (l : List Cb) (hn : .null ∉ l)
    (ha : ∀ n, .user n ∈ l → adds n = false) : runCallbacks adds l = (l, [], false) := by
  induction l with
  | nil => rfl
  | cons c l ih =>
    have ih' := ih (fun h => hn (List.mem_cons_of_mem _ h))
      (fun n h => ha n (List.mem_cons_of_mem _ h))
    cases c with
    | null => exact absurd (List.mem_cons_self ..) hn
    | notify => simp [runCallbacks, ih']
    | user n => simp [runCallbacks, ih', ha n (List.mem_cons_self ..)]

theorem runCallbacks_free (adds : Nat → Bool) (l : List Cb)
    (ha : ∀ n, .user n ∈ l → adds n = false) : (runCallbacks adds l).2.2 = false := by
  induction l with
  | nil => rfl
  | cons c l ih =>
    have ih' := ih (fun n h => ha n (List.mem_cons_of_mem _ h))
    cases c with
    | null => rfl
    | notify => simp [runCallbacks, ih']
    | user n => simp [runCallbacks, ih', ha n (List.mem_cons_self ..)]

/-- The list on which the callbacks are run. -/
def listAt (x : Ctx) (g : Bool) : List Cb :=
  match x.callbacks with
  | none => []
  | some l => if g then l ++ [.notify] else l

theorem solo_destroy (adds : Nat → Bool) (x : Ctx) (g : Bool)
    (hf : x.freed = false) (hl : x.locked = false) (hs : x.started = false)
    (ha : ∀ n, .user n ∈ x.callbacks.getD [] → adds n = false) :
    ∃ y, solo adds 5 x (.des0 g) =
      some (y, .idle, (runCallbacks adds (listAt x g)).1.map .called ++
        [.torn, .returned (.destroy true) .ok]) ∧ y.freed = true ∧ y.status = .shutdown := by
  obtain ⟨st, sd, fr, cbs, lk, ls, idn⟩ := x
  simp only at hf hl hs ha
  subst hf hl hs
  cases cbs with
  | none => cases g <;> exact ⟨_, rfl, rfl, rfl⟩
  | some l =>
    cases g with
    | false =>
      have h1 := runCallbacks_free adds l ha
      refine ⟨{ status := .shutdown, started := true, freed := true, callbacks := some (runCallbacks adds l).2.1, locked := false, listening := ls, identity := idn }, ?_, rfl, rfl⟩
      simp [solo, act, h1, listAt]
    | true =>
      have h1 : (runCallbacks adds (l ++ [.notify])).2.2 = false := by
        refine runCallbacks_free adds _ fun n hn => ?_
        rcases List.mem_append.1 hn with hn | hn
        · exact ha n hn
        · simp at hn
      refine ⟨{ status := .shutdown, started := true, freed := true, callbacks := some (runCallbacks adds (l ++ [.notify])).2.1, locked := false, listening := ls, identity := idn }, ?_, rfl, rfl⟩
      simp [solo, act, h1, listAt, addCallback]

theorem registered_mem (cs : List Call) (n : Cb) (h : n ∈ registered (fromRun cs)) :
    n ∈ registered cs := by
  unfold registered at *
  rw [List.mem_filterMap] at *
  obtain ⟨c, hc, he⟩ := h
  exact ⟨c, (List.dropWhile_suffix _).subset hc, he⟩

theorem called_append (a b : List (Nat × Out)) : called (a ++ b) = called a ++ called b := by
  simp [called]

theorem called_called (t : Nat) (l : List Cb) :
    called ((l.map Out.called).map fun e => (t, e)) = l := by
  unfold called
  induction l with
  | nil => rfl
  | cons a l ih => simpa using ih

/-- Calls and then `np_destroy`. -/
theorem run_destroyed (adds : Nat → Bool) (t : Nat) (cs : List Call) (hd : NoDestroy cs) (g : Bool)
    (ha : ∀ n, .user n ∈ registered cs → adds n = false) :
    ∃ w l, run adds init (oneByOne t (cs ++ [.destroy g])) = some w ∧ w.pc t = .idle ∧
      w.ctx.freed = true ∧ w.ctx.status = .shutdown ∧ (t, .torn) ∈ w.trace ∧
      l = (if .run ∈ cs then registered (fromRun cs) ++ (if g then [.notify] else []) else []) ∧
      called w.trace = (runCallbacks adds l).1 := by
  obtain ⟨w, e1, q, c1, t1⟩ := run_oneByOne adds t cs hd init (quiet_init t)
  have hcb := callbacks_alone cs hd init.ctx rfl
  rw [← c1] at hcb
  have ha' : ∀ n, Cb.user n ∈ w.ctx.callbacks.getD [] → adds n = false := by
    intro n hn
    rw [hcb] at hn
    by_cases hr : Call.run ∈ cs
    · rw [if_pos hr] at hn
      exact ha n (registered_mem cs _ hn)
    · rw [if_neg hr] at hn; simp at hn
  obtain ⟨y, hy, hfr, hst⟩ := solo_destroy adds w.ctx g q.live q.lock q.fresh ha'
  obtain ⟨w2, e2, f1, f2, f3⟩ := (run_whole adds t w (.destroy g) q.idle).2 _ hy
  have hshows : called ((showsAll init.ctx cs).map fun e => (t, e)) = [] := by
    have : ∀ x : Ctx, called ((showsAll x cs).map fun e => (t, e)) = [] := by
      clear e1 c1 t1 hcb ha' hy e2 f3 ha
      induction cs with
      | nil => intro x; rfl
      | cons c cs ih =>
        intro x
        have hd' : NoDestroy cs := fun c' hc => hd c' (List.mem_cons_of_mem _ hc)
        simp only [showsAll, List.map_append]
        have : called ((shows x c).map fun e => (t, e)) = [] := by
          cases c <;> simp only [shows] <;> (try split) <;> simp [called]
        unfold called at *
        rw [List.filterMap_append, this]
        exact ih hd' _
    exact this _
  have hlist : listAt w.ctx g =
      (if .run ∈ cs then registered (fromRun cs) ++ (if g then [.notify] else []) else []) := by
    unfold listAt
    rw [hcb]
    by_cases hr : Call.run ∈ cs
    · rw [if_pos hr, if_pos hr]; cases g <;> simp
    · rw [if_neg hr, if_neg hr]
  refine ⟨w2, _, ?_, f2, ?_, ?_, ?_, rfl, ?_⟩
  · simp only [oneByOne, List.flatMap_append, List.flatMap_cons, List.flatMap_nil, List.append_nil]
    rw [run_append]
    rw [show run adds init (cs.flatMap (whole t)) = some w from e1]
    exact e2
  · rw [f1]; exact hfr
  · rw [f1]; exact hst
  · rw [f3]; simp
  · rw [f3, t1, ← hlist]
    have hinit : init.trace = [] := rfl
    rw [hinit, List.nil_append]
    simp only [List.map_append]
    rw [called_append, called_append, hshows, called_called]
    simp [called]

/-- After `np_destroy` every call uses freed memory. -/
theorem run_freed (adds : Nat → Bool) (t : Nat) (w : World) (c : Call) (hi : w.pc t = .idle)
    (hf : w.ctx.freed = true) : run adds w (whole t c) = none := by
  apply (run_whole adds t w c hi).1
  cases c <;> simp [enter, solo, hf]

/-! ## Each callback is called at most once -/

theorem count_append (n : Nat) (a b : List (Nat × Out)) :
    additions n (a ++ b) = additions n a + additions n b ∧ calls n (a ++ b) = calls n a + calls n b := by
  simp [additions, calls, List.countP_append]

theorem runCallbacks_count (adds : Nat → Bool) (n t : Nat) (l : List Cb) :
    calls n (((runCallbacks adds l).1.map Out.called).map fun e => (t, e)) +
      (runCallbacks adds l).2.1.countP (fun c => decide (c = .user n)) ≤
        l.countP (fun c => decide (c = .user n)) := by
  induction l with
  | nil => simp [runCallbacks, calls]
  | cons c l ih =>
    cases c with
    | null => simp [runCallbacks, calls]
    | notify => simp only [runCallbacks, calls] at *; simpa [List.countP_cons] using ih
    | user m =>
      unfold runCallbacks
      split
      · simp [calls, List.countP_cons]; omega
      · generalize runCallbacks adds l = r at *
        obtain ⟨ra, rb, rc⟩ := r
        simp only [calls] at *
        simp only [List.map_cons, List.countP_cons] at ih ⊢
        by_cases hm : m = n
        · subst hm; simp; simp at ih; omega
        · have : ¬ (Cb.user m = Cb.user n) := by simpa using hm
          simp [hm]; simp at ih; exact ih

def Counted (n : Nat) (w : World) : Prop :=
  calls n w.trace + (w.ctx.callbacks.getD []).countP (fun c => decide (c = .user n)) ≤
    additions n w.trace

theorem counted_step (adds : Nat → Bool) (n : Nat) (w : World) (e : Ev) (w' : World)
    (h : Counted n w) (hs : step adds w e = some w') : Counted n w' := by
  rcases step_cases hs with rfl | ⟨t, c, _, hi, rfl⟩ | ⟨t, b, _, _, _, _, rfl⟩
  · exact h
  · exact h
  · unfold Counted at *
    simp only []
    rw [(count_append n _ _).1, (count_append n _ _).2]
    have key : calls n ((act adds w.ctx b (w.pc t)).2.2.map fun e => (t, e)) +
        ((act adds w.ctx b (w.pc t)).1.callbacks.getD []).countP (fun c => decide (c = .user n)) ≤
        (w.ctx.callbacks.getD []).countP (fun c => decide (c = .user n)) +
          additions n ((act adds w.ctx b (w.pc t)).2.2.map fun e => (t, e)) := by
      cases hp : w.pc t with
      | idle => simp [act, calls]
      | stuck => simp [act, calls]
      | run0 => unfold act; simp only []; split <;> simp [calls]
      | run1 => unfold act; simp only []; split <;> simp [calls]
      | run2 => unfold act; simp only []; split <;> simp [calls]
      | run3 => simp [act, calls]
      | run4 => unfold act; simp only []; split <;> simp [calls]
      | use0 i => unfold act; simp only []; split <;> simp [calls]
      | use1 i => simp [act, calls]
      | add0 c =>
        unfold act; simp only []
        split
        · simp [calls]
        · unfold addCallback
          split
          · rename_i heq; simp [calls, additions, heq]
          · rename_i heq
            simp only [heq, Option.getD_some, List.countP_append, List.countP_cons, List.countP_nil,
              calls, additions, List.map_cons, List.map_nil]
            by_cases hc : c = .user n
            · simp [hc]
            · simp [hc]
      | des0 g => unfold act; simp only []; split <;> simp [calls]
      | des1 g =>
        unfold act; simp only []
        split
        · split
          · simp [calls]
          · unfold addCallback
            split
            · simp [calls]
            · rename_i heq
              simp [heq, List.countP_append, calls]
        · simp [calls]
      | des2 =>
        unfold act; simp only []
        split
        · simp [calls]
        · rename_i l heq
          have hc := runCallbacks_count adds n t l
          have h0 : ∀ m : List Cb, additions n ((m.map Out.called).map fun e => (t, e)) = 0 := by
            intro m; simp [additions]
          split <;> simp only [heq, Option.getD_some, h0] <;> omega
      | des3 => simp [act, calls]
      | des4 => simp [act, calls]
    omega

end Np.Life
