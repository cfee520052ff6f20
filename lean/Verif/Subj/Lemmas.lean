import Verif.Subj.Spec
import Verif.Dhkey.Lemmas

set_option linter.unusedSimpArgs false
set_option linter.unusedVariables false

namespace Np.Subj

open Np _root_.Np.Subj.Spec

/-- The table as it should be. -/
def full (hash : String → Dhkey) : List Dhkey := known.map hash

theorem find_zip (hash : String → Dhkey) (l : List String) (s : Dhkey) :
    ((l.map hash).zip l).find? (fun e => Dhkey.equal s e.1) =
      (l.find? fun n => decide (s = hash n)).map fun n => (hash n, n) := by
  induction l with
  | nil => rfl
  | cons a l ih =>
    simp only [List.map_cons, List.zip_cons_cons, List.find?_cons]
    by_cases h : s = hash a
    · have : Dhkey.equal s (hash a) = true := (Dhkey.equal_iff _ _).2 h
      rw [this]; simp [h]
    · have : Dhkey.equal s (hash a) = false := by
        cases hx : Dhkey.equal s (hash a) with
        | false => rfl
        | true => exact absurd ((Dhkey.equal_iff _ _).1 hx) h
      simp only [this, h, decide_false]
      exact ih

theorem takeWhile_all {α : Type} (p : α → Bool) (a : List α) (c : α) (b : List α)
    (ha : ∀ x ∈ a, p x = true) (hc : p c = false) : (a ++ c :: b).takeWhile p = a := by
  induction a with
  | nil => simp [List.takeWhile_cons, hc]
  | cons x a ih =>
    simp only [List.cons_append, List.takeWhile_cons, ha x (List.mem_cons_self ..), if_true]
    rw [ih fun y hy => ha y (List.mem_cons_of_mem _ hy)]

theorem known_clean : ∀ s ∈ known, s.toList.length < 64 ∧ ∀ c ∈ s.toList, c ≠ Char.ofNat 0 := by
  decide +kernel

theorem strncpy_text (s : String) (hs : s ∈ known) (n : Nat) (hn : 64 ≤ n) :
    text (strncpy s.toList n) = s.toList ∧ (strncpy s.toList n).length = n := by
  obtain ⟨h1, h2⟩ := known_clean s hs
  unfold strncpy
  rw [List.take_of_length_le (by omega)]
  refine ⟨?_, by simp; omega⟩
  obtain ⟨k, hk⟩ : ∃ k, n - s.toList.length = k + 1 := ⟨n - s.toList.length - 1, by omega⟩
  rw [hk, List.replicate_succ]
  unfold text
  refine takeWhile_all _ _ _ _ (fun c hc => ?_) (by simp)
  simpa using h2 c hc

theorem hexDigit_ne (k : Nat) (h : k < 16) : hexDigit k ≠ Char.ofNat 0 := by
  revert h; revert k; decide +kernel

theorem idStr_text (l : List (BitVec 8)) :
    text (idStr l ++ [Char.ofNat 0]) = idStr l := by
  unfold text
  refine takeWhile_all _ _ _ [] (fun c hc => ?_) (by simp)
  unfold idStr at hc
  rw [List.mem_flatMap] at hc
  obtain ⟨b, _, hb⟩ := hc
  have hb8 := b.isLt
  simp only [List.mem_cons, List.not_mem_nil, or_false] at hb
  rcases hb with rfl | rfl
  · simpa using hexDigit_ne (b.toNat / 16) (by omega)
  · simpa using hexDigit_ne (b.toNat % 16) (by omega)

theorem answer_right (hash : String → Dhkey) (hd : Distinct hash) (a : Args) (n : Nat)
    (hb : a.buffer = some n) (hn : 64 ≤ n) :
    let o := answer (full hash) a n
    o.args = a ∧ Right hash o ∧ (65 ≤ n ∨ (∃ s ∈ known, a.subject = hash s) → Inside o) := by
  unfold answer full
  rw [find_zip]
  cases hf : known.find? fun s => decide (a.subject = hash s) with
  | some s =>
    have hs := List.mem_of_find?_eq_some hf
    have he : a.subject = hash s := by simpa using List.find?_some hf
    obtain ⟨h1, h2⟩ := strncpy_text s hs n hn
    refine ⟨rfl, ⟨fun h => ?_, fun m hm hm64 => ⟨fun s' hs' he' => ?_, fun h => ?_⟩⟩, fun _ => ?_⟩
    · rcases h with h | ⟨m, hm, hlt⟩
      · simp only [Option.map_some] at h; rw [hb] at h; simp at h
      · simp only [Option.map_some] at hm; rw [hb] at hm; simp at hm; omega
    · simp only [Option.map_some] at he' ⊢
      have : s' = s := hd s' hs' s hs (by rw [← he', he])
      subst this
      exact ⟨trivial, h1⟩
    · exact absurd he (h s hs)
    · simp only [Option.map_some, Inside]; rw [hb, h2]; simp
  | none =>
    have hno : ∀ s ∈ known, a.subject ≠ hash s := by
      intro s hs he
      have := List.find?_eq_none.1 hf s hs
      simp [he] at this
    refine ⟨rfl, ⟨fun h => ?_, fun m hm hm64 => ⟨fun s' hs' he' => ?_, fun h => ?_⟩⟩, fun h => ?_⟩
    · rcases h with h | ⟨m, hm, hlt⟩
      · simp only [Option.map_none] at h; rw [hb] at h; simp at h
      · simp only [Option.map_none] at hm; rw [hb] at hm; simp at hm; omega
    · exact absurd he' (hno s' hs')
    · exact ⟨rfl, idStr_text _⟩
    · rcases h with h | ⟨s, hs, he⟩
      · simp only [Option.map_none, Inside]; rw [hb]
        simp [idStr_length, Dhkey.bytes, Dhkey.words, Dhkey.wordBytes]
        omega
      · exact absurd he (hno s hs)

/-! ## After the table is there -/

/-- The thread is not generating, and its buffer is long enough once it was checked. -/
def Calm : Pc → Prop
  | .gen .. | .done _ => False
  | .scan a => ∃ n, a.buffer = some n ∧ 64 ≤ n
  | _ => True

structure Ready (hash : String → Dhkey) (w : World) : Prop where
  gen : w.shared.generated = true
  table : w.shared.table = full hash
  calm : ∀ t, Calm (w.pc t)
  right : ∀ o ∈ w.trace, Right hash o ∧
    ((∀ n, o.args.buffer = some n → 65 ≤ n) ∨ (∃ s ∈ known, o.args.subject = hash s) → Inside o)

theorem right_short (hash : String → Dhkey) (a : Args)
    (h : a.buffer = none ∨ ∃ n, a.buffer = some n ∧ n < 64) :
    Right hash ⟨a, .invalidArgument, []⟩ ∧ Inside ⟨a, .invalidArgument, []⟩ := by
  refine ⟨⟨fun _ => ⟨rfl, rfl⟩, fun n hn h64 => ?_⟩, by simp [Inside]⟩
  exfalso
  simp only at hn
  rcases h with h | ⟨m, hm, hlt⟩
  · rw [h] at hn; simp at hn
  · rw [hm] at hn; simp at hn; omega

theorem ready_step (hash : String → Dhkey) (hd : Distinct hash) (w : World) (e : Ev)
    (h : Ready hash w) : Ready hash (step hash w e) := by
  cases e with
  | call t a =>
    unfold step
    simp only []
    split
    · refine ⟨h.gen, h.table, fun u => ?_, h.right⟩
      simp only []
      split
      · exact trivial
      · exact h.calm u
    · exact h
  | go t =>
    have key : ∀ x' p' o', act hash w.shared (w.pc t) = (x', p', o') →
        x' = w.shared ∧ Calm p' ∧ ∀ o ∈ o'.toList, Right hash o ∧
          ((∀ n, o.args.buffer = some n → 65 ≤ n) ∨ (∃ s ∈ known, o.args.subject = hash s) →
            Inside o) := by
      intro x' p' o' hact
      have hc := h.calm t
      cases hp : w.pc t with
      | idle => rw [hp] at hact; simp only [act, Prod.mk.injEq] at hact
                obtain ⟨rfl, rfl, rfl⟩ := hact; exact ⟨rfl, trivial, by simp⟩
      | start a =>
        rw [hp] at hact
        unfold act at hact
        simp only [] at hact
        split at hact
        · rename_i hb
          simp only [Prod.mk.injEq] at hact
          obtain ⟨rfl, rfl, rfl⟩ := hact
          refine ⟨rfl, trivial, fun o ho => ?_⟩
          simp only [Option.toList_some, List.mem_singleton] at ho
          subst ho
          have := right_short hash a (Or.inl hb)
          exact ⟨this.1, fun _ => this.2⟩
        · rename_i n hb
          split at hact
          · rename_i hlt
            simp only [Prod.mk.injEq] at hact
            obtain ⟨rfl, rfl, rfl⟩ := hact
            refine ⟨rfl, trivial, fun o ho => ?_⟩
            simp only [Option.toList_some, List.mem_singleton] at ho
            subst ho
            have := right_short hash a (Or.inr ⟨n, hb, hlt⟩)
            exact ⟨this.1, fun _ => this.2⟩
          · rename_i hlt
            rw [h.gen] at hact
            simp only [if_true, Prod.mk.injEq] at hact
            obtain ⟨rfl, rfl, rfl⟩ := hact
            exact ⟨rfl, ⟨n, hb, by omega⟩, by simp⟩
      | gen i a => rw [hp] at hc; exact hc.elim
      | done a => rw [hp] at hc; exact hc.elim
      | scan a =>
        rw [hp] at hact hc
        obtain ⟨n, hb, h64⟩ := hc
        simp only [act, Prod.mk.injEq] at hact
        obtain ⟨rfl, rfl, rfl⟩ := hact
        refine ⟨rfl, trivial, fun o ho => ?_⟩
        simp only [Option.toList_some, List.mem_singleton] at ho
        subst ho
        rw [h.table, hb]
        obtain ⟨r1, r2, r3⟩ := answer_right hash hd a n hb h64
        refine ⟨r2, fun hh => r3 ?_⟩
        simp only [Option.getD_some] at hh
        rw [r1] at hh
        rcases hh with hh | hh
        · exact Or.inl (hh n hb)
        · exact Or.inr hh
    obtain ⟨k1, k2, k3⟩ := key (act hash w.shared (w.pc t)).1 (act hash w.shared (w.pc t)).2.1
      (act hash w.shared (w.pc t)).2.2 rfl
    unfold step
    simp only []
    refine ⟨?_, ?_, fun u => ?_, fun o ho => ?_⟩
    · show (act hash w.shared (w.pc t)).1.generated = true
      rw [k1]; exact h.gen
    · show (act hash w.shared (w.pc t)).1.table = _
      rw [k1]; exact h.table
    · simp only []
      split
      · exact k2
      · exact h.calm u
    · simp only [] at ho
      rcases List.mem_append.1 ho with ho | ho
      · exact h.right o ho
      · exact k3 o ho

theorem ready_run (hash : String → Dhkey) (hd : Distinct hash) (evs : List Ev) :
    ∀ w, Ready hash w → Ready hash (run hash w evs) := by
  induction evs with
  | nil => intro w h; exact h
  | cons e es ih => intro w h; exact ih _ (ready_step hash hd w e h)

/-! ## The first call -/

theorem go_gen (hash : String → Dhkey) (t : Nat) (a : Args) (k : Nat) (hk : k ≤ 16) (w : World)
    (hp : w.pc t = .gen 0 a) (ho : ∀ u, u ≠ t → w.pc u = .idle)
    (ht : w.shared.table = List.replicate 16 Dhkey.zero) :
    let w' := run hash w (List.replicate k (.go t))
    w'.shared.generated = w.shared.generated ∧
    w'.shared.table = (known.take k).map hash ++ List.replicate (16 - k) Dhkey.zero ∧
    w'.pc t = .gen k a ∧ (∀ u, u ≠ t → w'.pc u = .idle) ∧ w'.trace = w.trace := by
  induction k with
  | zero => exact ⟨rfl, ht, hp, ho, rfl⟩
  | succ k ih =>
    obtain ⟨i0, i1, i2, i3, i4⟩ := ih (by omega)
    have hrep : List.replicate (k + 1) (Ev.go t) = List.replicate k (.go t) ++ [.go t] := by
      rw [List.replicate_succ']
    simp only []
    rw [hrep]
    unfold run at *
    rw [List.foldl_append]
    generalize hw : List.foldl (step hash) w (List.replicate k (.go t)) = w1 at *
    simp only [List.foldl_cons, List.foldl_nil, step, i2, act]
    rw [if_pos (by omega)]
    refine ⟨i0, ?_, by simp, fun u hu => by simp [hu, i3 u hu], by simp [i4]⟩
    simp only []
    rw [i1]
    have hk16 : known.length = 16 := rfl
    have hlen : ((known.take k).map hash).length = k := by simp [hk16]; omega
    rw [show 16 - k = (16 - (k + 1)) + 1 from by omega, List.replicate_succ]
    rw [List.set_append_right _ _ (by omega), hlen]
    simp only [Nat.sub_self, List.set_cons_zero]
    have hget : ((known.take k).map hash ++ Dhkey.zero :: List.replicate (16 - (k + 1)) Dhkey.zero).getD k
        Dhkey.zero = Dhkey.zero := by
      rw [List.getD_eq_getElem?_getD, List.getElem?_append_right (by omega), hlen]
      simp
    rw [hget]
    have hkn : k < known.length := by omega
    have htake : known.take (k + 1) = known.take k ++ [known.getD k ""] := by
      rw [List.take_succ_eq_append_getElem hkn, List.getD_eq_getElem?_getD,
        List.getElem?_eq_getElem hkn]
      rfl
    rw [htake, List.map_append, List.append_assoc]
    congr 1
    simp only [List.map_cons, List.map_nil, List.singleton_append, Dhkey.generateSubject]
    congr 1
    exact xor_zero _
where
  xor_zero (k : Dhkey) : Dhkey.xor k Dhkey.zero = k := by
    cases k; simp [Dhkey.xor, Dhkey.map2, Dhkey.zero, Dhkey.rep]

theorem run_append (hash : String → Dhkey) (w : World) (a b : List Ev) :
    run hash w (a ++ b) = run hash (run hash w a) b := by
  simp [run, List.foldl_append]

theorem ready_first (hash : String → Dhkey) (hd : Distinct hash) (t : Nat) (a : Args) (n : Nat)
    (hb : a.buffer = some n) (h64 : 64 ≤ n) : Ready hash (run hash {} (whole t a)) := by
  -- the steps up to the generation
  let w0 : World := { pc := fun u => if u = t then .gen 0 a else .idle }
  have h0 : run hash {} [.call t a, .go t] = w0 := by
    simp only [run, List.foldl_cons, List.foldl_nil, step, if_true, act, hb]
    rw [if_neg (by omega)]
    simp only [w0]
    congr 1
    funext u
    by_cases hu : u = t <;> simp [hu]
  obtain ⟨g0, g1, g2, g3, g4⟩ := go_gen hash t a 16 (Nat.le_refl _) w0 (by simp [w0])
    (fun u hu => by simp [w0, hu]) rfl
  have hw : whole t a = [.call t a, .go t] ++ (List.replicate 16 (.go t) ++ List.replicate 3 (.go t)) := by
    rfl
  rw [hw, run_append, run_append, h0]
  generalize hw1 : run hash w0 (List.replicate 16 (Ev.go t)) = w1 at *
  have ht : w1.shared.table = full hash := by
    rw [g1]; rfl
  -- after the generation
  let w2 : World :=
    { shared := { generated := true, table := full hash }
      pc := fun u => if u = t then .scan a else w1.pc u
      trace := [] }
  have h2 : run hash w1 (List.replicate 2 (.go t)) = w2 := by
    have htr : w1.trace = [] := g4
    simp only [List.replicate, run, List.foldl_cons, List.foldl_nil, step, g2, act, Nat.lt_irrefl,
      if_false, if_true]
    simp only [w2, Option.toList_none, List.append_nil, htr, ht]
    congr 1
    funext u
    by_cases hu : u = t <;> simp [hu]
  have hready : Ready hash w2 := by
    refine ⟨rfl, rfl, fun u => ?_, by simp [w2]⟩
    by_cases hu : u = t
    · simp only [w2, hu, if_true]; exact ⟨n, hb, h64⟩
    · simp only [w2, hu, if_false]; rw [g3 u hu]; exact trivial
  have hsplit : List.replicate 3 (Ev.go t) = List.replicate 2 (.go t) ++ [.go t] := rfl
  rw [hsplit, run_append, h2]
  exact ready_step hash hd w2 (.go t) hready

end Np.Subj
