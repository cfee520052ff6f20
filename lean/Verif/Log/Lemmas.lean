import Verif.Log.Spec

set_option linter.unusedSimpArgs false
set_option linter.unusedVariables false

namespace Np.Log
open _root_.Np.Log.Spec

/-! ## The filter -/

theorem bit_levelMask (k : Nat) : levelMask.getLsbD k = decide (k < 8) := by
  by_cases h : k < 64
  · have : ∀ j : Fin 64, levelMask.getLsbD j.1 = decide (j.1 < 8) := by decide
    exact this ⟨k, h⟩
  · rw [BitVec.getLsbD_of_ge _ _ (by omega)]
    simp; omega

theorem bit_modulMask (k : Nat) : modulMask.getLsbD k = decide (8 ≤ k ∧ k < 36) := by
  by_cases h : k < 64
  · have : ∀ j : Fin 64, modulMask.getLsbD j.1 = decide (8 ≤ j.1 ∧ j.1 < 36) := by decide
    exact this ⟨k, h⟩
  · rw [BitVec.getLsbD_of_ge _ _ (by omega)]
    simp; omega

theorem bit_single (m : Level) (i : Nat) (hi : i < 64) (hm : ∀ j : Fin 64, m.getLsbD j.1 = decide (j.1 = i)) (k : Nat) :
    m.getLsbD k = decide (k = i) := by
  by_cases h : k < 64
  · exact hm ⟨k, h⟩
  · rw [BitVec.getLsbD_of_ge _ _ (by omega)]
    simp; omega

theorem bit_error : ∀ k, error.getLsbD k = decide (k = 0) := bit_single error 0 (by decide) (by decide)
theorem bit_warning : ∀ k, warning.getLsbD k = decide (k = 1) := bit_single warning 1 (by decide) (by decide)
theorem bit_info : ∀ k, info.getLsbD k = decide (k = 2) := bit_single info 2 (by decide) (by decide)
theorem bit_debug : ∀ k, debug.getLsbD k = decide (k = 3) := bit_single debug 3 (by decide) (by decide)
theorem bit_trace : ∀ k, trace.getLsbD k = decide (k = 4) := bit_single trace 4 (by decide) (by decide)
theorem bit_verbose : ∀ k, verbose.getLsbD k = decide (k = 5) := bit_single verbose 5 (by decide) (by decide)
theorem bit_global : ∀ k, global.getLsbD k = decide (k = 35) := bit_single global 35 (by decide) (by decide)

theorem pos_iff (x : Level) : 0 < x.toNat ↔ ∃ k, x.getLsbD k = true := by
  constructor
  · intro h
    refine Classical.byContradiction fun hc => ?_
    have : x = 0 := by
      apply BitVec.eq_of_getLsbD_eq
      intro i hi
      cases hx : x.getLsbD i
      · simp
      · exact absurd ⟨i, hx⟩ hc
    rw [this] at h
    simp at h
  · intro ⟨k, hk⟩
    rcases Nat.eq_zero_or_pos x.toNat with h0 | h0
    · have : x = 0 := BitVec.eq_of_toNat_eq (by simpa using h0)
      rw [this] at hk
      simp at hk
    · exact h0

theorem zero_iff (x : Level) : (x == 0) = true ↔ ∀ k, x.getLsbD k = false := by
  rw [beq_iff_eq]
  constructor
  · intro h k; rw [h]; simp
  · intro h
    apply BitVec.eq_of_getLsbD_eq
    intro i hi
    rw [h i]; simp

theorem flag_iff (m : Level) (i : Nat) (hm : ∀ k, m.getLsbD k = decide (k = i)) (x : Level) :
    ((x &&& m) == m) = true ↔ x.getLsbD i = true := by
  rw [beq_iff_eq]
  constructor
  · intro h
    have := congrArg (fun y : Level => y.getLsbD i) h
    simpa [BitVec.getLsbD_and, hm] using this
  · intro h
    apply BitVec.eq_of_getLsbD_eq
    intro k hk
    rw [BitVec.getLsbD_and, hm]
    by_cases hki : k = i
    · subst hki; simp [h]
    · simp [hki]

theorem and_flag (m : Level) (i : Nat) (hm : ∀ k, m.getLsbD k = decide (k = i)) (x : Level) :
    x &&& m = if x.getLsbD i then m else 0 := by
  apply BitVec.eq_of_getLsbD_eq
  intro k hk
  rw [BitVec.getLsbD_and, hm]
  by_cases hki : k = i
  · subst hki
    cases hx : x.getLsbD k
    · simp
    · simp [hm]
  · cases hx : x.getLsbD i
    · simp [hki]
    · simp [hki, hm]

theorem select_bit (sel : Level) (h : ∀ k, 32 ≤ k → sel.getLsbD k = false) : (select sel).zeroExtend 64 = sel := by
  apply BitVec.eq_of_getLsbD_eq
  intro k hk
  simp only [select, BitVec.truncate_eq_setWidth, BitVec.getLsbD_setWidth]
  by_cases h32 : k < 32
  · simp [h32, hk]
  · rw [h k (by omega)]; simp [h32]

theorem verbose_le (level sel : Level) :
    (level &&& verbose).toNat ≤ (verbose &&& sel).toNat ↔ (level.getLsbD 5 = true → sel.getLsbD 5 = true) := by
  rw [BitVec.and_comm verbose sel, and_flag verbose 5 bit_verbose, and_flag verbose 5 bit_verbose]
  cases level.getLsbD 5 <;> cases sel.getLsbD 5 <;> simp [verbose]

theorem accepts_iff (sel level : Level) (h : ∀ k, 32 ≤ k → sel.getLsbD k = false) :
    accepts (select sel) level = true ↔ Wanted sel level := by
  unfold accepts
  simp only [select_bit sel h]
  simp only [Bool.or_eq_true, Bool.and_eq_true, decide_eq_true_eq]
  rw [flag_iff error 0 bit_error, flag_iff warning 1 bit_warning, verbose_le, pos_iff, pos_iff, zero_iff]
  have hg : ¬ ((sel &&& modulMask &&& global) == global) = true := by
    intro hc
    rw [flag_iff global 35 bit_global, BitVec.getLsbD_and, h 35 (by omega)] at hc
    simp at hc
  have e1 : (∃ k, (level &&& levelMask &&& sel).getLsbD k = true) ↔ ∃ k, k < 8 ∧ level.getLsbD k = true ∧ sel.getLsbD k = true := by
    constructor
    · intro ⟨k, hk⟩
      simp only [BitVec.getLsbD_and, bit_levelMask, Bool.and_eq_true, decide_eq_true_eq] at hk
      exact ⟨k, hk.1.2, hk.1.1, hk.2⟩
    · intro ⟨k, h1, h2, h3⟩
      refine ⟨k, ?_⟩
      simp [BitVec.getLsbD_and, bit_levelMask, h1, h2, h3]
  have e2 : (∃ k, (level &&& modulMask &&& sel).getLsbD k = true) ↔
      ∃ k, 8 ≤ k ∧ k < 36 ∧ level.getLsbD k = true ∧ sel.getLsbD k = true := by
    constructor
    · intro ⟨k, hk⟩
      simp only [BitVec.getLsbD_and, bit_modulMask, Bool.and_eq_true, decide_eq_true_eq] at hk
      exact ⟨k, hk.1.2.1, hk.1.2.2, hk.1.1, hk.2⟩
    · intro ⟨k, h1, h2, h3, h4⟩
      refine ⟨k, ?_⟩
      simp [BitVec.getLsbD_and, bit_modulMask, h1, h2, h3, h4]
  have e3 : (∀ k, (level &&& modulMask).getLsbD k = false) ↔ ∀ k, 8 ≤ k → k < 36 → level.getLsbD k = false := by
    constructor
    · intro hk k h1 h2
      have := hk k
      simpa [BitVec.getLsbD_and, bit_modulMask, h1, h2] using this
    · intro hk k
      rw [BitVec.getLsbD_and, bit_modulMask]
      by_cases hr : 8 ≤ k ∧ k < 36
      · rw [hk k hr.1 hr.2]; simp
      · simp [hr]
  have h35 : ¬ sel.getLsbD 35 = true := by rw [h 35 (by omega)]; simp
  rw [e1, e2, e3]
  unfold Wanted
  constructor
  · rintro ((⟨⟨h1, h2⟩, h3⟩ | h1) | h1)
    · refine Or.inr (Or.inr ⟨h1, h2, ?_⟩)
      rcases h3 with (h3 | h3) | h3
      · exact Or.inr (Or.inl h3)
      · exact absurd h3 hg
      · exact Or.inl h3
    · exact Or.inl h1
    · exact Or.inr (Or.inl h1)
  · rintro (h1 | h1 | ⟨h1, h2, h3⟩)
    · exact Or.inl (Or.inr h1)
    · exact Or.inr h1
    · refine Or.inl (Or.inl ⟨⟨h1, h2⟩, ?_⟩)
      rcases h3 with h3 | h3 | h3
      · exact Or.inr h3
      · exact Or.inl (Or.inl h3)
      · exact absurd h3 h35

theorem levelText_some (level : Level) (h : levels level ≤ 3) : levelText level ≠ none := by
  have e : ∀ m i, (∀ k, m.getLsbD k = decide (k = i)) → ((level &&& m) == m) = level.getLsbD i := by
    intro m i hm
    have := flag_iff m i hm level
    cases h1 : ((level &&& m) == m) <;> cases h2 : level.getLsbD i <;> simp_all
  unfold levelText
  rw [e error 0 bit_error, e warning 1 bit_warning, e info 2 bit_info, e debug 3 bit_debug, e trace 4 bit_trace]
  unfold levels at h
  revert h
  cases level.getLsbD 0 <;> cases level.getLsbD 1 <;> cases level.getLsbD 2 <;> cases level.getLsbD 3 <;> cases level.getLsbD 4 <;> decide

theorem levelText_none (level : Level) (h : 3 < levels level) : levelText level = none := by
  have e : ∀ m i, (∀ k, m.getLsbD k = decide (k = i)) → ((level &&& m) == m) = level.getLsbD i := by
    intro m i hm
    have := flag_iff m i hm level
    cases h1 : ((level &&& m) == m) <;> cases h2 : level.getLsbD i <;> simp_all
  unfold levelText
  rw [e error 0 bit_error, e warning 1 bit_warning, e info 2 bit_info, e debug 3 bit_debug, e trace 4 bit_trace]
  unfold levels at h
  revert h
  cases level.getLsbD 0 <;> cases level.getLsbD 1 <;> cases level.getLsbD 2 <;> cases level.getLsbD 3 <;> cases level.getLsbD 4 <;> decide

/-! ## Writing -/

theorem writeLoop_nil (ans : List Int) (acc : List Char) : writeLoop ans [] acc = (acc, true, ans) := by
  cases ans <;> simp [writeLoop]

theorem writeLoop_whole (n : Nat) (ans : List Int) (t : List Char) (hw : Whole n ans) (ht : t.length ≤ n) :
    ((writeLoop ans t []).2.1 = true ∧ (writeLoop ans t []).1 = t ∨ (writeLoop ans t []).2.1 = false ∧ (writeLoop ans t []).1 = []) ∧
      Whole n (writeLoop ans t []).2.2 := by
  cases ans with
  | nil =>
    constructor
    · by_cases h : t = []
      · left; simp [writeLoop, h]
      · right; simp [writeLoop, h]
    · intro a ha; simp [writeLoop] at ha
  | cons a r =>
    by_cases h : t = []
    · rw [h, writeLoop_nil]; exact ⟨Or.inl ⟨rfl, rfl⟩, hw⟩
    · have hr : Whole n r := fun b hb => hw b (by simp [hb])
      unfold writeLoop
      rw [if_neg h]
      by_cases ha : a < 0
      · rw [if_pos ha]; exact ⟨Or.inr ⟨rfl, rfl⟩, hr⟩
      · rw [if_neg ha]
        have hle : t.length ≤ a.toNat := by
          rcases hw a (by simp) with h1 | h1
          · exact absurd h1 ha
          · omega
        rw [List.drop_eq_nil_of_le hle, List.take_of_length_le hle, writeLoop_nil]
        exact ⟨Or.inl ⟨rfl, rfl⟩, hr⟩

theorem writeLoop_full (n : Nat) (a : Int) (r : List Int) (t : List Char) (ha : (n : Int) ≤ a) (ht : t.length ≤ n) (hne : t ≠ []) :
    writeLoop (a :: r) t [] = (t, true, r) := by
  unfold writeLoop
  rw [if_neg hne, if_neg (by omega), List.drop_eq_nil_of_le (by omega), List.take_of_length_le (by omega), writeLoop_nil]
  rfl

/-- The text waiting in the list. -/
def pending (l : Logger) : List Char := (l.queue.map Entry.text).flatten

/-- What a flush leaves alone. -/
def Same (l l' : Logger) : Prop :=
  l'.level = l.level ∧ l'.callback = l.callback ∧ l'.rotating = l.rotating ∧ l'.count = l.count ∧ l'.cur = l.cur ∧
    ∃ bs, l'.all = l.all ++ bs ∧ l'.files l.cur = l.files l.cur ++ bs ∧ ∀ i, i ≠ l.cur → l'.files i = l.files i

theorem Same.refl (l : Logger) : Same l l := ⟨rfl, rfl, rfl, rfl, rfl, [], by simp, by simp, fun _ _ => rfl⟩

theorem Same.trans {a b c : Logger} (h : Same a b) (h' : Same b c) : Same a c := by
  obtain ⟨h1, h2, h3, h4, h5, bs, h6, h7, h8⟩ := h
  obtain ⟨g1, g2, g3, g4, g5, cs, g6, g7, g8⟩ := h'
  rw [h5] at g5 g7 g8
  refine ⟨g1.trans h1, g2.trans h2, g3.trans h3, g4.trans h4, g5, bs ++ cs, ?_, ?_, ?_⟩
  · rw [g6, h6, List.append_assoc]
  · rw [g7, h7, List.append_assoc]
  · intro i hi; rw [g8 i hi, h8 i hi]

theorem put_same (l : Logger) (q : List Entry) (s : Nat) (bs : List Char) : Same l ({ l with queue := q, size := s }.put bs) := by
  refine ⟨rfl, rfl, rfl, rfl, rfl, bs, rfl, ?_, ?_⟩
  · simp [Logger.put]
  · intro i hi; simp [Logger.put, hi]

/-- All entries of the list can be read and are not longer than `n`. -/
def Good (n : Nat) (l : Logger) : Prop := ∀ e ∈ l.queue, e.string ≠ none ∧ e.text.length ≤ n

theorem flushLoop_cons (k : Nat) (l : Logger) (ans : List Int) (e : Entry) (r : List Entry) (hq : l.queue = e :: r) (hc : l.callback = false) :
    flushLoop (k + 1) l ans = flushLoop k ({ l with queue := if (writeLoop ans e.text []).2.1 then r else e :: r, size := l.size + e.length }.put
      (writeLoop ans e.text []).1) (writeLoop ans e.text []).2.2 := by
  conv => lhs; unfold flushLoop
  rw [hq]
  simp only [hc, Bool.false_eq_true, false_and, if_false]

theorem flushLoop_nil (k : Nat) (l : Logger) (ans : List Int) (hq : l.queue = []) : flushLoop (k + 1) l ans = .ok (l, ans) := by
  unfold flushLoop
  rw [hq]

theorem flushLoop_ok (k : Nat) : ∀ (l : Logger) (ans : List Int), l.callback = false →
    ∃ p, flushLoop k l ans = .ok p ∧ Same l p.1 ∧ (∀ e ∈ p.1.queue, e ∈ l.queue) ∧
      (∀ n, Whole n ans → Good n l → Whole n p.2 ∧ p.1.all ++ pending p.1 = l.all ++ pending l) := by
  induction k with
  | zero => intro l ans _; exact ⟨(l, ans), rfl, Same.refl l, fun _ h => h, fun n hw _ => ⟨hw, rfl⟩⟩
  | succ k ih =>
    intro l ans hc
    cases hq : l.queue with
    | nil => exact ⟨(l, ans), flushLoop_nil k l ans hq, Same.refl l, fun e h => by rw [hq] at h; exact h, fun n hw _ => ⟨hw, rfl⟩⟩
    | cons e r =>
      rw [flushLoop_cons k l ans e r hq hc]
      have hput := put_same l (if (writeLoop ans e.text []).2.1 then r else e :: r) (l.size + e.length) (writeLoop ans e.text []).1
      obtain ⟨p, hp, hs, hmem, hkeep⟩ := ih ({ l with queue := if (writeLoop ans e.text []).2.1 then r else e :: r, size := l.size + e.length }.put
        (writeLoop ans e.text []).1) (writeLoop ans e.text []).2.2 hc
      refine ⟨p, hp, hput.trans hs, ?_, ?_⟩
      · intro x hx
        have := hmem x hx
        simp only [Logger.put] at this
        split at this
        · simp [this]
        · exact this
      · intro n hw hg
        have hge := hg e (by rw [hq]; simp)
        obtain ⟨hcase, hw'⟩ := writeLoop_whole n ans e.text hw hge.2
        have hg' : Good n ({ l with queue := if (writeLoop ans e.text []).2.1 then r else e :: r, size := l.size + e.length }.put
            (writeLoop ans e.text []).1) := by
          intro x hx
          apply hg x
          rw [hq]
          simp only [Logger.put] at hx
          split at hx
          · simp [hx]
          · exact hx
        obtain ⟨h1, h2⟩ := hkeep n hw' hg'
        refine ⟨h1, h2.trans ?_⟩
        simp only [Logger.put, pending, hq]
        rcases hcase with ⟨ht, hb⟩ | ⟨ht, hb⟩
        · rw [ht, hb]; simp
        · rw [ht, hb]; simp

theorem flush_ok (l : Logger) (force : Bool) (ans : List Int) (hc : l.callback = false) :
    ∃ p, l.flush force ans = .ok p ∧ Same l p.1 ∧ (∀ e ∈ p.1.queue, e ∈ l.queue) ∧
      (∀ n, Whole n ans → Good n l → Whole n p.2 ∧ p.1.all ++ pending p.1 = l.all ++ pending l) := by
  unfold Logger.flush
  by_cases h : force = true ∨ flushAfter < l.queue.length
  · rw [if_pos h]; exact flushLoop_ok _ l ans hc
  · rw [if_neg h]; exact ⟨(l, ans), rfl, Same.refl l, fun _ h => h, fun n hw _ => ⟨hw, rfl⟩⟩

/-- With enough answers all entries are written. -/
theorem flushLoop_all (n : Nat) (k : Nat) : ∀ (l : Logger) (ans : List Int), l.callback = false → l.queue.length ≤ k →
    l.queue.length ≤ ans.length → (∀ a ∈ ans, (n : Int) ≤ a) → (∀ e ∈ l.queue, e.text.length ≤ n ∧ e.text ≠ []) →
    ∃ p, flushLoop k l ans = .ok p ∧ p.1.queue = [] ∧ p.1.all = l.all ++ pending l ∧ p.1.files l.cur = l.files l.cur ++ pending l := by
  induction k with
  | zero =>
    intro l ans hc hk _ _ _
    have : l.queue = [] := List.length_eq_zero_iff.mp (by omega)
    exact ⟨(l, ans), rfl, this, by simp [pending, this], by simp [pending, this]⟩
  | succ k ih =>
    intro l ans hc hk hl ha hg
    cases hq : l.queue with
    | nil => exact ⟨(l, ans), flushLoop_nil k l ans hq, hq, by simp [pending, hq], by simp [pending, hq]⟩
    | cons e r =>
      rw [flushLoop_cons k l ans e r hq hc]
      cases ans with
      | nil => rw [hq] at hl; simp at hl
      | cons a as =>
        have hge := hg e (by rw [hq]; simp)
        rw [writeLoop_full n a as e.text (ha a (by simp)) hge.1 hge.2]
        simp only [if_true]
        rw [hq] at hk hl
        simp only [List.length_cons] at hk hl
        obtain ⟨p, h1, h2, h3, h4⟩ := ih ({ l with queue := r, size := l.size + e.length }.put e.text) as hc
          (by simp only [Logger.put]; omega) (by simp only [Logger.put]; omega) (fun b hb => ha b (by simp [hb]))
          (fun x hx => hg x (by rw [hq]; simp only [Logger.put] at hx; simp [hx]))
        refine ⟨p, h1, h2, ?_, ?_⟩
        · rw [h3]; simp [Logger.put, pending, hq]
        · have : p.1.files l.cur = _ := h4
          rw [this]; simp [Logger.put, pending, hq]

theorem newEntry_file (level : Level) (pre body : List Char) (hb : body ≠ []) (hl : levels level ≤ 3) :
    newEntry false level pre body = .ok { string := some (line pre body), length := (line pre body).length } := by
  unfold newEntry
  rw [if_neg (levelText_some level hl), if_neg hb, if_neg (by simp)]
  rfl

theorem newEntry_file_eq (level : Level) (pre body : List Char) (e : Entry) (h : newEntry false level pre body = .ok e) :
    e = { string := some (line pre body), length := (line pre body).length } := by
  unfold newEntry at h
  split at h
  · simp at h
  · split at h
    · simp at h
    · rw [if_neg (by simp)] at h
      injection h with h
      exact h.symm

/-! ## Steps -/

theorem step_ok (l : Logger) (hc : l.callback = false) (o : Op) (h : Careful o) : ∃ p, l.step o = .ok p ∧ p.1.callback = false := by
  cases o with
  | message level pre body ans =>
    simp only [Logger.step, Logger.message]
    by_cases ha : accepts l.level level = true
    · have hnew : newEntry l.callback level pre body = .ok { string := some (line pre body), length := (line pre body).length } := by
        rw [hc]; exact newEntry_file level pre body h.1 h.2
      rw [if_pos ha, hnew]
      simp only []
      by_cases he : ((level &&& error) == error) = true
      · rw [if_pos he]
        obtain ⟨p, h1, h2, _⟩ := flush_ok { l with queue := l.queue ++ [_] } true ans hc
        exact ⟨p, h1, h2.2.1.trans hc⟩
      · rw [if_neg he]; exact ⟨_, rfl, hc⟩
    · rw [if_neg ha]; exact ⟨_, rfl, hc⟩
  | flush force ans =>
    obtain ⟨p, h1, h2, _⟩ := flush_ok l force ans hc
    exact ⟨p, h1, h2.2.1.trans hc⟩
  | tick opens ans =>
    have ho : opens = true := h
    simp only [Logger.step, Logger.tick]
    by_cases hs : rotateAfter ≤ l.size
    · rw [if_pos hs, ho]
      simp only [Logger.rotate, if_true]
      obtain ⟨p, h1, h2, _⟩ := flush_ok _ true ans (show ({ l with count := (l.count + 1) % 2 ^ 32, cur := (if l.rotating then l.count % rotateCount else 0), size := 0, files := fun i => if i = (if l.rotating then l.count % rotateCount else 0) then [] else l.files i } : Logger).callback = false from hc)
      exact ⟨p, h1, h2.2.1.trans hc⟩
    · rw [if_neg hs]; exact ⟨_, rfl, hc⟩

theorem run_ok (os : List Op) : ∀ l : Logger, l.callback = false → (∀ o ∈ os, Careful o) → ∃ l', l.run os = .ok l' := by
  induction os with
  | nil => intro l _ _; exact ⟨l, rfl⟩
  | cons o r ih =>
    intro l hc h
    obtain ⟨p, h1, h2⟩ := step_ok l hc o (h o (by simp))
    obtain ⟨l', h3⟩ := ih p.1 h2 fun x hx => h x (by simp [hx])
    exact ⟨l', by simp only [Logger.run, h1]; exact h3⟩

/-- The order is kept. -/
theorem step_order (n : Nat) (l : Logger) (hc : l.callback = false) (hg : Good n l) (o : Op) (hw : Whole n (answers o))
    (hn : ∀ x ∈ lines l.level [o], x.length ≤ n) (p : Logger × List Int) (h : l.step o = .ok p) :
    p.1.callback = false ∧ p.1.level = l.level ∧ Good n p.1 ∧ p.1.all ++ pending p.1 = l.all ++ pending l ++ (lines l.level [o]).flatten := by
  cases o with
  | message level pre body ans =>
    simp only [Logger.step, Logger.message] at h
    by_cases ha : accepts l.level level = true
    · rw [if_pos ha] at h
      have hlines : lines l.level [.message level pre body ans] = [line pre body] := by simp [lines, ha]
      rw [hlines] at hn ⊢
      have hlen := hn (line pre body) (by simp)
      cases hnew : newEntry l.callback level pre body with
      | error f => rw [hnew] at h; simp at h
      | ok e =>
        rw [hnew] at h
        rw [hc] at hnew
        have he := newEntry_file_eq level pre body e hnew
        simp only [] at h
        have hg' : Good n { l with queue := l.queue ++ [e] } := by
          intro x hx
          simp only [List.mem_append, List.mem_singleton] at hx
          rcases hx with hx | hx
          · exact hg x hx
          · rw [hx, he]; exact ⟨by simp, hlen⟩
        have hpend : pending { l with queue := l.queue ++ [e] } = pending l ++ line pre body := by
          simp [pending, he, Entry.text]
        by_cases hee : ((level &&& error) == error) = true
        · rw [if_pos hee] at h
          obtain ⟨q, h1, h2, h3, h4⟩ := flush_ok { l with queue := l.queue ++ [e] } true ans hc
          rw [h1] at h
          injection h with h
          subst h
          obtain ⟨_, h5⟩ := h4 n hw hg'
          refine ⟨h2.2.1.trans hc, h2.1, fun x hx => hg' x (h3 x hx), ?_⟩
          rw [h5, hpend]; simp
        · rw [if_neg hee] at h
          injection h with h
          subst h
          refine ⟨hc, rfl, hg', ?_⟩
          show l.all ++ pending _ = _
          rw [hpend]; simp
    · rw [if_neg ha] at h
      injection h with h
      subst h
      refine ⟨hc, rfl, hg, ?_⟩
      simp [lines, ha]
  | flush force ans =>
    obtain ⟨q, h1, h2, h3, h4⟩ := flush_ok l force ans hc
    simp only [Logger.step] at h
    rw [h1] at h
    injection h with h
    subst h
    obtain ⟨_, h5⟩ := h4 n hw hg
    refine ⟨h2.2.1.trans hc, h2.1, fun x hx => hg x (h3 x hx), ?_⟩
    rw [h5]; simp [lines]
  | tick opens ans =>
    simp only [Logger.step, Logger.tick] at h
    by_cases hs : rotateAfter ≤ l.size
    · rw [if_pos hs] at h
      simp only [Logger.rotate] at h
      cases opens with
      | false => simp at h
      | true =>
        simp only [if_true] at h
        have hg' : Good n ({ l with count := (l.count + 1) % 2 ^ 32, cur := (if l.rotating then l.count % rotateCount else 0), size := 0, files := fun i => if i = (if l.rotating then l.count % rotateCount else 0) then [] else l.files i } : Logger) := hg
        obtain ⟨q, h1, h2, h3, h4⟩ := flush_ok ({ l with count := (l.count + 1) % 2 ^ 32, cur := (if l.rotating then l.count % rotateCount else 0), size := 0, files := fun i => if i = (if l.rotating then l.count % rotateCount else 0) then [] else l.files i } : Logger) true ans hc
        rw [h1] at h
        injection h with h
        subst h
        obtain ⟨_, h5⟩ := h4 n hw hg'
        refine ⟨h2.2.1.trans hc, h2.1, fun x hx => hg x (h3 x hx), ?_⟩
        rw [h5]; simp [lines, pending]
    · rw [if_neg hs] at h
      injection h with h
      subst h
      refine ⟨hc, rfl, hg, ?_⟩
      simp [lines]

theorem lines_cons (sel : Selection) (o : Op) (r : List Op) : lines sel (o :: r) = lines sel [o] ++ lines sel r := by
  cases o with
  | message level pre body ans => simp only [lines]; split <;> simp
  | flush _ _ => simp [lines]
  | tick _ _ => simp [lines]

theorem run_order (n : Nat) (os : List Op) : ∀ l : Logger, l.callback = false → Good n l → (∀ o ∈ os, Whole n (answers o)) →
    (∀ x ∈ lines l.level os, x.length ≤ n) → ∀ l', l.run os = .ok l' →
    l'.all ++ pending l' = l.all ++ pending l ++ (lines l.level os).flatten := by
  induction os with
  | nil =>
    intro l _ _ _ _ l' h
    simp only [Logger.run] at h
    injection h with h
    subst h
    simp [lines]
  | cons o r ih =>
    intro l hc hg hw hn l' h
    simp only [Logger.run] at h
    rw [lines_cons] at hn ⊢
    cases hs : l.step o with
    | error f => rw [hs] at h; simp at h
    | ok p =>
      rw [hs] at h
      simp only [] at h
      obtain ⟨h1, h2, h3, h4⟩ := step_order n l hc hg o (hw o (by simp)) (fun x hx => hn x (by simp [hx])) p hs
      rw [← h2] at hn ⊢
      have := ih p.1 h1 h3 (fun x hx => hw x (by simp [hx])) (fun x hx => hn x (by simp [hx])) l' h
      rw [this, h4, h2]
      simp

/-! ## Rotation -/

/-- The three files, the oldest first, are the end of what was written. -/
def Tail (l : Logger) : Prop :=
  l.rotating = true ∧ 0 < l.count ∧ l.cur = (l.count - 1) % 3 ∧
    ∃ before, l.all = before ++ l.files ((l.cur + 1) % 3) ++ l.files ((l.cur + 2) % 3) ++ l.files l.cur

theorem tail_same (l l' : Logger) (h : Tail l) (hs : Same l l') : Tail l' := by
  obtain ⟨h1, h2, h3, b, h4⟩ := h
  obtain ⟨g1, g2, g3, g4, g5, bs, g6, g7, g8⟩ := hs
  have hlt : l.cur < 3 := by rw [h3]; exact Nat.mod_lt _ (by omega)
  refine ⟨g3.trans h1, by rw [g4]; exact h2, by rw [g5, g4]; exact h3, b, ?_⟩
  rw [g6, g5, g7, g8 _ (by omega), g8 _ (by omega), h4]
  simp

theorem tail_rotate (l : Logger) (h : Tail l) (hcount : l.count + 1 < 2 ^ 32) (l' : Logger) (hr : l.rotate true = .ok l') :
    Tail l' ∧ l'.count = l.count + 1 ∧ l'.callback = l.callback := by
  obtain ⟨h1, h2, h3, b, h4⟩ := h
  simp only [Logger.rotate, if_true] at hr
  injection hr with hr
  subst hr
  have e1 : (l.count + 1) % 2 ^ 32 = l.count + 1 := Nat.mod_eq_of_lt hcount
  refine ⟨⟨h1, ?_, ?_, ?_⟩, e1, rfl⟩
  · show 0 < (l.count + 1) % 2 ^ 32
    omega
  · show (if l.rotating then l.count % rotateCount else 0) = ((l.count + 1) % 2 ^ 32 - 1) % 3
    rw [e1, if_pos h1]; simp [rotateCount]
  · refine ⟨b ++ l.files ((l.cur + 1) % 3), ?_⟩
    simp only [if_pos h1, rotateCount]
    have hs : l.count % 3 = (l.cur + 1) % 3 := by rw [h3]; omega
    have hlt : l.cur < 3 := by rw [h3]; omega
    rw [hs]
    rw [if_neg (by omega), if_neg (by omega)]
    simp only [if_true]
    have e2 : ((l.cur + 1) % 3 + 1) % 3 = (l.cur + 2) % 3 := by omega
    have e3 : ((l.cur + 1) % 3 + 2) % 3 = l.cur := by omega
    rw [e2, e3, h4]
    simp

theorem step_tail (l : Logger) (hc : l.callback = false) (h : Tail l) (hcount : l.count + 1 < 2 ^ 32) (o : Op) (p : Logger × List Int)
    (hs : l.step o = .ok p) : Tail p.1 ∧ p.1.callback = false ∧ p.1.count ≤ l.count + 1 := by
  cases o with
  | message level pre body ans =>
    simp only [Logger.step, Logger.message] at hs
    by_cases ha : accepts l.level level = true
    · rw [if_pos ha] at hs
      cases hnew : newEntry l.callback level pre body with
      | error f => rw [hnew] at hs; simp at hs
      | ok e =>
        rw [hnew] at hs
        simp only [] at hs
        have ht : Tail { l with queue := l.queue ++ [e] } := h
        by_cases hee : ((level &&& error) == error) = true
        · rw [if_pos hee] at hs
          obtain ⟨q, h1, h2, _⟩ := flush_ok { l with queue := l.queue ++ [e] } true ans hc
          rw [h1] at hs
          injection hs with hs
          subst hs
          exact ⟨tail_same _ _ ht h2, h2.2.1.trans hc, by rw [h2.2.2.2.1]; exact Nat.le_succ _⟩
        · rw [if_neg hee] at hs
          injection hs with hs
          subst hs
          exact ⟨ht, hc, Nat.le_succ _⟩
    · rw [if_neg ha] at hs
      injection hs with hs
      subst hs
      exact ⟨h, hc, Nat.le_succ _⟩
  | flush force ans =>
    obtain ⟨q, h1, h2, _⟩ := flush_ok l force ans hc
    simp only [Logger.step] at hs
    rw [h1] at hs
    injection hs with hs
    subst hs
    exact ⟨tail_same _ _ h h2, h2.2.1.trans hc, by rw [h2.2.2.2.1]; exact Nat.le_succ _⟩
  | tick opens ans =>
    simp only [Logger.step, Logger.tick] at hs
    by_cases hz : rotateAfter ≤ l.size
    · rw [if_pos hz] at hs
      cases opens with
      | false => simp [Logger.rotate] at hs
      | true =>
        cases hr : l.rotate true with
        | error f => rw [hr] at hs; simp at hs
        | ok l2 =>
          rw [hr] at hs
          simp only [] at hs
          obtain ⟨t1, t2, t3⟩ := tail_rotate l h hcount l2 hr
          obtain ⟨q, h1, h2, _⟩ := flush_ok l2 true ans (t3.trans hc)
          rw [h1] at hs
          injection hs with hs
          subst hs
          exact ⟨tail_same _ _ t1 h2, h2.2.1.trans (t3.trans hc), by rw [h2.2.2.2.1, t2]; exact Nat.le_refl _⟩
    · rw [if_neg hz] at hs
      injection hs with hs
      subst hs
      exact ⟨h, hc, Nat.le_succ _⟩

theorem run_tail (os : List Op) : ∀ l : Logger, l.callback = false → Tail l → l.count + os.length < 2 ^ 32 → ∀ l', l.run os = .ok l' → Tail l' := by
  induction os with
  | nil =>
    intro l _ h _ l' hr
    simp only [Logger.run] at hr
    injection hr with hr
    subst hr
    exact h
  | cons o r ih =>
    intro l hc h hl l' hr
    simp only [Logger.run] at hr
    simp only [List.length_cons] at hl
    cases hs : l.step o with
    | error f => rw [hs] at hr; simp at hr
    | ok p =>
      rw [hs] at hr
      obtain ⟨h1, h2, h3⟩ := step_tail l hc h (by omega) o p hs
      exact ih p.1 h2 h1 (by omega) l' hr

/-! ## Threads -/

theorem release_count {α : Type} [DecidableEq α] (t : Nat) (h : List (Nat × α)) (p : α × List (Nat × α)) (hr : release t h = some p) (e : α) :
    (h.map Prod.snd).count e = (p.2.map Prod.snd).count e + if p.1 = e then 1 else 0 := by
  induction h generalizing p with
  | nil => simp [release] at hr
  | cons x r ih =>
    obtain ⟨u, y⟩ := x
    unfold release at hr
    by_cases hu : u = t
    · rw [if_pos hu] at hr
      injection hr with hr
      subst hr
      simp [List.count_cons]
    · rw [if_neg hu] at hr
      cases hrel : release t r with
      | none => rw [hrel] at hr; simp at hr
      | some q =>
        rw [hrel] at hr
        simp only [Option.map_some] at hr
        injection hr with hr
        subst hr
        have := ih q hrel
        simp only [List.map_cons, List.count_cons, this]
        omega

theorem shared_step {α : Type} [DecidableEq α] (s : Shared α) (m : Move α) (e : α) :
    (s.step m).out.count e + ((s.step m).held.map Prod.snd).count e + (s.step m).queue.count e =
      s.out.count e + (s.held.map Prod.snd).count e + s.queue.count e + (logged [m]).count e := by
  cases m with
  | log x => simp [Shared.step, logged]; omega
  | take t =>
    simp only [Shared.step, logged]
    cases hq : s.queue with
    | nil => simp [hq]
    | cons x r =>
      simp only []
      split
      · simp [hq]
      · simp only [List.map_cons, List.count_cons, List.count_nil]; omega
  | write t =>
    simp only [Shared.step, logged]
    cases hr : release t s.held with
    | none => simp
    | some p =>
      have := release_count t s.held p hr e
      simp only [List.count_append, List.count_cons, List.count_nil, beq_iff_eq] at *
      omega
  | putBack t =>
    simp only [Shared.step, logged]
    cases hr : release t s.held with
    | none => simp
    | some p =>
      have := release_count t s.held p hr e
      simp only [List.count_cons, List.count_nil, beq_iff_eq] at *
      omega

theorem logged_cons {α : Type} (m : Move α) (r : List (Move α)) : logged (m :: r) = logged [m] ++ logged r := by
  cases m <;> simp [logged]

theorem shared_run {α : Type} [DecidableEq α] (ms : List (Move α)) (e : α) : ∀ s : Shared α,
    (s.run ms).out.count e + ((s.run ms).held.map Prod.snd).count e + (s.run ms).queue.count e =
      s.out.count e + (s.held.map Prod.snd).count e + s.queue.count e + (logged ms).count e := by
  induction ms with
  | nil => intro s; simp [Shared.run, logged]
  | cons m r ih =>
    intro s
    simp only [Shared.run]
    rw [ih (s.step m), shared_step, logged_cons m r, List.count_append]
    omega

/-! ## Names -/

theorem splitLast_append (name : List Char) (p : List Char × List Char) (h : splitLast name = some p) :
    p.1 ++ p.2 = name ∧ ∃ r, p.2 = '.' :: r ∧ '.' ∉ r := by
  induction name generalizing p with
  | nil => simp [splitLast] at h
  | cons c r ih =>
    unfold splitLast at h
    cases hr : splitLast r with
    | some q =>
      rw [hr] at h
      injection h with h
      subst h
      obtain ⟨h1, h2⟩ := ih q hr
      exact ⟨by simp [h1], h2⟩
    | none =>
      rw [hr] at h
      simp only [] at h
      split at h
      · injection h with h
        subst h
        rename_i hc
        refine ⟨rfl, r, by rw [hc], ?_⟩
        intro hm
        have : ∀ l : List Char, '.' ∈ l → splitLast l ≠ none := by
          intro l
          induction l with
          | nil => intro h; simp at h
          | cons x t iht =>
            intro hmem
            unfold splitLast
            cases ht : splitLast t with
            | some q => simp
            | none =>
              simp only []
              rcases List.mem_cons.mp hmem with hx | hx
              · rw [if_pos hx.symm]; simp
              · exact absurd ht (iht hx)
        exact this r hm hr
      · simp at h

end Np.Log
