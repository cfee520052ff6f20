import Verif.Prom.Spec

set_option linter.unusedSimpArgs false
set_option linter.unusedVariables false

namespace Np.Prom
open _root_.Np.Prom.Spec

/-- The sum of the positions after every piece. -/
def cums : Nat → List Text → Nat
  | _, [] => 0
  | p, t :: r => (p + t.length) + cums (p + t.length) r

def total : List Text → Nat
  | [] => 0
  | t :: r => t.length + total r

theorem total_append (a b : List Text) : total (a ++ b) = total a + total b := by
  induction a with
  | nil => simp [total]
  | cons x r ih => simp [total, ih]; omega

theorem cums_append (a b : List Text) (p : Nat) : cums p (a ++ b) = cums p a + cums (p + total a) b := by
  induction a generalizing p with
  | nil => simp [cums, total]
  | cons x r ih => simp [cums, total, ih, Nat.add_assoc]

theorem cums_le (a : List Text) (p : Nat) : cums p a ≤ a.length * (p + total a) := by
  induction a generalizing p with
  | nil => simp [cums]
  | cons x r ih =>
    have h := ih (p + x.length)
    simp only [cums, total, List.length_cons, Nat.add_mul, Nat.one_mul, ← Nat.add_assoc]
    omega

theorem cums_mono (a : List Text) (p : Nat) : cums 0 a ≤ cums p a := by
  have : ∀ p q, p ≤ q → cums p a ≤ cums q a := by
    induction a with
    | nil => intro p q h; simp [cums]
    | cons x r ih =>
      intro p q h
      have := ih (p + x.length) (q + x.length) (by omega)
      simp only [cums]
      omega
  exact this 0 p (Nat.zero_le _)

theorem put_size (o : Out) (t : Text) (h : o.ptr + t.length < u32) :
    (put o t).ptr = o.ptr + t.length ∧ (put o t).size = (o.size + (u32 - (o.ptr + t.length))) % u32 := by
  simp only [put, Nat.mod_eq_of_lt h, and_self]

/-- The bound after a number of pieces, modulo 2^32. -/
theorem fold_size (ts : List Text) :
    ∀ o : Out, o.size < u32 → o.ptr + total ts < u32 →
      (ts.foldl put o).size < u32 ∧ ((ts.foldl put o).size + cums o.ptr ts) % u32 = o.size % u32 := by
  induction ts with
  | nil => intro o h _; exact ⟨h, by simp [cums]⟩
  | cons t r ih =>
    intro o h hp
    simp only [total] at hp
    obtain ⟨h1, h2⟩ := put_size o t (by omega)
    have hs : (put o t).size < u32 := by rw [h2]; exact Nat.mod_lt _ (by decide)
    obtain ⟨i1, i2⟩ := ih (put o t) hs (by rw [h1]; omega)
    refine ⟨i1, ?_⟩
    simp only [List.foldl_cons, cums]
    rw [h1, h2] at i2
    generalize (List.foldl put (put o t) r).size = X at i1 i2 ⊢
    generalize cums (o.ptr + t.length) r = C at i2 ⊢
    simp only [u32] at *
    omega

theorem labelPieces_total (ls : List Label) (h : ∀ l ∈ ls, l.name.length < 255 ∧ l.value.length < 255) :
    total (labelPieces ls) = labelsSize ls := by
  induction ls with
  | nil => rfl
  | cons l r ih =>
    have h1 := h l (by simp)
    have h2 := ih fun x hx => h x (by simp [hx])
    simp only [labelPieces, labelsSize, total, total_append, h2, len255, List.length_append, List.length_cons, List.length_nil]
    by_cases hr : r = []
    · simp [hr, total]; omega
    · simp [hr, total]; omega

theorem pieces_cums (m : Metric) (hf : Fits m) (hu : Usual m) (p : Nat) : metricSize m + 1 ≤ cums p (metricPieces m) := by
  refine Nat.le_trans ?_ (cums_mono _ p)
  obtain ⟨h1, h2⟩ := hf
  obtain ⟨h3, h4, h5⟩ := hu
  have hl := labelPieces_total m.labels h2
  cases hs : m.stamp with
  | none =>
    by_cases hr : m.labels = []
    · simp only [metricPieces, metricSize, hs, hr, if_true, cums_append, cums, total_append, total, labelPieces, labelsSize, len255,
        List.length_cons, List.length_nil]
      simp; omega
    · simp only [metricPieces, metricSize, hs, hr, if_false, cums_append, cums, total_append, total, hl, len255, List.length_cons,
        List.length_nil]
      simp; omega
  | some t =>
    have h6 := h5 t hs
    by_cases hr : m.labels = []
    · simp only [metricPieces, metricSize, hs, hr, if_true, cums_append, cums, total_append, total, labelPieces, labelsSize, len255,
        List.length_cons, List.length_nil]
      simp; omega
    · simp only [metricPieces, metricSize, hs, hr, if_false, cums_append, cums, total_append, total, hl, len255, List.length_cons,
        List.length_nil]
      simp; omega

theorem sizes_cums (reg : List Metric) (h : ∀ m ∈ reg, Fits m ∧ Usual m) (p : Nat) : sizes reg + reg.length ≤ cums p (pieces reg) := by
  induction reg generalizing p with
  | nil => simp [sizes, pieces, cums]
  | cons m r ih =>
    have h1 := h m (by simp)
    have h2 := pieces_cums m h1.1 h1.2 p
    have h3 := ih (fun x hx => h x (by simp [hx])) (p + total (metricPieces m))
    simp only [sizes, pieces, cums_append, List.length_cons]
    omega

theorem total_eq (ts : List Text) : total ts = ts.flatten.length := by
  induction ts with
  | nil => rfl
  | cons t r ih => simp [total, ih]

theorem labelPieces_text (ls : List Label) : (labelPieces ls).flatten = labelsText ls := by
  induction ls with
  | nil => rfl
  | cons l r ih =>
    cases r with
    | nil => simp [labelPieces, labelsText, labelText, eq, quote, List.intercalate]
    | cons l2 r2 =>
      have e : labelsText (l :: l2 :: r2) = labelText l ++ ([44] ++ labelsText (l2 :: r2)) := by
        simp [labelsText, List.intercalate, List.intersperse]
      rw [e, ← ih, labelPieces]
      simp [labelText, eq, quote, comma]

theorem metricPieces_text (m : Metric) : (metricPieces m).flatten = line m := by
  cases hs : m.stamp <;> by_cases hr : m.labels = [] <;>
    simp [metricPieces, line, hs, hr, labelPieces_text, lbrace, rbrace, space, newline, labelPieces]

theorem pieces_text (reg : List Metric) : (pieces reg).flatten = page reg := by
  induction reg with
  | nil => rfl
  | cons m r ih =>
    simp only [pieces, List.flatten_append, ih, metricPieces_text]
    simp [page]

theorem pieces_total (reg : List Metric) : total (pieces reg) = (page reg).length := by rw [total_eq, pieces_text]

theorem line_le (m : Metric) (hf : Fits m) (hs : Short m) : (line m).length ≤ metricSize m := by
  rw [← metricPieces_text, ← total_eq]
  obtain ⟨h1, h2⟩ := hf
  obtain ⟨h3, h4⟩ := hs
  have hl := labelPieces_total m.labels h2
  cases hs : m.stamp with
  | none =>
    by_cases hr : m.labels = []
    · simp [metricPieces, metricSize, hs, hr, total_append, total, labelPieces, labelsSize, len255]; omega
    · simp [metricPieces, metricSize, hs, hr, total_append, total, hl, len255]; omega
  | some t =>
    have h6 := h4 t hs
    by_cases hr : m.labels = []
    · simp [metricPieces, metricSize, hs, hr, total_append, total, labelPieces, labelsSize, len255]; omega
    · simp [metricPieces, metricSize, hs, hr, total_append, total, hl, len255]; omega

theorem page_le (reg : List Metric) (h : ∀ m ∈ reg, Fits m ∧ Short m) : (page reg).length ≤ sizes reg := by
  induction reg with
  | nil => simp [page, sizes]
  | cons m r ih =>
    have h1 := h m (by simp)
    have h2 := line_le m h1.1 h1.2
    have h3 := ih fun x hx => h x (by simp [hx])
    have : page (m :: r) = line m ++ page r := by simp [page]
    rw [this, List.length_append, sizes]
    omega

theorem rnd_exact (n : Nat) (h : n ≤ 2 ^ 24) : rnd n = n := by
  unfold rnd
  by_cases h1 : n < 2 ^ 24
  · rw [if_pos h1]
  · have : n = 2 ^ 24 := by omega
    subst this
    decide +kernel

theorem run_exact (os : List Op) : ∀ v, Below (2 ^ 24) v os → run v os = exact v os := by
  induction os with
  | nil => intro v _; rfl
  | cons o r ih =>
    intro v h
    cases o with
    | inc n =>
      obtain ⟨h1, h2, h3⟩ := h
      have h4 : v + n ≤ 2 ^ 24 := by
        cases r with
        | nil => exact h3
        | cons o2 r2 => cases o2 <;> exact h3.1
      show run (rnd (v + rnd n)) r = _
      rw [rnd_exact n h2, rnd_exact _ h4]
      exact ih _ h3
    | set n =>
      obtain ⟨h1, h2, h3⟩ := h
      show run (rnd n) r = _
      rw [rnd_exact n h2]
      exact ih _ h3
    | get => exact ih v h.2

theorem rateRun_append (a b : List (Nat × Op)) : ∀ s, rateRun s (a ++ b) = rateRun (rateRun s a) b := by
  induction a with
  | nil => intro s; rfl
  | cons x r ih => intro s; exact ih _

theorem rateRun_value (a : List (Nat × Op)) : ∀ s, (rateRun s a).1 = run s.1 (a.map (·.2)) := by
  induction a with
  | nil => intro s; rfl
  | cons x r ih => intro s; exact ih _

theorem rateRun_quiet (a : List (Nat × Op)) :
    ∀ s, (∀ x ∈ a, x.1 < s.2.lastUpdate + s.2.interval) → (rateRun s a).2 = s.2 := by
  induction a with
  | nil => intro s _; rfl
  | cons x r ih =>
    intro s h
    have h1 := h x (by simp)
    have h2 : (rateStep s x).2 = s.2 := by
      show s.2.update _ _ = s.2
      unfold Rate.update
      rw [if_neg (by omega)]
    have := ih (rateStep s x) (by rw [h2]; exact fun y hy => h y (by simp [hy]))
    rw [← h2]
    exact this

theorem valuesOf_setValue (l : Label) (ls : List Label) :
    valuesOf l.name (setValue l ls) = List.replicate (valuesOf l.name ls).length l.value := by
  induction ls with
  | nil => rfl
  | cons x r ih =>
    by_cases h : x.name = l.name
    · simp only [valuesOf, setValue, List.map_cons, if_pos h, List.filter_cons, h, decide_true, if_true, List.length_cons,
        List.replicate_succ]
      exact congrArg (l.value :: ·) ih
    · simp only [valuesOf, setValue] at ih
      simp only [valuesOf, setValue, List.map_cons, if_neg h]
      rw [List.filter_cons_of_neg (by simpa using h), List.filter_cons_of_neg (by simpa using h)]
      exact ih

theorem valuesOf_setValue_other (l : Label) (n : Text) (hn : n ≠ l.name) (ls : List Label) :
    valuesOf n (setValue l ls) = valuesOf n ls := by
  induction ls with
  | nil => rfl
  | cons x r ih =>
    simp only [valuesOf, setValue] at ih
    by_cases h : x.name = l.name
    · have h2 : ¬ x.name = n := fun e => hn (e.symm.trans h)
      have h3 : ¬ l.name = n := fun e => hn e.symm
      simp [valuesOf, setValue, h, h2, h3, ih]
    · by_cases h2 : x.name = n
      · subst h2
        simp [valuesOf, setValue, h, ih]
      · simp [valuesOf, setValue, h, h2, ih]

theorem any_iff (l : Label) (ls : List Label) : ls.any (fun x => x.name = l.name) = true ↔ valuesOf l.name ls ≠ [] := by
  simp [valuesOf]

theorem put_mem (o : Out) (t : Text) (h : t.length < o.size) :
    (∀ i, i < o.ptr → (put o t).mem i = o.mem i) ∧ (∀ i, i < t.length → (put o t).mem (o.ptr + i) = t.getD i 0) ∧
      (put o t).mem (o.ptr + t.length) = 0 ∧ (∀ i, o.ptr + t.length < i → (put o t).mem i = o.mem i) := by
  have hn : min t.length (o.size - 1) = t.length := by omega
  have hz : ¬ o.size = 0 := by omega
  simp only [put, hn]
  refine ⟨?_, ?_, ?_, ?_⟩
  · intro i hi; rw [if_pos (Or.inr hi)]
  · intro i hi
    rw [if_neg (by omega), if_pos (by omega)]
    congr 1; omega
  · rw [if_neg (by omega), if_neg (by omega)]; simp
  · intro i hi
    rw [if_neg (by omega), if_neg (by omega), if_neg (by omega)]

theorem fold_mem (ts : List Text) :
    ∀ o : Out, o.ptr + total ts < u32 → RoomyFrom o.size o.ptr ts →
      (∀ i, i < o.ptr → (ts.foldl put o).mem i = o.mem i) ∧
      (∀ i, i < total ts → (ts.foldl put o).mem (o.ptr + i) = ts.flatten.getD i 0) ∧
      (ts ≠ [] → (ts.foldl put o).mem (o.ptr + total ts) = 0) ∧
      (∀ i, o.ptr + total ts < i → (ts.foldl put o).mem i = o.mem i) := by
  induction ts with
  | nil => intro o _ _; exact ⟨fun _ _ => rfl, fun i hi => by simp [total] at hi, fun h => absurd rfl h, fun _ _ => rfl⟩
  | cons t r ih =>
    intro o hp hr
    simp only [total] at hp
    obtain ⟨h1, h2⟩ := put_size o t (by omega)
    obtain ⟨m1, m2, m3, m4⟩ := put_mem o t hr.1
    obtain ⟨i1, i2, i3, i4⟩ := ih (put o t) (by rw [h1]; omega) (by rw [h1, h2]; exact hr.2)
    simp only [List.foldl_cons, total]
    rw [h1] at i1 i2 i3 i4
    refine ⟨?_, ?_, ?_, ?_⟩
    · intro i hi; rw [i1 i (by omega), m1 i hi]
    · intro i hi
      by_cases hc : i < t.length
      · rw [i1 _ (by omega), m2 i hc]
        simp only [List.flatten_cons, List.getD_eq_getElem?_getD]
        rw [List.getElem?_append_left hc]
      · have := i2 (i - t.length) (by omega)
        rw [show o.ptr + t.length + (i - t.length) = o.ptr + i by omega] at this
        rw [this]
        simp only [List.flatten_cons, List.getD_eq_getElem?_getD]
        rw [List.getElem?_append_right (by omega)]
    · intro _
      by_cases hc : r = []
      · subst hc; simpa [total] using m3
      · have := i3 hc
        rwa [Nat.add_assoc] at this
    · intro i hi; rw [i4 i (by omega), m4 i (by omega)]

/-- The place of the last write is outside of the memory. -/
theorem last_outside (fresh : Nat → Nat) (reg : List Metric) (hne : reg ≠ []) (h : ∀ m ∈ reg, Fits m ∧ Usual m) (hs : Small reg) :
    formatSize reg < u32 ∧
      formatSize reg ≤ (((pieces reg).foldl put { mem := fresh, ptr := 0, size := formatSize reg, high := 0 }).size + (u32 - 1)) % u32 := by
  have h1 := sizes_cums reg h 0
  have h2 := cums_le (pieces reg) 0
  rw [Nat.zero_add, pieces_total] at h2
  have h3 : 0 < reg.length := List.length_pos_iff.2 hne
  simp only [Small] at hs
  have hP : cums 0 (pieces reg) < 2 ^ 32 := by omega
  have hS : formatSize reg ≤ cums 0 (pieces reg) := by simp only [formatSize]; omega
  have hL : 0 + total (pieces reg) < u32 := by
    rw [Nat.zero_add, pieces_total]
    have : 1 ≤ (pieces reg).length := by
      cases reg with
      | nil => exact absurd rfl hne
      | cons m r => simp [pieces, metricPieces]
    have := Nat.mul_le_mul_right (page reg).length this
    simp only [u32]; omega
  have hc : formatSize reg < u32 := by simp only [u32]; omega
  obtain ⟨f1, f2⟩ := fold_size (pieces reg) { mem := fresh, ptr := 0, size := formatSize reg, high := 0 } hc hL
  refine ⟨hc, ?_⟩
  generalize ((pieces reg).foldl put { mem := fresh, ptr := 0, size := formatSize reg, high := 0 }).size = X at f1 f2 ⊢
  simp only at f2
  simp only [u32] at *
  omega

end Np.Prom
