import Verif.Url.Spec

set_option linter.unusedSimpArgs false
set_option linter.unusedVariables false

namespace Np.Url

open _root_.Np.Url.Spec (Hex Enc EscapeAt Plain)

theorem digit_hex (b : Byte) (v : Nat) : digit b = some v ↔ Hex b v := by
  unfold digit Hex
  simp only []
  constructor
  · intro h
    split at h
    · simp only [Option.some.injEq] at h; omega
    · split at h
      · simp only [Option.some.injEq] at h; omega
      · split at h
        · simp only [Option.some.injEq] at h; omega
        · cases h
  · rintro (⟨h1, h2⟩ | ⟨h1, h2, h3⟩ | ⟨h1, h2, h3⟩)
    · rw [if_pos (by omega)]; congr 1; omega
    · rw [if_neg (by omega), if_pos (by omega)]; congr 1; omega
    · rw [if_neg (by omega), if_neg (by omega), if_pos (by omega)]; congr 1; omega

theorem hex_ne_zero {b : Byte} {v : Nat} (h : Hex b v) : b ≠ 0 := by
  rintro rfl
  unfold Hex at h
  simp at h
  omega

theorem hex_ne_pct {b : Byte} {v : Nat} (h : Hex b v) : b ≠ 37 := by
  rintro rfl
  unfold Hex at h
  simp at h
  omega

/-- What is left of the end of the text behind its new zero. -/
theorem last_drop : ∀ (T : List Byte) (h1 h2 : Byte), ∃ c, (h1 :: h2 :: T).drop (T.length + 1) = [c] ∧ (h2 :: T).getLast? = some c
  | [], h1, h2 => ⟨h2, rfl, rfl⟩
  | t :: T, h1, h2 => by
    obtain ⟨c, h, g⟩ := last_drop T h2 t
    exact ⟨c, by simpa using h, by rw [List.getLast?_cons_cons]; exact g⟩

theorem takeWhile_text (T : List Byte) (hT : ∀ t ∈ T, t ≠ 0) (R : List Byte) : (T ++ 0 :: R).takeWhile (· ≠ 0) = T := by
  induction T with
  | nil => simp
  | cons t T ih =>
    rw [List.cons_append, List.takeWhile_cons, if_pos (by simpa using hT t List.mem_cons_self), ih (fun u hu => hT u (List.mem_cons_of_mem _ hu))]

theorem shift_split (A T R : List Byte) (p h1 h2 x : Byte) (hT : ∀ t ∈ T, t ≠ 0) :
    ∃ c, (h2 :: T).getLast? = some c ∧ shift (A ++ p :: h1 :: h2 :: (T ++ 0 :: R)) A.length x = .ok (A ++ x :: (T ++ 0 :: c :: 0 :: R)) := by
  obtain ⟨c, hc, hl⟩ := last_drop T h1 h2
  refine ⟨c, hl, ?_⟩
  have e3 : (A ++ p :: h1 :: h2 :: (T ++ 0 :: R)).drop (A.length + 3) = T ++ 0 :: R := by
    rw [List.drop_append, List.drop_eq_nil_of_le (by omega)]
    simp [show A.length + 3 - A.length = 3 by omega]
  unfold shift
  rw [e3, if_pos (by simp), takeWhile_text T hT]
  have e : (A ++ p :: h1 :: h2 :: (T ++ 0 :: R)).drop (A.length + 2 + T.length) = c :: 0 :: R := by
    rw [List.drop_append, List.drop_eq_nil_of_le (by omega), show A.length + 2 + T.length - A.length = (T.length + 1) + 1 by omega, List.drop_succ_cons,
      show h1 :: h2 :: (T ++ 0 :: R) = (h1 :: h2 :: T) ++ 0 :: R by simp, List.drop_append, hc]
    simp [show T.length + 1 - (T.length + 1 + 1) = 0 by omega]
  simp only []
  rw [e]
  simp

/-- The number of bytes other than zero. -/
def nz (m : List Byte) : Nat := m.countP (· ≠ 0)

theorem split_zero : ∀ (l : List Byte), 0 ∈ l → ∃ T R, l = T ++ 0 :: R ∧ ∀ t ∈ T, t ≠ 0
  | [], h => by simp at h
  | a :: l, h => by
    by_cases ha : a = 0
    · exact ⟨[], l, by rw [ha]; rfl, by simp⟩
    · obtain ⟨T, R, e, hT⟩ := split_zero l (by
        rcases List.mem_cons.1 h with h | h
        · exact absurd h.symm ha
        · exact h)
      refine ⟨a :: T, R, by rw [e]; rfl, ?_⟩
      intro t ht
      rcases List.mem_cons.1 ht with rfl | ht
      · exact ha
      · exact hT t ht

theorem split_at {m : List Byte} {i : Nat} {a : Byte} (h : m[i]? = some a) : m = m.take i ++ a :: m.drop (i + 1) ∧ i < m.length := by
  obtain ⟨hi, e⟩ := List.getElem?_eq_some_iff.1 h
  exact ⟨by rw [← e, ← List.drop_eq_getElem_cons hi, List.take_append_drop], hi⟩

theorem split3 {m : List Byte} {i : Nat} {a b c : Byte} (h0 : m[i]? = some a) (h1 : m[i + 1]? = some b) (h2 : m[i + 2]? = some c) :
    m = m.take i ++ a :: b :: c :: m.drop (i + 3) ∧ i + 2 < m.length := by
  obtain ⟨hi, e⟩ := List.getElem?_eq_some_iff.1 h0
  obtain ⟨hj, f⟩ := List.getElem?_eq_some_iff.1 h1
  obtain ⟨hk, g⟩ := List.getElem?_eq_some_iff.1 h2
  exact ⟨by rw [← e, ← f, ← g, ← List.drop_eq_getElem_cons hk, ← List.drop_eq_getElem_cons hj, ← List.drop_eq_getElem_cons hi, List.take_append_drop], hk⟩

/-- The memory has its size and ends with a zero. -/
structure Ends (L : Nat) (m : List Byte) : Prop where
  len : m.length = L + 1
  last : m[L]? = some 0

theorem nz_append (a b : List Byte) : nz (a ++ b) = nz a + nz b := List.countP_append
theorem nz_cons (x : Byte) (b : List Byte) : nz (x :: b) = nz b + if x ≠ 0 then 1 else 0 := by
  unfold nz
  rw [List.countP_cons]
  simp

/-- Every visit is safe, and what it decodes shrinks the memory in use. -/
theorem visit_safe {L : Nat} {m : List Byte} {i : Nat} (h : Ends L m) (hi : i < L) :
    visit m i = .ok .ret ∨ visit m i = .ok .keep ∨ ∃ m', visit m i = .ok (.decoded m') ∧ Ends L m' ∧ nz m' < nz m := by
  have hget : ∀ k, k ≤ L → ∃ b, m[k]? = some b := fun k hk => ⟨m[k]'(by rw [h.len]; omega), List.getElem?_eq_getElem _⟩
  obtain ⟨a, ha⟩ := hget i (by omega)
  unfold visit
  rw [ha]
  simp only []
  by_cases hp : a = pct
  · rw [if_pos hp]
    obtain ⟨b, hb⟩ := hget (i + 1) (by omega)
    unfold first
    rw [hb]
    simp only []
    by_cases hb0 : b = 0
    · rw [if_pos hb0]; exact Or.inl rfl
    · rw [if_neg hb0]
      have hi1 : i + 1 < L := by
        apply Classical.byContradiction
        intro hn
        have : i + 1 = L := by omega
        rw [this, h.last] at hb
        exact hb0 (Option.some.inj hb).symm
      cases hdb : digit b with
      | none => exact Or.inr (Or.inl rfl)
      | some v1 =>
        obtain ⟨c, hc⟩ := hget (i + 2) (by omega)
        simp only []
        unfold second
        rw [hc]
        simp only []
        cases hdc : digit c with
        | none => exact Or.inr (Or.inl rfl)
        | some v2 =>
          have hc0 := hex_ne_zero ((digit_hex _ _).1 hdc)
          have hi2 : i + 2 < L := by
            apply Classical.byContradiction
            intro hn
            have : i + 2 = L := by omega
            rw [this, h.last] at hc
            exact hc0 (Option.some.inj hc).symm
          obtain ⟨e, _⟩ := split3 ha hb hc
          have hz : (0 : Byte) ∈ m.drop (i + 3) := by
            have := h.last
            rw [show L = i + 3 + (L - (i + 3)) by omega, ← List.getElem?_drop] at this
            exact List.mem_of_getElem? this
          obtain ⟨T, R, eT, hT⟩ := split_zero _ hz
          rw [eT] at e
          have hlen : (m.take i).length = i := by rw [List.length_take, h.len]; omega
          generalize hA : m.take i = A at e hlen
          generalize hx : BitVec.ofNat 8 (v1 * 16 + v2) = x
          obtain ⟨d, hd, hs⟩ := shift_split A T R a b c x hT
          rw [← e, hlen] at hs
          simp only [hx, hs]
          refine Or.inr (Or.inr ⟨_, rfl, ⟨?_, ?_⟩, ?_⟩)
          · have := h.len
            rw [e] at this
            simp only [List.length_append, List.length_cons] at this ⊢
            omega
          · have hl := h.len
            have hlast := h.last
            rw [e] at hl hlast
            simp only [List.length_append, List.length_cons] at hl
            -- the last byte is in what was not moved
            rw [show A ++ x :: (T ++ 0 :: d :: 0 :: R) = (A ++ x :: (T ++ [0, d])) ++ 0 :: R by simp]
            rw [show A ++ a :: b :: c :: (T ++ 0 :: R) = (A ++ a :: b :: c :: T) ++ 0 :: R by simp] at hlast
            rw [List.getElem?_append_right (by simp only [List.length_append, List.length_cons]; omega)] at hlast
            rw [List.getElem?_append_right (by simp only [List.length_append, List.length_cons, List.length_nil]; omega), ← hlast]
            congr 1
            simp only [List.length_append, List.length_cons, List.length_nil]
          · have hap : a ≠ 0 := by rw [hp]; decide
            rw [e]
            have hx1 : (if x ≠ 0 then 1 else 0) ≤ 1 := by split <;> omega
            have hd1 : (if d ≠ 0 then 1 else 0) ≤ 1 := by split <;> omega
            have ea : (if a ≠ 0 then 1 else 0) = 1 := if_pos hap
            have eb : (if b ≠ 0 then 1 else 0) = 1 := if_pos hb0
            have ec : (if c ≠ 0 then 1 else 0) = 1 := if_pos hc0
            have ez : (if (0 : Byte) ≠ 0 then 1 else 0) = 0 := if_neg (by simp)
            simp only [nz_append, nz_cons]
            rw [ea, eb, ec, ez]
            omega
  · rw [if_neg hp]; exact Or.inr (Or.inl rfl)

theorem pass_safe (L : Nat) : ∀ (n i : Nat) (m : List Byte) (d : Bool), Ends L m → i + n = L →
    ∃ p, pass n i m d = .ok p ∧ Ends L p.mem ∧ nz p.mem ≤ nz m ∧ (p.some = true → d = true ∨ nz p.mem < nz m)
  | 0, i, m, d, h, _ => ⟨_, rfl, h, Nat.le_refl _, fun e => Or.inl e⟩
  | n + 1, i, m, d, h, hin => by
    unfold pass
    rcases visit_safe h (show i < L by omega) with e | e | ⟨m', e, h', hlt⟩
    · rw [e]
      exact ⟨_, rfl, h, Nat.le_refl _, fun e => Or.inl e⟩
    · rw [e]
      exact pass_safe L n (i + 1) m d h (by omega)
    · rw [e]
      obtain ⟨p, e1, e2, e3, _⟩ := pass_safe L n (i + 1) m' true h' (by omega)
      exact ⟨p, e1, e2, by omega, fun _ => Or.inr (by omega)⟩

theorem loop_safe (L : Nat) : ∀ (fuel : Nat) (m : List Byte), Ends L m → nz m < fuel → ∃ m', loop L fuel m = .ok m' ∧ Ends L m'
  | 0, m, _, h => by omega
  | fuel + 1, m, h, hf => by
    obtain ⟨p, e1, e2, e3, e4⟩ := pass_safe L L 0 m false h (by omega)
    unfold loop
    rw [e1]
    simp only []
    by_cases hc : p.ret = true ∨ p.some = false
    · rw [if_pos hc]; exact ⟨_, rfl, e2⟩
    · rw [if_neg hc]
      have : nz p.mem < nz m := by
        rcases e4 (by cases h : p.some <;> simp_all) with h | h
        · cases h
        · exact h
      exact loop_safe L fuel p.mem e2 (by omega)

theorem nz_le (m : List Byte) : nz m ≤ m.length := List.countP_le_length

/-- A pass that decodes nothing. -/
theorem pass_keep (m : List Byte) (d : Bool) : ∀ (n i : Nat), (∀ j, i ≤ j → j < i + n → visit m j = .ok .keep ∨ visit m j = .ok .ret) →
    ∃ r, pass n i m d = .ok ⟨r, m, d⟩
  | 0, i, _ => ⟨false, rfl⟩
  | n + 1, i, h => by
    unfold pass
    rcases h i (by omega) (by omega) with e | e
    · rw [e]
      exact pass_keep m d n (i + 1) (fun j h1 h2 => h j (by omega) (by omega))
    · rw [e]
      exact ⟨true, rfl⟩

theorem visit_raw {m : List Byte} {i : Nat} {b : Byte} (h : m[i]? = some b) (hb : b ≠ 37) : visit m i = .ok .keep := by
  unfold visit
  rw [h]
  exact if_neg hb

theorem enc_last {s e : List Byte} (h : Enc s e) : e.getLast? ≠ some 37 := by
  induction h with
  | nil => simp
  | raw hb h0 h ih =>
    rename_i b s e
    cases e with
    | nil => simpa using hb
    | cons x e => rw [List.getLast?_cons_cons]; exact ih
  | esc h0 d1 d2 hv h ih =>
    rename_i b h1 h2 v1 v2 s e
    rw [List.getLast?_cons_cons, List.getLast?_cons_cons]
    cases e with
    | nil => simpa using hex_ne_pct d2
    | cons x e => rw [List.getLast?_cons_cons]; exact ih

theorem enc_ne_zero {s e : List Byte} (h : Enc s e) : (∀ x ∈ e, x ≠ 0) ∧ ∀ x ∈ s, x ≠ 0 := by
  induction h with
  | nil => simp
  | raw hb h0 h ih =>
    refine ⟨?_, ?_⟩ <;> intro x hx <;> rcases List.mem_cons.1 hx with rfl | hx
    · exact h0
    · exact ih.1 x hx
    · exact h0
    · exact ih.2 x hx
  | esc h0 d1 d2 hv h ih =>
    refine ⟨?_, ?_⟩
    · intro x hx
      simp only [List.mem_cons] at hx
      rcases hx with rfl | rfl | rfl | hx
      · decide
      · exact hex_ne_zero d1
      · exact hex_ne_zero d2
      · exact ih.1 x hx
    · intro x hx
      rcases List.mem_cons.1 hx with rfl | hx
      · exact h0
      · exact ih.2 x hx

/-- The first pass decodes what was encoded. -/
theorem pass_enc {s e : List Byte} (h : Enc s e) : ∀ (A R : List Byte) (n : Nat) (d : Bool), (∀ x ∈ R, x ≠ 37) → n = e.length + R.length →
    ∃ R' d', pass n A.length (A ++ (e ++ 0 :: R)) d = .ok ⟨false, A ++ (s ++ 0 :: R'), d'⟩ ∧ (∀ x ∈ R', x ≠ 37) ∧ s.length + R'.length = e.length + R.length ∧
      (d' = d ∧ s = e ∧ R' = R ∨ d' = true) := by
  induction h with
  | nil =>
    intro A R n d hR hn
    have hk : ∀ j, A.length ≤ j → j < A.length + n → visit (A ++ ([] ++ 0 :: R)) j = .ok .keep := by
      intro j h1 h2
      simp only [List.length_nil] at hn
      have hlt : j - A.length < (0 :: R).length := by simp only [List.length_cons]; omega
      have hget : (A ++ ([] ++ 0 :: R))[j]? = some ((0 :: R)[j - A.length]'hlt) := by
        rw [List.getElem?_append_right h1]
        exact List.getElem?_eq_getElem _
      refine visit_raw hget ?_
      have := List.getElem_mem hlt
      rcases List.mem_cons.1 this with e | e
      · rw [e]; decide
      · exact hR _ e
    have key : ∀ k i, A.length ≤ i → i + k ≤ A.length + n → pass k i (A ++ ([] ++ 0 :: R)) d = .ok ⟨false, A ++ ([] ++ 0 :: R), d⟩ := by
      intro k
      induction k with
      | zero => intro i _ _; rfl
      | succ k ih =>
        intro i h1 h2
        unfold pass
        rw [hk i h1 (by omega)]
        exact ih (i + 1) (by omega) (by omega)
    exact ⟨R, d, key n _ (Nat.le_refl _) (Nat.le_refl _), hR, rfl, Or.inl ⟨rfl, rfl, rfl⟩⟩
  | raw hb h0 h ih =>
    rename_i b s e
    intro A R n d hR hn
    obtain ⟨k, rfl⟩ : ∃ k, n = k + 1 := ⟨n - 1, by simp only [List.length_cons] at hn; omega⟩
    simp only [List.length_cons] at hn
    obtain ⟨R', d', e1, e2, e3, e4⟩ := ih (A ++ [b]) R k d hR (by omega)
    refine ⟨R', d', ?_, e2, by simp only [List.length_cons]; omega, ?_⟩
    · unfold pass
      rw [visit_raw (b := b) (by rw [List.getElem?_append_right (Nat.le_refl _)]; simp) hb]
      simp only [List.length_append, List.length_cons, List.length_nil, List.append_assoc, List.cons_append, List.nil_append] at e1 ⊢
      exact e1
    · rcases e4 with ⟨h1, h2, h3⟩ | h1
      · exact Or.inl ⟨h1, by rw [h2], h3⟩
      · exact Or.inr h1
  | esc h0 d1 d2 hv h ih =>
    rename_i b h1 h2 v1 v2 s e
    intro A R n d hR hn
    obtain ⟨k, rfl⟩ : ∃ k, n = k + 1 := ⟨n - 1, by simp only [List.length_cons] at hn; omega⟩
    simp only [List.length_cons] at hn
    have hx : BitVec.ofNat 8 (v1 * 16 + v2) = b := by
      apply BitVec.eq_of_toNat_eq
      rw [BitVec.toNat_ofNat]
      have := b.isLt
      omega
    obtain ⟨c, hc, hs⟩ := shift_split A e R 37 h1 h2 b (enc_ne_zero h).1
    have hc37 : c ≠ 37 := by
      have hl : (h2 :: e).getLast? ≠ some 37 := by
        have := enc_last (Enc.esc h0 d1 d2 hv h)
        rw [List.getLast?_cons_cons, List.getLast?_cons_cons] at this
        exact this
      rintro rfl
      exact hl hc
    obtain ⟨R', d', e1, e2, e3, e4⟩ := ih (A ++ [b]) (c :: 0 :: R) k true (by
      intro x hx
      simp only [List.mem_cons] at hx
      rcases hx with rfl | rfl | hx
      · exact hc37
      · decide
      · exact hR x hx) (by simp only [List.length_cons]; omega)
    refine ⟨R', d', ?_, e2, by simp only [List.length_cons] at e3 ⊢; omega, Or.inr (by rcases e4 with ⟨h, _⟩ | h <;> exact h)⟩
    have hv : visit (A ++ (37 :: h1 :: h2 :: e ++ 0 :: R)) A.length = .ok (.decoded (A ++ b :: (e ++ 0 :: c :: 0 :: R))) := by
      have g0 : (A ++ (37 :: h1 :: h2 :: e ++ 0 :: R))[A.length]? = some 37 := by rw [List.getElem?_append_right (by omega)]; simp
      have g1 : (A ++ (37 :: h1 :: h2 :: e ++ 0 :: R))[A.length + 1]? = some h1 := by rw [List.getElem?_append_right (by omega)]; simp
      have g2 : (A ++ (37 :: h1 :: h2 :: e ++ 0 :: R))[A.length + 2]? = some h2 := by rw [List.getElem?_append_right (by omega)]; simp
      unfold visit
      rw [g0]
      simp only []
      rw [if_pos (show (37 : Byte) = pct from rfl)]
      unfold first
      rw [g1]
      simp only []
      rw [if_neg (hex_ne_zero d1), (digit_hex _ _).2 d1]
      simp only []
      unfold second
      rw [g2]
      simp only []
      rw [(digit_hex _ _).2 d2]
      simp only []
      rw [hx]
      simp only [List.cons_append] at hs ⊢
      rw [hs]
    unfold pass
    rw [hv]
    simp only [List.length_append, List.length_cons, List.length_nil, List.append_assoc, List.cons_append, List.nil_append] at e1 ⊢
    exact e1

/-- A pass over a text in which nothing looks encoded. -/
theorem visit_plain {s R : List Byte} (hs : Plain s) (h0 : ∀ x ∈ s, x ≠ 0) (hR : ∀ x ∈ R, x ≠ 37) {j : Nat} (hj : j < s.length + 1 + R.length) :
    visit (s ++ 0 :: R) j = .ok .keep ∨ visit (s ++ 0 :: R) j = .ok .ret := by
  by_cases hjs : j < s.length
  · have g0 : (s ++ 0 :: R)[j]? = some s[j] := by rw [List.getElem?_append_left hjs]; exact List.getElem?_eq_getElem _
    by_cases hp : s[j] = 37
    · unfold visit
      rw [g0]
      simp only []
      rw [if_pos (show s[j] = pct from hp)]
      unfold first
      by_cases hj1 : j + 1 < s.length
      · have g1 : (s ++ 0 :: R)[j + 1]? = some s[j + 1] := by rw [List.getElem?_append_left hj1]; exact List.getElem?_eq_getElem _
        rw [g1]
        simp only []
        rw [if_neg (h0 _ (List.getElem_mem _))]
        cases hd : digit s[j + 1] with
        | none => exact Or.inl rfl
        | some v1 =>
          simp only []
          unfold second
          by_cases hj2 : j + 2 < s.length
          · have g2 : (s ++ 0 :: R)[j + 2]? = some s[j + 2] := by rw [List.getElem?_append_left hj2]; exact List.getElem?_eq_getElem _
            rw [g2]
            simp only []
            cases hd2 : digit s[j + 2] with
            | none => exact Or.inl rfl
            | some v2 =>
              refine absurd ⟨s[j + 1], s[j + 2], v1, v2, ?_, List.getElem?_eq_getElem _, List.getElem?_eq_getElem _, (digit_hex _ _).1 hd, (digit_hex _ _).1 hd2⟩ (hs j)
              rw [← hp]; exact List.getElem?_eq_getElem _
          · have g2 : (s ++ 0 :: R)[j + 2]? = some 0 := by
              rw [List.getElem?_append_right (by omega), show j + 2 - s.length = 0 by omega]; rfl
            rw [g2]
            exact Or.inl rfl
      · have g1 : (s ++ 0 :: R)[j + 1]? = some 0 := by
          rw [List.getElem?_append_right (by omega), show j + 1 - s.length = 0 by omega]; rfl
        rw [g1]
        exact Or.inr rfl
    · exact Or.inl (visit_raw g0 hp)
  · have hlt : j - s.length < (0 :: R).length := by simp only [List.length_cons]; omega
    refine Or.inl (visit_raw (b := (0 :: R)[j - s.length]'hlt) ?_ ?_)
    · rw [List.getElem?_append_right (by omega)]
      exact List.getElem?_eq_getElem _
    · rcases List.mem_cons.1 (List.getElem_mem hlt) with e | e
      · rw [e]; decide
      · exact hR _ e

theorem text_split {s R : List Byte} (h0 : ∀ x ∈ s, x ≠ 0) : text (s ++ 0 :: R) = .ok s := by
  unfold text
  rw [if_pos (by simp), takeWhile_text s h0]

/-- Without a zero nothing can be decoded. -/
theorem visit_open {m : List Byte} (h0 : (0 : Byte) ∉ m) (i : Nat) : (∃ f, visit m i = .error f) ∨ visit m i = .ok .keep := by
  unfold visit
  cases m[i]? with
  | none => exact Or.inl ⟨_, rfl⟩
  | some a =>
    simp only []
    by_cases hp : a = pct
    · rw [if_pos hp]
      unfold first
      cases hb : m[i + 1]? with
      | none => exact Or.inl ⟨_, rfl⟩
      | some b =>
        simp only []
        rw [if_neg (by rintro rfl; exact h0 (List.mem_of_getElem? hb))]
        cases digit b with
        | none => exact Or.inr rfl
        | some v1 =>
          simp only []
          unfold second
          cases m[i + 2]? with
          | none => exact Or.inl ⟨_, rfl⟩
          | some c =>
            simp only []
            cases digit c with
            | none => exact Or.inr rfl
            | some v2 =>
              simp only []
              unfold shift
              rw [if_neg (fun h => h0 (List.mem_of_mem_drop h))]
              exact Or.inl ⟨_, rfl⟩
    · rw [if_neg hp]; exact Or.inr rfl

theorem pass_open {m : List Byte} (h0 : (0 : Byte) ∉ m) (d : Bool) : ∀ (n i : Nat), (∃ f, pass n i m d = .error f) ∨ pass n i m d = .ok ⟨false, m, d⟩
  | 0, i => Or.inr rfl
  | n + 1, i => by
    unfold pass
    rcases visit_open h0 i with ⟨f, e⟩ | e
    · rw [e]; exact Or.inl ⟨_, rfl⟩
    · rw [e]; exact pass_open h0 d n (i + 1)

end Np.Url
