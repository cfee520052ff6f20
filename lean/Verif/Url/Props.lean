import Verif.Url.Lemmas

/-! # C122, C123: decoding the arguments of web requests -/
namespace Np.Url

open _root_.Np.Url.Spec (Hex Enc EscapeAt Plain)

/-! ## C122: decoding gives back what was encoded -/

/-- C122, for texts in which nothing looks encoded, and if the byte behind the text happens to be zero: decoding gives the text, however it was encoded. -/
theorem C122_decoded_partial {s e : List Byte} (h : Enc s e) (hs : Plain s) : decode e 0 = .ok s := by
  obtain ⟨R, d, e1, e2, e3, e4⟩ := pass_enc h [] [] e.length false (by simp) (by simp)
  simp only [List.nil_append, List.length_nil] at e1 e3
  have h0 := (enc_ne_zero h).2
  unfold decode decodeMem loop
  rw [e1]
  simp only []
  by_cases hd : d = false
  · rw [if_pos (Or.inr hd)]
    exact text_split h0
  · rw [if_neg (by simp [hd])]
    obtain ⟨r, e5⟩ := pass_keep (s ++ 0 :: R) false e.length 0 (fun j _ hj => visit_plain hs h0 e2 (by omega))
    unfold loop
    rw [e5]
    simp only []
    rw [if_pos (Or.inr trivial)]
    exact text_split h0

/-- "a+%2fb" and "a%2B%2Fb" are two ways to write "a+/b", and "50%25" one to write "50%". -/
example : Enc [97, 43, 47, 98] [97, 43, 37, 50, 102, 98] ∧ Enc [97, 43, 47, 98] [97, 37, 50, 66, 37, 50, 70, 98] ∧ Enc [53, 48, 37] [53, 48, 37, 50, 53] ∧
    decode [97, 37, 50, 66, 37, 50, 70, 98] 0 = .ok [97, 43, 47, 98] :=
  ⟨.raw (by decide) (by decide) (.raw (by decide) (by decide) (.esc (v1 := 2) (v2 := 15) (by decide) (by unfold Hex; decide) (by unfold Hex; decide) (by decide)
      (.raw (by decide) (by decide) .nil))),
   .raw (by decide) (by decide) (.esc (v1 := 2) (v2 := 11) (by decide) (by unfold Hex; decide) (by unfold Hex; decide) (by decide)
      (.esc (v1 := 2) (v2 := 15) (by decide) (by unfold Hex; decide) (by unfold Hex; decide) (by decide) (.raw (by decide) (by decide) .nil))),
   .raw (by decide) (by decide) (.raw (by decide) (by decide) (.esc (v1 := 2) (v2 := 5) (by decide) (by unfold Hex; decide) (by unfold Hex; decide) (by decide) .nil)),
   rfl⟩

/-- "50%" does not look encoded. -/
example : Plain [53, 48, 37] := by
  rintro i ⟨h1, h2, v1, v2, e0, e1, e2, _⟩
  have : i + 2 < 3 := (List.getElem?_eq_some_iff.1 e2).1
  obtain rfl : i = 0 := by omega
  simp at e0

/-- C122 is false in general: "%41" is encoded as "%2541", which is decoded to "A". -/
theorem C122_twice_refuted : ∃ s e, Enc s e ∧ decode e 0 = .ok [65] ∧ s ≠ [65] :=
  ⟨[37, 52, 49], [37, 50, 53, 52, 49],
    .esc (v1 := 2) (v2 := 5) (by decide) (by unfold Hex; decide) (by unfold Hex; decide) (by decide) (.raw (by decide) (by decide) (.raw (by decide) (by decide) .nil)),
    rfl, by decide⟩

/-- C122 is false in general: how often a text is decoded depends on what is behind it. -/
theorem C122_context_refuted : decode [37, 50, 53, 52, 49] 0 = .ok [65] ∧ decode [37, 50, 53, 52, 49, 37] 0 = .ok [37, 52, 49, 37] := ⟨rfl, rfl⟩

/-! ## C123: decoding is safe -/

/-- C123, if the byte behind the text happens to be zero: decoding every text ends, reads and writes only its own memory and gives a text that is no longer. -/
theorem C123_safe_partial (str : List Byte) : ∃ s, decode str 0 = .ok s ∧ s.length ≤ str.length ∧ 0 ∉ s := by
  have he : Ends str.length (str ++ [0]) := ⟨by simp, by simp⟩
  obtain ⟨m, e1, e2⟩ := loop_safe str.length (str.length + 2) _ he (by
    have := nz_le (str ++ [0])
    simp only [List.length_append, List.length_cons, List.length_nil] at this
    omega)
  have hz : (0 : Byte) ∈ m := List.mem_of_getElem? e2.last
  obtain ⟨T, R, e, hT⟩ := split_zero m hz
  have hl := e2.len
  rw [e] at hl
  simp only [List.length_append, List.length_cons] at hl
  refine ⟨T, ?_, by omega, fun h => hT 0 h rfl⟩
  unfold decode decodeMem
  rw [e1]
  simp only []
  rw [e]
  exact text_split hT

/-- A text that is not well-formed. -/
example : decode [37, 37, 52, 37, 48, 48, 97] 0 = .ok [37, 37, 52] := rfl

/-- C123 is false in general, for every text: if the byte behind the text is not zero, decoding or the use of the result reads beyond the memory. -/
theorem C123_unterminated_refuted {str : List Byte} {last : Byte} (h0 : 0 ∉ str) (hl : last ≠ 0) : ∃ f, decode str last = .error f := by
  have hm : (0 : Byte) ∉ str ++ [last] := by
    intro h
    rcases List.mem_append.1 h with h | h
    · exact h0 h
    · exact hl (List.mem_singleton.1 h).symm
  unfold decode decodeMem loop
  rcases pass_open hm false str.length 0 with ⟨f, e⟩ | e
  · rw [e]; exact ⟨f, rfl⟩
  · rw [e]
    simp only []
    rw [if_pos (Or.inr trivial)]
    unfold text
    simp only []
    rw [if_neg hm]
    exact ⟨_, rfl⟩

/-- Such a text. -/
example : (0 : Byte) ∉ [97, 98] ∧ (7 : Byte) ≠ 0 := by decide

end Np.Url
