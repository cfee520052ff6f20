import Verif.Sketch.Lemmas2

set_option linter.unusedVariables false

/-! # C116 – C121: signatures of texts and the search index -/
namespace Np.Sketch

open _root_.Np.Sketch.Spec (Least Greatest SameSet windows elements)

/-- A hash for examples: the first byte, and the number of bytes. -/
def sample : Hash := ⟨fun x => (x.getD 0 0).setWidth 64, fun x => BitVec.ofNat 64 x.length⟩

/-! ## C116: a signature is that of a set -/

/-- C116: the lower half of a signature has the least value of each hash function over the elements, the upper half the greatest. -/
theorem C116_entries (h : Hash) (half : Nat) (xs : List (List Byte)) : ∃ s, signature h (2 * half) xs = .ok s ∧ s.size = 2 * half ∧ s.mins.length = 2 * half ∧
    ∀ i < half, Least 4294967295 (fun x => (h.at i x).toNat) xs (s.mins.getD i 0).toNat ∧
      Greatest (fun x => (h.at i x).toNat) xs (s.mins.getD (i + half) 0).toNat := by
  obtain ⟨h1, h2, _, _, h3⟩ := sig_spec h half xs
  exact ⟨_, signature_even h half xs, h1, h2, h3⟩

/-- C116: neither the order of the elements nor repetitions change the signature. -/
theorem C116_set (h : Hash) (size : Nat) {xs ys : List (List Byte)} (hs : SameSet xs ys) : signature h size xs = signature h size ys := by
  by_cases he : size % 2 = 0
  · obtain ⟨half, rfl⟩ : ∃ half, size = 2 * half := ⟨size / 2, by omega⟩
    rw [signature_even, signature_even, sig_sameSet h half hs]
  · unfold signature init
    rw [if_neg he]

/-- Two lists with the same three members. -/
example : SameSet [[1], [2], [3, 4]] [[3, 4], [1], [2], [1]] ∧ [[1], [2], [3, (4 : Byte)]] ≠ [[3, 4], [1], [2], [1]] := by
  refine ⟨?_, by decide⟩
  intro x
  simp only [List.mem_cons, List.not_mem_nil, or_false]
  constructor
  · rintro (h | h | h) <;> simp [h]
  · rintro (h | h | h | h) <;> simp [h]

/-! ## C117: merging -/

/-- C117, but for one entry: merging two signatures gives the signature of all elements, except at the first entry of the upper half. -/
theorem C117_merge_partial (h : Hash) (half : Nat) (xs ys : List (List Byte)) : ∃ s t u v, signature h (2 * half) xs = .ok s ∧ signature h (2 * half) ys = .ok t ∧
    merge s t = .ok u ∧ signature h (2 * half) (xs ++ ys) = .ok v ∧ u.size = v.size ∧ ∀ j < 2 * half, j ≠ half → u.mins.getD j 0 = v.mins.getD j 0 := by
  obtain ⟨a1, a2, a3, _, a5⟩ := sig_spec h half xs
  obtain ⟨b1, b2, b3, _, b5⟩ := sig_spec h half ys
  obtain ⟨c1, c2, c3, _, c5⟩ := sig_spec h half (xs ++ ys)
  obtain ⟨u, u1, u2, u3, _, _, u5⟩ := merge_spec a1 a2 b2 (by rw [a3, b3])
  refine ⟨_, _, u, _, signature_even .., signature_even .., u1, signature_even .., by rw [u2, c1], ?_⟩
  intro j hj hjh
  refine BitVec.eq_of_toNat_eq ?_
  rw [u5 j hj]
  by_cases hl : j < half
  · rw [if_pos hl, lo_toNat]
    exact Least.unique (fun _ => Iff.rfl) (least_append (a5 j hl).1 (b5 j hl).1) (c5 j hl).1
  · rw [if_neg hl, if_neg hjh, hi_toNat]
    have ea := (a5 (j - half) (by omega)).2
    have eb := (b5 (j - half) (by omega)).2
    have ec := (c5 (j - half) (by omega)).2
    rw [Nat.sub_add_cancel (by omega)] at ea eb ec
    exact Greatest.unique (fun _ => Iff.rfl) (greatest_append ea eb) ec

/-- C117 is false in general, for every hash and size: merging an element into an empty signature does not give the signature of the element, unless the first
hash of the element is zero. -/
theorem C117_middle_refuted (h : Hash) (half : Nat) (hh : 0 < half) (x : List Byte) (hx : h.at 0 x ≠ 0) : ∃ s t u, signature h (2 * half) [] = .ok s ∧
    signature h (2 * half) [x] = .ok t ∧ merge s t = .ok u ∧ u.mins.getD half 0 = 0 ∧ t.mins.getD half 0 = h.at 0 x ∧ u ≠ t := by
  obtain ⟨a1, a2, a3, _, a5⟩ := sig_spec h half []
  obtain ⟨b1, b2, b3, _, b5⟩ := sig_spec h half [x]
  obtain ⟨u, u1, u2, u3, _, _, u5⟩ := merge_spec a1 a2 b2 (by rw [a3, b3])
  have e1 : u.mins.getD half 0 = 0 := by
    rw [u5 half (by omega), if_neg (by omega), if_pos rfl]
    have := (a5 0 hh).2.2
    simp only [Nat.zero_add, List.not_mem_nil, false_and, exists_false, or_false] at this
    exact BitVec.eq_of_toNat_eq this
  have e2 : (sig h half [x]).mins.getD half 0 = h.at 0 x := by
    obtain ⟨g1, g2⟩ := (b5 0 hh).2
    simp only [Nat.zero_add, List.mem_singleton, forall_eq, exists_eq_left] at g1 g2
    refine BitVec.eq_of_toNat_eq ?_
    rcases g2 with g2 | g2
    · omega
    · exact g2
  refine ⟨_, _, u, signature_even .., signature_even .., u1, e1, e2, ?_⟩
  intro e
  rw [e, e2] at e1
  exact hx e1

/-- Such an element. -/
example : sample.at 0 [7] ≠ 0 := by decide

/-- C117 is false in general: merging a smaller signature reads beyond its end. -/
theorem C117_sizes_refuted (h : Hash) (xs ys : List (List Byte)) (m n : Nat) (hmn : n < m) : ∃ s t, signature h (2 * m) xs = .ok s ∧ signature h (2 * n) ys = .ok t ∧
    merge s t = .error .bounds := by
  obtain ⟨a1, a2, a3, _⟩ := sig_spec h m xs
  obtain ⟨b1, b2, b3, _⟩ := sig_spec h n ys
  refine ⟨_, _, signature_even .., signature_even .., ?_⟩
  unfold merge
  rw [if_neg (by simp [a3, b3]), if_pos (by omega)]

/-! ## C118: similarity -/

/-- A signature whose array has its size. -/
def WF (s : Sig) : Prop := s.mins.length = s.size

/-- C118, for signatures of one size: the similarity does not depend on the order of the two signatures. -/
theorem C118_symmetric_partial {s t : Sig} (hs : WF s) (ht : WF t) (he : s.size = t.size ∨ s.mode = .flex) : similarity s t = similarity t s := by
  unfold WF at hs ht
  unfold similarity
  by_cases hm : s.mode = t.mode
  · rw [if_neg (show ¬ s.mode ≠ t.mode from fun q => q hm), if_neg (show ¬ t.mode ≠ s.mode from fun q => q hm.symm)]
    have hw : ∀ i, weigh s.mode (s.mins.getD i 0) (t.mins.getD i 0) = weigh t.mode (t.mins.getD i 0) (s.mins.getD i 0) := fun i => by
      rw [weigh_comm, hm]
    simp only [hw]
    have h1 : (if s.mode = .flex then min s.size t.size else s.size) = if t.mode = .flex then min t.size s.size else t.size := by
      rw [hm]
      split
      · exact Nat.min_comm _ _
      · rcases he with he | he
        · exact he
        · rw [hm] at he; contradiction
    have h2 : (if s.mode = .flex then max s.size t.size else s.size) = if t.mode = .flex then max t.size s.size else t.size := by
      rw [hm]
      split
      · exact Nat.max_comm _ _
      · rcases he with he | he
        · exact he
        · rw [hm] at he; contradiction
    rw [h1, h2]
    generalize (if t.mode = Mode.flex then min t.size s.size else t.size) = c
    by_cases hc : s.mins.length < c ∨ t.mins.length < c
    · rw [if_pos hc, if_pos (Or.comm.1 hc)]
    · rw [if_neg hc, if_neg (fun q => hc (Or.comm.1 q))]
  · rw [if_pos hm, if_pos (fun e => hm e.symm)]

/-- C118: a similarity is between zero and one. -/
theorem C118_bounds {s t : Sig} {n d : Nat} (h : similarity s t = .ok (n, d)) : n ≤ d := by
  unfold similarity at h
  by_cases hm : s.mode ≠ t.mode
  · rw [if_pos hm] at h
    simp only [Except.ok.injEq, Prod.mk.injEq] at h
    omega
  · rw [if_neg hm] at h
    simp only [] at h
    by_cases hb : s.mins.length < (if s.mode = .flex then min s.size t.size else s.size) ∨ t.mins.length < (if s.mode = .flex then min s.size t.size else s.size)
    · rw [if_pos hb] at h
      cases h
    · rw [if_neg hb] at h
      simp only [Except.ok.injEq, Prod.mk.injEq] at h
      generalize hc : (if s.mode = Mode.flex then min s.size t.size else s.size) = c at h
      have hcu : c ≤ if s.mode = .flex then max s.size t.size else s.size := by
        rw [← hc]
        split <;> omega
      have := sum_pairs_le (w := (List.range c).map fun i => weigh s.mode (s.mins.getD i 0) (t.mins.getD i 0)) (by
        intro p hp
        obtain ⟨i, _, rfl⟩ := List.mem_map.1 hp
        exact weigh_le ..)
      simp only [List.length_map, List.length_range] at this
      omega

/-- C118: the similarity of a signature with itself has equal numerator and denominator. -/
theorem C118_self {s : Sig} (hs : WF s) : ∃ n, similarity s s = .ok (n, n) := by
  unfold WF at hs
  unfold similarity
  rw [if_neg (by simp)]
  simp only [Nat.min_self, Nat.max_self, ite_self]
  rw [if_neg (by omega)]
  have := sum_pairs_eq (w := (List.range s.size).map fun i => weigh s.mode (s.mins.getD i 0) (s.mins.getD i 0)) (by
    intro p hp
    obtain ⟨i, _, rfl⟩ := List.mem_map.1 hp
    exact weigh_self ..)
  simp only [List.length_map, List.length_range] at this
  refine ⟨(((List.range s.size).map fun i => weigh s.mode (s.mins.getD i 0) (s.mins.getD i 0)).map (·.1)).sum, ?_⟩
  congr 2
  omega

/-- C118: texts with the same elements have similarity one. -/
theorem C118_same (h : Hash) (half : Nat) (xs ys : List (List Byte)) (hs : SameSet xs ys) : ∃ s t, signature h (2 * half) xs = .ok s ∧
    signature h (2 * half) ys = .ok t ∧ similarity s t = .ok (2 * half, 2 * half) := by
  refine ⟨_, _, signature_even .., signature_even .., ?_⟩
  rw [sig_sameSet h half hs]
  obtain ⟨b1, b2, b3, _⟩ := sig_spec h half ys
  unfold similarity
  rw [if_neg (by simp), b3, b1]
  simp only [reduceCtorEq, if_false, b2, Nat.lt_irrefl, or_self, Except.ok.injEq, Prod.mk.injEq]
  have e : (List.range (2 * half)).map (fun i => weigh Mode.multi ((sig h half ys).mins.getD i 0) ((sig h half ys).mins.getD i 0)) = List.replicate (2 * half) (1, 0) := by
    refine List.ext_getElem (by simp) ?_
    intro i h1 h2
    simp [weigh]
  rw [e]
  simp

/-- A signature of two elements is well-formed, and its similarity to that of one of them is not trivial. -/
example : ∃ s t, signature sample 4 [[1], [2]] = .ok s ∧ signature sample 4 [[1]] = .ok t ∧ WF s ∧ WF t ∧ similarity s t = .ok (2, 4) := ⟨_, _, rfl, rfl, rfl, rfl, rfl⟩

/-- C118 is false in general: for two signatures without elements, in the mode for single values, the similarity is zero divided by zero. -/
theorem C118_empty_refuted : ∃ s, init 4 .single = .ok s ∧ similarity s s = .ok (0, 0) := ⟨_, rfl, rfl⟩

/-- C118 is false in general: the comparison with a smaller signature reads beyond its end, and the other way round it gives a result. -/
theorem C118_sizes_refuted : ∃ s t, signature sample 4 [[1]] = .ok s ∧ signature sample 2 [[1]] = .ok t ∧ similarity s t = .error .bounds ∧ similarity t s = .ok (1, 2) :=
  ⟨_, _, rfl, rfl, rfl, rfl⟩

/-! ## C119: signatures that depend on the data -/

/-- C119, for a fixed size and no more elements than half of it: each element has its two entries, and those of the others are not touched. -/
theorem C119_fix_partial (h : Hash) (s : Sig) (x : List Byte) (hw : WF s) (hp : s.pos < s.size / 2) :
    (pushFix h s x).pos = s.pos + 1 ∧ WF (pushFix h s x) ∧
    ((pushFix h s x).mins.getD s.pos 0).toNat = min ((h.v1 x).setWidth 32).toNat ((h.v2 x).setWidth 32).toNat ∧
    ((pushFix h s x).mins.getD (s.pos + s.size / 2) 0).toNat = max ((h.v1 x).setWidth 32).toNat ((h.v2 x).setWidth 32).toNat ∧
    ∀ j, j ≠ s.pos → j ≠ s.pos + s.size / 2 → (pushFix h s x).mins.getD j 0 = s.mins.getD j 0 := by
  unfold WF at hw
  unfold pushFix
  simp only []
  rw [if_neg (by omega)]
  refine ⟨rfl, by simp [WF, hw], ?_, ?_, ?_⟩
  · simp only []
    rw [getD_set _ _ _ _ (by simp; omega), if_neg (by omega), getD_set _ _ _ _ (by omega), if_pos rfl]
    split <;> omega
  · simp only []
    rw [getD_set _ _ _ _ (by simp; omega), if_pos rfl]
    split <;> omega
  · intro j h1 h2
    simp only []
    rw [getD_set _ _ _ _ (by simp; omega), if_neg h2, getD_set _ _ _ _ (by omega), if_neg h1]

/-- A new signature meets the hypotheses. -/
example : ∃ s, init 4 .fix = .ok s ∧ WF s ∧ s.pos < s.size / 2 := ⟨_, rfl, rfl, by decide⟩

/-- C119 is false in general: a full signature ignores further elements, whatever they are. -/
theorem C119_full_refuted (h : Hash) (x y z : List Byte) : ∃ s, init 2 .fix = .ok s ∧ pushFix h (pushFix h s x) y = pushFix h (pushFix h s x) z := by
  refine ⟨_, rfl, ?_⟩
  unfold pushFix
  simp

/-- The position of a signature of flexible size. -/
theorem C119_flex_position (h : Hash) (fresh : Nat → Word) (s : Sig) (x : List Byte) (hp : s.pos ≤ s.size / 2) (h0 : 0 < s.size) (he : s.size % 2 = 0) :
    (pushFlex h fresh s x).pos ≤ (pushFlex h fresh s x).size / 2 ∧ (s.pos ≥ s.size / 2 → s.pos = s.size / 2) ∧ 0 < (pushFlex h fresh s x).size ∧
      (pushFlex h fresh s x).size % 2 = 0 := by
  refine ⟨?_, by omega, ?_, ?_⟩
  all_goals
    unfold pushFlex
    simp only []
    by_cases hc : s.pos ≥ s.size / 2
    · simp only [if_pos hc]; omega
    · simp only [if_neg hc]; omega

/-- C119 is false in general: when a signature of flexible size grows, it takes over what the new memory happens to hold. -/
theorem C119_flex_refuted (h : Hash) (x y : List Byte) : ∃ s, init 2 .flex = .ok s ∧ ∀ f g : Nat → Word, f 0 ≠ g 0 →
    pushFlex h f (pushFlex h f s x) y ≠ pushFlex h g (pushFlex h g s x) y := by
  refine ⟨_, rfl, ?_⟩
  intro f g hfg e
  have := congrArg (fun s : Sig => s.mins.getD 2 0) e
  simp only [pushFlex, List.replicate] at this
  simp [List.range_succ] at this
  exact hfg this

/-- C119 is false in general: when a signature of flexible size grows, the entry of an earlier element is changed. -/
theorem C119_overwritten_refuted (fresh : Nat → Word) : ∃ s, init 2 .flex = .ok s ∧ (pushFlex sample fresh s [5]).mins.getD 1 0 = 8 ∧
    (pushFlex sample fresh (pushFlex sample fresh s [5]) [1]).mins.getD 1 0 = 4 := by
  refine ⟨_, rfl, rfl, ?_⟩
  have e : (pushFlex sample fresh ⟨2, .flex, [0xFFFFFFFF, 0], 0⟩ [5]) = ⟨2, .flex, [0xFFFFFFF7, 8], 1⟩ := by
    simp [pushFlex, sample]
  show (pushFlex sample fresh (pushFlex sample fresh ⟨2, .flex, [0xFFFFFFFF, 0], 0⟩ [5]) [1]).mins.getD 1 0 = 4
  rw [e]
  simp [pushFlex, sample, List.range_succ]

/-! ## C120: every text can be indexed -/

/-- C120, for signatures of 256 entries and texts of up to 65536 words: if no element has 512 bytes or more, the text is indexed. -/
theorem C120_indexed_partial (h : Hash) {n : Nat} {words : List (List Byte)} (hn : 0 < n) (hb : words.length ≤ 65536) (hw : ∀ x ∈ elements n words, x.length < 512) :
    ∃ y, indexOf h 256 n words = .ok y := by
  unfold indexOf
  rw [shingles_elements hn hb hw]
  simp only []
  rw [show (256 : Nat) = 2 * 128 from rfl, signature_even h 128]
  simp only []
  exact update_256 _ (sig_spec h 128 _).1

/-- Windows of two of three words. -/
example : (∀ x ∈ elements 2 [[1, 2], [3], [4, 5, 6]], x.length < 512) ∧ elements 2 [[1, 2], [3], [4, 5, 6]] = [[1, 2, 3], [3, 4, (5 : Byte), 6]] ∧
    elements 4 [[1, 2], [3]] = [[1, 2, (3 : Byte)]] := by decide

/-- C120 is false in general, for every hash and text: with signatures of 512 entries the process is aborted. -/
theorem C120_512_refuted (h : Hash) {n : Nat} {words : List (List Byte)} (hn : 0 < n) (hb : words.length ≤ 65536) (hw : ∀ x ∈ elements n words, x.length < 512) :
    indexOf h 512 n words = .error .abort := by
  unfold indexOf
  rw [shingles_elements hn hb hw]
  simp only []
  rw [show (512 : Nat) = 2 * 256 from rfl, signature_even h 256]
  simp only []
  exact update_512 _ (sig_spec h 256 _).1

/-- C120 is false in general: a text with a word of 512 bytes or more overflows the buffer on the stack. -/
theorem C120_overflow_refuted (h : Hash) (size : Nat) {words : List (List Byte)} (hw : ∃ w ∈ words, 512 ≤ w.length) : indexOf h size 1 words = .error .bounds := by
  unfold indexOf
  rw [shingles_long hw]

/-- Such a text. -/
example : ∃ w ∈ [[1, 2], List.replicate 600 (3 : Byte)], 512 ≤ w.length := ⟨List.replicate 600 3, List.mem_cons_of_mem _ List.mem_cons_self, Nat.le_trans (by decide) (Nat.le_of_eq List.length_replicate.symm)⟩

/-! ## C121: what is indexed can be found -/

/-- C121, for texts of up to 65536 words: texts with the same elements have the same index, however often and in which order the elements occur. -/
theorem C121_same_index_partial (h : Hash) (size : Nat) {n : Nat} {words words' : List (List Byte)} (hn : 0 < n) (hb : words.length ≤ 65536) (hb' : words'.length ≤ 65536)
    (hw : ∀ x ∈ elements n words, x.length < 512) (hs : SameSet (elements n words) (elements n words')) : indexOf h size n words = indexOf h size n words' := by
  unfold indexOf
  rw [shingles_elements hn hb hw, shingles_elements hn hb' (fun x hx => hw x ((hs x).2 hx))]
  simp only []
  rw [C116_set h size hs]

/-- Two texts with the same words. -/
example : SameSet (elements 1 [[1, 2], [3]]) (elements 1 [[3], [1, 2], [3]]) := by
  intro x
  show x ∈ [[1, 2], [(3 : Byte)]] ↔ x ∈ [[3], [1, 2], [(3 : Byte)]]
  simp only [List.mem_cons, List.not_mem_nil, or_false]
  constructor
  · rintro (h | h) <;> simp [h]
  · rintro (h | h | h) <;> simp [h]

end Np.Sketch
