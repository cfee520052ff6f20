import Verif.Dhkey.Lemmas
/-! # C01–C06: ids, their text form, order, distance, ring interval and routing digit -/
namespace Np
open Dhkey

/-! ## C01 np_generate_subject -/

/-- C01: the composed subject id does not depend on the order of the parts. -/
theorem C01_order_independent {Part : Type} (hash : Part → Dhkey) (s : Dhkey) (ps qs : List Part)
    (hperm : ps.Perm qs) : generateSubjects hash s ps = generateSubjects hash s qs := by
  induction hperm generalizing s with
  | nil => rfl
  | cons x _ ih => exact ih _
  | swap x y l =>
    simp only [generateSubjects, List.foldl_cons, generateSubject]
    rw [← xor_assoc, ← xor_assoc, xor_comm (hash x)]
  | trans _ _ ih1 ih2 => rw [ih1, ih2]

/-- C01: adding the same part twice gives back the id before. -/
theorem C01_twice_cancels {Part : Type} (hash : Part → Dhkey) (s : Dhkey) (p : Part) :
    generateSubject hash (generateSubject hash s p) p = s := by
  simp only [generateSubject]
  rw [← xor_assoc, xor_self, zero_xor]

/-- C01: every starting id is restored by adding all parts again, in any order. -/
theorem C01_restored {Part : Type} (hash : Part → Dhkey) (s : Dhkey) (ps qs : List Part) (hperm : ps.Perm qs) :
    generateSubjects hash (generateSubjects hash s ps) qs = s := by
  rw [C01_order_independent hash s ps qs hperm, generateSubjects_eq hash qs (generateSubjects hash s qs),
    generateSubjects_eq hash qs s, ← xor_assoc, xor_self, zero_xor]

/-- C01: different starting ids stay different: no part list merges two subjects. -/
theorem C01_injective {Part : Type} (hash : Part → Dhkey) (s t : Dhkey) (ps : List Part)
    (h : generateSubjects hash s ps = generateSubjects hash t ps) : s = t := by
  have := congrArg (fun x => generateSubjects hash x ps) h
  simp only [C01_restored hash _ ps ps (List.Perm.refl _)] at this
  exact this

/-- C02: the text of an id has 64 lower-case hex characters. -/
theorem C02_text_shape (id : List (BitVec 8)) (h : id.length = 32) :
    (idStr id).length = 64 ∧ ∀ c ∈ idStr id, Spec.isLowerHex c := by
  refine ⟨by rw [idStr_length, h], ?_⟩
  intro c hc
  simp only [idStr, List.mem_flatMap] at hc
  obtain ⟨b, _, hc⟩ := hc
  have hb := b.isLt
  have h1 := hexDigit_lower ⟨b.toNat / 16, by omega⟩
  have h2 := hexDigit_lower ⟨b.toNat % 16, by omega⟩
  simp only [List.mem_cons, List.not_mem_nil, or_false] at hc
  rcases hc with rfl | rfl
  · exact h1
  · exact h2

/-- C02: parsing the text of an id (whatever bytes follow it in memory) gives the id back. -/
theorem C02_round_trip (id : List (BitVec 8)) (h : id.length = 32) (rest : List Char) :
    strId (idStr id ++ rest) = some id := by
  have := hex2bin_idStr id rest
  rwa [h] at this

/-- C02: ids with the same text are the same id. -/
theorem C02_injective (a b : List (BitVec 8)) (ha : a.length = 32) (hb : b.length = 32)
    (h : idStr a = idStr b) : a = b := by
  have e1 := C02_round_trip a ha []
  have e2 := C02_round_trip b hb []
  rw [h, e2] at e1
  exact (Option.some.inj e1).symm

/-- C02, other direction: every text of 64 lower-case hex characters is the text of exactly the id it parses to. -/
theorem C02_text_round_trip (s : List Char) (hl : s.length = 64) (hc : ∀ c ∈ s, Spec.isLowerHex c) :
    ∃ id, strId s = some id ∧ id.length = 32 ∧ idStr id = s := hex2bin_lower 32 s hl hc

example : (List.replicate 32 (0xa5#8)).length = 32 ∧
    idStr (List.replicate 2 (0xa5#8)) = ['a', '5', 'a', '5'] := by decide

/-! ## C03 order on ids -/

/-- C03: the comparison is the order of the 256-bit numbers, hence a total order. -/
theorem C03_total_order (a b c : Dhkey) :
    (cmp a b = 0 ↔ a = b) ∧ cmp a b = - cmp b a ∧ (cmp a b < 0 → cmp b c < 0 → cmp a c < 0) ∧
    (cmp a b < 0 ∨ cmp a b = 0 ∨ cmp a b > 0) := cmp_total_order a b c

/-- C03: the comparison is numeric comparison of the ids. -/
theorem C03_numeric (a b : Dhkey) :
    (cmp a b < 0 ↔ Spec.num a < Spec.num b) ∧ (cmp a b > 0 ↔ Spec.num a > Spec.num b) := cmp_numeric a b

/-- C03: the equality test answers true exactly for identical ids, and agrees with the comparison. -/
theorem C03_equal (a b : Dhkey) : (equal a b = true ↔ a = b) ∧ (equal a b = true ↔ cmp a b = 0) := by
  refine ⟨equal_iff a b, ?_⟩
  rw [equal_iff, (C03_total_order a b a).1]

/-- C03: `NULL` handling: NULL is smaller than every id (but the comparison of two NULLs is not zero). -/
theorem C03_null (a : Dhkey) : cmpPtr none (some a) < 0 ∧ cmpPtr (some a) none > 0 ∧ cmpPtr none none ≠ 0 := by
  simp [cmpPtr]

example : cmp (rep 1) (rep 2) < 0 ∧ cmp (rep 2) (rep 0xffffffff) < 0 := by decide

/-! ## C04 distance -/

/-- C04, proved part: the distance is symmetric, zero from an id to itself, and at most `half`
(the value 0x80000000 in each word). Missing: zero *only* for identical ids, see `C04_identity_refuted`. -/
theorem C04_distance_partial (a b : Dhkey) :
    distance a b = distance b a ∧ distance a a = zero ∧ Spec.num (distance a b) ≤ Spec.num half := by
  refine ⟨distance_symm a b, distance_self a, ?_⟩
  rw [distance_num]
  have hh : Spec.num half = 0x8000000080000000800000008000000080000000800000008000000080000000 := by decide
  have hl := num_lt (absDiff a b)
  simp only [Spec.ringSize] at *
  split <;> omega

/-- C04 is violated: two different ids (all zero bits, all one bits) have distance zero. -/
theorem C04_identity_refuted : ¬ ∀ a b : Dhkey, distance a b = zero → a = b := by
  intro h
  exact absurd (h zero max (by decide)) (by decide)

/-- C04: exact description of the exceptional pairs: distance zero means equal ids or
ids whose difference in every word is 2^32-1. -/
theorem C04_zero_iff (a b : Dhkey) : distance a b = zero ↔ a = b ∨ absDiff a b = max := by
  have hz : Spec.num zero = 0 := by decide
  have hm : Spec.num max = Spec.ringSize - 1 := by decide
  have hh : Spec.num half = 0x8000000080000000800000008000000080000000800000008000000080000000 := by decide
  have hl := num_lt (absDiff a b)
  constructor
  · intro h
    have hn := distance_num a b
    rw [h, hz] at hn
    split at hn
    · right
      apply num_inj
      rw [hm]; omega
    · left
      have e0 : absDiff a b = zero := num_inj (by omega)
      unfold absDiff at e0
      split at e0
      all_goals
        simp only [sub, map2, zero, rep, Dhkey.mk.injEq] at e0
        obtain ⟨h0, h1, h2, h3, h4, h5, h6, h7⟩ := e0
        cases a; cases b
        simp only [Dhkey.mk.injEq] at *
        have key : ∀ x y : BitVec 32, x - y = 0 → x = y := by
          intro x y hxy
          have := congrArg (· + y) hxy
          simpa [BitVec.sub_add_cancel] using this
        have s0 := key _ _ h0; have s1 := key _ _ h1; have s2 := key _ _ h2; have s3 := key _ _ h3
        have s4 := key _ _ h4; have s5 := key _ _ h5; have s6 := key _ _ h6; have s7 := key _ _ h7
        simp_all
  · rintro (h | h)
    · subst h; exact distance_self a
    · apply num_inj
      rw [distance_num, h, hz, hm, hh]
      decide

/-- C04: the distance is not the circular distance of the numbers: borrows between words are dropped. -/
theorem C04_ring_distance_refuted :
    ¬ ∀ a b : Dhkey, Spec.num (distance a b) = Spec.ringDist (Spec.num a) (Spec.num b) := by
  intro h
  exact absurd (h ⟨0, 1, 0, 0, 0, 0, 0, 0⟩ ⟨1, 0, 0, 0, 0, 0, 0, 0⟩) (by decide)

/-- C04: the 8-bit Hamming distance of an id and its complement is reported as zero. -/
theorem C04_hamming_refuted : ¬ ∀ a b : Dhkey, hammingDistance a b = 0 → a = b := by
  intro h
  exact absurd (h zero max (by decide)) (by decide)

example : distance (rep 1) (rep 3) = rep 2 := by decide

/-! ## C05 circular interval -/

/-- C05: membership in the circular interval, bounds included exactly on demand. -/
theorem C05_between (x left right : Dhkey) (incl : Bool) :
    between x left right incl = true ↔
      if x = left ∨ x = right then incl = true
      else Spec.strictlyBetween (Spec.num x) (Spec.num left) (Spec.num right) := by
  have hx := num_lt x; have hl := num_lt left; have hr := num_lt right
  have h1 := (C03_total_order left x x).1
  have h2 := (C03_total_order x right x).1
  unfold between
  by_cases hb : x = left ∨ x = right
  · rw [if_pos hb, if_pos]
    rcases hb with h | h
    · left; exact h1.2 h.symm
    · right; exact h2.2 h
  · rw [if_neg hb, if_neg (by rw [h1, h2]; rintro (h | h); exact hb (Or.inl h.symm); exact hb (Or.inr h))]
    have n1 : Spec.num x ≠ Spec.num left := fun h => hb (Or.inl (num_inj h))
    have n2 : Spec.num x ≠ Spec.num right := fun h => hb (Or.inr (num_inj h))
    rw [cmp_eq, cmp_eq, cmp_eq]
    unfold Spec.strictlyBetween Spec.stepsUp
    simp only [Spec.ringSize] at *
    repeat' split
    all_goals simp only [decide_eq_true_eq] <;> omega

example : between zero (rep 0xfffffff0) (rep 5) false = true ∧ between (rep 7) (rep 0xfffffff0) (rep 5) false = false := by
  decide

/-! ## C06 routing digit -/

/-- C06: the routing row is the number of leading hex digits shared by the printed ids. -/
theorem C06_index_is_common_prefix (a b : Dhkey) :
    index a b = Spec.commonPrefix (idStr a.bytes) (idStr b.bytes) := by
  unfold index
  rw [indexLoop_eq _ _ _ (by rw [bytes_length, bytes_length])]; omega

/-- C06: it is the same seen from both sides, at most 64, and 64 exactly for the own id. -/
theorem C06_symmetric_and_bounded (a b : Dhkey) :
    index a b = index b a ∧ index a b ≤ 64 ∧ (index a b = 64 ↔ a = b) := by
  have la : (idStr a.bytes).length = 64 := by rw [idStr_length, bytes_length]
  have lb : (idStr b.bytes).length = 64 := by rw [idStr_length, bytes_length]
  simp only [C06_index_is_common_prefix]
  refine ⟨commonPrefix_symm _ _, ?_, ?_⟩
  · have := commonPrefix_le (idStr a.bytes) (idStr b.bytes); omega
  · have := commonPrefix_full (idStr a.bytes) (idStr b.bytes) (by rw [la, lb])
    rw [la] at this
    rw [this]
    constructor
    · intro h; exact bytes_inj (C02_injective _ _ (bytes_length a) (bytes_length b) h)
    · intro h; rw [h]

/-- C06: for every position inside the id the digit read is the digit of the printed id;
position 64 (the own id) would read behind the key. -/
theorem C06_digit (k : Dhkey) (i : Nat) :
    (i < 64 → ∃ n, hexalphaAt k i = some n ∧ n < 16 ∧ (idStr k.bytes)[i]? = some (hexDigit n)) ∧
    (64 ≤ i → hexalphaAt k i = none) := by
  refine ⟨hexalpha_char k i, fun h => ?_⟩
  have : k.words[i / 8]? = none := by
    apply List.getElem?_eq_none; simp [words]; omega
  simp [hexalphaAt, this]

/-- C06: a foreign id addresses a slot inside the 64 × 16 × 3 routing table, and its digit in that row
differs from the own one. -/
theorem C06_slot_in_table (me peer : Dhkey) (h : me ≠ peer) :
    ∃ row col myCol, row = index me peer ∧ hexalphaAt peer row = some col ∧ hexalphaAt me row = some myCol ∧
      col ≠ myCol ∧ ∀ e < 3, 3 * (16 * row + col) + e < 3072 := by
  have hb := C06_symmetric_and_bounded me peer
  have hlt : index me peer < 64 := by
    have : index me peer ≠ 64 := fun c => h (hb.2.2.1 c)
    omega
  obtain ⟨c, hc, hc16, tc⟩ := hexalpha_char peer _ hlt
  obtain ⟨m, hm, hm16, tm⟩ := hexalpha_char me _ hlt
  refine ⟨_, c, m, rfl, hc, hm, ?_, ?_⟩
  · have hd := commonPrefix_diff (idStr me.bytes) (idStr peer.bytes)
      (by rw [idStr_length, idStr_length, bytes_length, bytes_length])
      (by rw [idStr_length, bytes_length, ← C06_index_is_common_prefix]; exact hlt)
    rw [← C06_index_is_common_prefix, tc, tm] at hd
    rintro rfl; exact hd rfl
  · intro e he; omega

example : (rep 0x11111111) ≠ (rep 0x11111112) ∧ index (rep 0x11111111) (rep 0x11111112) = 1 := by decide

end Np
