import Verif.Dhkey.Spec
namespace Np
namespace Dhkey

theorem ext_words {a b : Dhkey} (h : a.words = b.words) : a = b := by
  cases a; cases b; simp [words] at h; simp [h]

theorem equalLoop_iff : ∀ (a b : List (BitVec 32)), a.length = b.length → (equalLoop a b = true ↔ a = b)
  | [], [], _ => by simp [equalLoop]
  | a :: as, b :: bs, h => by
    have ih := equalLoop_iff as bs (by simpa using h)
    by_cases hab : a = b <;> simp [equalLoop, hab, ih]

theorem equal_iff (a b : Dhkey) : equal a b = true ↔ a = b := by
  unfold equal
  rw [equalLoop_iff _ _ (by simp [words])]
  exact ⟨ext_words, fun h => by rw [h]⟩

/-- base-2^32 value of a word list -/
def val : List (BitVec 32) → Nat
  | [] => 0
  | a :: as => a.toNat * 2 ^ (32 * as.length) + val as

theorem val_lt : ∀ l : List (BitVec 32), val l < 2 ^ (32 * l.length)
  | [] => by simp [val]
  | a :: as => by
    have ih := val_lt as
    have ha := a.isLt
    simp only [val, List.length_cons, Nat.mul_add, Nat.pow_add, Nat.mul_one]
    have h1 : a.toNat * 2 ^ (32 * as.length) + 2 ^ (32 * as.length) ≤ 2 ^ 32 * 2 ^ (32 * as.length) := by
      rw [← Nat.succ_mul]; exact Nat.mul_le_mul_right _ ha
    rw [Nat.mul_comm (2 ^ (32 * as.length))]
    omega

theorem cmpLoop_spec : ∀ (a b : List (BitVec 32)), a.length = b.length →
    (cmpLoop a b = 1 ∧ val a > val b) ∨ (cmpLoop a b = -1 ∧ val a < val b) ∨ (cmpLoop a b = 0 ∧ a = b)
  | [], [], _ => by simp [cmpLoop]
  | a :: as, b :: bs, h => by
    have hl : as.length = bs.length := by simpa using h
    have ih := cmpLoop_spec as bs hl
    have va := val_lt as
    have vb := val_lt bs
    simp only [cmpLoop, val]
    rw [hl] at va ⊢
    split
    · rename_i hgt
      have : b.toNat + 1 ≤ a.toNat := hgt
      have := Nat.mul_le_mul_right (2 ^ (32 * bs.length)) this
      rw [Nat.succ_mul] at this
      left; exact ⟨rfl, by omega⟩
    · split
      · rename_i hlt
        have : a.toNat + 1 ≤ b.toNat := hlt
        have := Nat.mul_le_mul_right (2 ^ (32 * bs.length)) this
        rw [Nat.succ_mul] at this
        right; left; exact ⟨rfl, by omega⟩
      · rename_i h1 h2
        have hab : a = b := by
          apply BitVec.eq_of_toNat_eq
          have h1' : ¬ b.toNat < a.toNat := h1
          have h2' : ¬ a.toNat < b.toNat := h2
          omega
        subst hab
        rcases ih with ⟨e, g⟩ | ⟨e, g⟩ | ⟨e, g⟩
        · left; exact ⟨e, by omega⟩
        · right; left; exact ⟨e, by omega⟩
        · right; right; exact ⟨e, by rw [g]⟩

theorem val_words (k : Dhkey) : val k.words = Spec.num k := by
  simp [val, words, Spec.num]
  omega

theorem num_lt (k : Dhkey) : Spec.num k < Spec.ringSize := by
  rw [← val_words]; exact val_lt k.words

theorem cmp_spec (a b : Dhkey) :
    (cmp a b = 1 ∧ Spec.num a > Spec.num b) ∨ (cmp a b = -1 ∧ Spec.num a < Spec.num b) ∨ (cmp a b = 0 ∧ a = b) := by
  have := cmpLoop_spec a.words b.words (by simp [words])
  rw [val_words, val_words] at this
  rcases this with h | h | ⟨h, e⟩
  · exact Or.inl h
  · exact Or.inr (Or.inl h)
  · exact Or.inr (Or.inr ⟨h, ext_words e⟩)

theorem num_inj {a b : Dhkey} (h : Spec.num a = Spec.num b) : a = b := by
  rcases cmp_spec a b with ⟨_, g⟩ | ⟨_, g⟩ | ⟨_, g⟩
  · omega
  · omega
  · exact g

theorem cmp_eq (a b : Dhkey) :
    cmp a b = if Spec.num a > Spec.num b then 1 else if Spec.num a < Spec.num b then -1 else 0 := by
  rcases cmp_spec a b with ⟨e, g⟩ | ⟨e, g⟩ | ⟨e, g⟩
  · rw [e, if_pos g]
  · rw [e, if_neg (by omega), if_pos g]
  · subst g; rw [e]; simp

theorem map2_words (f) (a b : Dhkey) : (map2 f a b).words = List.zipWith f a.words b.words := rfl

theorem xor_comm (a b : Dhkey) : xor a b = xor b a := by
  simp [xor, map2, BitVec.xor_comm]
theorem xor_assoc (a b c : Dhkey) : xor (xor a b) c = xor a (xor b c) := by
  simp [xor, map2, BitVec.xor_assoc]
theorem xor_self (a : Dhkey) : xor a a = zero := by
  simp [xor, map2, zero, rep]
theorem xor_zero (a : Dhkey) : xor a zero = a := by
  simp [xor, map2, zero, rep]
theorem zero_xor (a : Dhkey) : xor zero a = a := by
  simp [xor, map2, zero, rep]
theorem add_comm (a b : Dhkey) : add a b = add b a := by
  simp [add, map2, BitVec.add_comm]
theorem add_assoc (a b c : Dhkey) : add (add a b) c = add a (add b c) := by
  simp [add, map2, BitVec.add_assoc]
theorem add_sub_cancel (a b : Dhkey) : sub (add a b) b = a := by
  simp [add, sub, map2, BitVec.add_sub_cancel]

theorem add_left_inj {a b c : Dhkey} (h : add a c = add b c) : a = b := by
  have := congrArg (fun x => sub x c) h
  simpa only [add_sub_cancel] using this

end Dhkey
open Dhkey

theorem generateSubjects_eq {Part : Type} (h : Part → Dhkey) : ∀ (ps : List Part) (s : Dhkey),
    generateSubjects h s ps = xor (generateSubjects h zero ps) s
  | [], s => by simp [generateSubjects, zero_xor]
  | p :: ps, s => by
    have e1 := generateSubjects_eq h ps (xor (h p) s)
    have e2 := generateSubjects_eq h ps (xor (h p) zero)
    simp only [generateSubjects, List.foldl_cons, generateSubject] at *
    rw [e1, e2, xor_zero, xor_assoc]

/-- Test: three different parts, two orders. -/
example : generateSubjects (fun n : Nat => rep (BitVec.ofNat 32 (n * n + 1))) zero [1, 2, 3]
    = generateSubjects (fun n : Nat => rep (BitVec.ofNat 32 (n * n + 1))) zero [3, 1, 2] ∧
    generateSubjects (fun n : Nat => rep (BitVec.ofNat 32 (n * n + 1))) zero [1, 2, 3] ≠ zero := by decide

/-! ## C02 text form of ids -/

theorem hexVal_hexDigit : ∀ n : Fin 16, hexVal (hexDigit n.val) = some n.val := by decide

theorem hexDigit_lower : ∀ n : Fin 16, hexDigit n.val ∈ "0123456789abcdef".toList := by decide

theorem hexVal_digit (n : Nat) (h : n < 16) : hexVal (hexDigit n) = some n := hexVal_hexDigit ⟨n, h⟩

theorem byte_split (b : BitVec 8) : BitVec.ofNat 8 (16 * (b.toNat / 16) + b.toNat % 16) = b := by
  rw [Nat.div_add_mod]; simp

theorem hex2bin_idStr : ∀ (id : List (BitVec 8)) (rest : List Char),
    hex2bin id.length (idStr id ++ rest) = some id
  | [], rest => by simp [hex2bin]
  | b :: bs, rest => by
    have ih := hex2bin_idStr bs rest
    have hb := b.isLt
    have e1 := hexVal_digit (b.toNat / 16) (by omega)
    have e2 := hexVal_digit (b.toNat % 16) (by omega)
    simp only [idStr, List.flatMap_cons, List.cons_append, List.nil_append, List.length_cons, hex2bin] at *
    rw [ih, e1, e2]
    simp [byte_split]

theorem idStr_length : ∀ id : List (BitVec 8), (idStr id).length = 2 * id.length
  | [] => rfl
  | b :: bs => by
    have ih := idStr_length bs
    simp only [idStr, List.flatMap_cons, List.cons_append, List.nil_append, List.length_cons] at *
    omega

theorem lowerHex_cases : ∀ c ∈ "0123456789abcdef".toList, ∃ n : Fin 16, hexVal c = some n.val ∧ hexDigit n.val = c := by
  decide

theorem hex2bin_lower : ∀ (n : Nat) (s : List Char), s.length = 2 * n → (∀ c ∈ s, Spec.isLowerHex c) →
    ∃ id, hex2bin n s = some id ∧ id.length = n ∧ idStr id = s
  | 0, [], _, _ => ⟨[], by simp [hex2bin, idStr]⟩
  | n + 1, c :: d :: cs, hl, hc => by
    obtain ⟨id, e, l, t⟩ := hex2bin_lower n cs (by simp at hl; omega) (fun x hx => hc x (by simp [hx]))
    obtain ⟨x, ex, dx⟩ := lowerHex_cases c (hc c (by simp))
    obtain ⟨y, ey, dy⟩ := lowerHex_cases d (hc d (by simp))
    refine ⟨BitVec.ofNat 8 (16 * x.val + y.val) :: id, by simp [hex2bin, e, ex, ey], by simp [l], ?_⟩
    have hx := x.isLt
    have hy := y.isLt
    have hm : (16 * x.val + y.val) % 256 = 16 * x.val + y.val := Nat.mod_eq_of_lt (by omega)
    simp only [idStr, List.flatMap_cons, BitVec.toNat_ofNat, hm] at t ⊢
    rw [t]
    have h1 : (16 * x.val + y.val) / 16 = x.val := by omega
    have h2 : (16 * x.val + y.val) % 16 = y.val := by omega
    simp [h1, h2, dx, dy]

theorem cmp_total_order (a b c : Dhkey) :
    (cmp a b = 0 ↔ a = b) ∧ cmp a b = - cmp b a ∧ (cmp a b < 0 → cmp b c < 0 → cmp a c < 0) ∧
    (cmp a b < 0 ∨ cmp a b = 0 ∨ cmp a b > 0) := by
  refine ⟨⟨fun h => ?_, fun h => ?_⟩, ?_, ?_, ?_⟩
  · apply num_inj; rw [cmp_eq] at h; split at h <;> (try split at h) <;> omega
  · subst h; simp [cmp_eq]
  · rw [cmp_eq, cmp_eq]; repeat' split
    all_goals omega
  · rw [cmp_eq, cmp_eq, cmp_eq]; repeat' split
    all_goals omega
  · omega

theorem cmp_numeric (a b : Dhkey) :
    (cmp a b < 0 ↔ Spec.num a < Spec.num b) ∧ (cmp a b > 0 ↔ Spec.num a > Spec.num b) := by
  rw [cmp_eq]; repeat' split
  all_goals omega

theorem distance_self (a : Dhkey) : distance a a = zero := by
  have h : cmp a a = 0 := (cmp_total_order a a a).1.2 rfl
  have hs : sub a a = zero := by simp [sub, map2, zero, rep]
  have hz : ¬ cmp half zero < 0 := by decide
  simp [distance, h, hs, hz]

theorem distance_symm (a b : Dhkey) : distance a b = distance b a := by
  have h := (cmp_total_order a b a)
  unfold distance
  by_cases h0 : cmp a b = 0
  · have e := h.1.1 h0; subst e; rfl
  · have : (cmp a b > 0) ↔ ¬ (cmp b a > 0) := by have := h.2.1; omega
    by_cases hp : cmp b a > 0
    · simp only [if_pos hp, if_neg (fun c => this.1 c hp)]
    · simp only [if_neg hp, if_pos (this.2 hp)]

/-- The word-wise difference, larger minus smaller, before folding at half of the ring. -/
def absDiff (a b : Dhkey) : Dhkey := if Spec.num a > Spec.num b then sub a b else sub b a

theorem sub_max_eq (d : Dhkey) : sub max d = map2 (fun x _ => ~~~x) d d := by
  have key : ∀ x : BitVec 32, BitVec.allOnes 32 - x = ~~~x := fun x => BitVec.allOnes_sub_eq_not x
  have e : Dhkey.max = rep (BitVec.allOnes 32) := by decide
  rw [e]
  simp only [sub, rep, map2, key]

theorem num_max_sub (d : Dhkey) : Spec.num (sub max d) = Spec.ringSize - 1 - Spec.num d := by
  rw [sub_max_eq]
  simp only [map2, Spec.num, Spec.ringSize, BitVec.toNat_not]
  have := d.t0.isLt; have := d.t1.isLt; have := d.t2.isLt; have := d.t3.isLt
  have := d.t4.isLt; have := d.t5.isLt; have := d.t6.isLt; have := d.t7.isLt
  omega

theorem distance_num (a b : Dhkey) :
    Spec.num (distance a b) =
      if Spec.num half < Spec.num (absDiff a b) then Spec.ringSize - 1 - Spec.num (absDiff a b)
      else Spec.num (absDiff a b) := by
  have e : (if cmp a b > 0 then sub a b else sub b a) = absDiff a b := by
    unfold absDiff
    by_cases h : Spec.num a > Spec.num b
    · rw [if_pos h, if_pos ((cmp_numeric a b).2.2 h)]
    · rw [if_neg h, if_neg (fun c => h ((cmp_numeric a b).2.1 c))]
  unfold distance
  simp only [e]
  by_cases h : Spec.num half < Spec.num (absDiff a b)
  · rw [if_pos h, if_pos ((cmp_numeric _ _).1.2 h), num_max_sub]
  · rw [if_neg h, if_neg (fun c => h ((cmp_numeric _ _).1.1 c))]

theorem high_nibble : ∀ a : Fin 256, ((BitVec.ofNat 8 a.val) &&& 0xf0#8).toNat = 16 * (a.val / 16) := by decide +kernel

theorem low_nibble : ∀ a : Fin 256, ((BitVec.ofNat 8 a.val) &&& 0x0f#8).toNat = a.val % 16 := by decide +kernel

theorem shift_nibble : ∀ a : Fin 256, (((BitVec.ofNat 8 a.val) >>> 4) &&& 0x0f#8).toNat = a.val / 16 := by decide +kernel

theorem high_nibble' (a : BitVec 8) : (a &&& 0xf0#8).toNat = 16 * (a.toNat / 16) := by
  have := high_nibble ⟨a.toNat, a.isLt⟩; simpa using this

theorem low_nibble' (a : BitVec 8) : (a &&& 0x0f#8).toNat = a.toNat % 16 := by
  have := low_nibble ⟨a.toNat, a.isLt⟩; simpa using this

theorem shift_nibble' (a : BitVec 8) : ((a >>> 4) &&& 0x0f#8).toNat = a.toNat / 16 := by
  have := shift_nibble ⟨a.toNat, a.isLt⟩; simpa using this

theorem shift_mod (a : BitVec 8) : (a >>> 4).toNat % 16 = a.toNat / 16 := by
  rw [← low_nibble', shift_nibble']

theorem hexDigit_inj {m n : Nat} (hm : m < 16) (hn : n < 16) (h : hexDigit m = hexDigit n) : m = n := by
  have e1 := hexVal_digit m hm
  have e2 := hexVal_digit n hn
  rw [h, e2] at e1
  exact (Option.some.inj e1).symm

theorem high_eq_iff (a b : BitVec 8) :
    (a &&& 0xf0#8 = b &&& 0xf0#8) ↔ hexDigit (a.toNat / 16) = hexDigit (b.toNat / 16) := by
  have ha := a.isLt; have hb := b.isLt
  constructor
  · intro h
    have := congrArg BitVec.toNat h
    rw [high_nibble', high_nibble'] at this
    rw [show a.toNat / 16 = b.toNat / 16 by omega]
  · intro h
    have := hexDigit_inj (by omega) (by omega) h
    apply BitVec.eq_of_toNat_eq
    rw [high_nibble', high_nibble', this]

theorem low_eq_iff (a b : BitVec 8) :
    (a &&& 0x0f#8 = b &&& 0x0f#8) ↔ hexDigit (a.toNat % 16) = hexDigit (b.toNat % 16) := by
  have ha := a.isLt; have hb := b.isLt
  constructor
  · intro h
    have := congrArg BitVec.toNat h
    rw [low_nibble', low_nibble'] at this
    rw [this]
  · intro h
    have := hexDigit_inj (by omega) (by omega) h
    apply BitVec.eq_of_toNat_eq
    rw [low_nibble', low_nibble', this]

theorem indexLoop_eq : ∀ (a b : List (BitVec 8)) (r : Nat), a.length = b.length →
    indexLoop a b r = r + Spec.commonPrefix (idStr a) (idStr b)
  | [], [], r, _ => by simp [indexLoop, idStr, Spec.commonPrefix]
  | a :: as, b :: bs, r, h => by
    have ih := indexLoop_eq as bs (r + 2) (by simpa using h)
    simp only [idStr, List.flatMap_cons, List.cons_append, List.nil_append, indexLoop, Spec.commonPrefix] at *
    by_cases h1 : a &&& 0xf0#8 = b &&& 0xf0#8
    · by_cases h2 : a &&& 0x0f#8 = b &&& 0x0f#8
      · rw [if_pos ((high_eq_iff a b).1 h1), if_pos ((low_eq_iff a b).1 h2)]
        simp only [h1, h2, ne_eq, not_true_eq_false, if_false, ih]; omega
      · rw [if_pos ((high_eq_iff a b).1 h1), if_neg (fun c => h2 ((low_eq_iff a b).2 c))]
        simp [h1, h2]
    · rw [if_neg (fun c => h1 ((high_eq_iff a b).2 c))]
      simp [h1]

theorem bytes_length (k : Dhkey) : k.bytes.length = 32 := by simp [bytes, words, wordBytes]

theorem wordBytes_inj {a b : BitVec 32} (h : wordBytes a = wordBytes b) : a = b := by
  simp only [wordBytes, List.cons.injEq, and_true] at h
  obtain ⟨h0, h1, h2, h3⟩ := h
  apply BitVec.eq_of_toNat_eq
  have e0 := congrArg BitVec.toNat h0
  have e1 := congrArg BitVec.toNat h1
  have e2 := congrArg BitVec.toNat h2
  have e3 := congrArg BitVec.toNat h3
  simp only [BitVec.extractLsb'_toNat, Nat.shiftRight_eq_div_pow] at e0 e1 e2 e3
  have := a.isLt; have := b.isLt
  omega

theorem bytes_inj {a b : Dhkey} (h : a.bytes = b.bytes) : a = b := by
  cases a; cases b
  simp only [bytes, words, List.flatMap_cons, List.flatMap_nil, wordBytes, List.cons_append, List.nil_append,
    List.cons.injEq, and_true] at h
  obtain ⟨h0, h1, h2, h3, h4, h5, h6, h7, h8, h9, h10, h11, h12, h13, h14, h15, h16, h17, h18, h19, h20, h21, h22,
    h23, h24, h25, h26, h27, h28, h29, h30, h31⟩ := h
  simp only [Dhkey.mk.injEq]
  refine ⟨wordBytes_inj ?_, wordBytes_inj ?_, wordBytes_inj ?_, wordBytes_inj ?_, wordBytes_inj ?_, wordBytes_inj ?_,
    wordBytes_inj ?_, wordBytes_inj ?_⟩ <;> simp [wordBytes, *]

theorem commonPrefix_symm : ∀ a b : List Char, Spec.commonPrefix a b = Spec.commonPrefix b a
  | [], [] => rfl
  | [], _ :: _ => rfl
  | _ :: _, [] => rfl
  | a :: as, b :: bs => by
    simp only [Spec.commonPrefix, eq_comm (a := a), commonPrefix_symm as bs]

theorem commonPrefix_le : ∀ a b : List Char, Spec.commonPrefix a b ≤ a.length
  | [], _ => by simp [Spec.commonPrefix]
  | _ :: _, [] => by simp [Spec.commonPrefix]
  | a :: as, b :: bs => by
    have := commonPrefix_le as bs
    simp only [Spec.commonPrefix, List.length_cons]; split <;> omega

theorem commonPrefix_full : ∀ a b : List Char, a.length = b.length → (Spec.commonPrefix a b = a.length ↔ a = b)
  | [], [], _ => by simp [Spec.commonPrefix]
  | a :: as, b :: bs, h => by
    have ih := commonPrefix_full as bs (by simpa using h)
    have := commonPrefix_le as bs
    simp only [Spec.commonPrefix, List.length_cons, List.cons.injEq]
    split
    · rename_i e; simp [e, ih]
    · rename_i e; simp [e]

theorem commonPrefix_diff : ∀ a b : List Char, a.length = b.length → Spec.commonPrefix a b < a.length →
    a[Spec.commonPrefix a b]? ≠ b[Spec.commonPrefix a b]?
  | [], [], _, h => by simp at h
  | a :: as, b :: bs, hl, h => by
    have ih := commonPrefix_diff as bs (by simpa using hl)
    simp only [Spec.commonPrefix, List.length_cons] at *
    split
    · rename_i e
      rw [if_pos e] at h
      simp only [List.getElem?_cons_succ]
      exact ih (by omega)
    · rename_i e; simp [e]

theorem words_getElem (k : Dhkey) (i : Nat) (h : i < 8) : ∃ w, k.words[i]? = some w :=
  ⟨k.words[i]'(by simpa [words] using h), by simp [words]⟩

theorem hexalpha_char (k : Dhkey) (i : Nat) (h : i < 64) :
    ∃ n, hexalphaAt k i = some n ∧ n < 16 ∧ (idStr k.bytes)[i]? = some (hexDigit n) := by
  have h8 : i / 8 < 8 := by omega
  have aux : ∀ b : BitVec 8, b.toNat / 16 < 16 ∧ b.toNat % 16 < 16 := fun b => by have := b.isLt; omega
  obtain ⟨q, r, hq, hr, rfl⟩ : ∃ q r, q < 8 ∧ r < 8 ∧ i = 8 * q + r := ⟨i / 8, i % 8, h8, by omega, by omega⟩
  have e1 : (8 * q + r) / 8 = q := by omega
  have e2 : (8 * q + r) % 8 = r := by omega
  unfold hexalphaAt
  simp only [e1, e2]
  have hq' : q = 0 ∨ q = 1 ∨ q = 2 ∨ q = 3 ∨ q = 4 ∨ q = 5 ∨ q = 6 ∨ q = 7 := by omega
  have hr' : r = 0 ∨ r = 1 ∨ r = 2 ∨ r = 3 ∨ r = 4 ∨ r = 5 ∨ r = 6 ∨ r = 7 := by omega
  rcases hq' with rfl | rfl | rfl | rfl | rfl | rfl | rfl | rfl <;>
  rcases hr' with rfl | rfl | rfl | rfl | rfl | rfl | rfl | rfl <;>
  · simp only [words, wordBytes, bytes, idStr, List.flatMap_cons, List.flatMap_nil, List.cons_append, List.nil_append,
      List.getElem?_cons_zero, List.getElem?_cons_succ, List.append_nil, Nat.reduceMul, Nat.reduceAdd, Nat.reduceDiv,
      Nat.reduceMod, reduceIte, shift_mod, low_nibble',
      Nat.zero_add, Nat.zero_div, Nat.zero_mod, Nat.add_zero, Nat.one_ne_zero]
    exact ⟨_, rfl, by first | exact (aux _).1 | exact (aux _).2, rfl⟩

end Np
