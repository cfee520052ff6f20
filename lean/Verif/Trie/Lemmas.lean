import Verif.Trie.Spec

/-! # Lemmas on nibbles, and on the shape of a trie -/
set_option linter.unusedSimpArgs false
set_option linter.unusedVariables false
namespace Np.Trie

open Np.Trie.Spec (nib)

theorem hi_byte : ∀ b : BitVec 8, ((b.toNat <<< (0 <<< 2)) &&& 0xF0) >>> 4 = b.toNat / 16 := by decide +kernel
theorem lo_byte : ∀ b : BitVec 8, ((b.toNat <<< (1 <<< 2)) &&& 0xF0) >>> 4 = b.toNat % 16 := by decide +kernel

theorem nibble_eq (k : List Byte) (i : Nat) : nibble k i = nib k i := by
  unfold nibble nib
  rw [Nat.and_one_is_mod, Nat.shiftRight_eq_div_pow i 1, Nat.pow_one]
  rcases Nat.mod_two_eq_zero_or_one i with h | h
  · rw [h, if_pos rfl]; exact hi_byte _
  · rw [h, if_neg (by decide)]; exact lo_byte _

theorem nib_lt (k : List Byte) (i : Nat) : nib k i < 16 := by
  unfold nib
  have := (k.getD (i / 2) 0).isLt
  split <;> omega

theorem nibble_lt (k : List Byte) (i : Nat) : nibble k i < 16 := by rw [nibble_eq]; exact nib_lt k i

theorem nib_cons (b : Byte) (k : List Byte) (j : Nat) : nib (b :: k) (j + 2) = nib k j := by
  unfold nib
  rw [show (j + 2) % 2 = j % 2 from by omega, show (j + 2) / 2 = j / 2 + 1 from by omega, List.getD_cons_succ]

theorem nib_zero (b : Byte) (k : List Byte) : nib (b :: k) 0 = b.toNat / 16 := by simp [nib]
theorem nib_one (b : Byte) (k : List Byte) : nib (b :: k) 1 = b.toNat % 16 := by simp [nib]

/-- Nibbles beyond the key are 0. -/
theorem nib_beyond (k : List Byte) (i : Nat) (h : 2 * k.length ≤ i) : nib k i = 0 := by
  unfold nib
  have : k.getD (i / 2) 0 = 0 := by
    rw [List.getD_eq_getElem?_getD, List.getElem?_eq_none (by omega)]; rfl
  rw [this]
  split <;> rfl

theorem log_byte : ∀ x : BitVec 8, 0 < x.toNat → (7 - Nat.log2 x.toNat) / 4 = if x.toNat < 16 then 1 else 0 := by decide +kernel

theorem xor_zero {a b : Nat} (h : a ^^^ b = 0) : a = b := by
  have : a = (a ^^^ b) ^^^ b := by rw [Nat.xor_assoc, Nat.xor_self, Nat.xor_zero]
  rw [this, h, Nat.zero_xor]

theorem xor_hi (a b : Byte) : (a ^^^ b).toNat < 16 ↔ a.toNat / 16 = b.toNat / 16 := by
  have e : (a ^^^ b).toNat / 16 = (a.toNat / 16) ^^^ (b.toNat / 16) := by
    rw [BitVec.toNat_xor]
    have := @Nat.shiftRight_xor_distrib 4 a.toNat b.toNat
    simpa [Nat.shiftRight_eq_div_pow] using this
  constructor
  · intro h
    have h0 : (a ^^^ b).toNat / 16 = 0 := by omega
    rw [e] at h0
    exact xor_zero h0
  · intro h
    have : (a ^^^ b).toNat / 16 = 0 := by rw [e, h, Nat.xor_self]
    omega

theorem xor_pos (a b : Byte) : 0 < (a ^^^ b).toNat ↔ a ≠ b := by
  rw [BitVec.toNat_xor]
  constructor
  · intro h e
    rw [e, Nat.xor_self] at h
    omega
  · intro h
    have : a.toNat ^^^ b.toNat ≠ 0 := fun e => h (BitVec.eq_of_toNat_eq (xor_zero e))
    omega

/-- What the comparison of two keys finds. -/
theorem diff_spec : ∀ (a b : List Byte) (n : Nat), a.length = b.length →
    (diff a b (8 * n) = none → a = b) ∧ (∀ d, diff a b (8 * n) = some d → 2 * n ≤ d ∧ nib a (d - 2 * n) ≠ nib b (d - 2 * n) ∧ (∀ j, j < d - 2 * n → nib a j = nib b j) ∧
      d < 2 * n + 2 * a.length)
  | [], [], n, _ => by simp [diff]
  | x :: a, y :: b, n, h => by
    obtain ⟨ih1, ih2⟩ := diff_spec a b (n + 1) (by simpa using h)
    unfold diff
    simp only []
    by_cases hx : 0 < (x ^^^ y).toNat
    · rw [if_pos hx]
      have hne : x ≠ y := (xor_pos x y).1 hx
      refine ⟨by simp, fun d hd => ?_⟩
      simp only [Option.some.injEq] at hd
      have hl := log_byte (x ^^^ y) hx
      have e : (8 * n + (7 - Nat.log2 (x ^^^ y).toNat)) >>> 2 = 2 * n + (7 - Nat.log2 (x ^^^ y).toNat) / 4 := by
        rw [Nat.shiftRight_eq_div_pow]; omega
      rw [e, hl] at hd
      by_cases hlt : (x ^^^ y).toNat < 16
      · rw [if_pos hlt] at hd
        have hhi := (xor_hi x y).1 hlt
        subst hd
        have e1 : 2 * n + 1 - 2 * n = 1 := by omega
        rw [e1]
        refine ⟨by omega, ?_, ?_, by simp; omega⟩
        · rw [nib_one, nib_one]
          intro hm
          apply hne
          apply BitVec.eq_of_toNat_eq
          omega
        · intro j hj
          have : j = 0 := by omega
          subst this
          rw [nib_zero, nib_zero, hhi]
      · rw [if_neg hlt] at hd
        subst hd
        have e1 : 2 * n + 0 - 2 * n = 0 := by omega
        rw [e1]
        refine ⟨by omega, ?_, by omega, by simp⟩
        rw [nib_zero, nib_zero]
        exact fun hm => hlt ((xor_hi x y).2 hm)
    · rw [if_neg hx]
      have hxy : x = y := Classical.byContradiction fun hc => hx ((xor_pos x y).2 hc)
      subst hxy
      rw [show 8 * n + 8 = 8 * (n + 1) from by omega]
      refine ⟨fun hn => by rw [ih1 hn], fun d hd => ?_⟩
      obtain ⟨g1, g2, g3, g4⟩ := ih2 d hd
      refine ⟨by omega, ?_, ?_, by simp only [List.length_cons]; omega⟩
      · rw [show d - 2 * n = (d - 2 * (n + 1)) + 2 from by omega, nib_cons, nib_cons]
        exact g2
      · intro j hj
        match j with
        | 0 => rw [nib_zero, nib_zero]
        | 1 => rw [nib_one, nib_one]
        | j + 2 => rw [nib_cons, nib_cons]; exact g3 j (by omega)
  | [], _ :: _, _, h => by simp at h
  | _ :: _, [], _, h => by simp at h

theorem diff_none {a b : List Byte} (h : a.length = b.length) (hd : diff a b 0 = none) : a = b := (diff_spec a b 0 h).1 hd

theorem diff_some {a b : List Byte} {d : Nat} (h : a.length = b.length) (hd : diff a b 0 = some d) :
    nibble a d ≠ nibble b d ∧ (∀ j, j < d → nibble a j = nibble b j) ∧ d < 2 * a.length := by
  obtain ⟨_, g2, g3, g4⟩ := (diff_spec a b 0 h).2 d hd
  simp only [Nat.mul_zero, Nat.sub_zero, Nat.zero_add] at g2 g3 g4
  refine ⟨by rw [nibble_eq, nibble_eq]; exact g2, fun j hj => by rw [nibble_eq, nibble_eq]; exact g3 j hj, g4⟩

theorem diff_self (a : List Byte) : ∀ n, diff a a n = none := by
  induction a with
  | nil => intro n; rfl
  | cons x a ih =>
    intro n
    unfold diff
    simp only []
    rw [if_neg (by rw [xor_pos]; simp)]
    exact ih _

variable {V : Type}

mutual
/-- The leaves below a subtrie have its nibble; the subtries are in order; no branch is without subtries. -/
def Trie.Good (L : Nat) : Trie V → Prop
  | .leaf k _ => k.length = L
  | .branch s ks => (s < 2 * L ∧ ks ≠ .nil) ∧ ks.Good L s
def Kids.Good (L s : Nat) : Kids V → Prop
  | .nil => True
  | .cons p t r => t.Good L ∧ (∀ e ∈ t.entries, nibble e.1 s = p) ∧ (∀ q, r.has q = true → p < q) ∧ r.Good L s
end

mutual
/-- The leaves below a branch agree in all nibbles before its shift; shifts grow. -/
def Trie.Radix (m : Nat) : Trie V → Prop
  | .leaf _ _ => True
  | .branch s ks => m ≤ s ∧ (∀ e ∈ ks.entries, ∀ e' ∈ ks.entries, ∀ j, j < s → nibble e.1 j = nibble e'.1 j) ∧ ks.Radix s
def Kids.Radix (s : Nat) : Kids V → Prop
  | .nil => True
  | .cons _ t r => t.Radix (s + 1) ∧ r.Radix s
end

theorem Kids.has_of_entry {L s : Nat} : ∀ {ks : Kids V} (_ : ks.Good L s) {e : List Byte × V} (_ : e ∈ ks.entries), ks.has (nibble e.1 s) = true
  | .nil, _, e, he => by simp [Kids.entries] at he
  | .cons p t r, h, e, he => by
    obtain ⟨h1, h2, h3, h4⟩ := h
    simp only [Kids.entries, List.mem_append] at he
    simp only [Kids.has, Bool.or_eq_true, beq_iff_eq]
    rcases he with he | he
    · exact Or.inl (h2 e he).symm
    · exact Or.inr (Kids.has_of_entry h4 he)

mutual
theorem Trie.find_mem {k : List Byte} {v : V} : ∀ {t : Trie V}, t.find k = some v → (k, v) ∈ t.entries
  | .leaf k' v', h => by
    simp only [Trie.find] at h
    split at h
    · rename_i e
      simp only [Option.some.injEq] at h
      simp [Trie.entries, e, h]
    · cases h
  | .branch s ks, h => by
    simp only [Trie.find] at h
    exact Kids.find_mem h
theorem Kids.find_mem {n : Nat} {k : List Byte} {v : V} : ∀ {ks : Kids V}, ks.findAt n k = some v → (k, v) ∈ ks.entries
  | .nil, h => by simp [Kids.findAt] at h
  | .cons p t r, h => by
    simp only [Kids.findAt] at h
    simp only [Kids.entries, List.mem_append]
    split at h
    · exact Or.inl (Trie.find_mem h)
    · exact Or.inr (Kids.find_mem h)
end

mutual
theorem Trie.mem_find {L : Nat} {k : List Byte} {v : V} : ∀ {t : Trie V}, t.Good L → (k, v) ∈ t.entries → t.find k = some v
  | .leaf k' v', _, h => by
    simp only [Trie.entries, List.mem_singleton, Prod.mk.injEq] at h
    simp [Trie.find, h.1, h.2]
  | .branch s ks, hg, h => by
    simp only [Trie.entries] at h
    simp only [Trie.find]
    exact Kids.mem_find hg.2 h
theorem Kids.mem_find {L s : Nat} {k : List Byte} {v : V} : ∀ {ks : Kids V}, ks.Good L s → (k, v) ∈ ks.entries → ks.findAt (nibble k s) k = some v
  | .nil, _, h => by simp [Kids.entries] at h
  | .cons p t r, hg, h => by
    obtain ⟨h1, h2, h3, h4⟩ := hg
    simp only [Kids.entries, List.mem_append] at h
    simp only [Kids.findAt]
    rcases h with h | h
    · rw [if_pos (h2 _ h).symm]
      exact Trie.mem_find h1 h
    · have := h3 _ (Kids.has_of_entry h4 h)
      simp only at this
      rw [if_neg (by omega)]
      exact Kids.mem_find h4 h
end

mutual
/-- All keys have the length. -/
theorem Trie.length_of {L : Nat} {e : List Byte × V} : ∀ {t : Trie V}, t.Good L → e ∈ t.entries → e.1.length = L
  | .leaf k' v', hg, h => by
    simp only [Trie.entries, List.mem_singleton] at h
    rw [h]; exact hg
  | .branch s ks, hg, h => by
    simp only [Trie.entries] at h
    exact Kids.length_of hg.2 h
theorem Kids.length_of {L s : Nat} {e : List Byte × V} : ∀ {ks : Kids V}, ks.Good L s → e ∈ ks.entries → e.1.length = L
  | .nil, _, h => by simp [Kids.entries] at h
  | .cons p t r, hg, h => by
    simp only [Kids.entries, List.mem_append] at h
    rcases h with h | h
    · exact Trie.length_of hg.1 h
    · exact Kids.length_of hg.2.2.2 h
end

mutual
/-- A trie has a leftmost leaf, and it is one of the leaves. -/
theorem Trie.leftmost_some {L : Nat} : ∀ {t : Trie V}, t.Good L → ∃ k v, t.leftmost = some k ∧ (k, v) ∈ t.entries
  | .leaf k v, _ => ⟨k, v, by simp [Trie.leftmost], by simp [Trie.entries]⟩
  | .branch s ks, hg => by
    simp only [Trie.leftmost, Trie.entries]
    exact Kids.leftmost_some hg.1.2 hg.2
theorem Kids.leftmost_some {L s : Nat} : ∀ {ks : Kids V}, ks ≠ .nil → ks.Good L s → ∃ k v, ks.leftmost = some k ∧ (k, v) ∈ ks.entries
  | .nil, h, _ => absurd rfl h
  | .cons p t r, _, hg => by
    obtain ⟨k, v, h1, h2⟩ := Trie.leftmost_some hg.1
    exact ⟨k, v, by simp only [Kids.leftmost]; exact h1, by simp only [Kids.entries, List.mem_append]; exact Or.inl h2⟩
end

theorem Kids.walkAt_none {n : Nat} {key : List Byte} : ∀ {ks : Kids V}, ks.walkAt n key = none ↔ ks.has n = false
  | .nil => by simp [Kids.walkAt, Kids.has]
  | .cons p t r => by
    simp only [Kids.walkAt, Kids.has, Bool.or_eq_false_iff]
    by_cases h : p = n
    · simp [h]
    · simp only [h, if_false, beq_eq_false_iff_ne, ne_eq, not_false_eq_true, true_and]
      exact Kids.walkAt_none

mutual
/-- The walk ends at a leaf. -/
theorem Trie.walk_some {L : Nat} {key : List Byte} : ∀ {t : Trie V}, t.Good L → ∃ old n v, t.walk key = some (old, n) ∧ (old, v) ∈ t.entries
  | .leaf k v, _ => ⟨k, 0, v, by simp [Trie.walk], by simp [Trie.entries]⟩
  | .branch s ks, hg => by
    simp only [Trie.walk, Trie.entries]
    cases hw : ks.walkAt (nibble key s) key with
    | none =>
      obtain ⟨k, v, h1, h2⟩ := Kids.leftmost_some hg.1.2 hg.2
      exact ⟨k, 0, v, by simp [h1], h2⟩
    | some r =>
      obtain ⟨old, n, v, h1, h2⟩ := Kids.walk_some hg.2 hw
      exact ⟨old, n + 1, v, by simp [h1], h2⟩
theorem Kids.walk_some {L s n : Nat} {key : List Byte} {r : Option (List Byte × Nat)} : ∀ {ks : Kids V}, ks.Good L s → ks.walkAt n key = some r →
    ∃ old n v, r = some (old, n) ∧ (old, v) ∈ ks.entries
  | .nil, _, h => by simp [Kids.walkAt] at h
  | .cons p t q, hg, h => by
    simp only [Kids.walkAt] at h
    simp only [Kids.entries, List.mem_append]
    split at h
    · obtain ⟨old, m, v, h1, h2⟩ := Trie.walk_some (key := key) hg.1
      simp only [Option.some.injEq] at h
      exact ⟨old, m, v, by rw [← h, h1], Or.inl h2⟩
    · obtain ⟨old, m, v, h1, h2⟩ := Kids.walk_some hg.2.2.2 h
      exact ⟨old, m, v, h1, Or.inr h2⟩
end

/-- The leaf that the walk in one subtrie reaches has the nibble of the subtrie. -/
theorem Kids.walkAt_nibble {L s n : Nat} {key old : List Byte} {m : Nat} : ∀ {ks : Kids V}, ks.Good L s → ks.walkAt n key = some (some (old, m)) → nibble old s = n
  | .nil, _, h => by simp [Kids.walkAt] at h
  | .cons p t q, hg, h => by
    simp only [Kids.walkAt] at h
    split at h
    · rename_i e
      obtain ⟨old', m', v, h1, h2⟩ := Trie.walk_some (key := key) hg.1
      simp only [Option.some.injEq] at h
      rw [h] at h1
      simp only [Option.some.injEq, Prod.mk.injEq] at h1
      rw [h1.1, hg.2.1 _ h2, e]
    · exact Kids.walkAt_nibble hg.2.2.2 h

end Np.Trie
