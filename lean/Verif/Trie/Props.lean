import Verif.Trie.Lemmas5

set_option linter.unusedVariables false

/-! # C111 – C115: tries, their union and intersection, and the filter built on them -/
namespace Np.Trie

open _root_.Np.Trie.Spec (Apart keyOf NeverEmptied nib)

variable {V : Type}

/-- The calls of a history have keys of one length, different keys are apart, and nothing is inserted after a deletion emptied the trie. -/
structure Tame (L : Nat) (ops : List (Op V)) : Prop where
  length : ∀ o ∈ ops, (keyOf o).length = L
  apart : ∀ o ∈ ops, ∀ o' ∈ ops, keyOf o ≠ keyOf o' → Apart (keyOf o) (keyOf o')
  kept : NeverEmptied ops

/-- A history that only inserts is never emptied. -/
theorem neverEmptied_puts {ops : List (Op V)} (h : ∀ o ∈ ops, ∃ k v, o = .put k v) : NeverEmptied ops := by
  intro before k after he _ o ho
  obtain ⟨k', v, hx⟩ := h (.del k) (by rw [he]; simp)
  cases hx

/-- Three keys of two bytes that are pairwise apart. -/
def someOps : List (Op Nat) := [.put [0x11, 0x11] 1, .put [0x12, 0x21] 2, .put [0x23, 0x34] 3, .put [0x11, 0x11] 4]

theorem apart_of_nibbles {a b : List Byte} (n : Nat) (ha : 2 * a.length = n)
    (h : ∀ i ∈ List.range n, ∀ j ∈ List.range n, ∀ m ∈ List.range n, ¬ (i < j ∧ j < m ∧ nib a i ≠ nib b i ∧ nib a j = nib b j ∧ nib a m = nib b m)) : Apart a b := by
  intro i j m h1 h2 h3 h4 h5 h6
  exact h i (List.mem_range.2 (by omega)) j (List.mem_range.2 (by omega)) m (List.mem_range.2 (by omega)) ⟨h1, h2, h4, h5, h6⟩

theorem someOps_tame : Tame 2 someOps := by
  refine ⟨by decide, ?_, neverEmptied_puts ?_⟩
  · intro o ho o' ho' _
    have hall : ∀ a ∈ [[0x11, 0x11], [0x12, 0x21], [0x23, 0x34]], ∀ b ∈ [[0x11, 0x11], [0x12, 0x21], [0x23, 0x34]], a ≠ b →
        Apart (a : List Byte) b := by
      intro a ha b hb hne
      simp only [List.mem_cons, List.not_mem_nil, or_false] at ha hb
      rcases ha with rfl | rfl | rfl <;> rcases hb with rfl | rfl | rfl <;> first | exact absurd rfl hne | exact apart_of_nibbles 4 rfl (by decide +kernel)
    have hk : ∀ o ∈ someOps, keyOf o ∈ [[0x11, 0x11], [0x12, 0x21], [0x23, (0x34 : Byte)]] := by decide
    exact hall _ (hk o ho) _ (hk o' ho') (by assumption)
  · intro o ho
    simp only [someOps, List.mem_cons, List.not_mem_nil, or_false] at ho
    rcases ho with rfl | rfl | rfl | rfl <;> exact ⟨_, _, rfl⟩

/-! ## C111: a trie is a map -/

/-- C111, for keys that are apart: after any history a lookup finds what was inserted last for the key and not deleted. -/
theorem C111_map_partial {L : Nat} (zero : V) {ops : List (Op V)} (h : Tame L ops) :
    ∃ r, Root.run zero .null ops = .ok r ∧ ∀ k, r.find k = Spec.run ops k := by
  obtain ⟨r, h1, h2, _⟩ := run_holds zero ops h.length h.apart h.kept
  exact ⟨r, h1, fun k => Holds.find h2 k⟩

/-- C111: for keys of one byte no two keys can be too near to each other. -/
theorem C111_byte (zero : V) {ops : List (Op V)} (hl : ∀ o ∈ ops, (keyOf o).length = 1) (hn : NeverEmptied ops) :
    ∃ r, Root.run zero .null ops = .ok r ∧ ∀ k, r.find k = Spec.run ops k :=
  C111_map_partial zero ⟨hl, fun o ho o' _ _ i j m h1 h2 h3 => by have := hl o ho; omega, hn⟩

/-- C111: a walk over the trie visits every key of the map once, with its value, and nothing else. -/
theorem C111_entries_partial {L : Nat} (zero : V) {ops : List (Op V)} (h : Tame L ops) :
    ∃ r, Root.run zero .null ops = .ok r ∧ (r.entries.map (·.1)).Nodup ∧ ∀ k v, (k, v) ∈ r.entries ↔ Spec.run ops k = some v := by
  obtain ⟨r, h1, h2, _⟩ := run_holds zero ops h.length h.apart h.kept
  exact ⟨r, h1, Holds.entries h2⟩

/-- Three keys, one of them written twice, meet the hypotheses. -/
example : Tame 2 someOps ∧ Spec.run someOps [0x11, 0x11] = some 4 ∧ Spec.run someOps [0x23, 0x34] = some 3 := ⟨someOps_tame, by decide, by decide⟩

/-- C111 is false in general: five insertions of different keys lose the first key. -/
theorem C111_lost_refuted : ∃ (ops : List (Op Nat)) (r : Root Nat), (∀ o ∈ ops, (keyOf o).length = 2) ∧ (∀ o ∈ ops, ∃ k v, o = .put k v) ∧
    Root.run 0 .null ops = .ok r ∧ Spec.run ops [0x95, 0x10] = some 1 ∧ r.find [0x95, 0x10] = none := by
  refine ⟨[.put [0x95, 0x10] 1, .put [0x95, 0x20] 2, .put [0x96, 0x10] 3, .put [0x05, 0x10] 4, .put [0x97, 0x00] 5], _, by decide, ?_, rfl, by decide, by decide⟩
  intro o ho
  simp only [List.mem_cons, List.not_mem_nil, or_false] at ho
  rcases ho with rfl | rfl | rfl | rfl | rfl <;> exact ⟨_, _, rfl⟩

/-- C111 is false in general: seven insertions of different keys fail an assertion or enter a slot that was never written. -/
theorem C111_broken_refuted : ∃ ops : List (Op Nat), (∀ o ∈ ops, (keyOf o).length = 3) ∧ (∀ o ∈ ops, ∃ k v, o = .put k v) ∧
    Root.run 0 .null ops = .error .broken := by
  refine ⟨[.put [0x21, 0x01, 0x10] 1, .put [0x22, 0x22, 0x10] 2, .put [0x21, 0x12, 0x01] 3, .put [0x11, 0x01, 0x12] 4, .put [0x02, 0x01, 0x12] 5,
    .put [0x20, 0x21, 0x21] 6, .put [0x21, 0x10, 0x10] 7], by decide, ?_, rfl⟩
  intro o ho
  simp only [List.mem_cons, List.not_mem_nil, or_false] at ho
  rcases ho with rfl | rfl | rfl | rfl | rfl | rfl | rfl <;> exact ⟨_, _, rfl⟩

/-! ## C112: deletion -/

/-- C112, for keys that are apart: deletion succeeds just if the key is there; then the key is gone and every other key is as before. -/
theorem C112_delete_partial {L : Nat} (zero : V) {ops : List (Op V)} (h : Tame L ops) (key : List Byte) :
    ∃ r, Root.run zero .null ops = .ok r ∧
      match r.delete key with
      | none => Spec.run ops key = none
      | some r' => Spec.run ops key ≠ none ∧ ∀ k, r'.find k = if k = key then none else Spec.run ops k := by
  obtain ⟨r, h1, h2, _⟩ := run_holds zero ops h.length h.apart h.kept
  refine ⟨r, h1, ?_⟩
  rcases delete_holds h2 key with ⟨g1, g2⟩ | ⟨r', g1, g2, g3⟩
  · rw [g1]; exact g2
  · rw [g1]; exact ⟨g2, fun k => Holds.find g3 k⟩

/-- The deletion of a key of three, and of one that is not there. -/
example : (∃ r, Root.run 0 .null someOps = .ok r ∧ (r.delete [0x12, 0x21]).isSome = true ∧ (r.delete [0x12, 0x22]).isNone = true) := ⟨_, rfl, by decide, by decide⟩

/-- C112 is false in general: after two keys were inserted and deleted, the next insertion reads freed memory, and freeing the trie frees memory twice. -/
theorem C112_emptied_refuted : Root.run 0 .null [.put [0x11] 1, .put [0x22] 2, .del [0x11], .del [0x22], .put [0x33] (3 : Nat)] = .error .useAfterFree ∧
    ∃ r, Root.run (0 : Nat) .null [.put [0x11] 1, .put [0x22] 2, .del [0x11], .del [0x22]] = .ok r ∧ r.free = .error .doubleFree := ⟨rfl, _, rfl, rfl⟩

/-- C112: with a single key the trie can be used again. -/
theorem C112_single (zero : V) (k : List Byte) (v : V) (ops : List (Op V)) : Root.run zero .null (.put k v :: .del k :: ops) = Root.run zero .null ops := by
  simp [Root.run, Root.step, Root.insert, Root.delete, Trie.remove]

/-- C112 is false in general: the slot through which the caller is to release the value of the deleted key can be part of memory that deletion freed. -/
theorem C112_slot_refuted : ∃ t : Trie Nat, Root.run 0 .null [.put [0x11] 1, .put [0x22] 2, .del [0x11]] = .ok (.node t) ∧ t.find [0x22] = some 2 ∧
    t.slotFreed [0x22] = true := ⟨_, rfl, by decide, by decide⟩

/-! ## C113: union -/

/-- C113, for keys that are apart: the union has the keys of both; a key of the other trie gets the combination of its values, with zero for a missing one. -/
theorem C113_union_partial {L : Nat} (zero : V) (combine : V → V → V × Bool) {ops other : List (Op V)} (h : Tame L ops) (ho : Tame L other)
    (hb : ∀ o ∈ ops, ∀ o' ∈ other, keyOf o ≠ keyOf o' → Apart (keyOf o') (keyOf o)) (hc : ∀ a b, (combine a b).2 = true)
    (hne : ∃ k, Spec.run ops k ≠ none) :
    ∃ r s u, Root.run zero .null ops = .ok r ∧ Root.run zero .null other = .ok s ∧ r.union zero combine s = .ok (u, true) ∧
      ∀ k, u.find k = match Spec.run other k with
        | none => Spec.run ops k
        | some w => some (combine ((Spec.run ops k).getD zero) w).1 := by
  obtain ⟨r, h1, h2, _⟩ := run_holds zero ops h.length h.apart h.kept
  obtain ⟨s, g1, g2, _⟩ := run_holds zero other ho.length ho.apart ho.kept
  obtain ⟨e1, e2⟩ := Holds.entries g2
  have hkey : ∀ e ∈ s.entries, ∃ o ∈ other, keyOf o = e.1 := fun e he => spec_key other e.1 (by
    rw [(e2 e.1 e.2).1 he]
    exact Option.some_ne_none _)
  obtain ⟨u, u1, u2⟩ := union_holds zero combine s.entries _ r h2 (by
    intro x hx
    subst hx
    obtain ⟨k, hk⟩ := hne
    exact hk (congrFun (show Spec.run ops = fun _ => none from h2) k)) (by
    intro e he
    obtain ⟨o, ho1, ho2⟩ := hkey e he
    rw [← ho2]
    exact ho.length o ho1) (by
    intro e he k hk hke
    obtain ⟨o, ho1, ho2⟩ := hkey e he
    obtain ⟨o', ho3, ho4⟩ := spec_key ops k hk
    rw [← ho2, ← ho4]
    exact hb o' ho3 o ho1 (by rw [ho4, ho2]; exact hke)) (by
    intro e he e' he' hee
    obtain ⟨o, ho1, ho2⟩ := hkey e he
    obtain ⟨o', ho3, ho4⟩ := hkey e' he'
    rw [← ho2, ← ho4]
    exact ho.apart o ho1 o' ho3 (by rw [ho2, ho4]; exact hee)) e1 (fun e _ => hc _ _)
  refine ⟨r, s, u, h1, g1, u1, ?_⟩
  intro k
  rw [Holds.find u2 k]
  cases hf : s.entries.find? (fun e => e.1 == k) with
  | none =>
    have : Spec.run other k = none := by
      cases hr : Spec.run other k with
      | none => rfl
      | some w =>
        have := List.find?_eq_none.1 hf (k, w) ((e2 k w).2 hr)
        simp at this
    rw [this]
  | some e =>
    have hm := List.mem_of_find?_eq_some hf
    have hk : e.1 = k := by simpa using List.find?_some hf
    have : Spec.run other k = some e.2 := by rw [← hk]; exact (e2 e.1 e.2).1 hm
    rw [this]

/-- The union with a trie that has a key in common. -/
example : Tame 2 someOps ∧ (∃ k, Spec.run someOps k ≠ none) ∧ ∀ o ∈ someOps, ∀ o' ∈ someOps, keyOf o ≠ keyOf o' → Apart (keyOf o') (keyOf o) :=
  ⟨someOps_tame, ⟨[0x11, 0x11], by decide⟩, fun o ho o' ho' hne => someOps_tame.apart o' ho' o ho (fun e => hne e.symm)⟩

/-- C113 is false in general: a union of tries with sound contents loses a key of the first. -/
theorem C113_lost_refuted : ∃ (r s u : Root Nat), Root.run 0 .null [.put [0x95, 0x10] 1, .put [0x95, 0x20] 2, .put [0x96, 0x10] 3, .put [0x05, 0x10] 4] = .ok r ∧
    Root.run 0 .null [.put [0x97, 0x00] 5] = .ok s ∧ r.find [0x95, 0x10] = some 1 ∧ r.union 0 (fun a b => (a + b, true)) s = .ok (u, true) ∧ u.find [0x95, 0x10] = none :=
  ⟨_, _, _, rfl, rfl, by decide, rfl, by decide⟩

/-! ## C114: intersection -/

/-- C114, one half, for keys that are apart: if the work ends, a key that is in both tries is kept with the combination of its values, and there is no key that
the first did not have. Missing: keys that only the first has are to go. -/
theorem C114_common_partial {L : Nat} (zero : V) (combine : V → V → V × Bool) {ops other : List (Op V)} (h : Tame L ops) (ho : Tame L other)
    {r s u : Root V} (hr : Root.run zero .null ops = .ok r) (hs : Root.run zero .null other = .ok s) (hu : r.intersect combine s = .ok u) :
    (∀ k v w, Spec.run ops k = some v → Spec.run other k = some w → (combine v w).2 = true → u.find k = some (combine v w).1) ∧
    ∀ k, u.find k ≠ none → Spec.run ops k ≠ none := by
  obtain ⟨r', h1, h2, _⟩ := run_holds zero ops h.length h.apart h.kept
  obtain ⟨s', g1, g2, _⟩ := run_holds zero other ho.length ho.apart ho.kept
  rw [hr] at h1
  cases h1
  rw [hs] at g1
  cases g1
  constructor
  · intro k v w hv hw hc
    rw [← Holds.find h2] at hv
    rw [← Holds.find g2] at hw
    cases r with
    | null => simp [Root.find] at hv
    | dead _ => simp [Root.find] at hv
    | node t =>
      cases s with
      | null => simp [Root.find] at hw
      | dead _ => simp [Root.find] at hw
      | node x =>
        simp only [Root.intersect] at hu
        cases hm : meet combine (t.size + x.size + 1) t x with
        | error f => rw [hm] at hu; cases hu
        | ok p =>
          obtain ⟨t', ok⟩ := p
          rw [hm] at hu
          cases hu
          exact (meet_keeps _ _ _ t x t' ok h2.1 h2.2.1 g2.1 g2.2.1 hm k v w hv hw hc).2
  · intro k hk
    rw [← Holds.find h2]
    cases r with
    | null =>
      simp only [Root.intersect, Except.ok.injEq] at hu
      rw [← hu] at hk
      exact hk
    | dead _ =>
      cases s <;> simp only [Root.intersect, Except.ok.injEq] at hu <;> rw [← hu] at hk <;> exact hk
    | node t =>
      cases s with
      | null => simp only [Root.intersect, Except.ok.injEq] at hu; rw [← hu] at hk; exact hk
      | dead _ => simp only [Root.intersect, Except.ok.injEq] at hu; rw [← hu] at hk; exact hk
      | node x =>
        simp only [Root.intersect] at hu
        cases hm : meet combine (t.size + x.size + 1) t x with
        | error f => rw [hm] at hu; cases hu
        | ok p =>
          obtain ⟨t', ok⟩ := p
          rw [hm] at hu
          cases hu
          simp only [Root.find] at hk ⊢
          cases hf : t'.find k with
          | none => exact absurd hf hk
          | some v =>
            obtain ⟨v', hv'⟩ := meet_only _ _ t x t' ok h2.1 h2.2.1 hm _ (Trie.find_mem hf)
            rw [Trie.mem_find h2.1 hv']
            exact Option.some_ne_none _

/-- Two tries with two common keys: the sums of their values are kept, and a key of the first goes. -/
example : ∃ r s u : Root Nat, Root.run 0 .null someOps = .ok r ∧ Root.run 0 .null [.put [0x11, 0x11] 5, .put [0x23, 0x34] 1] = .ok s ∧
    r.intersect (fun a b => (a + b, true)) s = .ok u ∧ u.find [0x11, 0x11] = some 9 ∧ u.find [0x23, 0x34] = some 4 := ⟨_, _, _, rfl, rfl, rfl, by decide, by decide⟩

/-- C114 is false in general: with a trie of one key a key that only the first trie has is kept; so is the only key of the first. -/
theorem C114_kept_refuted : (∃ r s u : Root Nat, Root.run 0 .null [.put [0x01] 1, .put [0x02] 2] = .ok r ∧ Root.run 0 .null [.put [0x01] 1] = .ok s ∧
      r.intersect (fun a b => (a + b, true)) s = .ok u ∧ s.find [0x02] = none ∧ u.find [0x02] = some 2) ∧
    ∃ r s u : Root Nat, Root.run 0 .null [.put [0x01] 1] = .ok r ∧ Root.run 0 .null [.put [0x02] 1] = .ok s ∧
      r.intersect (fun a b => (a + b, true)) s = .ok u ∧ s.find [0x01] = none ∧ u.find [0x01] = some 1 :=
  ⟨⟨_, _, _, rfl, rfl, rfl, by decide, by decide⟩, ⟨_, _, _, rfl, rfl, rfl, by decide, by decide⟩⟩

/-- C114 is false in general: the intersection of two tries with two keys each, none in common, leaves a trie in which the next lookup follows a null pointer. -/
theorem C114_broken_refuted : ∃ r s : Root Nat, Root.run 0 .null [.put [0x11] 1, .put [0x22] 2] = .ok r ∧ Root.run 0 .null [.put [0x31] 1, .put [0x32] 1] = .ok s ∧
    r.intersect (fun a b => (a + b, true)) s = .error .broken := ⟨_, _, rfl, rfl, rfl⟩

/-! ## C115: the filter -/

/-- C115, for words that are apart and at least 256: a key passes just if each of its eight words was added, so what was added is found. -/
theorem C115_exact_partial {added : List (List (List Byte))} (hl : ∀ key ∈ added, ∀ w ∈ key, w.length = 4 ∧ 256 ≤ word w)
    (ha : ∀ a ∈ added.flatten, ∀ b ∈ added.flatten, a ≠ b → Apart a b) :
    ∃ r, bloomAdd .null added.flatten = .ok r ∧ (∀ key ∈ added, bloomCheck r key = .ok true) ∧
      ∀ key, (∀ w ∈ key, 256 ≤ word w) → bloomCheck r key = .ok (decide (∀ w ∈ key, ∃ a ∈ added, w ∈ a)) := by
  have hl' : ∀ w ∈ added.flatten, w.length = 4 ∧ 256 ≤ word w := by
    intro w hw
    obtain ⟨key, h1, h2⟩ := List.mem_flatten.1 hw
    exact hl key h1 w h2
  obtain ⟨r, m, h1, h2, h3⟩ := bloomAdd_holds added.flatten [] (fun _ => none) .null rfl (fun k => Or.inl ⟨rfl, by simp⟩) (fun s h => by cases h) hl' (by simpa using ha)
  simp only [List.nil_append] at h3
  refine ⟨r, h1, ?_, ?_⟩
  · intro key hk
    rw [bloomCheck_holds h2 h3 key fun w hw => (hl key hk w hw).2]
    congr 1
    simp only [decide_eq_true_eq]
    exact fun w hw => List.mem_flatten.2 ⟨key, hk, hw⟩
  · intro key hk
    rw [bloomCheck_holds h2 h3 key hk]
    congr 1
    simp only [List.mem_flatten]

/-- A key of two different words meets the hypotheses; one with another word does not pass. -/
example : (∀ key ∈ [[[1, 1, 1, 1], [0x23, 0x31, 0x32, 0x33]]], ∀ w ∈ key, w.length = 4 ∧ 256 ≤ word w) ∧
    Apart [1, 1, 1, 1] [0x23, 0x31, 0x32, 0x33] ∧
    ∃ r, bloomAdd .null [[1, 1, 1, 1], [0x23, 0x31, 0x32, 0x33]] = .ok r ∧ (bloomCheck r [[0x23, 0x31, 0x32, 0x33], [1, 1, 1, 1]] = .ok true) ∧
      (bloomCheck r [[1, 1, 1, 1], [1, 1, 1, 2]] = .ok false) := ⟨by decide, apart_of_nibbles 8 rfl (by decide +kernel), _, rfl, rfl, rfl⟩

/-- C115 is false in general: the addition of a key with a word below 256 divides by zero. -/
theorem C115_divide_refuted (w : List Byte) (h : word w < 256) (r : Root Block) (ks : List (List Byte)) : bloomAdd r (w :: ks) = .error .divide := by
  have : bitOf w = none := by
    unfold bitOf
    rw [if_pos]
    rw [Nat.shiftRight_eq_div_pow]
    exact Nat.div_eq_of_lt h
  simp [bloomAdd, this]

/-- Such a word: one byte and three zeros. -/
example : word [7, 0, 0, 0] < 256 := by decide

/-- C115 is false in general: a key of eight words is added and is not found afterwards. -/
theorem C115_lost_refuted : ∃ (key : List (List Byte)) (r : Root Block), key.length = 8 ∧ (∀ w ∈ key, w.length = 4 ∧ 256 ≤ word w) ∧ bloomAdd .null key = .ok r ∧
    bloomCheck r key = .ok false := by
  refine ⟨[[0x95, 0x10, 1, 0], [0x95, 0x20, 1, 0], [0x96, 0x10, 1, 0], [0x05, 0x10, 1, 0], [0x97, 0, 1, 0], [0x97, 0, 1, 0], [0x97, 0, 1, 0], [0x97, 0, 1, 0]], _,
    rfl, by decide, rfl, rfl⟩

end Np.Trie
