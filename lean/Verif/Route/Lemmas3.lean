import Verif.Route.Lemmas2

set_option linter.unusedSimpArgs false
set_option linter.unusedVariables false

/-! # Next hops -/
namespace Np.Route

open Np.Dhkey _root_.Np.Route.Spec

theorem commonPrefix_take : ∀ (a b : List Char) (i : Nat), i < Np.Spec.commonPrefix a b → a[i]? = b[i]?
  | [], _, _, h => by simp [Np.Spec.commonPrefix] at h
  | _ :: _, [], _, h => by simp [Np.Spec.commonPrefix] at h
  | a :: as, b :: bs, i, h => by
    simp only [Np.Spec.commonPrefix] at h
    split at h
    · rename_i hab
      cases i with
      | zero => simp [hab]
      | succ i => simpa using commonPrefix_take as bs i (by omega)
    · omega

theorem le_commonPrefix : ∀ (a b : List Char) (n : Nat), n ≤ a.length → (∀ i < n, a[i]? = b[i]?) →
    n ≤ Np.Spec.commonPrefix a b
  | _, _, 0, _, _ => Nat.zero_le _
  | [], _, n + 1, h, _ => by simp at h
  | a :: as, [], n + 1, _, h => by simpa using h 0 (by omega)
  | a :: as, b :: bs, n + 1, hl, h => by
    have h0 : a = b := by simpa using h 0 (by omega)
    simp only [Np.Spec.commonPrefix, if_pos h0]
    have := le_commonPrefix as bs n (by simpa using hl) (fun i hi => by simpa using h (i + 1) (by omega))
    omega

/-- A peer in the cell of `key` shares more leading digits with `key` than the own id. -/
theorem cell_progress {me x key : Dhkey} {base : Nat} (hm : me ≠ key) (hx : me ≠ x) (h1 : slot me x = some base)
    (h2 : slot me key = some base) : index me key < index x key := by
  obtain ⟨c1, s1, l1, i1, t1, _⟩ := slot_some hx
  obtain ⟨c2, s2, l2, i2, t2, _⟩ := slot_some hm
  rw [h1] at s1
  rw [h2] at s2
  simp only [Option.some.injEq] at s1 s2
  have hi : index me x = index me key := by omega
  have hc : c1 = c2 := by omega
  rw [hi, hc] at t1
  rw [C06_index_is_common_prefix x key]
  have hlen : (idStr x.bytes).length = 64 := by rw [idStr_length, bytes_length]
  have e1 := C06_index_is_common_prefix me x
  have e2 := C06_index_is_common_prefix me key
  refine le_commonPrefix _ _ (index me key + 1) (by omega) ?_
  intro i hi'
  by_cases hlt : i < index me key
  · have a1 := commonPrefix_take _ _ i (show i < Np.Spec.commonPrefix (idStr me.bytes) (idStr x.bytes) by omega)
    have a2 := commonPrefix_take _ _ i (show i < Np.Spec.commonPrefix (idStr me.bytes) (idStr key.bytes) by omega)
    rw [← a1, ← a2]
  · have : i = index me key := by omega
    rw [this, t1, t2]

theorem mem_cell {t : Table} {base : Nat} {x : Dhkey} : x ∈ cell t base ↔ ∃ k < 3, t (base + k) = some x := by
  simp [cell, maxEntry]

theorem cell_slot {s : State} (h : Inv s) {key x : Dhkey} {base : Nat} (hm : s.leaf.me ≠ key)
    (hs : slot s.leaf.me key = some base) (hx : x ∈ cell s.table base) : s.leaf.me ≠ x ∧ slot s.leaf.me x = some base := by
  obtain ⟨k, hk, ht⟩ := mem_cell.1 hx
  obtain ⟨hne, b, hb, h1, h2⟩ := h.table.place _ x ht
  obtain ⟨c1, s1, _⟩ := slot_some hne
  obtain ⟨c2, s2, _⟩ := slot_some hm
  rw [hb] at s1
  rw [hs] at s2
  simp only [Option.some.injEq] at s1 s2
  refine ⟨hne, ?_⟩
  rw [hb]
  congr 1
  omega

theorem fastest_mem (worse : Dhkey → Dhkey → Bool) : ∀ (l : List Dhkey) (x : Dhkey), fastest worse x l = x ∨ fastest worse x l ∈ l
  | [], _ => Or.inl rfl
  | y :: r, x => by
    unfold fastest
    split
    · rcases fastest_mem worse r y with h | h
      · rw [h]; exact Or.inr List.mem_cons_self
      · exact Or.inr (List.mem_cons_of_mem _ h)
    · rcases fastest_mem worse r x with h | h
      · exact Or.inl h
      · exact Or.inr (List.mem_cons_of_mem _ h)

theorem mem_goodRow {t : Table} {good : Dhkey → Bool} {i : Nat} {x : Dhkey} :
    x ∈ goodRow t good i ↔ good x = true ∧ ∃ j < 16, ∃ k < 3, t (3 * (j + 16 * i) + k) = some x := by
  simp only [goodRow, List.mem_flatMap, List.mem_range, List.mem_filter, mem_cell, maxEntry, maxCol]
  constructor
  · rintro ⟨j, hj, ⟨k, hk, ht⟩, hg⟩; exact ⟨hg, j, hj, k, hk, ht⟩
  · rintro ⟨hg, j, hj, k, hk, ht⟩; exact ⟨j, hj, ⟨k, hk, ht⟩, hg⟩

theorem goodRows_spec (t : Table) (good : Dhkey → Bool) : ∀ n,
    (goodRows t good n = [] ∧ ∀ i ≤ n, goodRow t good i = []) ∨
    (∃ i ≤ n, goodRows t good n = goodRow t good i ∧ goodRow t good i ≠ [])
  | 0 => by
    simp only [goodRows]
    by_cases h : goodRow t good 0 = []
    · left
      refine ⟨h, fun i hi => ?_⟩
      have : i = 0 := by omega
      rw [this, h]
    · exact Or.inr ⟨0, Nat.le_refl _, rfl, h⟩
  | n + 1 => by
    simp only [goodRows]
    by_cases h : goodRow t good (n + 1) = []
    · rw [if_pos h]
      rcases goodRows_spec t good n with ⟨h1, h2⟩ | ⟨i, h1, h2, h3⟩
      · left
        refine ⟨h1, fun i hi => ?_⟩
        by_cases e : i = n + 1
        · rw [e, h]
        · exact h2 i (by omega)
      · exact Or.inr ⟨i, by omega, h2, h3⟩
    · rw [if_neg h]
      exact Or.inr ⟨n + 1, Nat.le_refl _, rfl, h⟩

theorem mem_head_toList {α : Type} {l : List α} {x : α} (h : x ∈ l.head?.toList) : x ∈ l := by
  cases l with
  | nil => simp at h
  | cons a r => simp at h; simp [h]

theorem closest_mem {key x : Dhkey} {l : List Dhkey} (h : x ∈ (closest key l).toList) : x ∈ l := by
  rcases closest_spec key l with ⟨h1, _⟩ | ⟨m, h1, h2, _⟩
  · rw [h1] at h; simp at h
  · rw [h1] at h; simp at h; rw [h]; exact h2

theorem toList_length {α : Type} (o : Option α) : o.toList.length ≤ 1 := by cases o <;> simp

/-- What a lookup yields. -/
theorem lookup_cases {s : State} (h : Inv s) (good : Dhkey → Bool) (worse : Dhkey → Dhkey → Bool) {key : Dhkey} {count : Nat}
    (hk : s.leaf.me ≠ key) (hc : 1 ≤ count) :
    (count = 1 ∧ between key s.leaf.lrange s.leaf.rrange true = true ∧
      lookup s good worse key count = some (closest key (s.leaf.right ++ s.leaf.left)).toList) ∨
    (¬ (count = 1 ∧ between key s.leaf.lrange s.leaf.rrange true = true) ∧ ∃ base, slot s.leaf.me key = some base ∧
      (∃ g ∈ cell s.table base, good g = true) ∧
      ∃ x ∈ cell s.table base, lookup s good worse key count = some [x]) ∨
    (¬ (count = 1 ∧ between key s.leaf.lrange s.leaf.rrange true = true) ∧ ∃ base, slot s.leaf.me key = some base ∧
      (∀ g ∈ cell s.table base, good g = false) ∧ ∃ l, lookup s good worse key count = some l ∧ l.length ≤ 1 ∧
      (∀ x ∈ l, x ∈ goodRows s.table good (index s.leaf.me key)) ∧
      (l = [] → goodRows s.table good (index s.leaf.me key) = [])) := by
  unfold lookup
  by_cases h1 : count = 1 ∧ between key s.leaf.lrange s.leaf.rrange true = true
  · rw [if_pos h1]; exact Or.inl ⟨h1.1, h1.2, rfl⟩
  rw [if_neg h1]
  right
  obtain ⟨col, hs, _⟩ := slot_some hk
  rw [hs]
  simp only
  generalize 3 * (col + 16 * index s.leaf.me key) = base at hs
  cases hf : (cell s.table base).find? good with
  | some x =>
    left
    have hx := List.mem_of_find?_eq_some hf
    have hg := List.find?_some hf
    refine ⟨h1, base, rfl, ⟨x, hx, hg⟩, ?_⟩
    simp only [if_pos hc]
    refine ⟨fastest worse x (cell s.table base), ?_, rfl⟩
    rcases fastest_mem worse (cell s.table base) x with e | e
    · rw [e]; exact hx
    · exact e
  | none =>
    right
    refine ⟨h1, base, rfl, ?_, ?_⟩
    · intro g hg
      have := List.find?_eq_none.1 hf g hg
      simpa using this
    · simp only [if_neg (show ¬ count = 0 by omega)]
      by_cases hc1 : count = 1
      · rw [if_pos hc1]
        refine ⟨_, rfl, toList_length _, fun x hx => closest_mem hx, ?_⟩
        intro he
        rcases closest_spec key (goodRows s.table good (index s.leaf.me key)) with ⟨_, h3⟩ | ⟨m, h3, _⟩
        · exact h3
        · rw [h3] at he; simp at he
      · rw [if_neg hc1]
        have hp := (sortCpm_spec key (goodRows s.table good (index s.leaf.me key))).1
        refine ⟨_, rfl, toList_length _, fun x hx => hp.mem_iff.1 (mem_head_toList hx), ?_⟩
        intro he
        cases hl : sortCpm key (goodRows s.table good (index s.leaf.me key)) with
        | nil => rw [hl] at hp; exact hp.nil_eq.symm
        | cons a r => rw [hl] at he; simp at he

end Np.Route
