import Verif.Search.Spec

set_option linter.unusedVariables false
set_option linter.unusedSimpArgs false

namespace Np.Search
open _root_.Np.Search.Spec

/-! ## Rotation -/

theorem shiftWord_bit (s : Nat) (hs : 0 < s) (hs' : s < 32) (w n : BitVec 32) (i : Nat) (hi : i < 32) :
    (shiftWord s w n).getLsbD i = if i < s then n.getLsbD (32 - s + i) else w.getLsbD (i - s) := by
  unfold shiftWord
  simp only [BitVec.getLsbD_or, BitVec.getLsbD_shiftLeft, BitVec.getLsbD_ushiftRight, hi, decide_true, Bool.true_and]
  by_cases h : i < s
  · simp [h]
  · have : n.getLsbD (32 - s + i) = false := BitVec.getLsbD_of_ge _ _ (by omega)
    simp [h, this]

theorem rotate_bit (s : Nat) (hs : 0 < s) (hs' : s < 32) (k r : Dhkey) (h : rotate s k = .ok r) (b : Nat) (hb : b < 256) :
    bit r b = bit k ((b + s) % 256) := by
  unfold rotate at h
  rw [if_neg (by omega)] at h
  injection h with h
  subst h
  unfold bit
  have hj : b / 32 < 8 := by omega
  have hr : b % 32 < 32 := Nat.mod_lt _ (by omega)
  generalize hj' : b / 32 = j at hj
  generalize hr' : b % 32 = r at hr
  have hb' : b = 32 * j + r := by omega
  by_cases hc : r + s < 32
  · have e1 : (b + s) % 256 / 32 = j := by omega
    have e2 : (b + s) % 256 % 32 = r + s := by omega
    rw [e1, e2]
    have hjj : j = 0 ∨ j = 1 ∨ j = 2 ∨ j = 3 ∨ j = 4 ∨ j = 5 ∨ j = 6 ∨ j = 7 := by omega
    rcases hjj with h | h | h | h | h | h | h | h <;> subst h <;>
      simp only [Dhkey.words, List.getD_cons_zero, List.getD_cons_succ] <;>
      rw [shiftWord_bit s hs hs' _ _ _ (by omega), if_neg (by omega)] <;> congr 1 <;> omega
  · have e2 : (b + s) % 256 % 32 = r + s - 32 := by omega
    rw [e2]
    have hjj : j = 0 ∨ j = 1 ∨ j = 2 ∨ j = 3 ∨ j = 4 ∨ j = 5 ∨ j = 6 ∨ j = 7 := by omega
    rcases hjj with h | h | h | h | h | h | h | h <;> subst h
    · have e1 : (b + s) % 256 / 32 = 1 := by omega
      rw [e1]
      simp only [Dhkey.words, List.getD_cons_zero, List.getD_cons_succ]
      rw [shiftWord_bit s hs hs' _ _ _ (by omega), if_pos (by omega)]; congr 1; omega
    · have e1 : (b + s) % 256 / 32 = 2 := by omega
      rw [e1]
      simp only [Dhkey.words, List.getD_cons_zero, List.getD_cons_succ]
      rw [shiftWord_bit s hs hs' _ _ _ (by omega), if_pos (by omega)]; congr 1; omega
    · have e1 : (b + s) % 256 / 32 = 3 := by omega
      rw [e1]
      simp only [Dhkey.words, List.getD_cons_zero, List.getD_cons_succ]
      rw [shiftWord_bit s hs hs' _ _ _ (by omega), if_pos (by omega)]; congr 1; omega
    · have e1 : (b + s) % 256 / 32 = 4 := by omega
      rw [e1]
      simp only [Dhkey.words, List.getD_cons_zero, List.getD_cons_succ]
      rw [shiftWord_bit s hs hs' _ _ _ (by omega), if_pos (by omega)]; congr 1; omega
    · have e1 : (b + s) % 256 / 32 = 5 := by omega
      rw [e1]
      simp only [Dhkey.words, List.getD_cons_zero, List.getD_cons_succ]
      rw [shiftWord_bit s hs hs' _ _ _ (by omega), if_pos (by omega)]; congr 1; omega
    · have e1 : (b + s) % 256 / 32 = 6 := by omega
      rw [e1]
      simp only [Dhkey.words, List.getD_cons_zero, List.getD_cons_succ]
      rw [shiftWord_bit s hs hs' _ _ _ (by omega), if_pos (by omega)]; congr 1; omega
    · have e1 : (b + s) % 256 / 32 = 7 := by omega
      rw [e1]
      simp only [Dhkey.words, List.getD_cons_zero, List.getD_cons_succ]
      rw [shiftWord_bit s hs hs' _ _ _ (by omega), if_pos (by omega)]; congr 1; omega
    · have e1 : (b + s) % 256 / 32 = 0 := by omega
      rw [e1]
      simp only [Dhkey.words, List.getD_cons_zero, List.getD_cons_succ]
      rw [shiftWord_bit s hs hs' _ _ _ (by omega), if_pos (by omega)]; congr 1; omega

theorem rotate_ok (s : Nat) (hs : 0 < s) (hs' : s < 32) (k : Dhkey) : ∃ r, rotate s k = .ok r := by
  unfold rotate
  rw [if_neg (by omega)]
  exact ⟨_, rfl⟩

theorem positions_spec (s : Nat) (hs : 0 < s) (hs' : s < 32) : ∀ m k,
    ∃ l, positions s m k = .ok l ∧ l.length = m ∧ ∀ i p, l[i]? = some p → ∀ b, b < 256 → bit p b = bit k ((b + (i + 1) * s) % 256) := by
  intro m
  induction m with
  | zero => intro k; exact ⟨[], rfl, rfl, by simp⟩
  | succ m ih =>
    intro k
    obtain ⟨r, hr⟩ := rotate_ok s hs hs' k
    obtain ⟨l, h1, h2, h3⟩ := ih r
    refine ⟨r :: l, ?_, by simp [h2], ?_⟩
    · simp only [positions, hr, h1]
    · intro i p hp b hb
      cases i with
      | zero =>
        simp at hp
        subst hp
        rw [rotate_bit s hs hs' k r hr b hb]; congr 1; omega
      | succ i =>
        simp at hp
        rw [h3 i p hp b hb, rotate_bit s hs hs' k r hr _ (Nat.mod_lt _ (by omega))]
        congr 1
        have : (i + 1 + 1) * s = (i + 1) * s + s := by rw [Nat.add_mul (i + 1) 1 s]; omega
        rw [this, Nat.mod_add_mod]; congr 1; omega

/-! ## Buckets -/

theorem insert_perm (b : Nat × Nat) : ∀ l, (insertBucket b l).Perm (b :: l) := by
  intro l
  induction l with
  | nil => exact List.Perm.refl _
  | cons c r ih =>
    unfold insertBucket
    split
    · exact List.Perm.refl _
    · exact (List.Perm.cons c ih).trans (List.Perm.swap b c r)

theorem sort_perm : ∀ l, (sortBuckets l).Perm l := by
  intro l
  induction l with
  | nil => exact List.Perm.refl _
  | cons b r ih => exact (insert_perm b _).trans (List.Perm.cons b ih)

theorem insert_sorted (b : Nat × Nat) : ∀ l : List (Nat × Nat), l.Pairwise (fun x y => x.1 ≤ y.1) → (insertBucket b l).Pairwise (fun x y => x.1 ≤ y.1) := by
  intro l
  induction l with
  | nil => intro _; simp [insertBucket]
  | cons c r ih =>
    intro h
    unfold insertBucket
    rw [List.pairwise_cons] at h
    split
    · rename_i hbc
      rw [List.pairwise_cons]
      refine ⟨fun y hy => ?_, List.pairwise_cons.mpr h⟩
      rcases List.mem_cons.mp hy with hy | hy
      · rw [hy]; exact hbc
      · exact Nat.le_trans hbc (h.1 y hy)
    · rename_i hbc
      rw [List.pairwise_cons]
      refine ⟨fun y hy => ?_, ih h.2⟩
      have := (insert_perm b r).mem_iff.mp hy
      rcases List.mem_cons.mp this with hy | hy
      · rw [hy]; omega
      · exact h.1 y hy

theorem sort_sorted : ∀ l : List (Nat × Nat), (sortBuckets l).Pairwise (fun x y => x.1 ≤ y.1) := by
  intro l
  induction l with
  | nil => exact List.Pairwise.nil
  | cons b r ih => exact insert_sorted b _ ih

theorem takeWhile_sorted (m : Nat) : ∀ l : List (Nat × Nat), l.Pairwise (fun x y => x.1 ≤ y.1) → (∀ x ∈ l, m ≤ x.1) →
    ∀ c, c ∈ l.takeWhile (fun c => c.1 == m) ↔ c ∈ l ∧ c.1 = m := by
  intro l
  induction l with
  | nil => intro _ _ c; simp
  | cons b r ih =>
    intro h hm c
    rw [List.pairwise_cons] at h
    by_cases hb : b.1 = m
    · have : (b.1 == m) = true := by simp [hb]
      simp only [List.takeWhile_cons, this, if_true, List.mem_cons]
      rw [ih h.2 (fun x hx => hm x (List.mem_cons_of_mem _ hx))]
      constructor
      · rintro (hc | hc)
        · exact ⟨Or.inl hc, by rw [hc]; exact hb⟩
        · exact ⟨Or.inr hc.1, hc.2⟩
      · rintro ⟨hc | hc, he⟩
        · exact Or.inl hc
        · exact Or.inr ⟨hc, he⟩
    · have : (b.1 == m) = false := by simp [hb]
      simp only [List.takeWhile_cons, this, Bool.false_eq_true, if_false, List.not_mem_nil, false_iff, not_and]
      intro hc he
      have := hm b (by simp)
      rcases List.mem_cons.mp hc with hc | hc
      · rw [hc] at he; exact hb he
      · have := h.1 c hc
        omega

theorem mem_buckets (index : Dhkey) (l : List Dhkey) (d i : Nat) :
    (d, i) ∈ buckets index l ↔ ∃ p, l[i]? = some p ∧ d = distance index p := by
  unfold buckets
  simp only [List.mem_map, Prod.mk.injEq, Prod.exists]
  constructor
  · rintro ⟨p, j, hm, hd, hj⟩
    subst hj
    rw [List.mem_zipIdx_iff_getElem?] at hm
    exact ⟨p, hm, hd.symm⟩
  · rintro ⟨p, hp, hd⟩
    exact ⟨p, i, List.mem_zipIdx_iff_getElem?.mpr hp, hd.symm, rfl⟩

/-- The chosen tables are those of least distance. -/
theorem chosen_spec (index : Dhkey) (l : List Dhkey) (ts : List Nat) (h : chosen (sortBuckets (buckets index l)) = .ok ts) :
    ts ≠ [] ∧ ∀ i, i ∈ ts ↔ ∃ p, l[i]? = some p ∧ ∀ q ∈ l, distance index p ≤ distance index q := by
  have hs := sort_sorted (buckets index l)
  have hp := sort_perm (buckets index l)
  generalize sortBuckets (buckets index l) = s at h hs hp
  cases s with
  | nil => simp [chosen] at h
  | cons b r =>
    unfold chosen at h
    simp only [] at h
    split at h
    · simp at h
    · injection h with h
      subst h
      refine ⟨by simp, fun i => ?_⟩
      rw [List.pairwise_cons] at hs
      have hmin : ∀ x ∈ b :: r, b.1 ≤ x.1 := by
        intro x hx
        rcases List.mem_cons.mp hx with hx | hx
        · rw [hx]; exact Nat.le_refl _
        · exact hs.1 x hx
      have htw := takeWhile_sorted b.1 (b :: r) (List.pairwise_cons.mpr hs) hmin
      rw [List.mem_map]
      have hbm : b ∈ buckets index l := hp.mem_iff.mp (by simp)
      obtain ⟨pb, hpb, hdb⟩ := (mem_buckets index l b.1 b.2).mp hbm
      constructor
      · rintro ⟨c, hc, hci⟩
        obtain ⟨hcm, hce⟩ := (htw c).mp hc
        have hcb : (c.1, c.2) ∈ buckets index l := hp.mem_iff.mp hcm
        obtain ⟨p, hp1, hp2⟩ := (mem_buckets index l c.1 c.2).mp hcb
        rw [hci] at hp1
        refine ⟨p, hp1, fun q hq => ?_⟩
        obtain ⟨j, hj⟩ := List.mem_iff_getElem?.mp hq
        have := hp.mem_iff.mpr ((mem_buckets index l _ j).mpr ⟨q, hj, rfl⟩)
        have := hmin _ this
        simp only [] at this
        omega
      · rintro ⟨p, hp1, hp2⟩
        refine ⟨(distance index p, i), (htw _).mpr ⟨hp.mem_iff.mpr ((mem_buckets index l _ i).mpr ⟨p, hp1, rfl⟩), ?_⟩, rfl⟩
        have h1 := hp2 pb (List.mem_of_getElem? hpb)
        have h2 := hmin _ (hp.mem_iff.mpr ((mem_buckets index l _ i).mpr ⟨p, hp1, rfl⟩))
        simp only [] at h2 ⊢
        omega

/-! ## Results -/

def labels (rs : Results) : List (List Char) := rs.map Result.label

theorem reduce_labels (f : Filter) (e : Entry) (x : List Char) : ∀ rs : Results, x ∈ labels (reduce f rs e) ↔ x ∈ labels rs ∨ x = e.subject := by
  intro rs
  induction rs with
  | nil => simp [reduce, labels]
  | cons r rest ih =>
    unfold reduce
    split
    · rename_i h
      simp only [labels, List.map_cons, List.mem_cons]
      constructor
      · rintro (h' | h')
        · exact Or.inl (Or.inl h')
        · exact Or.inl (Or.inr h')
      · rintro (h' | h')
        · exact h'
        · exact Or.inl (by rw [h', h])
    · simp only [labels, List.map_cons, List.mem_cons] at ih ⊢
      rw [ih]
      constructor
      · rintro (h' | h' | h')
        · exact Or.inl (Or.inl h')
        · exact Or.inl (Or.inr h')
        · exact Or.inr h'
      · rintro ((h' | h') | h')
        · exact Or.inl h'
        · exact Or.inr (Or.inl h')
        · exact Or.inr (Or.inr h')

theorem reduce_nodup (f : Filter) (e : Entry) : ∀ rs : Results, (labels rs).Nodup → (labels (reduce f rs e)).Nodup := by
  intro rs
  induction rs with
  | nil => intro _; simp [reduce, labels]
  | cons r rest ih =>
    intro h
    simp only [labels, List.map_cons, List.nodup_cons] at h
    unfold reduce
    split
    · simpa only [labels, List.map_cons, List.nodup_cons] using h
    · rename_i hne
      simp only [labels, List.map_cons, List.nodup_cons]
      refine ⟨fun hm => ?_, ih h.2⟩
      rcases (reduce_labels f e _ rest).mp hm with h' | h'
      · exact h.1 h'
      · exact hne h'

theorem fold_labels (f : Filter) (x : List Char) : ∀ (es : List Entry) (rs : Results),
    x ∈ labels (es.foldl (reduce f) rs) ↔ x ∈ labels rs ∨ ∃ e ∈ es, x = e.subject := by
  intro es
  induction es with
  | nil => intro rs; simp
  | cons e r ih =>
    intro rs
    simp only [List.foldl_cons]
    rw [ih, reduce_labels]
    simp only [List.mem_cons, exists_eq_or_imp, or_assoc]

theorem fold_nodup (f : Filter) : ∀ (es : List Entry) (rs : Results), (labels rs).Nodup → (labels (es.foldl (reduce f) rs)).Nodup := by
  intro es
  induction es with
  | nil => intro rs h; exact h
  | cons e r ih => intro rs h; exact ih _ (reduce_nodup f e rs h)

theorem tables_labels (q : Query) (t : Nat → Table) (x : List Char) : ∀ (is : List Nat) (rs : Results),
    x ∈ labels (searchTables q t is rs) ↔ x ∈ labels rs ∨ ∃ i ∈ is, ∃ e ∈ t i, matches? q e = true ∧ x = e.subject := by
  intro is
  induction is with
  | nil => intro rs; simp [searchTables]
  | cons i r ih =>
    intro rs
    unfold searchTables
    rw [ih, searchTable, fold_labels]
    simp only [List.mem_cons, exists_eq_or_imp, or_assoc, List.mem_filter, and_assoc]

theorem tables_nodup (q : Query) (t : Nat → Table) : ∀ (is : List Nat) (rs : Results), (labels rs).Nodup → (labels (searchTables q t is rs)).Nodup := by
  intro is
  induction is with
  | nil => intro rs h; exact h
  | cons i r ih => intro rs h; exact ih _ (fold_nodup q.filter _ rs h)

theorem sorted_numbers (index : Dhkey) (l : List Dhkey) (i : Nat) : i ∈ (sortBuckets (buckets index l)).map Prod.snd ↔ i < l.length := by
  rw [List.mem_map]
  constructor
  · rintro ⟨c, hc, hci⟩
    obtain ⟨p, hp, _⟩ := (mem_buckets index l c.1 c.2).mp ((sort_perm _).mem_iff.mp hc)
    rw [hci] at hp
    exact (List.getElem?_eq_some_iff.mp hp).1
  · intro hi
    exact ⟨(distance index l[i], i), (sort_perm _).mem_iff.mpr ((mem_buckets index l _ i).mpr ⟨l[i], List.getElem?_eq_getElem hi, rfl⟩), rfl⟩

theorem positions_length (s : Nat) : ∀ m k l, positions s m k = .ok l → l.length = m := by
  intro m
  induction m with
  | zero => intro k l h; simp [positions] at h; simp [← h]
  | succ m ih =>
    intro k l h
    unfold positions at h
    cases hr : rotate s k with
    | error f => rw [hr] at h; simp at h
    | ok r =>
      rw [hr] at h
      simp only [] at h
      cases hp : positions s m r with
      | error f => rw [hp] at h; simp at h
      | ok l' =>
        rw [hp] at h
        injection h with h
        rw [← h]
        simp [ih r l' hp]

end Np.Search
