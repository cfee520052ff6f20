import Verif.Sketch.Spec

/-! # Lemmas on signatures -/
set_option linter.unusedSimpArgs false
set_option linter.unusedVariables false
namespace Np.Sketch

open Spec (Least Greatest SameSet)

theorem getD_set (a : List Word) (i j : Nat) (v : Word) (hi : i < a.length) : (a.set i v).getD j 0 = if j = i then v else a.getD j 0 := by
  simp only [List.getD_eq_getElem?_getD, List.getElem?_set]
  by_cases h : i = j
  · subst h; simp [hi]
  · rw [if_neg h, if_neg (fun e => h e.symm)]

/-- A loop whose rounds touch different entries. -/
theorem fold_touch {step : List Word → Nat → List Word} {touched : Nat → Nat → Prop} [∀ i j, Decidable (touched i j)] {g : Nat → Word → Word} {L : Nat} :
    ∀ (is : List Nat) (a : List Word), a.length = L →
      (∀ i ∈ is, ∀ a : List Word, a.length = L → (step a i).length = L ∧ ∀ j, (step a i).getD j 0 = if touched i j then g j (a.getD j 0) else a.getD j 0) →
      (is.Pairwise fun i i' => ∀ j, touched i j → ¬ touched i' j) →
      (is.foldl step a).length = L ∧ ∀ j, (is.foldl step a).getD j 0 = if ∃ i ∈ is, touched i j then g j (a.getD j 0) else a.getD j 0
  | [], a, hl, _, _ => ⟨hl, fun j => by simp⟩
  | i :: is, a, hl, hs, hp => by
    rw [List.pairwise_cons] at hp
    obtain ⟨h1, h2⟩ := hs i (by simp) a hl
    obtain ⟨h3, h4⟩ := fold_touch is (step a i) h1 (fun i' hi' => hs i' (by simp [hi'])) hp.2
    refine ⟨h3, ?_⟩
    intro j
    simp only [List.foldl_cons]
    rw [h4 j, h2 j]
    by_cases hj : touched i j
    · have : ¬ ∃ i' ∈ is, touched i' j := fun ⟨i', hi', ht⟩ => hp.1 i' hi' j hj ht
      rw [if_neg this, if_pos hj, if_pos ⟨i, by simp, hj⟩]
    · rw [if_neg hj]
      by_cases he : ∃ i' ∈ is, touched i' j
      · obtain ⟨i', hi', ht⟩ := he
        rw [if_pos ⟨i', hi', ht⟩, if_pos ⟨i', by simp [hi'], ht⟩]
      · rw [if_neg he, if_neg]
        rintro ⟨i', hi', ht⟩
        rcases List.mem_cons.1 hi' with e | e
        · subst e; exact hj ht
        · exact he ⟨i', e, ht⟩

/-- The lesser and the greater of two words. -/
def lo (a b : Word) : Word := if b.toNat < a.toNat then b else a
def hi (a b : Word) : Word := if b.toNat > a.toNat then b else a

theorem lo_toNat (a b : Word) : (lo a b).toNat = min a.toNat b.toNat := by
  unfold lo; split <;> omega
theorem hi_toNat (a b : Word) : (hi a b).toNat = max a.toNat b.toNat := by
  unfold hi; split <;> omega

theorem multiStep_spec (h : Hash) (half : Nat) (x : List Byte) (i : Nat) (hi' : i < half) (a : List Word) (hl : a.length = 2 * half) :
    (multiStep h half x a i).length = 2 * half ∧ ∀ j, (multiStep h half x a i).getD j 0 =
      if j = i ∨ j = i + half then (if j < half then lo (a.getD j 0) (h.at j x) else hi (a.getD j 0) (h.at (j - half) x)) else a.getD j 0 := by
  have e1 : (if (h.at i x).toNat < (a.getD i 0).toNat then a.set i (h.at i x) else a).length = 2 * half := by
    split <;> simp [hl]
  have e2 : ∀ j, (if (h.at i x).toNat < (a.getD i 0).toNat then a.set i (h.at i x) else a).getD j 0 = if j = i then lo (a.getD j 0) (h.at j x) else a.getD j 0 := by
    intro j
    by_cases hj : j = i
    · subst hj
      rw [if_pos rfl]
      unfold lo
      split
      · rw [getD_set _ _ _ _ (by omega), if_pos rfl]
      · rfl
    · rw [if_neg hj]
      split
      · rw [getD_set _ _ _ _ (by omega), if_neg hj]
      · rfl
  unfold multiStep
  simp only []
  generalize hb : (if (h.at i x).toNat < (a.getD i 0).toNat then a.set i (h.at i x) else a) = b at e1 e2
  refine ⟨by split <;> simp [e1], ?_⟩
  intro j
  by_cases hj : j = i + half
  · have hr : (if j = i ∨ j = i + half then (if j < half then lo (a.getD j 0) (h.at j x) else hi (a.getD j 0) (h.at (j - half) x)) else a.getD j 0) =
        hi (a.getD j 0) (h.at (j - half) x) := by rw [if_pos (Or.inr hj), if_neg (by omega)]
    rw [hr]
    have hbj : b.getD (i + half) 0 = a.getD (i + half) 0 := by rw [e2, if_neg (by omega)]
    subst hj
    rw [hbj]
    unfold hi
    rw [Nat.add_sub_cancel]
    by_cases hc : (h.at i x).toNat > (a.getD (i + half) 0).toNat
    · rw [if_pos hc, if_pos hc, getD_set _ _ _ _ (by omega), if_pos rfl]
    · rw [if_neg hc, if_neg hc]
      exact hbj
  · have : (if (h.at i x).toNat > (b.getD (i + half) 0).toNat then b.set (i + half) (h.at i x) else b).getD j 0 = b.getD j 0 := by
      split
      · rw [getD_set _ _ _ _ (by omega), if_neg hj]
      · rfl
    rw [this, e2]
    by_cases hji : j = i
    · subst hji
      rw [if_pos rfl, if_pos (Or.inl rfl), if_pos hi']
    · rw [if_neg hji, if_neg (by rintro (q | q) <;> contradiction)]

theorem pushMulti_spec (h : Hash) (half : Nat) (s : Sig) (x : List Byte) (hs : s.size = 2 * half) (hl : s.mins.length = 2 * half) :
    (pushMulti h s x).size = 2 * half ∧ (pushMulti h s x).mins.length = 2 * half ∧ (pushMulti h s x).mode = s.mode ∧ (pushMulti h s x).pos = s.pos ∧
      ∀ j < 2 * half, (pushMulti h s x).mins.getD j 0 = if j < half then lo (s.mins.getD j 0) (h.at j x) else hi (s.mins.getD j 0) (h.at (j - half) x) := by
  have hh : s.size / 2 = half := by omega
  obtain ⟨h1, h2⟩ := fold_touch (step := multiStep h half x) (touched := fun i j => j = i ∨ j = i + half)
    (g := fun j w => if j < half then lo w (h.at j x) else hi w (h.at (j - half) x)) (L := 2 * half) (List.range half) s.mins hl
    (fun i hi a ha => multiStep_spec h half x i (List.mem_range.1 hi) a ha)
    (by
      have hp : (List.range half).Pairwise (· < ·) := List.pairwise_lt_range
      have hp' : (List.range half).Pairwise fun i i' => i < half ∧ i' < half ∧ i < i' := by
        refine List.Pairwise.imp_of_mem ?_ hp
        intro a b ha hb hab
        exact ⟨List.mem_range.1 ha, List.mem_range.1 hb, hab⟩
      refine hp'.imp ?_
      intro a b hab j h1 h2
      omega)
  refine ⟨hs, ?_, rfl, rfl, ?_⟩
  · simp only [pushMulti, hh]; exact h1
  · intro j hj
    simp only [pushMulti, hh]
    rw [h2 j, if_pos]
    by_cases hjh : j < half
    · exact ⟨j, List.mem_range.2 hjh, Or.inl rfl⟩
    · exact ⟨j - half, List.mem_range.2 (by omega), Or.inr (by omega)⟩

/-- The signature of a list of elements. -/
def sig (h : Hash) (half : Nat) (xs : List (List Byte)) : Sig :=
  xs.foldl (pushMulti h) ⟨2 * half, .multi, List.replicate half 0xFFFFFFFF ++ List.replicate half 0, 0⟩

theorem signature_even (h : Hash) (half : Nat) (xs : List (List Byte)) : signature h (2 * half) xs = .ok (sig h half xs) := by
  unfold signature init
  have e1 : 2 * half % 2 = 0 := by omega
  have e2 : 2 * half / 2 = half := by omega
  rw [if_pos e1, e2]
  rfl

theorem fold_spec (h : Hash) (half : Nat) : ∀ (xs : List (List Byte)) (s : Sig), s.size = 2 * half → s.mins.length = 2 * half →
    (xs.foldl (pushMulti h) s).size = 2 * half ∧ (xs.foldl (pushMulti h) s).mins.length = 2 * half ∧ (xs.foldl (pushMulti h) s).mode = s.mode ∧
      (xs.foldl (pushMulti h) s).pos = s.pos ∧
      ∀ j < 2 * half, ((xs.foldl (pushMulti h) s).mins.getD j 0).toNat =
        if j < half then xs.foldl (fun m x => min m (h.at j x).toNat) (s.mins.getD j 0).toNat
        else xs.foldl (fun m x => max m (h.at (j - half) x).toNat) (s.mins.getD j 0).toNat
  | [], s, hs, hl => ⟨hs, hl, rfl, rfl, fun j hj => by split <;> rfl⟩
  | x :: xs, s, hs, hl => by
    obtain ⟨p1, p2, p3, p4, p5⟩ := pushMulti_spec h half s x hs hl
    obtain ⟨q1, q2, q3, q4, q5⟩ := fold_spec h half xs (pushMulti h s x) p1 p2
    refine ⟨q1, q2, by simp only [List.foldl_cons]; rw [q3, p3], by simp only [List.foldl_cons]; rw [q4, p4], ?_⟩
    intro j hj
    simp only [List.foldl_cons]
    rw [q5 j hj]
    by_cases hjh : j < half
    · rw [if_pos hjh, if_pos hjh, p5 j hj, if_pos hjh, lo_toNat]
    · rw [if_neg hjh, if_neg hjh, p5 j hj, if_neg hjh, hi_toNat]

theorem least_fold (f : List Byte → Nat) : ∀ (xs : List (List Byte)) (b : Nat), Least b f xs (xs.foldl (fun m x => min m (f x)) b)
  | [], b => ⟨Nat.le_refl _, by simp, Or.inl rfl⟩
  | x :: xs, b => by
    obtain ⟨h1, h2, h3⟩ := least_fold f xs (min b (f x))
    simp only [List.foldl_cons]
    refine ⟨by omega, ?_, ?_⟩
    · intro y hy
      rcases List.mem_cons.1 hy with e | e
      · subst e; omega
      · exact h2 y e
    · rcases h3 with h3 | ⟨y, hy, h3⟩
      · by_cases hb : b ≤ f x
        · left; rw [h3]; omega
        · right; exact ⟨x, by simp, by rw [h3]; omega⟩
      · right; exact ⟨y, by simp [hy], h3⟩

theorem greatest_fold' (f : List Byte → Nat) : ∀ (xs : List (List Byte)) (b : Nat), b ≤ xs.foldl (fun m x => max m (f x)) b ∧
    (∀ x ∈ xs, f x ≤ xs.foldl (fun m x => max m (f x)) b) ∧ (xs.foldl (fun m x => max m (f x)) b = b ∨ ∃ x ∈ xs, xs.foldl (fun m x => max m (f x)) b = f x)
  | [], b => ⟨Nat.le_refl _, by simp, Or.inl rfl⟩
  | x :: xs, b => by
    obtain ⟨h1, h2, h3⟩ := greatest_fold' f xs (max b (f x))
    simp only [List.foldl_cons]
    refine ⟨by omega, ?_, ?_⟩
    · intro y hy
      rcases List.mem_cons.1 hy with e | e
      · subst e; omega
      · exact h2 y e
    · rcases h3 with h3 | ⟨y, hy, h3⟩
      · by_cases hb : f x ≤ b
        · left; rw [h3]; omega
        · right; exact ⟨x, by simp, by rw [h3]; omega⟩
      · right; exact ⟨y, by simp [hy], h3⟩

theorem init_getD (half j : Nat) (hj : j < 2 * half) :
    ((List.replicate half (0xFFFFFFFF : Word) ++ List.replicate half 0).getD j 0).toNat = if j < half then 4294967295 else 0 := by
  simp only [List.getD_eq_getElem?_getD, List.getElem?_append, List.length_replicate]
  by_cases h : j < half
  · rw [if_pos h, if_pos h]; simp [h]
  · rw [if_neg h, if_neg h]; simp [show j - half < half by omega]

/-- What a signature holds. -/
theorem sig_spec (h : Hash) (half : Nat) (xs : List (List Byte)) : (sig h half xs).size = 2 * half ∧ (sig h half xs).mins.length = 2 * half ∧
    (sig h half xs).mode = .multi ∧ (sig h half xs).pos = 0 ∧
    ∀ i < half, Least 4294967295 (fun x => (h.at i x).toNat) xs ((sig h half xs).mins.getD i 0).toNat ∧
      Greatest (fun x => (h.at i x).toNat) xs ((sig h half xs).mins.getD (i + half) 0).toNat := by
  obtain ⟨q1, q2, q3, q4, q5⟩ := fold_spec h half xs ⟨2 * half, .multi, List.replicate half 0xFFFFFFFF ++ List.replicate half 0, 0⟩ rfl (by simp; omega)
  refine ⟨q1, q2, q3, q4, ?_⟩
  intro i hi
  constructor
  · have := q5 i (by omega)
    rw [if_pos hi] at this
    simp only [sig]
    rw [this, init_getD half i (by omega), if_pos hi]
    exact least_fold _ xs _
  · have := q5 (i + half) (by omega)
    rw [if_neg (by omega), Nat.add_sub_cancel] at this
    simp only [sig]
    rw [this, init_getD half (i + half) (by omega), if_neg (by omega)]
    exact (greatest_fold' _ xs 0).2

theorem Least.unique {b : Nat} {f : List Byte → Nat} {xs ys : List (List Byte)} (hs : SameSet xs ys) {m n : Nat} (h1 : Least b f xs m) (h2 : Least b f ys n) : m = n := by
  obtain ⟨a1, a2, a3⟩ := h1
  obtain ⟨b1, b2, b3⟩ := h2
  have : n ≤ m := by
    rcases a3 with e | ⟨x, hx, e⟩
    · rw [e]; exact b1
    · rw [e]; exact b2 x ((hs x).1 hx)
  have : m ≤ n := by
    rcases b3 with e | ⟨x, hx, e⟩
    · rw [e]; exact a1
    · rw [e]; exact a2 x ((hs x).2 hx)
  omega

theorem Greatest.unique {f : List Byte → Nat} {xs ys : List (List Byte)} (hs : SameSet xs ys) {m n : Nat} (h1 : Greatest f xs m) (h2 : Greatest f ys n) : m = n := by
  obtain ⟨a2, a3⟩ := h1
  obtain ⟨b2, b3⟩ := h2
  have : m ≤ n := by
    rcases a3 with e | ⟨x, hx, e⟩
    · omega
    · rw [e]; exact b2 x ((hs x).1 hx)
  have : n ≤ m := by
    rcases b3 with e | ⟨x, hx, e⟩
    · omega
    · rw [e]; exact a2 x ((hs x).2 hx)
  omega

theorem list_ext_getD {a b : List Word} (hl : a.length = b.length) (h : ∀ j < a.length, (a.getD j 0).toNat = (b.getD j 0).toNat) : a = b := by
  refine List.ext_getElem hl ?_
  intro i h1 h2
  have := h i h1
  simp only [List.getD_eq_getElem?_getD, List.getElem?_eq_getElem h1, List.getElem?_eq_getElem h2, Option.getD_some] at this
  exact BitVec.eq_of_toNat_eq this

theorem sig_ext {s t : Sig} (h1 : s.size = t.size) (h2 : s.mode = t.mode) (h3 : s.mins = t.mins) (h4 : s.pos = t.pos) : s = t := by
  cases s; cases t; simp_all

theorem sig_sameSet (h : Hash) (half : Nat) {xs ys : List (List Byte)} (hs : SameSet xs ys) : sig h half xs = sig h half ys := by
  obtain ⟨a1, a2, a3, a4, a5⟩ := sig_spec h half xs
  obtain ⟨b1, b2, b3, b4, b5⟩ := sig_spec h half ys
  refine sig_ext (by rw [a1, b1]) (by rw [a3, b3]) (list_ext_getD (by rw [a2, b2]) ?_) (by rw [a4, b4])
  intro j hj
  rw [a2] at hj
  by_cases hjh : j < half
  · exact Least.unique hs (a5 j hjh).1 (b5 j hjh).1
  · have ha := (a5 (j - half) (by omega)).2
    have hb := (b5 (j - half) (by omega)).2
    rw [Nat.sub_add_cancel (by omega)] at ha hb
    exact Greatest.unique hs ha hb

end Np.Sketch
