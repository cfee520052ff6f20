import Verif.Route.Model
import Verif.Dhkey.Props

set_option linter.unusedSimpArgs false
set_option linter.unusedVariables false

/-! # Sorting and searching -/
namespace Np.Route

open Np.Dhkey

variable {α : Type}

theorem swapFirst_some (lt : α → α → Bool) (x : α) : ∀ (r : List α) {y : α} {r' : List α},
    swapFirst lt x r = some (y, r') →
    ∃ a b, r = a ++ y :: b ∧ r' = a ++ x :: b ∧ lt y x = true ∧ ∀ e ∈ a, lt e x = false
  | [], y, r', h => by simp [swapFirst] at h
  | z :: r, y, r', h => by
    unfold swapFirst at h
    by_cases hz : lt z x = true
    · rw [if_pos hz] at h
      simp only [Option.some.injEq, Prod.mk.injEq] at h
      obtain ⟨rfl, rfl⟩ := h
      exact ⟨[], r, rfl, rfl, hz, by simp⟩
    · rw [if_neg hz] at h
      cases hs : swapFirst lt x r with
      | none => simp [hs] at h
      | some p =>
        obtain ⟨w, q⟩ := p
        simp only [hs, Option.some.injEq, Prod.mk.injEq] at h
        obtain ⟨rfl, rfl⟩ := h
        obtain ⟨a, b, h1, h2, h3, h4⟩ := swapFirst_some lt x r hs
        refine ⟨z :: a, b, by rw [h1]; rfl, by rw [h2]; rfl, h3, ?_⟩
        intro e he
        rcases List.mem_cons.1 he with rfl | he
        · simpa using hz
        · exact h4 e he

theorem swapFirst_none (lt : α → α → Bool) (x : α) : ∀ (r : List α), swapFirst lt x r = none → ∀ e ∈ r, lt e x = false
  | [], _ => by simp
  | z :: r, h => by
    unfold swapFirst at h
    by_cases hz : lt z x = true
    · rw [if_pos hz] at h
      exact absurd h (by simp)
    · rw [if_neg hz] at h
      cases hs : swapFirst lt x r with
      | some p => simp [hs] at h
      | none =>
        intro e he
        rcases List.mem_cons.1 he with rfl | he
        · simpa using hz
        · exact swapFirst_none lt x r hs e he

theorem swap_perm {x y : α} {a b : List α} : (y :: (a ++ x :: b)).Perm (x :: (a ++ y :: b)) :=
  ((List.Perm.cons y List.perm_middle).trans (List.Perm.swap x y _)).trans (List.Perm.cons x List.perm_middle.symm)

theorem pass_perm (lt : α → α → Bool) : ∀ (n : Nat) (l : List α), (pass lt n l).1.Perm l
  | 0, l => by simp [pass]
  | n + 1, [] => by simp [pass]
  | n + 1, x :: r => by
    unfold pass
    cases hs : swapFirst lt x r with
    | none => exact List.Perm.cons x (pass_perm lt n r)
    | some p =>
      obtain ⟨y, r'⟩ := p
      obtain ⟨a, b, h1, h2, _⟩ := swapFirst_some lt x r hs
      refine (List.Perm.cons y (pass_perm lt n r')).trans ?_
      rw [h1, h2]
      exact swap_perm

theorem pass_false (lt : α → α → Bool) : ∀ (n : Nat) (l : List α), l.length ≤ n → (pass lt n l).2 = false →
    (pass lt n l).1 = l ∧ l.Pairwise (fun a b => lt b a = false)
  | 0, [], _, _ => by simp [pass]
  | 0, x :: r, h, _ => by simp at h
  | n + 1, [], _, _ => by simp [pass]
  | n + 1, x :: r, h, hf => by
    unfold pass at hf ⊢
    cases hs : swapFirst lt x r with
    | some p => simp [hs] at hf
    | none =>
      simp only [hs] at hf ⊢
      obtain ⟨h1, h2⟩ := pass_false lt n r (by simpa using h) hf
      exact ⟨by rw [h1], List.pairwise_cons.2 ⟨swapFirst_none lt x r hs, h2⟩⟩

/-- The number of pairs in the wrong order. -/
def inv (lt : α → α → Bool) : List α → Nat
  | [] => 0
  | x :: r => r.countP (fun e => lt e x) + inv lt r

/-- Pairs in the wrong order between two lists. -/
def cross (lt : α → α → Bool) : List α → List α → Nat
  | [], _ => 0
  | x :: a, b => b.countP (fun e => lt e x) + cross lt a b

theorem inv_append (lt : α → α → Bool) : ∀ a b : List α, inv lt (a ++ b) = inv lt a + cross lt a b + inv lt b
  | [], b => by simp [inv, cross]
  | x :: a, b => by
    simp only [List.cons_append, inv, cross, List.countP_append, inv_append lt a b]
    omega

theorem cross_le (lt : α → α → Bool) (x y : α) (b : List α) (h : ∀ e, lt x e = true → lt y e = true) :
    ∀ a : List α, cross lt a (x :: b) ≤ cross lt a (y :: b)
  | [] => by simp [cross]
  | e :: a => by
    have := cross_le lt x y b h a
    simp only [cross, List.countP_cons]
    by_cases hx : lt x e = true
    · simp only [hx, h e hx, if_true]; omega
    · rw [if_neg hx]
      split <;> omega

/-- A comparison that compares numbers. -/
structure ByNumber (lt : α → α → Bool) (f : α → Nat) : Prop where
  iff : ∀ a b, lt a b = true ↔ f a < f b

theorem inv_swap {lt : α → α → Bool} {f : α → Nat} (hf : ByNumber lt f) {x y : α} {a b : List α} (hyx : lt y x = true)
    (ha : ∀ e ∈ a, lt e x = false) : inv lt (y :: (a ++ x :: b)) < inv lt (x :: (a ++ y :: b)) := by
  have hyx' := (hf.iff _ _).1 hyx
  have h1 : a.countP (fun e => lt e y) = 0 := by
    rw [List.countP_eq_zero]
    intro e he h
    have h2 := (hf.iff _ _).1 h
    have h3 := ha e he
    have : ¬ f e < f x := by
      intro h4
      rw [(hf.iff _ _).2 h4] at h3
      exact absurd h3 (by simp)
    omega
  have hxy : lt x y = false := by
    cases h : lt x y with
    | false => rfl
    | true =>
      have := (hf.iff _ _).1 h
      omega
  have h2 := cross_le lt x y b (fun e he => (hf.iff _ _).2 (by have := (hf.iff _ _).1 he; omega)) a
  simp only [inv, inv_append, List.countP_append, List.countP_cons, h1, hxy, hyx, if_true, Bool.false_eq_true, if_false]
  omega

theorem inv_perm_head (lt : α → α → Bool) {l l' : List α} (x : α) (h : l'.Perm l) (hi : inv lt l' ≤ inv lt l) :
    inv lt (x :: l') ≤ inv lt (x :: l) := by
  simp only [inv, h.countP_eq]
  omega

theorem pass_inv {lt : α → α → Bool} {f : α → Nat} (hf : ByNumber lt f) : ∀ (n : Nat) (l : List α),
    inv lt (pass lt n l).1 ≤ inv lt l ∧ ((pass lt n l).2 = true → inv lt (pass lt n l).1 < inv lt l)
  | 0, l => by simp [pass]
  | n + 1, [] => by simp [pass]
  | n + 1, x :: r => by
    unfold pass
    cases hs : swapFirst lt x r with
    | none =>
      obtain ⟨h1, h2⟩ := pass_inv hf n r
      refine ⟨inv_perm_head lt x (pass_perm lt n r) h1, ?_⟩
      intro h
      have := h2 h
      simp only [inv, (pass_perm lt n r).countP_eq]
      omega
    | some p =>
      obtain ⟨y, r'⟩ := p
      obtain ⟨a, b, h1, h2, h3, h4⟩ := swapFirst_some lt x r hs
      have h5 := inv_swap hf (b := b) h3 h4
      have h6 := inv_perm_head lt y (pass_perm lt n r') (pass_inv hf n r').1
      rw [← h1, ← h2] at h5
      simp only
      exact ⟨by omega, fun _ => by omega⟩

theorem inv_le (lt : α → α → Bool) : ∀ l : List α, inv lt l ≤ l.length * l.length
  | [] => by simp [inv]
  | x :: r => by
    have h1 := inv_le lt r
    have h2 : r.countP (fun e => lt e x) ≤ r.length := List.countP_le_length
    simp only [inv, List.length_cons]
    have : (r.length + 1) * (r.length + 1) = r.length * r.length + 2 * r.length + 1 := by
      rw [Nat.add_mul, Nat.mul_add]; omega
    omega

theorem sortLoop_spec {lt : α → α → Bool} {f : α → Nat} (hf : ByNumber lt f) : ∀ (n : Nat) (l : List α), inv lt l < n →
    (sortLoop lt n l).Perm l ∧ (sortLoop lt n l).Pairwise (fun a b => f a ≤ f b)
  | 0, l, h => by omega
  | n + 1, l, h => by
    unfold sortLoop
    have hp := pass_perm lt l.length l
    by_cases hs : (pass lt l.length l).2 = true
    · rw [if_pos hs]
      have h1 := (pass_inv hf l.length l).2 hs
      obtain ⟨h2, h3⟩ := sortLoop_spec hf n (pass lt l.length l).1 (by omega)
      exact ⟨h2.trans hp, h3⟩
    · rw [if_neg hs]
      obtain ⟨h1, h2⟩ := pass_false lt l.length l (Nat.le_refl _) (by simpa using hs)
      rw [h1]
      refine ⟨List.Perm.refl _, h2.imp ?_⟩
      intro a b hab
      by_cases h3 : f b < f a
      · rw [(hf.iff _ _).2 h3] at hab
        exact absurd hab (by simp)
      · omega

theorem nearer_byNumber (key : Dhkey) : ByNumber (nearer key) (fun a => Spec.num (distance a key)) :=
  ⟨fun a b => by simp only [nearer, decide_eq_true_eq]; exact (cmp_numeric _ _).1⟩

theorem sortKd_spec (key : Dhkey) (l : List Dhkey) : (sortKd key l).Perm l ∧
    (sortKd key l).Pairwise (fun a b => Spec.num (distance a key) ≤ Spec.num (distance b key)) :=
  sortLoop_spec (nearer_byNumber key) _ l (by have := inv_le (nearer key) l; omega)

/-! ## Selection sort -/

theorem bubble_perm (lt : α → α → Bool) : ∀ (r : List α) (x : α), ((bubble lt x r).1 :: (bubble lt x r).2).Perm (x :: r)
  | [], x => by simp [bubble]
  | y :: r, x => by
    unfold bubble
    split
    · exact (List.Perm.swap x _ _).trans (List.Perm.cons x (bubble_perm lt r y))
    · exact ((List.Perm.swap y _ _).trans (List.Perm.cons y (bubble_perm lt r x))).trans (List.Perm.swap x y r)

theorem bubble_min {lt : α → α → Bool} {f : α → Nat} (hf : ByNumber lt f) : ∀ (r : List α) (x : α),
    f (bubble lt x r).1 ≤ f x ∧ ∀ e ∈ r, f (bubble lt x r).1 ≤ f e
  | [], x => by simp [bubble]
  | y :: r, x => by
    unfold bubble
    split
    · rename_i h
      have h1 := (hf.iff _ _).1 h
      obtain ⟨h2, h3⟩ := bubble_min hf r y
      refine ⟨by simp only; omega, ?_⟩
      intro e he
      rcases List.mem_cons.1 he with rfl | he
      · exact h2
      · exact h3 e he
    · rename_i h
      obtain ⟨h2, h3⟩ := bubble_min hf r x
      refine ⟨h2, ?_⟩
      intro e he
      rcases List.mem_cons.1 he with rfl | he
      · have : ¬ f e < f x := fun h4 => h ((hf.iff _ _).2 h4)
        simp only
        omega
      · exact h3 e he

theorem bubble_length (lt : α → α → Bool) (r : List α) (x : α) : (bubble lt x r).2.length = r.length := by
  have := (bubble_perm lt r x).length_eq
  simpa using this

theorem selectSort_spec {lt : α → α → Bool} {f : α → Nat} (hf : ByNumber lt f) : ∀ (n : Nat) (l : List α), l.length ≤ n →
    (selectSort lt n l).Perm l ∧ (selectSort lt n l).Pairwise (fun a b => f a ≤ f b)
  | 0, [], _ => by simp [selectSort]
  | 0, x :: r, h => by simp at h
  | n + 1, [], _ => by simp [selectSort]
  | n + 1, x :: r, h => by
    unfold selectSort
    have hl := bubble_length lt r x
    obtain ⟨h1, h2⟩ := selectSort_spec hf n (bubble lt x r).2 (by simp only [List.length_cons] at h; omega)
    refine ⟨(List.Perm.cons _ h1).trans (bubble_perm lt r x), List.pairwise_cons.2 ⟨?_, h2⟩⟩
    intro e he
    have he' : e ∈ x :: r := (bubble_perm lt r x).mem_iff.1 (List.mem_cons_of_mem _ (h1.mem_iff.1 he))
    have hm := bubble_min hf r x
    rcases List.mem_cons.1 he' with rfl | he'
    · exact hm.1
    · exact hm.2 e he'

/-- Common prefix and distance as one number. -/
def rank (key a : Dhkey) : Nat := (64 - index key a) * Spec.ringSize + Spec.num (distance a key)

theorem better_byNumber (key : Dhkey) : ByNumber (better key) (rank key) := by
  constructor
  intro a b
  have ha := (C06_symmetric_and_bounded key a).2.1
  have hb := (C06_symmetric_and_bounded key b).2.1
  have hda := num_lt (distance a key)
  have hdb := num_lt (distance b key)
  unfold better rank
  by_cases h1 : index key a > index key b
  · rw [if_pos h1]
    have h2 : 64 - index key a + 1 ≤ 64 - index key b := by omega
    have h3 := Nat.mul_le_mul_right Spec.ringSize h2
    rw [Nat.add_mul] at h3
    simp only [true_iff]
    omega
  · rw [if_neg h1]
    by_cases h2 : index key b = index key a
    · rw [if_pos h2, h2]
      simp only [decide_eq_true_eq]
      rw [(cmp_numeric _ _).1]
      omega
    · rw [if_neg h2]
      have h3 : 64 - index key b + 1 ≤ 64 - index key a := by omega
      have h4 := Nat.mul_le_mul_right Spec.ringSize h3
      rw [Nat.add_mul] at h4
      simp only [Bool.false_eq_true, false_iff]
      omega

theorem sortCpm_spec (key : Dhkey) (l : List Dhkey) : (sortCpm key l).Perm l ∧
    (sortCpm key l).Pairwise (fun a b => index key b < index key a ∨
      (index key a = index key b ∧ Spec.num (distance a key) ≤ Spec.num (distance b key))) := by
  obtain ⟨h1, h2⟩ := selectSort_spec (better_byNumber key) l.length l (Nat.le_refl _)
  refine ⟨h1, h2.imp ?_⟩
  intro a b hab
  have ha := (C06_symmetric_and_bounded key a).2.1
  have hb := (C06_symmetric_and_bounded key b).2.1
  have hda := num_lt (distance a key)
  have hdb := num_lt (distance b key)
  unfold rank at hab
  rcases Nat.lt_trichotomy (index key a) (index key b) with h | h | h
  · have h3 : 64 - index key b + 1 ≤ 64 - index key a := by omega
    have h4 := Nat.mul_le_mul_right Spec.ringSize h3
    rw [Nat.add_mul] at h4
    omega
  · right
    rw [h] at hab
    exact ⟨h, by omega⟩
  · exact Or.inl h

/-! ## Search -/

theorem closestLoop_spec (key : Dhkey) : ∀ (l : List Dhkey) (m : Dhkey),
    ∃ m', closestLoop key (some (m, distance key m)) l = some (m', distance key m') ∧ (m' = m ∨ m' ∈ l) ∧
      Spec.num (distance key m') ≤ Spec.num (distance key m) ∧ ∀ x ∈ l, Spec.num (distance key m') ≤ Spec.num (distance key x)
  | [], m => ⟨m, rfl, Or.inl rfl, Nat.le_refl _, by simp⟩
  | x :: r, m => by
    unfold closestLoop
    have hc := cmp_numeric (distance key x) (distance key m)
    by_cases h : cmp (distance key x) (distance key m) ≤ 0
    · rw [if_pos h]
      obtain ⟨m', h1, h2, h3, h4⟩ := closestLoop_spec key r x
      have : Spec.num (distance key x) ≤ Spec.num (distance key m) := by
        have := hc.2
        omega
      refine ⟨m', h1, Or.inr ?_, by omega, ?_⟩
      · rcases h2 with rfl | h2
        · exact List.mem_cons_self
        · exact List.mem_cons_of_mem _ h2
      · intro e he
        rcases List.mem_cons.1 he with rfl | he
        · exact h3
        · exact h4 e he
    · rw [if_neg h]
      obtain ⟨m', h1, h2, h3, h4⟩ := closestLoop_spec key r m
      have : Spec.num (distance key m) < Spec.num (distance key x) := by
        have := hc.2
        omega
      refine ⟨m', h1, ?_, h3, ?_⟩
      · rcases h2 with rfl | h2
        · exact Or.inl rfl
        · exact Or.inr (List.mem_cons_of_mem _ h2)
      · intro e he
        rcases List.mem_cons.1 he with rfl | he
        · omega
        · exact h4 e he

theorem closest_spec (key : Dhkey) (l : List Dhkey) :
    (closest key l = none ∧ l = []) ∨
    ∃ m, closest key l = some m ∧ m ∈ l ∧ ∀ x ∈ l, Spec.num (distance key m) ≤ Spec.num (distance key x) := by
  cases l with
  | nil => exact Or.inl ⟨rfl, rfl⟩
  | cons x r =>
    right
    obtain ⟨m, h1, h2, h3, h4⟩ := closestLoop_spec key r x
    refine ⟨m, ?_, ?_, ?_⟩
    · unfold closest closestLoop
      rw [h1]
      rfl
    · rcases h2 with rfl | h2
      · exact List.mem_cons_self
      · exact List.mem_cons_of_mem _ h2
    · intro e he
      rcases List.mem_cons.1 he with rfl | he
      · exact h3
      · exact h4 e he

end Np.Route
