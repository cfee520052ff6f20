import Verif.Skip.Lemmas2

set_option linter.unusedSimpArgs false
set_option linter.unusedVariables false

/-! # Changing the towers -/
namespace Np.Skip

open _root_.Np.Skip.Spec

variable {α : Type}

theorem split_cases {β : Type} (P : List β) (a : β) (Q : List β) :
    ∀ (P1 : List β) (b : β) (Q1 : List β), P ++ a :: Q = P1 ++ b :: Q1 →
      (∃ R, P1 = P ++ a :: R ∧ Q = R ++ b :: Q1) ∨ (P = P1 ∧ a = b ∧ Q = Q1) ∨
      (∃ R, P = P1 ++ b :: R ∧ Q1 = R ++ a :: Q) := by
  induction P with
  | nil =>
    intro P1 b Q1 h
    cases P1 with
    | nil =>
      simp only [List.nil_append, List.cons.injEq] at h
      exact Or.inr (Or.inl ⟨rfl, h.1, h.2⟩)
    | cons c P1 =>
      simp only [List.nil_append, List.cons_append, List.cons.injEq] at h
      exact Or.inl ⟨P1, by rw [h.1]; rfl, h.2⟩
  | cons p P ih =>
    intro P1 b Q1 h
    cases P1 with
    | nil =>
      simp only [List.nil_append, List.cons_append, List.cons.injEq] at h
      exact Or.inr (Or.inr ⟨P, by rw [h.1]; rfl, h.2.symm⟩)
    | cons c P1 =>
      simp only [List.cons_append, List.cons.injEq] at h
      rcases ih P1 b Q1 h.2 with ⟨R, h1, h2⟩ | ⟨h1, h2, h3⟩ | ⟨R, h1, h2⟩
      · exact Or.inl ⟨R, by rw [h1, h.1]; rfl, h2⟩
      · exact Or.inr (Or.inl ⟨by rw [h1, h.1], h2, h3⟩)
      · exact Or.inr (Or.inr ⟨R, by rw [h1, h.1]; rfl, h2⟩)

theorem NodeOk.congr {heap heap' : Nat → Option (Node α)} {e : E α} {Q Q' : List (E α)}
    (h : NodeOk heap e Q) (hh : heap' e.id = heap e.id)
    (hq : ∀ l, l < e.ht → above l Q' = above l Q) : NodeOk heap' e Q' := by
  obtain ⟨n, h1, h2, h3⟩ := h
  exact ⟨n, by rw [hh]; exact h1, h2, fun l hl => by rw [hq l hl]; exact h3 l hl⟩

theorem above_append_some (l : Nat) (X Q Q' : List (E α)) (h : ∃ e ∈ X, l < e.ht) :
    above l (X ++ Q) = above l (X ++ Q') := by
  unfold above
  rw [top_append_some l X Q h, top_append_some l X Q' h]

/-- Only the height of one tower changes, and only on one level. -/
theorem above_change (l l0 : Nat) (R Q : List (E α)) (e e' : E α) (hid : e'.id = e.id)
    (hht : ∀ l, l ≠ l0 → (l < e.ht ↔ l < e'.ht)) (hl : l ≠ l0) :
    above l (R ++ e' :: Q) = above l (R ++ e :: Q) := by
  induction R with
  | nil =>
    unfold above
    simp only [List.nil_append]
    rw [top_cons, top_cons]
    by_cases h : l < e.ht
    · rw [if_pos h, if_pos ((hht l hl).1 h)]; simp [hid]
    · rw [if_neg h, if_neg (fun hh => h ((hht l hl).2 hh))]
  | cons a R ih =>
    unfold above at *
    simp only [List.cons_append]
    rw [top_cons, top_cons]
    by_cases h : l < a.ht
    · rw [if_pos h, if_pos h]
    · rw [if_neg h, if_neg h]; exact ih

theorem nodup_split {P Q : List (E α)} {e : E α} (h : ((P ++ e :: Q).map E.id).Nodup) :
    (∀ f ∈ P, f.id ≠ e.id) ∧ (∀ f ∈ Q, f.id ≠ e.id) := by
  rw [List.map_append, List.map_cons, List.nodup_append] at h
  refine ⟨fun f hf => ?_, fun f hf he => ?_⟩
  · exact h.2.2 _ (List.mem_map_of_mem hf) _ (List.mem_cons_self ..)
  · exact (List.nodup_cons.1 h.2.1).1 (he ▸ List.mem_map_of_mem hf)

theorem change_ht {heap heap' : Nat → Option (Node α)} {A M Q : List (E α)} {u e e' : E α}
    {l0 : Nat} (hr : Rep heap (A ++ u :: (M ++ e :: Q)))
    (hM : ∀ m ∈ M, m.ht ≤ l0) (hu : l0 < u.ht) (hid : e'.id = e.id)
    (hht : ∀ l, l ≠ l0 → (l < e.ht ↔ l < e'.ht))
    (hsame : ∀ p, p ≠ u.id → p ≠ e.id → heap' p = heap p)
    (hun : ∀ n, heap u.id = some n →
      heap' u.id = some { n with nodes := n.nodes.set l0 (above l0 (M ++ e' :: Q)) })
    (he : NodeOk heap' e' Q) : Rep heap' (A ++ u :: (M ++ e' :: Q)) := by
  have hnd' : ((A ++ u :: (M ++ e' :: Q)).map E.id) = ((A ++ u :: (M ++ e :: Q)).map E.id) := by
    simp [hid]
  have hnd := hr.nodup
  have hDe : A ++ u :: (M ++ e :: Q) = (A ++ u :: M) ++ e :: Q := by simp
  have hDe' : A ++ u :: (M ++ e' :: Q) = (A ++ u :: M) ++ e' :: Q := by simp
  have hu1 := nodup_split hnd
  have he1 := nodup_split (P := A ++ u :: M) (Q := Q) (e := e) (by rw [← hDe]; exact hnd)
  refine ⟨by rw [hnd']; exact hnd, fun P1 f Q1 hs => ?_⟩
  rw [hDe'] at hs
  rcases split_cases (A ++ u :: M) e' Q P1 f Q1 hs with ⟨R, h1, h2⟩ | ⟨_, rfl, rfl⟩ | ⟨R, h1, h2⟩
  · -- behind
    have hf : f ∈ Q := by rw [h2]; simp
    have h0 := hr.ok ((A ++ u :: M) ++ e :: R) f Q1 (by rw [h2]; simp)
    refine h0.congr (hsame _ ?_ ?_) fun l _ => rfl
    · exact hu1.2 f (by simp [hf])
    · exact he1.2 f hf
  · exact he
  · -- before
    have h0 := hr.ok P1 f (R ++ e :: Q) (by rw [hDe, h1]; simp)
    rw [h2]
    have hfe : f.id ≠ e.id := he1.1 f (by rw [h1]; simp)
    rcases split_cases A u M P1 f R h1 with ⟨R', g1, g2⟩ | ⟨_, rfl, rfl⟩ | ⟨R', g1, g2⟩
    · -- in M
      have hfM : f ∈ M := by rw [g2]; simp
      refine h0.congr (hsame _ ?_ hfe) fun l hl => ?_
      · exact hu1.2 f (by simp [hfM])
      · exact above_change l l0 R Q e e' hid hht (by have := hM f hfM; omega)
    · -- the node before
      obtain ⟨n, k1, k2, k3⟩ := h0
      refine ⟨_, hun n k1, k2, fun l hl => ?_⟩
      by_cases hll : l = l0
      · subst hll
        have := k3 l hl
        have hlen : l < n.nodes.length := (List.getElem?_eq_some_iff.1 this).1
        simp [hlen]
      · simp only []
        rw [List.getElem?_set_ne (fun h => hll h.symm), k3 l hl,
          above_change l l0 M Q e e' hid hht hll]
    · -- before that
      have hfA : f ∈ A := by rw [g1]; simp
      refine h0.congr (hsame _ (hu1.1 f hfA) hfe) fun l hl => ?_
      by_cases hll : l = l0
      · subst hll
        exact above_append_some l R _ _ ⟨u, by rw [g2]; simp, hu⟩
      · exact above_change l l0 R Q e e' hid hht hll

/-- A tower that is not linked anywhere can be put in … -/
theorem insert_zero {heap heap' : Nat → Option (Node α)} {P Q : List (E α)} {t : E α}
    (hr : Rep heap (P ++ Q)) (h0 : t.ht = 0) (hid : ∀ e ∈ P ++ Q, e.id ≠ t.id)
    (hsame : ∀ p, p ≠ t.id → heap' p = heap p)
    (ht : ∃ n, heap' t.id = some n ∧ n.item = t.item) : Rep heap' (P ++ t :: Q) := by
  have hab : ∀ l (R S : List (E α)), above l (R ++ t :: S) = above l (R ++ S) := by
    intro l R S
    induction R with
    | nil => unfold above; simp only [List.nil_append]; rw [top_cons, if_neg (by omega)]
    | cons a R ih =>
      unfold above at *
      simp only [List.cons_append]
      rw [top_cons, top_cons]
      by_cases h : l < a.ht
      · rw [if_pos h, if_pos h]
      · rw [if_neg h, if_neg h]; exact ih
  refine ⟨?_, fun P1 f Q1 hs => ?_⟩
  · have h1 := hr.nodup
    rw [List.map_append] at h1 ⊢
    rw [List.nodup_append] at h1 ⊢
    refine ⟨h1.1, ?_, ?_⟩
    · rw [List.map_cons, List.nodup_cons]
      refine ⟨fun hm => ?_, h1.2.1⟩
      obtain ⟨e, he, hh⟩ := List.mem_map.1 hm
      exact hid e (by simp [he]) hh
    · intro a ha b hb hab'
      rw [List.map_cons] at hb
      rcases List.mem_cons.1 hb with rfl | hb
      · obtain ⟨e, he, hh⟩ := List.mem_map.1 ha
        exact hid e (by simp [he]) (by rw [hh, hab'])
      · exact h1.2.2 a ha b hb hab'
  · rcases split_cases P t Q P1 f Q1 hs with ⟨R, h1, h2⟩ | ⟨_, rfl, rfl⟩ | ⟨R, h1, h2⟩
    · have := hr.ok (P ++ R) f Q1 (by rw [h2]; simp)
      exact this.congr (hsame _ (hid f (by rw [h2]; simp))) fun l _ => rfl
    · obtain ⟨n, k1, k2⟩ := ht
      exact ⟨n, k1, k2, fun l hl => by omega⟩
    · have := hr.ok P1 f (R ++ Q) (by rw [h1]; simp)
      rw [h2]
      exact this.congr (hsame _ (hid f (by rw [h1]; simp))) fun l _ => hab l R Q

/-- … and taken out. -/
theorem drop_zero {heap heap' : Nat → Option (Node α)} {P Q : List (E α)} {t : E α}
    (hr : Rep heap (P ++ t :: Q)) (h0 : t.ht = 0)
    (hsame : ∀ p, p ≠ t.id → heap' p = heap p) : Rep heap' (P ++ Q) := by
  have hab : ∀ l (R S : List (E α)), above l (R ++ S) = above l (R ++ t :: S) := by
    intro l R S
    induction R with
    | nil => unfold above; simp only [List.nil_append]; rw [top_cons, if_neg (by omega)]
    | cons a R ih =>
      unfold above at *
      simp only [List.cons_append]
      rw [top_cons, top_cons]
      by_cases h : l < a.ht
      · rw [if_pos h, if_pos h]
      · rw [if_neg h, if_neg h]; exact ih
  have hid := nodup_split hr.nodup
  refine ⟨?_, fun P1 f Q1 hs => ?_⟩
  · have h1 := hr.nodup
    rw [List.map_append] at h1 ⊢
    rw [List.nodup_append] at h1 ⊢
    rw [List.map_cons, List.nodup_cons] at h1
    exact ⟨h1.1, h1.2.1.2, fun a ha b hb => h1.2.2 a ha b (List.mem_cons_of_mem _ hb)⟩
  · have hf : f ∈ P ∨ f ∈ Q := by
      have : f ∈ P ++ Q := by rw [hs]; simp
      exact List.mem_append.1 this
    have hfid : f.id ≠ t.id := hf.elim (hid.1 f) (hid.2 f)
    rcases List.append_eq_append_iff.1 hs with ⟨R, h1, h2⟩ | ⟨R, h1, h2⟩
    · -- f in Q
      have := hr.ok (P ++ t :: R) f Q1 (by rw [h2]; simp)
      exact this.congr (hsame _ hfid) fun l _ => rfl
    · cases R with
      | nil =>
        simp only [List.append_nil, List.nil_append] at h1 h2
        have := hr.ok (P ++ [t]) f Q1 (by rw [← h2]; simp)
        exact this.congr (hsame _ hfid) fun l _ => rfl
      | cons g R =>
        simp only [List.cons_append, List.cons.injEq] at h2
        obtain ⟨rfl, h2⟩ := h2
        have := hr.ok P1 f (R ++ t :: Q) (by rw [h1]; simp)
        rw [h2]
        exact this.congr (hsame _ hfid) fun l _ => hab l R Q

/-! ## Writing a pointer -/

/-- The lengths of the arrays. -/
def lens (heap : Nat → Option (Node α)) (p : Nat) : Option Nat := (heap p).map fun n => n.nodes.length

theorem setNode_spec {heap : Nat → Option (Node α)} {u l : Nat} {n : Node α} (hn : heap u = some n)
    (hl : l < n.nodes.length) (v : Option Nat) :
    ∃ heap', setNode heap u l v = some heap' ∧ heap' u = some { n with nodes := n.nodes.set l v } ∧
      (∀ p, p ≠ u → heap' p = heap p) ∧ ∀ p, lens heap' p = lens heap p := by
  refine ⟨_, by unfold setNode; rw [hn]; simp only []; rw [if_pos hl], by simp, fun p hp => by simp [hp],
    fun p => ?_⟩
  unfold lens
  by_cases hp : p = u
  · subst hp; simp [hn]
  · simp [hp]

end Np.Skip
