import Verif.Skip.Spec

set_option linter.unusedSimpArgs false
set_option linter.unusedVariables false

/-! # The heap as a list of towers -/
namespace Np.Skip

open _root_.Np.Skip.Spec

variable {α : Type}

/-- A tower: address, item, and the number of levels on which it is linked. -/
structure E (α : Type) where
  id : Nat
  item : Option α
  ht : Nat

/-- The first tower that is higher than `l`. -/
def top (l : Nat) (Q : List (E α)) : Option (E α) := Q.find? fun e => decide (l < e.ht)

/-- Its address. -/
def above (l : Nat) (Q : List (E α)) : Option Nat := (top l Q).map E.id

/-- The node of `e` is right if the towers after it are `Q`. -/
def NodeOk (heap : Nat → Option (Node α)) (e : E α) (Q : List (E α)) : Prop :=
  ∃ n, heap e.id = some n ∧ n.item = e.item ∧ ∀ l, l < e.ht → n.nodes[l]? = some (above l Q)

/-- The heap represents the towers. -/
structure Rep (heap : Nat → Option (Node α)) (D : List (E α)) : Prop where
  nodup : (D.map E.id).Nodup
  ok : ∀ P e Q, D = P ++ e :: Q → NodeOk heap e Q

/-- What the comparison says about a tower; the sentinel counts as smaller. -/
def val (c : α → Int) (e : E α) : Int :=
  match e.item with
  | none => -1
  | some y => c y

theorem top_cons (l : Nat) (e : E α) (Q : List (E α)) :
    top l (e :: Q) = if l < e.ht then some e else top l Q := by
  unfold top
  rw [List.find?_cons]
  by_cases h : l < e.ht <;> simp [h]

theorem top_append_none (l : Nat) (X Q : List (E α)) (h : ∀ e ∈ X, e.ht ≤ l) :
    top l (X ++ Q) = top l Q := by
  induction X with
  | nil => rfl
  | cons a X ih =>
    rw [List.cons_append, top_cons, if_neg (by have := h a (List.mem_cons_self ..); omega)]
    exact ih fun e he => h e (List.mem_cons_of_mem _ he)

theorem top_append_some (l : Nat) (X Q : List (E α)) (h : ∃ e ∈ X, l < e.ht) :
    top l (X ++ Q) = top l X := by
  induction X with
  | nil => simp at h
  | cons a X ih =>
    rw [List.cons_append, top_cons, top_cons]
    by_cases ha : l < a.ht
    · rw [if_pos ha, if_pos ha]
    · rw [if_neg ha, if_neg ha]
      obtain ⟨e, he, hl⟩ := h
      rcases List.mem_cons.1 he with rfl | he
      · exact absurd hl ha
      · exact ih ⟨e, he, hl⟩

theorem top_none {l : Nat} {Q : List (E α)} : top l Q = none ↔ ∀ e ∈ Q, e.ht ≤ l := by
  unfold top
  rw [List.find?_eq_none]
  simp

/-- The first tower that is high enough, and what is before it. -/
theorem top_some {l : Nat} {Q : List (E α)} {e : E α} (h : top l Q = some e) :
    ∃ X Y, Q = X ++ e :: Y ∧ l < e.ht ∧ ∀ f ∈ X, f.ht ≤ l := by
  unfold top at h
  rw [List.find?_eq_some_iff_append] at h
  obtain ⟨hp, X, Y, rfl, hX⟩ := h
  refine ⟨X, Y, rfl, by simpa using hp, fun f hf => ?_⟩
  have := hX f hf
  simp only [Bool.not_eq_eq_eq_not, Bool.not_true, decide_eq_false_iff_not] at this
  omega

theorem top_mem {l : Nat} {Q : List (E α)} {e : E α} (h : top l Q = some e) : e ∈ Q := by
  obtain ⟨X, Y, rfl, _, _⟩ := top_some h
  simp

theorem top_mid (l : Nat) (X Y : List (E α)) (e : E α) (hX : ∀ f ∈ X, f.ht ≤ l) (he : l < e.ht) :
    top l (X ++ e :: Y) = some e := by
  rw [top_append_none l X _ hX, top_cons, if_pos he]

/-- In a list without repeated addresses the address tells the tower. -/
theorem id_inj {D : List (E α)} (hd : (D.map E.id).Nodup) {a b : E α} (ha : a ∈ D) (hb : b ∈ D)
    (h : a.id = b.id) : a = b := by
  induction D with
  | nil => simp at ha
  | cons x D ih =>
    simp only [List.map_cons, List.nodup_cons] at hd
    rcases List.mem_cons.1 ha with ha | ha <;> rcases List.mem_cons.1 hb with hb | hb
    · rw [ha, hb]
    · exact absurd (List.mem_map.2 ⟨b, hb, by rw [← h, ha]⟩) hd.1
    · exact absurd (List.mem_map.2 ⟨a, ha, by rw [h, hb]⟩) hd.1
    · exact ih hd.2 ha hb

theorem above_inj {Q : List (E α)} (hd : (Q.map E.id).Nodup) {l k : Nat}
    (h : above l Q = above k Q) : top l Q = top k Q := by
  unfold above at h
  cases h1 : top l Q with
  | none =>
    cases h2 : top k Q with
    | none => rfl
    | some b => rw [h1, h2] at h; simp at h
  | some a =>
    cases h2 : top k Q with
    | none => rw [h1, h2] at h; simp at h
    | some b =>
      rw [h1, h2] at h
      simp only [Option.map_some, Option.some.injEq] at h
      rw [id_inj hd (top_mem h1) (top_mem h2) h]

theorem nodeAt_ok {heap : Nat → Option (Node α)} {e : E α} {Q : List (E α)} (h : NodeOk heap e Q)
    {l : Nat} (hl : l < e.ht) : nodeAt heap e.id l = some (above l Q) := by
  obtain ⟨n, hn, _, hx⟩ := h
  unfold nodeAt
  rw [hn]
  exact hx l hl

theorem itemAt_ok {heap : Nat → Option (Node α)} {e : E α} {Q : List (E α)} (h : NodeOk heap e Q) :
    itemAt heap e.id = e.item := by
  obtain ⟨n, hn, hi, _⟩ := h
  unfold itemAt
  rw [hn]
  exact hi

theorem nodup_suffix {P Q : List (E α)} {e : E α} (h : ((P ++ e :: Q).map E.id).Nodup) :
    (Q.map E.id).Nodup := by
  rw [List.map_append, List.nodup_append] at h
  have := h.2.1
  rw [List.map_cons, List.nodup_cons] at this
  exact this.2

/-! ## Walking -/

/-- Where a walk on level `l` stops. -/
def Stop (c : α → Int) (l : Nat) (Q : List (E α)) (comp : Int) : Prop :=
  match top l Q with
  | none => True
  | some e => 0 ≤ val c e ∧ comp = val c e

theorem advance_spec (c : α → Int) (heap : Nat → Option (Node α)) (D : List (E α))
    (hr : Rep heap D) (l : Nat) :
    ∀ (fuel : Nat) (A : List (E α)) (u : E α) (B : List (E α)) (comp : Int),
      D = A ++ u :: B → l < u.ht → val c u < 0 → (∀ e ∈ B, e.item.isSome) → B.length < fuel →
      ∃ A' u' B' comp', advance c heap l fuel u.id comp = some (u'.id, comp') ∧
        D = A' ++ u' :: B' ∧ l < u'.ht ∧ val c u' < 0 ∧ (∀ e ∈ B', e ∈ B) ∧
        Stop c l B' comp' ∧ ((u' = u ∧ B' = B ∧ comp' = comp) ∨ comp' < 0 ∨ top l B' ≠ none) := by
  intro fuel
  induction fuel with
  | zero => intro A u B comp _ _ _ _ h; omega
  | succ fuel ih =>
    intro A u B comp hD hl hv hI hlen
    have hu := hr.ok A u B hD
    unfold advance
    rw [nodeAt_ok hu hl]
    cases ht : top l B with
    | none =>
      have : above l B = none := by unfold above; rw [ht]; rfl
      rw [this]
      refine ⟨A, u, B, comp, rfl, hD, hl, hv, fun _ h => h, ?_, Or.inl ⟨rfl, rfl, rfl⟩⟩
      unfold Stop; rw [ht]; trivial
    | some e =>
      have hab : above l B = some e.id := by unfold above; rw [ht]; rfl
      rw [hab]
      obtain ⟨X, Y, hB, hle, hX⟩ := top_some ht
      have hDe : D = (A ++ u :: X) ++ e :: Y := by rw [hD, hB]; simp
      have heok := hr.ok _ e Y hDe
      simp only []
      rw [itemAt_ok heok]
      have hsome := hI e (top_mem ht)
      obtain ⟨y, hy⟩ := Option.isSome_iff_exists.1 hsome
      rw [hy]
      have hval : val c e = c y := by unfold val; rw [hy]
      simp only []
      by_cases hc : c y < 0
      · rw [if_pos hc]
        obtain ⟨A', u', B', comp', h1, h2, h3, h4, h5, h6, h7⟩ :=
          ih (A ++ u :: X) e Y (c y) hDe hle (by rw [hval]; exact hc)
            (fun f hf => hI f (by rw [hB]; simp [hf]))
            (by rw [hB] at hlen; simp at hlen; omega)
        refine ⟨A', u', B', comp', h1, h2, h3, h4, fun f hf => by rw [hB]; simp [h5 f hf], h6, ?_⟩
        rcases h7 with ⟨_, _, rfl⟩ | h7
        · exact Or.inr (Or.inl hc)
        · exact Or.inr h7
      · rw [if_neg hc]
        refine ⟨A, u, B, c y, rfl, hD, hl, hv, fun _ h => h, ?_, Or.inr (Or.inr ?_)⟩
        · unfold Stop; rw [ht]; simp only []; rw [hval]; exact ⟨by omega, rfl⟩
        · rw [ht]; simp

theorem skip_spec (heap : Nat → Option (Node α)) (u : E α) (B : List (E α)) (hu : NodeOk heap u B)
    (hd : (B.map E.id).Nodup) :
    ∀ r, 0 < r → r ≤ u.ht →
      ∃ r', skip heap u.id r = some r' ∧ r' < r ∧ top r' B = top (r - 1) B := by
  intro r
  induction r with
  | zero => intro h; omega
  | succ r ih =>
    intro _ hr
    unfold skip
    by_cases h0 : r = 0
    · subst h0; exact ⟨0, by simp, by omega, rfl⟩
    · rw [if_neg h0, nodeAt_ok hu (by omega : r - 1 < u.ht), nodeAt_ok hu (by omega : r < u.ht)]
      simp only []
      by_cases he : above (r - 1) B = above r B
      · rw [if_pos he]
        obtain ⟨r', h1, h2, h3⟩ := ih (by omega) (by omega)
        refine ⟨r', h1, by omega, ?_⟩
        rw [h3]
        exact above_inj hd he
      · rw [if_neg he]
        exact ⟨r, rfl, by omega, rfl⟩

/-- What the search knows about the last comparison when it is on level `r`. -/
def Known (c : α → Int) (r : Nat) (B : List (E α)) (comp : Int) : Prop :=
  match top r B with
  | none => comp < 0
  | some e => 0 ≤ val c e ∧ comp = val c e

theorem findLoop_spec (c : α → Int) (heap : Nat → Option (Node α)) (D : List (E α))
    (hr : Rep heap D) (fuel : Nat) (hfuel : D.length ≤ fuel) :
    ∀ (k r : Nat) (A : List (E α)) (u : E α) (B : List (E α)) (comp : Int),
      r < k → D = A ++ u :: B → r ≤ u.ht → val c u < 0 → (∀ e ∈ B, e.item.isSome) →
      Known c r B comp →
      ∃ A' u' B' comp', findLoop c heap fuel k r u.id comp = some (u'.id, comp') ∧
        D = A' ++ u' :: B' ∧ val c u' < 0 ∧ (∀ e ∈ B', e.item.isSome) ∧ Known c 0 B' comp' := by
  intro k
  induction k with
  | zero => intro r A u B comp h; omega
  | succ k ih =>
    intro r A u B comp hrk hD hru hv hI hK
    unfold findLoop
    by_cases h0 : r = 0
    · subst h0
      exact ⟨A, u, B, comp, by simp, hD, hv, hI, hK⟩
    · rw [if_neg h0]
      obtain ⟨A', u', B', comp', h1, h2, h3, h4, h5, h6, h7⟩ :=
        advance_spec c heap D hr (r - 1) fuel A u B comp hD (by omega) hv hI
          (by rw [hD] at hfuel; simp at hfuel; omega)
      rw [h1]
      simp only []
      have hnd : (B'.map E.id).Nodup := by have := hr.nodup; rw [h2] at this; exact nodup_suffix this
      obtain ⟨r', g1, g2, g3⟩ := skip_spec heap u' B' (hr.ok _ _ _ h2) hnd r (by omega) (by omega)
      rw [g1]
      simp only []
      refine ih r' A' u' B' comp' (by omega) h2 (by omega) h4 (fun e he => hI e (h5 e he)) ?_
      unfold Known
      rw [g3]
      unfold Stop at h6
      cases ht : top (r - 1) B' with
      | none =>
        simp only []
        rcases h7 with ⟨rfl, rfl, rfl⟩ | h7 | h7
        · -- the level above had nothing either
          unfold Known at hK
          have : top r B' = none := by
            rw [top_none] at ht ⊢
            intro e he
            have := ht e he
            omega
          rw [this] at hK
          exact hK
        · exact h7
        · exact absurd ht h7
      | some e => rw [ht] at h6; exact h6

end Np.Skip
