import Verif.Skip.Lemmas3

set_option linter.unusedSimpArgs false
set_option linter.unusedVariables false

/-! # Removing -/
namespace Np.Skip

open _root_.Np.Skip.Spec

variable {α : Type}

/-- `t` with another height. -/
def E.at (t : E α) (h : Nat) : E α := { t with ht := h }

@[simp] theorem E.at_id (t : E α) (h : Nat) : (t.at h).id = t.id := rfl
@[simp] theorem E.at_item (t : E α) (h : Nat) : (t.at h).item = t.item := rfl
@[simp] theorem E.at_ht (t : E α) (h : Nat) : (t.at h).ht = h := rfl
@[simp] theorem val_at (c : α → Int) (t : E α) (h : Nat) : val c (t.at h) = val c t := rfl

theorem top_before {l : Nat} {M Q : List (E α)} {e : E α} (h : l < e.ht) :
    ∃ f, top l (M ++ e :: Q) = some f ∧ (f ∈ M ∨ f = e) := by
  induction M with
  | nil => exact ⟨e, by simp only [List.nil_append]; rw [top_cons, if_pos h], Or.inr rfl⟩
  | cons a M ih =>
    rw [List.cons_append, top_cons]
    by_cases ha : l < a.ht
    · rw [if_pos ha]; exact ⟨a, rfl, Or.inl (List.mem_cons_self ..)⟩
    · rw [if_neg ha]
      obtain ⟨f, h1, h2⟩ := ih
      exact ⟨f, h1, h2.elim (fun h => Or.inl (List.mem_cons_of_mem _ h)) Or.inr⟩

/-- The place in the list is before the target. -/
theorem before_target {c : α → Int} {P R A B : List (E α)} {t u : E α}
    (h : P ++ t :: R = A ++ u :: B) (ht : val c t = 0) (hR : ∀ e ∈ R, 0 < val c e)
    (hu : val c u < 0) : ∃ M, P = A ++ u :: M ∧ B = M ++ t :: R := by
  rcases split_cases P t R A u B h with ⟨S, _, h2⟩ | ⟨_, rfl, _⟩ | ⟨S, h1, h2⟩
  · have := hR u (by rw [h2]; simp); omega
  · omega
  · exact ⟨S, h1, h2⟩

/-- What holds while the target is unlinked level by level. -/
structure Unl (heap0 : Nat → Option (Node α)) (P : List (E α)) (t : E α) (R : List (E α)) (r : Nat)
    (heap : Nat → Option (Node α)) (h : Nat) (del : Option Nat) : Prop where
  rep : Rep heap (P ++ t.at h :: R)
  le : h ≤ r
  del : (h < t.ht ∧ del = some t.id) ∨ (h = t.ht ∧ del = none)
  lens : ∀ p, lens heap p = lens heap0 p

theorem unlink_spec (c : α → Int) (heap0 : Nat → Option (Node α)) (P R : List (E α)) (t : E α)
    (hP : ∀ e ∈ P, val c e < 0) (hR : ∀ e ∈ R, 0 < val c e) (ht : val c t = 0) (u : E α)
    (A M : List (E α)) (hA : P = A ++ u :: M) (comp : Int) :
    ∀ (r : Nat) (heap : Nat → Option (Node α)) (h : Nat) (del : Option Nat),
      Unl heap0 P t R (r + 1) heap h del → h ≤ t.ht → r < u.ht → Stop c r (M ++ t.at h :: R) comp →
      ∃ heap' r' h' del', unlink u.id comp (r + 1) heap del = some (heap', r', del') ∧ r' ≤ r ∧
        Unl heap0 P t R r' heap' h' del' ∧ h' ≤ t.ht := by
  intro r
  induction r with
  | zero =>
    intro heap h del hi hht hu hs
    have hD : P ++ t.at h :: R = A ++ u :: (M ++ t.at h :: R) := by rw [hA]; simp
    have huok := hi.rep.ok A u _ hD
    have hMv : ∀ m ∈ M, val c m < 0 := fun m hm => hP m (by rw [hA]; simp [hm])
    unfold unlink
    by_cases hh : h = 0
    · -- nothing to cut here
      have hcut : cut heap u.id 0 comp del = some (heap, del) := by
        unfold cut
        rw [nodeAt_ok huok hu]
        cases htop : top 0 (M ++ t.at h :: R) with
        | none => unfold above; rw [htop]; rfl
        | some e =>
          unfold above; rw [htop]
          simp only [Option.map_some]
          unfold Stop at hs
          rw [htop] at hs
          simp only [] at hs
          obtain ⟨X, Y, hX, hle, _⟩ := top_some htop
          have hem : e ∈ M ++ t.at h :: R := by rw [hX]; simp
          have : comp ≠ 0 := by
            rcases List.mem_append.1 hem with hm | hm
            · have := hMv e hm; omega
            · rcases List.mem_cons.1 hm with rfl | hm
              · simp at hle; omega
              · have := hR e hm; omega
          rw [if_neg this]
      rw [hcut]
      exact ⟨heap, 0, h, del, by simp, Nat.le_refl _, ⟨hi.rep, by omega, hi.del, hi.lens⟩, hht⟩
    · have h1 : h = 1 := by have := hi.le; omega
      subst h1
      -- the target is next
      obtain ⟨f, hf, hfm⟩ := top_before (l := 0) (M := M) (Q := R) (e := t.at 1) (by simp)
      unfold Stop at hs
      rw [hf] at hs
      simp only [] at hs
      have hft : f = t.at 1 := by
        rcases hfm with hm | hm
        · have := hMv f hm; omega
        · exact hm
      subst hft
      have hc0 : comp = 0 := by rw [hs.2]; simpa using ht
      have hM0 : ∀ m ∈ M, m.ht ≤ 0 := by
        intro m hm
        by_cases hlt : 0 < m.ht
        · exfalso
          obtain ⟨M1, M2, hM12⟩ := List.append_of_mem hm
          have : M ++ t.at 1 :: R = M1 ++ m :: (M2 ++ t.at 1 :: R) := by rw [hM12]; simp
          rw [this] at hf
          obtain ⟨g, hg, hgm⟩ := top_before (l := 0) (M := M1) (Q := M2 ++ t.at 1 :: R) (e := m) hlt
          rw [hg] at hf
          simp only [Option.some.injEq] at hf
          have : val c g < 0 := hMv g (by rw [hM12]; rcases hgm with hgm | hgm <;> simp [hgm])
          rw [hf] at this
          simp [ht] at this
        · omega
      obtain ⟨nu, hu1, hu2, hu3⟩ := huok
      have hul : 0 < nu.nodes.length := (List.getElem?_eq_some_iff.1 (hu3 0 hu)).1
      obtain ⟨heap', g1, g2, g3, g4⟩ := setNode_spec hu1 hul (above 0 R)
      have htok := hi.rep.ok P (t.at 1) R rfl
      have hcut : cut heap u.id 0 comp del = some (heap', some t.id) := by
        unfold cut
        rw [nodeAt_ok ⟨nu, hu1, hu2, hu3⟩ hu]
        unfold above; rw [hf]
        simp only [Option.map_some]
        rw [if_pos hc0, nodeAt_ok htok (by simp : 0 < (t.at 1).ht)]
        simp only []
        rw [show ((t.at 1).id) = t.id from rfl]
        rw [g1]; rfl
      rw [hcut]
      have hne : t.id ≠ u.id := by
        have h1 := hi.rep.nodup
        rw [hD] at h1
        exact (nodup_split h1).2 (t.at 1) (by simp)
      have hrep : Rep heap' (A ++ u :: (M ++ t.at 0 :: R)) := by
        refine change_ht (l0 := 0) (e := t.at 1) (e' := t.at 0) (heap := heap)
          (by rw [← hD]; exact hi.rep) hM0 hu rfl (fun l hl => by simp; omega) (fun p h1 h2 => g3 p h1) ?_ ?_
        · intro n hn
          rw [hu1] at hn
          cases hn
          rw [g2]
          have : above 0 (M ++ t.at 0 :: R) = above 0 R := by
            unfold above
            rw [top_append_none _ _ _ hM0, top_cons, if_neg (by simp)]
          rw [this]
        · obtain ⟨nt, k1, k2, k3⟩ := htok
          exact ⟨nt, by rw [← k1]; exact g3 _ (by simpa using hne), k2, fun l hl => by simp at hl⟩
      refine ⟨heap', 0, 0, some t.id, by simp, Nat.le_refl _, ⟨?_, Nat.le_refl _, Or.inl ⟨?_, rfl⟩, ?_⟩, by omega⟩
      · rw [hA]; simpa using hrep
      · omega
      · intro p; rw [g4, hi.lens]
  | succ r ih =>
    intro heap h del hi hht hu hs
    have hD : P ++ t.at h :: R = A ++ u :: (M ++ t.at h :: R) := by rw [hA]; simp
    have huok := hi.rep.ok A u _ hD
    have hMv : ∀ m ∈ M, val c m < 0 := fun m hm => hP m (by rw [hA]; simp [hm])
    unfold unlink
    by_cases hh : h ≤ r + 1
    · have hcut : cut heap u.id (r + 1) comp del = some (heap, del) := by
        unfold cut
        rw [nodeAt_ok huok hu]
        cases htop : top (r + 1) (M ++ t.at h :: R) with
        | none => unfold above; rw [htop]; rfl
        | some e =>
          unfold above; rw [htop]
          simp only [Option.map_some]
          unfold Stop at hs
          rw [htop] at hs
          simp only [] at hs
          obtain ⟨X, Y, hX, hle, _⟩ := top_some htop
          have hem : e ∈ M ++ t.at h :: R := by rw [hX]; simp
          have : comp ≠ 0 := by
            rcases List.mem_append.1 hem with hm | hm
            · have := hMv e hm; omega
            · rcases List.mem_cons.1 hm with rfl | hm
              · simp at hle; omega
              · have := hR e hm; omega
          rw [if_neg this]
      rw [hcut]
      simp only []
      rw [if_neg (by omega), nodeAt_ok huok (by omega : r + 1 - 1 < u.ht), nodeAt_ok huok hu]
      simp only []
      by_cases heq : above (r + 1 - 1) (M ++ t.at h :: R) = above (r + 1) (M ++ t.at h :: R)
      · rw [if_pos heq]
        have hnd : ((M ++ t.at h :: R).map E.id).Nodup := by
          have := hi.rep.nodup; rw [hD] at this; exact nodup_suffix this
        have htt := above_inj hnd heq
        obtain ⟨heap', r', h', del', k1, k2, k3, k4⟩ := ih heap h del ⟨hi.rep, hh, hi.del, hi.lens⟩ hht
          (by omega) (by unfold Stop at hs ⊢; rw [show r + 1 - 1 = r from rfl] at htt; rw [htt]; exact hs)
        exact ⟨heap', r', h', del', k1, by omega, k3, k4⟩
      · rw [if_neg heq]
        exact ⟨heap, r + 1, h, del, rfl, Nat.le_refl _, ⟨hi.rep, hh, hi.del, hi.lens⟩, hht⟩
    · have h1 : h = r + 2 := by have := hi.le; omega
      subst h1
      obtain ⟨f, hf, hfm⟩ := top_before (l := r + 1) (M := M) (Q := R) (e := t.at (r + 2)) (by simp)
      unfold Stop at hs
      rw [hf] at hs
      simp only [] at hs
      have hft : f = t.at (r + 2) := by
        rcases hfm with hm | hm
        · have := hMv f hm; omega
        · exact hm
      subst hft
      have hc0 : comp = 0 := by rw [hs.2]; simpa using ht
      have hM0 : ∀ m ∈ M, m.ht ≤ r + 1 := by
        intro m hm
        by_cases hlt : r + 1 < m.ht
        · exfalso
          obtain ⟨M1, M2, hM12⟩ := List.append_of_mem hm
          have : M ++ t.at (r + 2) :: R = M1 ++ m :: (M2 ++ t.at (r + 2) :: R) := by rw [hM12]; simp
          rw [this] at hf
          obtain ⟨g, hg, hgm⟩ := top_before (l := r + 1) (M := M1) (Q := M2 ++ t.at (r + 2) :: R) (e := m) hlt
          rw [hg] at hf
          simp only [Option.some.injEq] at hf
          have : val c g < 0 := hMv g (by rw [hM12]; rcases hgm with hgm | hgm <;> simp [hgm])
          rw [hf] at this
          simp [ht] at this
        · omega
      obtain ⟨nu, hu1, hu2, hu3⟩ := huok
      have hul : r + 1 < nu.nodes.length := (List.getElem?_eq_some_iff.1 (hu3 _ hu)).1
      obtain ⟨heap', g1, g2, g3, g4⟩ := setNode_spec hu1 hul (above (r + 1) R)
      have htok := hi.rep.ok P (t.at (r + 2)) R rfl
      have hcut : cut heap u.id (r + 1) comp del = some (heap', some t.id) := by
        unfold cut
        rw [nodeAt_ok ⟨nu, hu1, hu2, hu3⟩ hu]
        unfold above; rw [hf]
        simp only [Option.map_some]
        rw [if_pos hc0, nodeAt_ok htok (by simp : r + 1 < (t.at (r + 2)).ht)]
        simp only []
        rw [show ((t.at (r + 2)).id) = t.id from rfl]
        rw [g1]; rfl
      rw [hcut]
      simp only []
      have hne : t.id ≠ u.id := by
        have h1 := hi.rep.nodup
        rw [hD] at h1
        exact (nodup_split h1).2 (t.at (r + 2)) (by simp)
      have hrep : Rep heap' (A ++ u :: (M ++ t.at (r + 1) :: R)) := by
        refine change_ht (l0 := r + 1) (e := t.at (r + 2)) (e' := t.at (r + 1)) (heap := heap)
          (by rw [← hD]; exact hi.rep) hM0 hu rfl (fun l hl => by simp; omega) (fun p h1 h2 => g3 p h1) ?_ ?_
        · intro n hn
          rw [hu1] at hn
          cases hn
          rw [g2]
          have : above (r + 1) (M ++ t.at (r + 1) :: R) = above (r + 1) R := by
            unfold above
            rw [top_append_none _ _ _ hM0, top_cons, if_neg (by simp)]
          rw [this]
        · obtain ⟨nt, k1, k2, k3⟩ := htok
          exact ⟨nt, by rw [← k1]; exact g3 _ (by simpa using hne), k2,
            fun l hl => k3 l (by simp at hl ⊢; omega)⟩
      have huok' := hrep.ok A u _ rfl
      rw [if_neg (by omega), nodeAt_ok huok' (by omega : r + 1 - 1 < u.ht), nodeAt_ok huok' hu]
      simp only []
      have hneq : above (r + 1 - 1) (M ++ t.at (r + 1) :: R) ≠ above (r + 1) (M ++ t.at (r + 1) :: R) := by
        intro heq
        have hnd : ((M ++ t.at (r + 1) :: R).map E.id).Nodup := nodup_suffix hrep.nodup
        have htt := above_inj hnd heq
        obtain ⟨g, hg, hgm⟩ := top_before (l := r + 1 - 1) (M := M) (Q := R) (e := t.at (r + 1)) (by simp)
        have hgv : val c g ≤ 0 := by
          rcases hgm with hm | rfl
          · have := hMv g hm; omega
          · simp [ht]
        rw [hg, top_append_none _ _ _ hM0, top_cons, if_neg (by simp)] at htt
        have := hR g (top_mem htt.symm)
        omega
      rw [if_neg hneq]
      refine ⟨heap', r + 1, r + 1, some t.id, rfl, Nat.le_refl _, ⟨?_, Nat.le_refl _, Or.inl ⟨?_, rfl⟩, ?_⟩, by omega⟩
      · rw [hA]; simpa using hrep
      · omega
      · intro p; rw [g4, hi.lens]

theorem removeLoop_spec (c : α → Int) (heap0 : Nat → Option (Node α)) (P R : List (E α)) (t : E α)
    (hP : ∀ e ∈ P, val c e < 0) (hR : ∀ e ∈ R, 0 < val c e) (ht : val c t = 0)
    (hti : t.item.isSome) (hRi : ∀ e ∈ R, e.item.isSome) (fuel : Nat)
    (hfuel : P.length + R.length < fuel) :
    ∀ (k r : Nat) (A M : List (E α)) (u : E α) (comp : Int) (heap : Nat → Option (Node α)) (h : Nat)
      (del : Option Nat),
      r < k → P = A ++ u :: M → (∀ e ∈ M, e.item.isSome) → r ≤ u.ht →
      Unl heap0 P t R r heap h del → h ≤ t.ht →
      ∃ heap' del', removeLoop c fuel k r u.id comp heap del = some (heap', del') ∧
        Unl heap0 P t R 0 heap' 0 del' := by
  intro k
  induction k with
  | zero => intro r A M u comp heap h del hk; omega
  | succ k ih =>
    intro r A M u comp heap h del hrk hPu hMi hru hi hht
    unfold removeLoop
    by_cases h0 : r = 0
    · subst h0
      have : h = 0 := by have := hi.le; omega
      subst this
      exact ⟨heap, del, by simp, hi⟩
    · rw [if_neg h0]
      have hD : P ++ t.at h :: R = A ++ u :: (M ++ t.at h :: R) := by rw [hPu]; simp
      obtain ⟨A', u', B', comp', h1, h2, h3, h4, h5, h6, h7⟩ :=
        advance_spec c heap _ hi.rep (r - 1) fuel A u (M ++ t.at h :: R) comp hD (by omega)
          (hP u (by rw [hPu]; simp))
          (by
            intro e he
            rcases List.mem_append.1 he with hm | hm
            · exact hMi e hm
            · rcases List.mem_cons.1 hm with rfl | hm
              · exact hti
              · exact hRi e hm)
          (by rw [hPu] at hfuel; simp at hfuel ⊢; omega)
      rw [h1]
      simp only []
      obtain ⟨M', hPu', hB'⟩ := before_target h2 (by simpa using ht) hR h4
      subst hB'
      obtain ⟨r0, rfl⟩ : ∃ r0, r = r0 + 1 := ⟨r - 1, by omega⟩
      obtain ⟨heap', r', h', del', k1, k2, k3, k4⟩ :=
        unlink_spec c heap0 P R t hP hR ht u' A' M' hPu' comp' r0 heap h del hi hht h3 h6
      rw [k1]
      simp only []
      refine ih r' A' M' u' comp' heap' h' del' (by omega) hPu' ?_ (by simp at h3; omega) k3 k4
      intro e he
      have hmem := h5 e (by simp [he])
      rcases List.mem_append.1 hmem with hm | hm
      · exact hMi e hm
      · have hev : val c e < 0 := hP e (by rw [hPu']; simp [he])
        rcases List.mem_cons.1 hm with rfl | hm
        · exact hti
        · exact hRi e hm

/-- If no item compares as equal, nothing is cut. -/
theorem unlink_none (c : α → Int) (heap : Nat → Option (Node α)) (u : E α) (B : List (E α))
    (hu : NodeOk heap u B) (hd : (B.map E.id).Nodup) (hne : ∀ e ∈ B, val c e ≠ 0) (comp : Int) :
    ∀ r del, r < u.ht → Stop c r B comp →
      ∃ r', unlink u.id comp (r + 1) heap del = some (heap, r', del) ∧ r' ≤ r := by
  intro r
  induction r with
  | zero =>
    intro del hr hs
    have hcut : cut heap u.id 0 comp del = some (heap, del) := by
      unfold cut
      rw [nodeAt_ok hu hr]
      cases htop : top 0 B with
      | none => unfold above; rw [htop]; rfl
      | some e =>
        unfold above; rw [htop]
        simp only [Option.map_some]
        unfold Stop at hs
        rw [htop] at hs
        simp only [] at hs
        rw [if_neg (by have := hne e (top_mem htop); omega)]
    unfold unlink
    rw [hcut]
    exact ⟨0, by simp, Nat.le_refl _⟩
  | succ r ih =>
    intro del hr hs
    have hcut : cut heap u.id (r + 1) comp del = some (heap, del) := by
      unfold cut
      rw [nodeAt_ok hu hr]
      cases htop : top (r + 1) B with
      | none => unfold above; rw [htop]; rfl
      | some e =>
        unfold above; rw [htop]
        simp only [Option.map_some]
        unfold Stop at hs
        rw [htop] at hs
        simp only [] at hs
        rw [if_neg (by have := hne e (top_mem htop); omega)]
    unfold unlink
    rw [hcut]
    simp only []
    rw [if_neg (by omega), nodeAt_ok hu (by omega : r + 1 - 1 < u.ht), nodeAt_ok hu hr]
    simp only []
    by_cases heq : above (r + 1 - 1) B = above (r + 1) B
    · rw [if_pos heq]
      have htt := above_inj hd heq
      obtain ⟨r', k1, k2⟩ := ih del (by omega)
        (by unfold Stop at hs ⊢; rw [show r + 1 - 1 = r from rfl] at htt; rw [htt]; exact hs)
      exact ⟨r', k1, by omega⟩
    · rw [if_neg heq]
      exact ⟨r + 1, rfl, Nat.le_refl _⟩

theorem removeLoop_none (c : α → Int) (heap : Nat → Option (Node α)) (D : List (E α))
    (hr : Rep heap D) (hne : ∀ e ∈ D, val c e ≠ 0) (fuel : Nat) (hfuel : D.length ≤ fuel) :
    ∀ (k r : Nat) (A : List (E α)) (u : E α) (B : List (E α)) (comp : Int) (del : Option Nat),
      r < k → D = A ++ u :: B → r ≤ u.ht → val c u < 0 → (∀ e ∈ B, e.item.isSome) →
      removeLoop c fuel k r u.id comp heap del = some (heap, del) := by
  intro k
  induction k with
  | zero => intro r A u B comp del h; omega
  | succ k ih =>
    intro r A u B comp del hrk hD hru hv hI
    unfold removeLoop
    by_cases h0 : r = 0
    · subst h0; simp
    · rw [if_neg h0]
      obtain ⟨A', u', B', comp', h1, h2, h3, h4, h5, h6, h7⟩ :=
        advance_spec c heap D hr (r - 1) fuel A u B comp hD (by omega) hv hI
          (by rw [hD] at hfuel; simp at hfuel; omega)
      rw [h1]
      simp only []
      have hnd : (B'.map E.id).Nodup := by have := hr.nodup; rw [h2] at this; exact nodup_suffix this
      obtain ⟨r0, rfl⟩ : ∃ r0, r = r0 + 1 := ⟨r - 1, by omega⟩
      obtain ⟨r', g1, g2⟩ := unlink_none c heap u' B' (hr.ok _ _ _ h2) hnd
        (fun e he => hne e (by rw [h2]; simp [he])) comp' r0 del h3 h6
      rw [g1]
      simp only []
      exact ih r' A' u' B' comp' del (by omega) h2 (by simp at h3; omega) h4 fun e he => hI e (h5 e he)

/-- The items are strictly ordered, so an item cuts them into smaller ones, at most one equal one,
and larger ones. -/
theorem cut_items {cmp : α → α → Int} (ho : Order cmp) {C : List (E α)}
    (hs : (itemsOf C).Pairwise fun a b => cmp a b < 0) (hi : ∀ e ∈ C, e.item.isSome) (x : α)
    {e : E α} (he : e ∈ C) (hv : val (fun y => cmp y x) e = 0) :
    ∃ L R, C = L ++ e :: R ∧ (∀ f ∈ L, val (fun y => cmp y x) f < 0) ∧
      ∀ f ∈ R, 0 < val (fun y => cmp y x) f := by
  obtain ⟨L, R, rfl⟩ := List.append_of_mem he
  obtain ⟨z, hz⟩ := Option.isSome_iff_exists.1 (hi e (by simp))
  have hp : (itemsOf L ++ (z :: itemsOf R)).Pairwise fun a b => cmp a b < 0 := by
    have : itemsOf (L ++ e :: R) = itemsOf L ++ (z :: itemsOf R) := by simp [itemsOf, hz]
    rw [← this]; exact hs
  have hzx : cmp z x = 0 := by unfold val at hv; rw [hz] at hv; exact hv
  refine ⟨L, R, rfl, fun f hf => ?_, fun f hf => ?_⟩
  · obtain ⟨y, hy⟩ := Option.isSome_iff_exists.1 (hi f (by simp [hf]))
    have := (List.pairwise_append.1 hp).2.2 y (mem_itemsOf.2 ⟨f, hf, hy⟩) z (List.mem_cons_self ..)
    unfold val; rw [hy]
    exact order_lt ho this (by omega)
  · obtain ⟨y, hy⟩ := Option.isSome_iff_exists.1 (hi f (by simp [hf]))
    have := (List.pairwise_cons.1 (List.pairwise_append.1 hp).2.1).1 y (mem_itemsOf.2 ⟨f, hf, hy⟩)
    unfold val; rw [hy]
    simp only []
    rcases Int.lt_or_le 0 (cmp y x) with h1 | h1
    · exact h1
    · have := order_lt ho this h1; omega

theorem remove_good {cmp : α → α → Int} (ho : Order cmp) {s : Sl α} {C : List (E α)} {H : Nat}
    (h : Good cmp s C H) (x : α) :
    ∃ b s' C', remove cmp s x = some (b, s') ∧ Good cmp s' C' H ∧
      (b = true ↔ ∃ y ∈ itemsOf C, cmp y x = 0) ∧
      itemsOf C' = (itemsOf C).filter fun y => decide (cmp y x ≠ 0) := by
  unfold remove
  rw [height_good h]
  by_cases hex : ∃ y ∈ itemsOf C, cmp y x = 0
  · obtain ⟨y, hy, hyx⟩ := hex
    obtain ⟨e, heC, hey⟩ := mem_itemsOf.1 hy
    have hve : val (fun y => cmp y x) e = 0 := by unfold val; rw [hey]; exact hyx
    obtain ⟨L, R, hC, hL, hR⟩ := cut_items ho h.sorted h.items x heC hve
    have hP : ∀ f ∈ rootE H :: L, val (fun y => cmp y x) f < 0 := by
      intro f hf
      rcases List.mem_cons.1 hf with rfl | hf
      · simp [val, rootE]
      · exact hL f hf
    have hat : e.at e.ht = e := rfl
    obtain ⟨heap', del', k1, k2⟩ :=
      removeLoop_spec (fun y => cmp y x) s.heap (rootE H :: L) R e hP hR hve (by rw [hey]; rfl)
        (fun f hf => h.items f (by rw [hC]; simp [hf])) (s.fresh + 1)
        (by have := h.bound; rw [hC] at this; simp at this ⊢; omega)
        (H + 1) H [] L (rootE H) (-1) s.heap e.ht none (by omega) rfl
        (fun f hf => h.items f (by rw [hC]; simp [hf])) (Nat.le_refl _)
        ⟨by rw [hat]; have := h.rep; rw [hC] at this; exact this, h.low e heC, Or.inr ⟨rfl, rfl⟩,
          fun _ => rfl⟩ (Nat.le_refl _)
    have hdel : del' = some e.id := by
      rcases k2.del with ⟨_, hd⟩ | ⟨h0, _⟩
      · exact hd
      · have := h.pos e heC; omega
    subst hdel
    rw [show (0 : Nat) = (rootE H : E α).id from rfl] at *
    rw [k1]
    simp only []
    obtain ⟨n, hn, _⟩ := k2.rep.ok (rootE H :: L) (e.at 0) R rfl
    rw [show (e.at 0).id = e.id from rfl] at hn
    rw [hn]
    simp only []
    have hne0 : e.id ≠ 0 := by
      have := h.rep.nodup
      rw [hC] at this
      simp only [List.map_cons, List.nodup_cons] at this
      intro h0
      exact this.1 (by rw [show (rootE H : E α).id = 0 from rfl, ← h0]; exact List.mem_map_of_mem (by simp))
    have hsub : ∀ f ∈ L ++ R, f ∈ C := by
      intro f hf; rw [hC]
      rcases List.mem_append.1 hf with hf | hf <;> simp [hf]
    refine ⟨true, _, L ++ R, rfl, ?_, ?_, ?_⟩
    · constructor
      · have := drop_zero (heap' := release heap' e.id) (P := rootE H :: L) (Q := R) k2.rep rfl
          (fun p hp => by unfold release; rw [if_neg (by simpa using hp)])
        exact this
      · obtain ⟨n0, q1, q2⟩ := h.len
        have hl := k2.lens 0
        unfold lens at hl
        rw [q1] at hl
        simp only [Option.map_some, Option.map_eq_some_iff] at hl
        obtain ⟨n1, q3, q4⟩ := hl
        refine ⟨n1, ?_, by rw [q4, q2]⟩
        show release heap' e.id 0 = some n1
        unfold release
        rw [if_neg (fun hh => hne0 hh.symm)]
        exact q3
      · exact fun f hf => h.ids f (hsub f hf)
      · exact fun f hf => h.items f (hsub f hf)
      · exact fun f hf => h.pos f (hsub f hf)
      · exact fun f hf => h.low f (hsub f hf)
      · have := h.sorted
        rw [hC] at this
        refine this.sublist ?_
        unfold itemsOf
        exact List.Sublist.filterMap _ (List.Sublist.append_left (List.sublist_cons_self e R) L)
      · have := h.count
        rw [hC] at this
        simp at this ⊢
        omega
      · have := h.bound
        rw [hC] at this
        simp at this ⊢
        omega
      · intro p hp
        have hpe : p ≠ e.id := by
          rintro rfl
          simp [release] at hp
        have hs : (s.heap p).isSome := by
          have hl := k2.lens p
          unfold lens at hl
          have h1 : (heap' p).isSome := by simpa [release, hpe] using hp
          rw [← Option.isSome_map (f := fun n : Node α => n.nodes.length), ← hl, Option.isSome_map]
          exact h1
        rcases h.only p hs with h0 | ⟨f, hf, hfp⟩
        · exact Or.inl h0
        · refine Or.inr ⟨f, ?_, hfp⟩
          rw [hC] at hf
          rcases List.mem_append.1 hf with hf | hf
          · simp [hf]
          · rcases List.mem_cons.1 hf with rfl | hf
            · exact absurd hfp.symm hpe
            · simp [hf]
    · simp only [true_iff]; exact ⟨y, hy, hyx⟩
    · have hfL : (itemsOf L).filter (fun y => decide (cmp y x ≠ 0)) = itemsOf L := by
        rw [List.filter_eq_self]
        intro z hz
        obtain ⟨f, hf, hfz⟩ := mem_itemsOf.1 hz
        have := hL f hf
        unfold val at this
        rw [hfz] at this
        simp only [] at this
        simp; omega
      have hfR : (itemsOf R).filter (fun y => decide (cmp y x ≠ 0)) = itemsOf R := by
        rw [List.filter_eq_self]
        intro z hz
        obtain ⟨f, hf, hfz⟩ := mem_itemsOf.1 hz
        have := hR f hf
        unfold val at this
        rw [hfz] at this
        simp only [] at this
        simp; omega
      have : itemsOf C = itemsOf L ++ y :: itemsOf R := by rw [hC]; simp [itemsOf, hey]
      rw [this, List.filter_append, hfL, List.filter_cons_of_neg (by simp [hyx]), hfR, itemsOf_append]
  · have hne : ∀ e ∈ rootE H :: C, val (fun y => cmp y x) e ≠ 0 := by
      intro e he
      rcases List.mem_cons.1 he with rfl | he
      · simp [val, rootE]
      · obtain ⟨z, hz⟩ := Option.isSome_iff_exists.1 (h.items e he)
        unfold val; rw [hz]
        exact fun h0 => hex ⟨z, mem_itemsOf.2 ⟨e, he, hz⟩, h0⟩
    have := removeLoop_none (fun y => cmp y x) s.heap _ h.rep hne (s.fresh + 1)
      (by have := h.bound; simp; omega) (H + 1) H [] (rootE H) C (-1) none (by omega) rfl
      (Nat.le_refl _) (by simp [val, rootE]) h.items
    rw [show (rootE H : E α).id = 0 from rfl] at this
    rw [this]
    refine ⟨false, s, C, rfl, h, by simp only [Bool.false_eq_true, false_iff]; exact hex, ?_⟩
    symm
    rw [List.filter_eq_self]
    intro z hz
    have : cmp z x ≠ 0 := fun h0 => hex ⟨z, hz, h0⟩
    simp [this]

end Np.Skip
