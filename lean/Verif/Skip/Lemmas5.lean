import Verif.Skip.Lemmas4

set_option linter.unusedSimpArgs false
set_option linter.unusedVariables false

/-! # Adding -/
namespace Np.Skip

open _root_.Np.Skip.Spec

variable {α : Type}

/-- The stack holds, for level `l`, the last tower of the smaller ones that is higher than `l`. -/
def StackAt (H : Nat) (L : List (E α)) (stack : List (Option Nat)) (l : Nat) : Prop :=
  ∃ A u M, rootE H :: L = A ++ u :: M ∧ l < u.ht ∧ (∀ m ∈ M, m.ht ≤ l) ∧
    stack[l]? = some (some (E.id u))

theorem push_spec (heap : Nat → Option (Node α)) (u : E α) (B : List (E α)) (hu : NodeOk heap u B)
    (hd : (B.map E.id).Nodup) :
    ∀ r stack, 0 < r → r ≤ u.ht → r ≤ stack.length →
      ∃ r' stack', push heap u.id r stack = some (r', stack') ∧ r' < r ∧ top r' B = top (r - 1) B ∧
        stack'.length = stack.length ∧ (∀ l, r' ≤ l → l < r → stack'[l]? = some (some u.id)) ∧
        ∀ l, r ≤ l → stack'[l]? = stack[l]? := by
  intro r
  induction r with
  | zero => intro _ h; omega
  | succ r ih =>
    intro stack _ hr hst
    unfold push
    simp only []
    by_cases h0 : r = 0
    · subst h0
      refine ⟨0, stack.set 0 (some u.id), by simp, by omega, rfl, by simp, fun l h1 h2 => ?_, fun l hl => ?_⟩
      · have : l = 0 := by omega
        subst this
        rw [List.getElem?_set_self (by omega)]
      · rw [List.getElem?_set_ne (by omega)]
    · rw [if_neg h0, nodeAt_ok hu (by omega : r - 1 < u.ht), nodeAt_ok hu (by omega : r < u.ht)]
      simp only []
      by_cases he : above (r - 1) B = above r B
      · rw [if_pos he]
        obtain ⟨r', stack', h1, h2, h3, h4, h5, h6⟩ := ih (stack.set r (some u.id)) (by omega) (by omega)
          (by simp; omega)
        refine ⟨r', stack', h1, by omega, ?_, by simpa using h4, fun l k1 k2 => ?_, fun l hl => ?_⟩
        · rw [h3]; exact above_inj hd he
        · by_cases hl : l = r
          · subst hl
            rw [h6 l (Nat.le_refl _), List.getElem?_set_self (by omega)]
          · exact h5 l k1 (by omega)
        · rw [h6 l (by omega), List.getElem?_set_ne (by omega)]
      · rw [if_neg he]
        refine ⟨r, stack.set r (some u.id), rfl, by omega, rfl, by simp, fun l h1 h2 => ?_, fun l hl => ?_⟩
        · have : l = r := by omega
          subst this
          rw [List.getElem?_set_self (by omega)]
        · rw [List.getElem?_set_ne (by omega)]

theorem low_prefix {c : α → Int} {M R : List (E α)} {l : Nat} (hM : ∀ m ∈ M, val c m < 0)
    (h : ∀ e, top l (M ++ R) = some e → 0 ≤ val c e) : ∀ m ∈ M, m.ht ≤ l := by
  intro m hm
  by_cases hlt : l < m.ht
  · exfalso
    obtain ⟨M1, M2, hM12⟩ := List.append_of_mem hm
    have he : M ++ R = M1 ++ m :: (M2 ++ R) := by rw [hM12]; simp
    obtain ⟨g, hg, hgm⟩ := top_before (l := l) (M := M1) (Q := M2 ++ R) (e := m) hlt
    rw [← he] at hg
    have h1 := h g hg
    have h2 : val c g < 0 := hM g (by rw [hM12]; rcases hgm with hgm | hgm <;> simp [hgm])
    omega
  · omega

theorem stop_nonneg {c : α → Int} {l : Nat} {B : List (E α)} {comp : Int} (h : Stop c l B comp) :
    ∀ e, top l B = some e → 0 ≤ val c e ∧ comp = val c e := by
  intro e he
  unfold Stop at h
  rw [he] at h
  exact h

/-- The place in the list is before the larger ones. -/
theorem before_larger {c : α → Int} {P R A B : List (E α)} {u : E α} (h : P ++ R = A ++ u :: B)
    (hR : ∀ e ∈ R, 0 < val c e) (hu : val c u < 0) : ∃ M, P = A ++ u :: M ∧ B = M ++ R := by
  cases R with
  | nil => exact ⟨B, by simpa using h, by simp⟩
  | cons r R =>
    rcases split_cases P r R A u B h with ⟨S, _, h2⟩ | ⟨_, rfl, _⟩ | ⟨S, h1, h2⟩
    · have := hR u (by rw [h2]; simp); omega
    · have := hR r (by simp); omega
    · exact ⟨S, h1, h2⟩

theorem addLoop_new (c : α → Int) (heap : Nat → Option (Node α)) (L R : List (E α)) (H : Nat)
    (hr : Rep heap (rootE H :: L ++ R)) (hL : ∀ e ∈ L, val c e < 0) (hR : ∀ e ∈ R, 0 < val c e)
    (hI : ∀ e ∈ L ++ R, e.item.isSome) (fuel : Nat) (hfuel : (rootE H :: L ++ R).length ≤ fuel) :
    ∀ (k r : Nat) (A M : List (E α)) (u : E α) (stack : List (Option Nat)),
      r < k → rootE H :: L = A ++ u :: M → r ≤ u.ht → r ≤ H → H ≤ stack.length →
      (∀ l, r ≤ l → l < H → StackAt H L stack l) →
      ∃ stack', addLoop c heap fuel k r u.id stack = some (some stack') ∧
        stack'.length = stack.length ∧ ∀ l, l < H → StackAt H L stack' l := by
  have hP : ∀ e ∈ rootE H :: L, val c e < 0 := by
    intro e he
    rcases List.mem_cons.1 he with rfl | he
    · simp [val, rootE]
    · exact hL e he
  intro k
  induction k with
  | zero => intro r A M u stack h; omega
  | succ k ih =>
    intro r A M u stack hrk hPu hru hrH hst hS
    unfold addLoop
    by_cases h0 : r = 0
    · subst h0
      exact ⟨stack, by simp, rfl, fun l hl => hS l (by omega) hl⟩
    · rw [if_neg h0]
      have hD : rootE H :: L ++ R = A ++ u :: (M ++ R) := by rw [hPu]; simp
      have hItail : ∀ e ∈ M ++ R, e.item.isSome := by
        intro e he
        rcases List.mem_append.1 he with hm | hm
        · refine hI e (List.mem_append_left _ ?_)
          obtain ⟨L', hL', _⟩ := cut_root (C := L) hPu
          rw [hL']; simp [hm]
        · exact hI e (List.mem_append_right _ hm)
      obtain ⟨A', u', B', comp', h1, h2, h3, h4, h5, h6, h7⟩ :=
        advance_spec c heap _ hr (r - 1) fuel A u (M ++ R) 0 hD (by omega)
          (hP u (by rw [hPu]; simp)) hItail (by rw [hD] at hfuel; simp at hfuel ⊢; omega)
      rw [h1]
      simp only []
      obtain ⟨M', hPu', hB'⟩ := before_larger h2 hR h4
      subst hB'
      have huok := hr.ok A' u' (M' ++ R) h2
      have hnd : ((M' ++ R).map E.id).Nodup := by have := hr.nodup; rw [h2] at this; exact nodup_suffix this
      rw [nodeAt_ok huok h3]
      simp only []
      have hnot : ¬ ((above (r - 1) (M' ++ R)).isSome = true ∧ comp' = 0) := by
        rintro ⟨hs, hc⟩
        unfold above at hs
        rw [Option.isSome_map] at hs
        obtain ⟨e, he⟩ := Option.isSome_iff_exists.1 hs
        have hv := stop_nonneg h6 e he
        rcases List.mem_append.1 (top_mem he) with hm | hm
        · have := hP e (by rw [hPu']; simp [hm]); omega
        · have := hR e hm; omega
      rw [if_neg hnot]
      obtain ⟨r', stack', g1, g2, g3, g4, g5, g6⟩ :=
        push_spec heap u' (M' ++ R) huok hnd r stack (by omega) (by omega) (by omega)
      rw [g1]
      simp only []
      obtain ⟨stack2, q1, q2, q3⟩ := ih r' A' M' u' stack' (by omega) hPu' (by omega) (by omega)
        (by omega) (by
          intro l hl1 hl2
          by_cases hlr : l < r
          · refine ⟨A', u', M', hPu', by omega, ?_, g5 l hl1 hlr⟩
            have hlow := low_prefix (c := c) (M := M') (R := R) (l := r')
              (fun m hm => hP m (by rw [hPu']; simp [hm]))
              (fun e he => (stop_nonneg h6 e (by rw [← g3]; exact he)).1)
            intro m hm
            have := hlow m hm
            omega
          · obtain ⟨X, v, Y, y1, y2, y3, y4⟩ := hS l (by omega) hl2
            exact ⟨X, v, Y, y1, y2, y3, by rw [g6 l (by omega)]; exact y4⟩)
      exact ⟨stack2, q1, by rw [q2, g4], q3⟩

theorem addLoop_old (c : α → Int) (heap : Nat → Option (Node α)) (P R : List (E α)) (t : E α)
    (hr : Rep heap (P ++ t :: R)) (hP : ∀ e ∈ P, val c e < 0) (hR : ∀ e ∈ R, 0 < val c e)
    (ht : val c t = 0) (hpos : 0 < t.ht) (fuel : Nat) (hfuel : (P ++ t :: R).length ≤ fuel) :
    ∀ (k r : Nat) (A M : List (E α)) (u : E α) (stack : List (Option Nat)),
      r < k → P = A ++ u :: M → (∀ e ∈ M ++ t :: R, e.item.isSome) → r ≤ u.ht → r ≤ stack.length →
      t.ht ≤ r →
      addLoop c heap fuel k r u.id stack = some none := by
  intro k
  induction k with
  | zero => intro r A M u stack h; omega
  | succ k ih =>
    intro r A M u stack hrk hPu hItail hru hst htr
    unfold addLoop
    rw [if_neg (by omega)]
    have hD : P ++ t :: R = A ++ u :: (M ++ t :: R) := by rw [hPu]; simp
    obtain ⟨A', u', B', comp', h1, h2, h3, h4, h5, h6, h7⟩ :=
      advance_spec c heap _ hr (r - 1) fuel A u (M ++ t :: R) 0 hD (by omega)
        (hP u (by rw [hPu]; simp)) hItail (by rw [hD] at hfuel; simp at hfuel ⊢; omega)
    rw [h1]
    simp only []
    obtain ⟨M', hPu', hB'⟩ := before_target h2 ht hR h4
    subst hB'
    have huok := hr.ok A' u' _ h2
    have hnd : ((M' ++ t :: R).map E.id).Nodup := by
      have := hr.nodup; rw [h2] at this; exact nodup_suffix this
    rw [nodeAt_ok huok h3]
    simp only []
    have hMv : ∀ m ∈ M', val c m < 0 := fun m hm => hP m (by rw [hPu']; simp [hm])
    have htop : ∀ l, l < t.ht → (∀ e, top l (M' ++ t :: R) = some e → 0 ≤ val c e) →
        top l (M' ++ t :: R) = some t := by
      intro l hl hx
      obtain ⟨f, hf, hfm⟩ := top_before (l := l) (M := M') (Q := R) (e := t) hl
      rcases hfm with hm | rfl
      · have := hx f hf; have := hMv f hm; omega
      · exact hf
    by_cases hcase : r - 1 < t.ht
    · have htt := htop (r - 1) hcase fun e he => (stop_nonneg h6 e he).1
      have hc := stop_nonneg h6 t htt
      rw [if_pos ⟨by unfold above; rw [htt]; rfl, by omega⟩]
    · by_cases hbad : (above (r - 1) (M' ++ t :: R)).isSome = true ∧ comp' = 0
      · rw [if_pos hbad]
      · rw [if_neg hbad]
        obtain ⟨r', stack', g1, g2, g3, g4, g5, g6⟩ :=
          push_spec heap u' (M' ++ t :: R) huok hnd r stack (by omega) (by omega) (by omega)
        rw [g1]
        simp only []
        refine ih r' A' M' u' stack' (by omega) hPu' (fun e he => hItail e (h5 e he)) (by omega)
          (by omega) ?_
        by_cases hlt : r' < t.ht
        · exfalso
          have := htop r' hlt fun e he => (stop_nonneg h6 e (by rw [← g3]; exact he)).1
          rw [g3] at this
          obtain ⟨X, Y, _, hle, _⟩ := top_some this
          exact hcase hle
        · omega

theorem foldl_set_length {β : Type} (f : Nat → Nat) (g : Nat → β) (l : List Nat) :
    ∀ st : List β, (l.foldl (fun st i => st.set (f i) (g i)) st).length = st.length := by
  induction l with
  | nil => intro st; rfl
  | cons a l ih => intro st; rw [List.foldl_cons, ih]; simp

theorem raise_stack (h : Nat) (st : List (Option Nat)) :
    ∀ n, h + n ≤ st.length → ∀ l,
      ((List.range n).foldl (fun st i => st.set (h + i) (some 0)) st)[l]? =
        if h ≤ l ∧ l < h + n then some (some 0) else st[l]? := by
  intro n
  induction n with
  | zero => intro _ l; rw [if_neg (by omega)]; rfl
  | succ n ih =>
    intro hn l
    rw [List.range_succ, List.foldl_append, List.foldl_cons, List.foldl_nil]
    by_cases hl : l = h + n
    · subst hl
      rw [List.getElem?_set_self (by rw [foldl_set_length (fun i => h + i) (fun _ => some 0)]; omega),
        if_pos (by omega)]
    · rw [List.getElem?_set_ne (by omega), ih (by omega)]
      by_cases hc : h ≤ l ∧ l < h + n
      · rw [if_pos hc, if_pos (by omega)]
      · rw [if_neg hc, if_neg (by omega)]

theorem raise_rep {heap : Nat → Option (Node α)} {H H' : Nat} {X : List (E α)} {n : Node α}
    (hr : Rep heap (rootE H :: X)) (hn : heap 0 = some n) (hl : n.nodes.length = H) (hH : H ≤ H')
    (hX : ∀ e ∈ X, e.ht ≤ H) :
    Rep (fun p => if p = 0 then some { n with nodes := n.nodes ++ List.replicate (H' - H) none } else heap p)
      (rootE H' :: X) := by
  have hnd := hr.nodup
  refine ⟨hnd, fun P1 f Q1 hs => ?_⟩
  cases P1 with
  | nil =>
    simp only [List.nil_append, List.cons.injEq] at hs
    obtain ⟨rfl, rfl⟩ := hs
    obtain ⟨n', k1, k2, k3⟩ := hr.ok [] (rootE H) X rfl
    rw [show (rootE H : E α).id = 0 from rfl, hn] at k1
    cases k1
    refine ⟨{ n with nodes := n.nodes ++ List.replicate (H' - H) none }, by simp [rootE], k2,
      fun l hl' => ?_⟩
    simp only []
    by_cases h : l < H
    · rw [List.getElem?_append_left (by omega)]
      exact k3 l h
    · rw [List.getElem?_append_right (by omega), List.getElem?_replicate]
      have : above l X = none := by
        unfold above
        rw [top_none.2 (fun e he => by have := hX e he; omega)]; rfl
      rw [this, if_pos (by simp [rootE] at hl'; omega)]
  | cons a P1 =>
    simp only [List.cons_append, List.cons.injEq] at hs
    obtain ⟨rfl, hs⟩ := hs
    have h0 := hr.ok (rootE H :: P1) f Q1 (by rw [hs]; rfl)
    have hf0 : f.id ≠ 0 := by
      simp only [List.map_cons, List.nodup_cons] at hnd
      intro hf
      exact hnd.1 (by
        rw [show (rootE H : E α).id = 0 from rfl, ← hf]
        exact List.mem_map_of_mem (by rw [hs]; simp))
    exact h0.congr (by simp [hf0]) fun l _ => rfl

theorem link_spec (H k : Nat) (L R : List (E α)) (t : E α) (stack : List (Option Nat))
    (hS : ∀ l, l < k → StackAt H L stack l) :
    ∀ (n i : Nat) (heap : Nat → Option (Node α)), i + n = k →
      Rep heap (rootE H :: L ++ t.at i :: R) → lens heap t.id = some k →
      ∃ heap', link t.id n i stack heap = some heap' ∧ Rep heap' (rootE H :: L ++ t.at k :: R) ∧
        ∀ p, lens heap' p = lens heap p := by
  intro n
  induction n with
  | zero =>
    intro i heap hik hr _
    have : i = k := by omega
    subst this
    exact ⟨heap, rfl, hr, fun _ => rfl⟩
  | succ n ih =>
    intro i heap hik hr hlen
    obtain ⟨A, u, M, hPu, hiu, hM, hst⟩ := hS i (by omega)
    have hD : rootE H :: L ++ t.at i :: R = A ++ u :: (M ++ t.at i :: R) := by rw [hPu]; simp
    obtain ⟨nu, u1, u2, u3⟩ := hr.ok A u _ hD
    obtain ⟨nt, t1, t2, t3⟩ := hr.ok (rootE H :: L) (t.at i) R rfl
    rw [show (t.at i).id = t.id from rfl] at t1
    have hne : t.id ≠ u.id := by
      have h1 := hr.nodup
      rw [hD] at h1
      exact (nodup_split h1).2 (t.at i) (by simp)
    have htl : nt.nodes.length = k := by
      unfold lens at hlen; rw [t1] at hlen; simpa using hlen
    have hab : ∀ j, j ≤ i → above i (M ++ t.at j :: R) = above i R := by
      intro j hj
      unfold above
      rw [top_append_none _ _ _ hM, top_cons, if_neg (by simp; omega)]
    obtain ⟨h1, a1, a2, a3, a4⟩ := setNode_spec t1 (by omega : i < nt.nodes.length) (above i R)
    have hul : i < nu.nodes.length := (List.getElem?_eq_some_iff.1 (u3 i hiu)).1
    obtain ⟨h2, b1, b2, b3, b4⟩ := setNode_spec (heap := h1) (u := u.id) (n := nu)
      (by rw [a3 _ hne.symm]; exact u1) hul (some t.id)
    have hrep : Rep h2 (A ++ u :: (M ++ t.at (i + 1) :: R)) := by
      refine change_ht (l0 := i) (e := t.at i) (e' := t.at (i + 1)) (heap := heap)
        (by rw [← hD]; exact hr) hM hiu rfl (fun l hl => by simp; omega) ?_ ?_ ?_
      · intro p p1 p2
        rw [b3 p p1, a3 p (by simpa using p2)]
      · intro n' hn'
        rw [u1] at hn'
        cases hn'
        rw [b2]
        have : above i (M ++ t.at (i + 1) :: R) = some t.id := by
          unfold above
          rw [top_append_none _ _ _ hM, top_cons, if_pos (by simp)]; rfl
        rw [this]
      · refine ⟨{ nt with nodes := nt.nodes.set i (above i R) }, ?_, t2, fun l hl => ?_⟩
        · rw [show (t.at (i + 1)).id = t.id from rfl, b3 _ hne, a2]
        · simp only []
          by_cases hli : l = i
          · subst hli; rw [List.getElem?_set_self (by omega)]
          · rw [List.getElem?_set_ne (by omega)]
            exact t3 l (by simp at hl ⊢; omega)
    obtain ⟨heap', c1, c2, c3⟩ := ih (i + 1) h2 (by omega) (by rw [hPu]; simpa using hrep)
      (by rw [b4, a4, hlen])
    refine ⟨heap', ?_, c2, fun p => by rw [c3, b4, a4]⟩
    unfold link
    rw [hst]
    simp only []
    rw [nodeAt_ok ⟨nu, u1, u2, u3⟩ hiu]
    simp only []
    rw [hab i (Nat.le_refl _), a1]
    simp only []
    rw [b1]
    exact c1

/-- Without an equal item, the items are cut into smaller and larger ones. -/
theorem cut_none {cmp : α → α → Int} (ho : Order cmp) (x : α) :
    ∀ {C : List (E α)}, (itemsOf C).Pairwise (fun a b => cmp a b < 0) → (∀ e ∈ C, e.item.isSome) →
      (¬ ∃ y ∈ itemsOf C, cmp y x = 0) →
      ∃ L R, C = L ++ R ∧ (∀ f ∈ L, val (fun y => cmp y x) f < 0) ∧
        ∀ f ∈ R, 0 < val (fun y => cmp y x) f := by
  intro C
  induction C with
  | nil => intro _ _ _; exact ⟨[], [], rfl, by simp, by simp⟩
  | cons e C ih =>
    intro hs hi hn
    obtain ⟨z, hz⟩ := Option.isSome_iff_exists.1 (hi e (by simp))
    have hit : itemsOf (e :: C) = z :: itemsOf C := by simp [itemsOf, hz]
    rw [hit] at hs hn
    have hve : val (fun y => cmp y x) e = cmp z x := by unfold val; rw [hz]
    rcases Int.lt_or_le (cmp z x) 0 with h1 | h1
    · obtain ⟨L, R, k1, k2, k3⟩ := ih (List.pairwise_cons.1 hs).2
        (fun f hf => hi f (List.mem_cons_of_mem _ hf))
        (fun ⟨y, hy, h⟩ => hn ⟨y, List.mem_cons_of_mem _ hy, h⟩)
      refine ⟨e :: L, R, by rw [k1]; rfl, fun f hf => ?_, k3⟩
      rcases List.mem_cons.1 hf with rfl | hf
      · rw [hve]; exact h1
      · exact k2 f hf
    · have h2 : 0 < cmp z x := by
        have : cmp z x ≠ 0 := fun h => hn ⟨z, by simp, h⟩
        omega
      refine ⟨[], e :: C, rfl, by simp, fun f hf => ?_⟩
      rcases List.mem_cons.1 hf with rfl | hf
      · rw [hve]; exact h2
      · obtain ⟨y, hy⟩ := Option.isSome_iff_exists.1 (hi f (by simp [hf]))
        have h3 := (List.pairwise_cons.1 hs).1 y (mem_itemsOf.2 ⟨f, hf, hy⟩)
        unfold val; rw [hy]
        simp only []
        rcases Int.lt_or_le 0 (cmp y x) with h4 | h4
        · exact h4
        · have := order_lt ho h3 h4; omega

theorem stack_mono {H H' : Nat} (hH : H ≤ H') {L : List (E α)} {stack : List (Option Nat)} {l : Nat}
    (h : StackAt H L stack l) : StackAt H' L stack l := by
  obtain ⟨A, u, M, h1, h2, h3, h4⟩ := h
  cases A with
  | nil =>
    simp only [List.nil_append, List.cons.injEq] at h1
    obtain ⟨rfl, rfl⟩ := h1
    exact ⟨[], rootE H', L, rfl, by simp [rootE] at h2 ⊢; omega, h3, h4⟩
  | cons a A =>
    simp only [List.cons_append, List.cons.injEq] at h1
    exact ⟨rootE H' :: A, u, M, by rw [h1.2]; rfl, h2, h3, h4⟩

/-- The effect of raising. -/
theorem raise_spec {heap : Nat → Option (Node α)} {H k : Nat} {L X : List (E α)} {n : Node α}
    {stack : List (Option Nat)} (hr : Rep heap (rootE H :: L ++ X)) (hn : heap 0 = some n)
    (hl : n.nodes.length = H) (hX : ∀ e ∈ L ++ X, e.ht ≤ H)
    (hst : stack.length = if k > H then k else H) (hS : ∀ l, l < H → StackAt H L stack l) :
    ∃ heap' stack', raise heap k stack = some (heap', stack') ∧
      Rep heap' (rootE (if H < k then k else H) :: L ++ X) ∧
      (∀ l, l < (if H < k then k else H) → StackAt (if H < k then k else H) L stack' l) ∧
      lens heap' 0 = some (if H < k then k else H) ∧ ∀ p, p ≠ 0 → heap' p = heap p := by
  unfold raise
  rw [hn]
  simp only []
  rw [hl]
  by_cases hk : H < k
  · rw [if_pos hk, if_pos hk]
    rw [if_pos (by omega)] at hst
    refine ⟨_, _, rfl, raise_rep hr hn hl (by omega) hX, fun l hl' => ?_, ?_, fun p hp => by simp [hp]⟩
    · have hget := raise_stack H stack (k - H) (by omega) l
      by_cases hlH : l < H
      · obtain ⟨A, u, M, h1, h2, h3, h4⟩ := stack_mono (by omega : H ≤ k) (hS l hlH)
        refine ⟨A, u, M, h1, h2, h3, ?_⟩
        rw [hget, if_neg (by omega)]
        exact h4
      · refine ⟨[], rootE k, L, rfl, by simpa [rootE] using hl', fun m hm => ?_, ?_⟩
        · have := hX m (by simp [hm]); omega
        · rw [hget, if_pos (by omega)]; rfl
    · unfold lens; simp; omega
  · rw [if_neg hk, if_neg hk]
    refine ⟨heap, stack, rfl, hr, hS, ?_, fun _ _ => rfl⟩
    unfold lens; rw [hn]; simp [hl]

theorem add_good {cmp : α → α → Int} (ho : Order cmp) {s : Sl α} {C : List (E α)} {H : Nat}
    (h : Good cmp s C H) (x : α) (z : BitVec 31) :
    ∃ b s' C' H', add cmp s x z = some (b, s') ∧ Good cmp s' C' H' ∧
      (b = true ↔ ¬ ∃ y ∈ itemsOf C, cmp y x = 0) ∧
      (itemsOf C').Perm (if ∃ y ∈ itemsOf C, cmp y x = 0 then itemsOf C else x :: itemsOf C) := by
  unfold add
  simp only []
  rw [height_good h]
  generalize hk : pickHeight s.count z + 1 = k
  generalize hst : (List.range H).foldl (fun st i => st.set i ((nodeAt s.heap 0 i).getD none))
    (List.replicate (if k > H then k else H) (none : Option Nat)) = stack
  have hstl : stack.length = if k > H then k else H := by
    rw [← hst, foldl_set_length (fun i => i) (fun i => (nodeAt s.heap 0 i).getD none)]
    simp
  have hstH : H ≤ stack.length := by rw [hstl]; split <;> omega
  by_cases hex : ∃ y ∈ itemsOf C, cmp y x = 0
  · obtain ⟨y, hy, hyx⟩ := hex
    obtain ⟨e, heC, hey⟩ := mem_itemsOf.1 hy
    have hve : val (fun y => cmp y x) e = 0 := by unfold val; rw [hey]; exact hyx
    obtain ⟨L, R, hC, hL, hR⟩ := cut_items ho h.sorted h.items x heC hve
    have hP : ∀ f ∈ rootE H :: L, val (fun y => cmp y x) f < 0 := by
      intro f hf
      rcases List.mem_cons.1 hf with rfl | hf
      · simp [val, rootE]
      · exact hL f hf
    have := addLoop_old (fun y => cmp y x) s.heap (rootE H :: L) R e
      (by have := h.rep; rw [hC] at this; exact this) hP hR hve (h.pos e heC) (s.fresh + 1)
      (by have := h.bound; rw [hC] at this; simp at this ⊢; omega) (H + 1) H [] L (rootE H) stack
      (by omega) rfl (fun f hf => h.items f (by rw [hC]; exact hf)) (Nat.le_refl _) hstH (h.low e heC)
    rw [show (rootE H : E α).id = 0 from rfl] at this
    rw [this]
    refine ⟨false, s, C, H, rfl, h, ?_, ?_⟩
    · simp only [Bool.false_eq_true, false_iff, Classical.not_not]; exact ⟨y, hy, hyx⟩
    · rw [if_pos ⟨y, hy, hyx⟩]
  · obtain ⟨L, R, hC, hL, hR⟩ := cut_none ho x h.sorted h.items hex
    have hrep := h.rep
    rw [hC] at hrep
    have hrep' : Rep s.heap (rootE H :: L ++ R) := hrep
    obtain ⟨stack', a1, a2, a3⟩ := addLoop_new (fun y => cmp y x) s.heap L R H hrep' hL hR
      (fun e he => h.items e (by rw [hC]; exact he)) (s.fresh + 1)
      (by have := h.bound; rw [hC] at this; simp at this ⊢; omega) (H + 1) H [] L (rootE H) stack
      (by omega) rfl (Nat.le_refl _) (Nat.le_refl _) hstH (fun l h1 h2 => by omega)
    rw [show (rootE H : E α).id = 0 from rfl] at a1
    rw [a1]
    simp only []
    have hfresh : 0 < s.fresh := by have := h.bound; omega
    obtain ⟨t, ht⟩ : ∃ t : E α, t = ⟨s.fresh, some x, 0⟩ := ⟨_, rfl⟩
    have htid : t.id = s.fresh := by rw [ht]
    have htit : t.item = some x := by rw [ht]
    have hins := insert_zero (P := rootE H :: L) (Q := R) (t := t.at 0)
      (heap' := fun q => if q = s.fresh then some ⟨some x, List.replicate k none⟩ else s.heap q) hrep' rfl
      (by
        intro e he
        rw [E.at_id, htid]
        simp only [List.cons_append, List.mem_cons] at he
        rcases he with rfl | he
        · show (0 : Nat) ≠ s.fresh; omega
        · have := h.ids e (by rw [hC]; exact he); omega)
      (fun p hp => by rw [if_neg (by rw [E.at_id, htid] at hp; exact hp)])
      ⟨_, by rw [E.at_id, htid, if_pos rfl], by rw [E.at_item, htit]⟩
    obtain ⟨n0, q1, q2⟩ := h.len
    obtain ⟨heap2, stack2, b1, b2, b3, b4, b5⟩ := raise_spec (k := k) (stack := stack') (n := n0) hins
      (by rw [if_neg (by omega)]; exact q1) q2
      (by
        intro e he
        rcases List.mem_append.1 he with he | he
        · exact h.low e (by rw [hC]; simp [he])
        · rcases List.mem_cons.1 he with rfl | he
          · simp
          · exact h.low e (by rw [hC]; simp [he]))
      (by rw [a2, hstl]) a3
    rw [b1]
    simp only []
    generalize hH' : (if H < k then k else H) = H' at b2 b3 b4
    have hkH' : k ≤ H' := by rw [← hH']; split <;> omega
    have hHH' : H ≤ H' := by rw [← hH']; split <;> omega
    obtain ⟨heap3, c1, c2, c3⟩ := link_spec H' k L R t stack2 (fun l hl => b3 l (by omega)) k 0 heap2
      (by omega) b2 (by
        unfold lens
        rw [htid, b5 _ (by omega), if_pos rfl]; simp)
    rw [htid] at c1
    rw [c1]
    simp only []
    have hmem : ∀ e ∈ L ++ t.at k :: R, e = t.at k ∨ e ∈ C := by
      intro e he
      rw [hC]
      rcases List.mem_append.1 he with he | he
      · exact Or.inr (by simp [he])
      · rcases List.mem_cons.1 he with he | he
        · exact Or.inl he
        · exact Or.inr (by simp [he])
    have hitems : itemsOf (L ++ t.at k :: R) = itemsOf L ++ x :: itemsOf R := by
      simp [itemsOf, htit]
    refine ⟨true, _, L ++ t.at k :: R, H', rfl, ?_, ?_, ?_⟩
    · constructor
      · exact c2
      · have hl := c3 0
        rw [b4] at hl
        unfold lens at hl
        rw [Option.map_eq_some_iff] at hl
        exact hl
      · intro e he
        rcases hmem e he with rfl | he
        · show t.id < s.fresh + 1; omega
        · have := h.ids e he; simp only []; omega
      · intro e he
        rcases hmem e he with rfl | he
        · rw [E.at_item, htit]; rfl
        · exact h.items e he
      · intro e he
        rcases hmem e he with rfl | he
        · rw [E.at_ht]; omega
        · exact h.pos e he
      · intro e he
        rcases hmem e he with rfl | he
        · rw [E.at_ht]; exact hkH'
        · have := h.low e he; omega
      · rw [hitems]
        have hs := h.sorted
        rw [hC, itemsOf_append, List.pairwise_append] at hs
        rw [List.pairwise_append, List.pairwise_cons]
        refine ⟨hs.1, ⟨fun y hy => ?_, hs.2.1⟩, fun a ha b hb => ?_⟩
        · obtain ⟨f, hf, hfy⟩ := mem_itemsOf.1 hy
          have := hR f hf
          unfold val at this
          rw [hfy] at this
          exact (ho.swap x y).2 this
        · rcases List.mem_cons.1 hb with rfl | hb
          · obtain ⟨f, hf, hfy⟩ := mem_itemsOf.1 ha
            have := hL f hf
            unfold val at this
            rw [hfy] at this
            exact this
          · exact hs.2.2 a ha b hb
      · have := h.count
        rw [hC] at this
        simp at this ⊢
        omega
      · have := h.bound
        rw [hC] at this
        simp at this ⊢
        omega
      · intro p hp
        by_cases hp0 : p = 0
        · exact Or.inl hp0
        refine Or.inr ?_
        by_cases hpf : p = s.fresh
        · exact ⟨t.at k, by simp, by rw [E.at_id, htid, hpf]⟩
        have hs : (s.heap p).isSome := by
          have hl := c3 p
          unfold lens at hl
          have h1 : (heap2 p).isSome := by
            rw [← Option.isSome_map (f := fun n : Node α => n.nodes.length), ← hl, Option.isSome_map]
            exact hp
          rw [b5 p hp0, if_neg hpf] at h1
          exact h1
        rcases h.only p hs with h0 | ⟨f, hf, hfp⟩
        · exact absurd h0 hp0
        · refine ⟨f, ?_, hfp⟩
          rw [hC] at hf
          rcases List.mem_append.1 hf with hf | hf <;> simp [hf]
    · simp only [true_iff]; exact hex
    · rw [if_neg hex, hitems, hC, itemsOf_append]
      exact List.perm_middle

theorem init_good (cmp : α → α → Int) : Good cmp (init : Sl α) [] 0 := by
  constructor
  · refine ⟨by simp, fun P e Q hs => ?_⟩
    cases P with
    | nil =>
      simp only [List.nil_append, List.cons.injEq] at hs
      obtain ⟨rfl, rfl⟩ := hs
      exact ⟨⟨none, []⟩, rfl, rfl, fun l hl => by simp [rootE] at hl⟩
    | cons a P => simp at hs
  · exact ⟨⟨none, []⟩, rfl, rfl⟩
  · simp
  · simp
  · simp
  · simp
  · simp [itemsOf]
  · rfl
  · show 0 < 1; omega
  · intro p hp
    by_cases h : p = 0
    · exact Or.inl h
    · simp [init, h] at hp

/-! ## Freeing -/

theorem freeLoop_spec (heap0 : Nat → Option (Node α)) (D : List (E α)) (hr : Rep heap0 D)
    (hpos : ∀ e ∈ D, 0 < e.ht) :
    ∀ (B A : List (E α)) (f : Nat) (heap : Nat → Option (Node α)), D = A ++ B → A ≠ [] →
      (∀ e ∈ B, e.id ≠ 0) → B.length ≤ f →
      (∀ e ∈ B, heap e.id = heap0 e.id) →
      ∃ heap', freeLoop f B.length (B.head?.map E.id) heap = some heap' ∧
        (∀ e ∈ B, heap' e.id = none) ∧ ∀ p, (∀ e ∈ B, e.id ≠ p) → heap' p = heap p := by
  intro B
  induction B with
  | nil => intro A f heap _ _ _ _ _; exact ⟨heap, by simp [freeLoop], by simp, fun _ _ => rfl⟩
  | cons e B ih =>
    intro A f heap hD hA hne hf hsame
    have hok := hr.ok A e B hD
    have hnd := nodup_split (P := A) (Q := B) (e := e) (by rw [← hD]; exact hr.nodup)
    cases f with
    | zero => simp at hf
    | succ f =>
      have hnode : nodeAt heap e.id 0 = some (B.head?.map E.id) := by
        have h1 := nodeAt_ok hok (hpos e (by rw [hD]; simp))
        unfold above at h1
        rw [top_zero (fun g hg => hpos g (by rw [hD]; simp [hg]))] at h1
        unfold nodeAt at h1 ⊢
        rw [hsame e (by simp)]
        exact h1
      simp only [List.length_cons, List.head?_cons, Option.map_some]
      rw [freeLoop, hnode]
      simp only []
      rw [if_neg (hne e (by simp))]
      obtain ⟨heap', h1, h2, h3⟩ := ih (A ++ [e]) f (release heap e.id) (by rw [hD]; simp) (by simp)
        (fun g hg => hne g (by simp [hg])) (by simp at hf; omega) (fun g hg => by
          unfold release
          rw [if_neg (hnd.2 g hg)]
          exact hsame g (by simp [hg]))
      refine ⟨heap', h1, fun g hg => ?_, fun p hp => ?_⟩
      · rcases List.mem_cons.1 hg with rfl | hg
        · rw [h3 _ (fun k hk => hnd.2 k hk)]; simp [release]
        · exact h2 g hg
      · rw [h3 p (fun k hk => hp k (by simp [hk]))]
        unfold release
        rw [if_neg (fun h => hp e (by simp) h.symm)]

theorem destroy_good {cmp : α → α → Int} {s : Sl α} {C : List (E α)} {H : Nat}
    (h : Good cmp s C H) : ∃ heap, destroy s = some heap ∧ ∀ p, heap p = none := by
  unfold destroy
  rw [h.count]
  have hn0 : ∀ e ∈ C, e.id ≠ 0 := by
    have h1 := h.rep.nodup
    exact (nodup_split (P := []) (Q := C) (e := rootE H) h1).2
  by_cases hC : C = []
  · subst hC
    refine ⟨release s.heap 0, by simp [freeLoop], fun p => ?_⟩
    by_cases hp : p = 0
    · simp [release, hp]
    · unfold release
      rw [if_neg hp]
      cases hx : s.heap p with
      | none => rfl
      | some n =>
        rcases h.only p (by rw [hx]; rfl) with h0 | ⟨e, he, _⟩
        · exact absurd h0 hp
        · simp at he
  · have hH : 0 < H := by
      obtain ⟨e, he⟩ := List.exists_mem_of_ne_nil C hC
      have := h.pos e he; have := h.low e he; omega
    obtain ⟨m, hm⟩ : ∃ m, C.length = m + 1 := by
      cases C with
      | nil => exact absurd rfl hC
      | cons a C => exact ⟨C.length, rfl⟩
    have hpos : ∀ e ∈ rootE H :: C, 0 < e.ht := by
      intro e he
      rcases List.mem_cons.1 he with rfl | he
      · exact hH
      · exact h.pos e he
    obtain ⟨heap', k1, k2, k3⟩ := freeLoop_spec s.heap _ h.rep hpos C [rootE H] (m + 1) s.heap rfl
      (by simp) hn0 (by omega) (fun _ _ => rfl)
    have hroot : nodeAt s.heap 0 0 = some (C.head?.map E.id) := by
      have h1 := nodeAt_ok (h.rep.ok [] (rootE H) C rfl) hH
      unfold above at h1
      rw [top_zero (fun g hg => h.pos g hg)] at h1
      exact h1
    refine ⟨release heap' 0, ?_, fun p => ?_⟩
    · rw [hm] at k1 ⊢
      rw [freeLoop, hroot]
      simp only [if_true]
      rw [k1]; rfl
    · by_cases hp : p = 0
      · simp [release, hp]
      · unfold release
        rw [if_neg hp]
        by_cases hex : ∃ e ∈ C, e.id = p
        · obtain ⟨e, he, rfl⟩ := hex
          exact k2 e he
        · rw [k3 p (fun e he hh => hex ⟨e, he, hh⟩)]
          cases hx : s.heap p with
          | none => rfl
          | some n =>
            rcases h.only p (by rw [hx]; rfl) with h0 | h0
            · exact absurd h0 hp
            · exact absurd h0 hex

/-! ## Sets as lists without order -/

theorem agrees_perm {cmp : α → α → Int} {S T : List α} (h : S.Perm T) (o : Op α) (r : Out α)
    (ha : Agrees cmp S o r) : Agrees cmp T o r := by
  have hm : ∀ p : α → Prop, (∃ y ∈ S, p y) ↔ ∃ y ∈ T, p y := by
    intro p
    exact ⟨fun ⟨y, hy, hp⟩ => ⟨y, h.mem_iff.1 hy, hp⟩, fun ⟨y, hy, hp⟩ => ⟨y, h.mem_iff.2 hy, hp⟩⟩
  cases o with
  | add x z => cases r <;> simp only [Agrees] at ha ⊢ <;> first | exact ha | (rw [← hm]; exact ha)
  | remove x => cases r <;> simp only [Agrees] at ha ⊢ <;> first | exact ha | (rw [← hm]; exact ha)
  | find x =>
    cases r with
    | found b r =>
      obtain ⟨h1, h2, h3⟩ := ha
      refine ⟨by rw [← hm]; exact h1, fun hb => (hm _).1 (h2 hb), fun hb => ?_⟩
      rcases h3 hb with ⟨k1, k2⟩ | ⟨y, k1, k2, k3, k4⟩
      · exact Or.inl ⟨k1, fun y hy => k2 y (h.mem_iff.2 hy)⟩
      · exact Or.inr ⟨y, h.mem_iff.1 k1, k2, k3, fun y' hy' => k4 y' (h.mem_iff.2 hy')⟩
    | _ => exact ha
  | size =>
    cases r with
    | size n => simp only [Agrees] at ha ⊢; rw [ha, h.length_eq]
    | _ => exact ha
  | map below =>
    cases r with
    | items l =>
      intro hmono
      obtain ⟨low, high, k1, k2⟩ := ha fun a ha b hb => hmono a (h.mem_iff.1 ha) b (h.mem_iff.1 hb)
      exact ⟨low, high, k1.trans h, k2⟩
    | _ => exact ha

theorem next_perm {cmp : α → α → Int} {S T : List α} (h : S.Perm T) (o : Op α) :
    (next cmp S o).Perm (next cmp T o) := by
  cases o with
  | add x z =>
    simp only [next]
    by_cases hx : ∃ y ∈ S, cmp y x = 0
    · rw [if_pos hx, if_pos (by obtain ⟨y, hy, h0⟩ := hx; exact ⟨y, h.mem_iff.1 hy, h0⟩)]; exact h
    · rw [if_neg hx, if_neg (by rintro ⟨y, hy, h0⟩; exact hx ⟨y, h.mem_iff.2 hy, h0⟩)]
      exact h.cons x
  | remove x => exact h.filter _
  | find x => exact h
  | size => exact h
  | map below => exact h

/-- One operation. -/
theorem perform_good {cmp : α → α → Int} (ho : Order cmp) {s : Sl α} {C : List (E α)} {H : Nat}
    (h : Good cmp s C H) (o : Op α) :
    ∃ r s' C' H', perform cmp s o = some (r, s') ∧ Good cmp s' C' H' ∧
      Agrees cmp (itemsOf C) o r ∧ (itemsOf C').Perm (next cmp (itemsOf C) o) := by
  cases o with
  | add x z =>
    obtain ⟨b, s', C', H', h1, h2, h3, h4⟩ := add_good ho h x z
    exact ⟨.done b, s', C', H', by simp only [perform]; rw [h1]; rfl, h2, h3, h4⟩
  | remove x =>
    obtain ⟨b, s', C', h1, h2, h3, h4⟩ := remove_good ho h x
    exact ⟨.done b, s', C', H, by simp only [perform]; rw [h1]; rfl, h2, h3, by rw [h4]; exact List.Perm.refl _⟩
  | find x =>
    obtain ⟨b, r, h1, h2⟩ := find_good ho h x
    exact ⟨.found b r, s, C, H, by simp only [perform]; rw [h1]; rfl, h, h2, List.Perm.refl _⟩
  | size =>
    refine ⟨.size (size s), s, C, H, rfl, h, ?_, List.Perm.refl _⟩
    show size s = _
    unfold size
    rw [h.count, itemsOf_length h.items]
  | map below =>
    obtain ⟨l, h1, h2⟩ := map_good ho h below
    exact ⟨.items l, s, C, H, by simp only [perform]; rw [h1]; rfl, h, h2, List.Perm.refl _⟩

theorem perform'_good {cmp : α → α → Int} (ho : Order cmp) :
    ∀ (ops : List (Op α)) {s : Sl α} {C : List (E α)} {H : Nat} (S : List α), Good cmp s C H →
      (itemsOf C).Perm S →
      ∃ outs s' C' H', perform' cmp s ops = some (outs, s') ∧ AllAgree cmp S ops outs ∧
        Good cmp s' C' H' := by
  intro ops
  induction ops with
  | nil => intro s C H S h _; exact ⟨[], s, C, H, rfl, trivial, h⟩
  | cons o os ih =>
    intro s C H S h hp
    obtain ⟨r, s', C', H', h1, h2, h3, h4⟩ := perform_good ho h o
    obtain ⟨outs, s2, C2, H2, k1, k2, k3⟩ := ih (next cmp S o) h2 (h4.trans (next_perm hp o))
    refine ⟨r :: outs, s2, C2, H2, ?_, ⟨agrees_perm hp o r h3, k2⟩, k3⟩
    unfold perform'
    rw [h1]
    simp only [Option.bind_some]
    rw [k1]
    rfl

end Np.Skip
