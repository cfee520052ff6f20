import Verif.Skip.Lemmas

set_option linter.unusedSimpArgs false
set_option linter.unusedVariables false

/-! # Finding and mapping -/
namespace Np.Skip

open _root_.Np.Skip.Spec

variable {α : Type}

/-- The sentinel as a tower. -/
def rootE (H : Nat) : E α := ⟨0, none, H⟩

/-- The items of the towers. -/
def itemsOf (C : List (E α)) : List α := C.filterMap E.item

/-- The skip list is well formed and consists of the towers `C`. -/
structure Good (cmp : α → α → Int) (s : Sl α) (C : List (E α)) (H : Nat) : Prop where
  rep : Rep s.heap (rootE H :: C)
  len : ∃ n, s.heap 0 = some n ∧ n.nodes.length = H
  ids : ∀ e ∈ C, e.id < s.fresh
  items : ∀ e ∈ C, e.item.isSome
  pos : ∀ e ∈ C, 0 < e.ht
  low : ∀ e ∈ C, e.ht ≤ H
  sorted : (itemsOf C).Pairwise fun a b => cmp a b < 0
  count : s.count = C.length
  bound : C.length < s.fresh
  only : ∀ p, (s.heap p).isSome → p = 0 ∨ ∃ e ∈ C, e.id = p

theorem height_good {cmp : α → α → Int} {s : Sl α} {C : List (E α)} {H : Nat}
    (h : Good cmp s C H) : height s = H := by
  obtain ⟨n, h1, h2⟩ := h.len
  unfold height
  rw [h1]
  exact h2

/-- Where the search ends. -/
theorem cut_root {H : Nat} {C A B : List (E α)} {u : E α} (h : rootE H :: C = A ++ u :: B) :
    ∃ L, C = L ++ B ∧ ((L = [] ∧ u = rootE H ∧ A = []) ∨ ∃ L0, L = L0 ++ [u] ∧ A = rootE H :: L0) := by
  cases A with
  | nil =>
    simp only [List.nil_append, List.cons.injEq] at h
    exact ⟨[], by simp [h.2], Or.inl ⟨rfl, h.1.symm, rfl⟩⟩
  | cons a A =>
    simp only [List.cons_append, List.cons.injEq] at h
    exact ⟨A ++ [u], by simp [h.2], Or.inr ⟨A, rfl, by rw [h.1]⟩⟩

theorem top_zero {Q : List (E α)} (h : ∀ e ∈ Q, 0 < e.ht) : top 0 Q = Q.head? := by
  cases Q with
  | nil => rfl
  | cons e Q => rw [top_cons, if_pos (h e (List.mem_cons_self ..))]; rfl

theorem order_refl {cmp : α → α → Int} (ho : Order cmp) (a : α) : cmp a a = 0 := by
  have := ho.swap a a
  omega

/-- Items that are smaller than one that is not larger are smaller. -/
theorem order_lt {cmp : α → α → Int} (ho : Order cmp) {a b x : α} (h : cmp a b < 0)
    (hb : cmp b x ≤ 0) : cmp a x < 0 := by
  rcases Int.lt_or_le (cmp a x) 0 with h1 | h1
  · exact h1
  · have hxa : cmp x a ≤ 0 := by
      rcases Int.lt_or_le 0 (cmp x a) with h2 | h2
      · have := (ho.swap a x).2 h2; omega
      · exact h2
    have := ho.trans b x a hb hxa
    have := (ho.swap a b).1 h
    omega

theorem mem_itemsOf {C : List (E α)} {y : α} : y ∈ itemsOf C ↔ ∃ e ∈ C, e.item = some y := by
  simp [itemsOf]

theorem itemsOf_append (A B : List (E α)) : itemsOf (A ++ B) = itemsOf A ++ itemsOf B := by
  simp [itemsOf]

theorem itemsOf_length {C : List (E α)} (h : ∀ e ∈ C, e.item.isSome) :
    (itemsOf C).length = C.length := by
  induction C with
  | nil => rfl
  | cons e C ih =>
    obtain ⟨y, hy⟩ := Option.isSome_iff_exists.1 (h e (List.mem_cons_self ..))
    unfold itemsOf at *
    rw [List.filterMap_cons_some hy]
    simp [ih fun f hf => h f (List.mem_cons_of_mem _ hf)]

/-- The end of a search: the items are cut into those that compare as smaller, up to the one of the
tower where the search ended, and the rest. -/
theorem search_good {cmp : α → α → Int} {s : Sl α} {C : List (E α)} {H : Nat} (h : Good cmp s C H)
    (c : α → Int) :
    ∃ u comp L B, findLoop c s.heap (s.fresh + 1) (height s + 1) (height s) 0 (-1) =
        some (E.id u, comp) ∧
      C = L ++ B ∧ ((L = [] ∧ u = rootE H) ∨ ∃ L0, L = L0 ++ [u]) ∧
      (∀ y, u.item = some y → c y < 0) ∧
      (match B with
        | [] => comp < 0
        | e :: _ => 0 ≤ val c e ∧ comp = val c e) ∧
      NodeOk s.heap u B := by
  rw [height_good h]
  obtain ⟨A, u, B, comp, h1, h2, h3, h4, h5⟩ :=
    findLoop_spec c s.heap _ h.rep (s.fresh + 1)
      (by simp only [List.length_cons]; have := h.bound; omega) (H + 1) H [] (rootE H) C (-1)
      (by omega) rfl (Nat.le_refl _) (by simp [val, rootE]) h.items (by
        unfold Known
        have : top H C = none := top_none.2 h.low
        rw [this]
        exact (by decide : (-1 : Int) < 0))
  obtain ⟨L, hL, hor⟩ := cut_root h2
  refine ⟨u, comp, L, B, h1, hL, ?_, ?_, ?_, h.rep.ok _ _ _ h2⟩
  · rcases hor with ⟨a, b, _⟩ | ⟨L0, a, _⟩
    · exact Or.inl ⟨a, b⟩
    · exact Or.inr ⟨L0, a⟩
  · intro y hy
    unfold val at h3
    rw [hy] at h3
    exact h3
  · unfold Known at h5
    rw [top_zero (fun e he => h.pos e (by rw [hL]; simp [he]))] at h5
    cases B with
    | nil => exact h5
    | cons e B => exact h5

/-- With an order, everything before is smaller, and everything after the first of the rest is
larger. -/
theorem search_order {cmp : α → α → Int} (ho : Order cmp) {C L B : List (E α)} {u : E α} {H : Nat}
    (hC : C = L ++ B) (hs : (itemsOf C).Pairwise fun a b => cmp a b < 0) (x : α)
    (hu : (L = [] ∧ u = rootE H) ∨ ∃ L0, L = L0 ++ [u])
    (hv : ∀ y, u.item = some y → cmp y x < 0) (hi : ∀ e ∈ C, e.item.isSome) :
    (∀ y ∈ itemsOf L, cmp y x < 0) ∧
    (∀ e B', B = e :: B' → 0 ≤ val (fun y => cmp y x) e → ∀ y ∈ itemsOf B', 0 < cmp y x) := by
  refine ⟨fun y hy => ?_, fun e B' hB he y hy => ?_⟩
  · rcases hu with ⟨rfl, _⟩ | ⟨L0, rfl⟩
    · simp [itemsOf] at hy
    · have hui : u.item.isSome := hi u (by rw [hC]; simp)
      obtain ⟨z, hz⟩ := Option.isSome_iff_exists.1 hui
      rw [itemsOf_append] at hy
      rcases List.mem_append.1 hy with hy | hy
      · -- before u
        have hp : (itemsOf L0 ++ (z :: itemsOf B)).Pairwise fun a b => cmp a b < 0 := by
          have : itemsOf C = itemsOf L0 ++ (z :: itemsOf B) := by
            rw [hC]; simp [itemsOf, hz]
          rw [← this]; exact hs
        have hlt := (List.pairwise_append.1 hp).2.2 y hy z (List.mem_cons_self ..)
        exact order_lt ho hlt (by have := hv z hz; omega)
      · simp [itemsOf, hz] at hy
        subst hy
        exact hv y hz
  · have hei : e.item.isSome := hi e (by rw [hC, hB]; simp)
    obtain ⟨z, hz⟩ := Option.isSome_iff_exists.1 hei
    have hp : (itemsOf L ++ (z :: itemsOf B')).Pairwise fun a b => cmp a b < 0 := by
      have : itemsOf C = itemsOf L ++ (z :: itemsOf B') := by
        rw [hC, hB]; simp [itemsOf, hz]
      rw [← this]; exact hs
    have hlt := (List.pairwise_cons.1 (List.pairwise_append.1 hp).2.1).1 y hy
    have hez : 0 ≤ cmp z x := by unfold val at he; rw [hz] at he; exact he
    rcases Int.lt_or_le 0 (cmp y x) with h1 | h1
    · exact h1
    · have := order_lt ho hlt h1; omega

theorem find_good {cmp : α → α → Int} (ho : Order cmp) {s : Sl α} {C : List (E α)} {H : Nat}
    (h : Good cmp s C H) (x : α) :
    ∃ b r, find cmp s x = some (b, r) ∧ Agrees cmp (itemsOf C) (.find x) (.found b r) := by
  obtain ⟨u, comp, L, B, h1, hC, hu, hv, hk, hok⟩ := search_good h fun y => cmp y x
  obtain ⟨hlow, hhigh⟩ := search_order ho hC h.sorted x hu hv h.items
  unfold find
  rw [h1]
  simp only []
  cases B with
  | nil =>
    simp only [] at hk
    rw [if_neg (by omega)]
    have hall : ∀ y ∈ itemsOf C, cmp y x < 0 := by
      intro y hy; apply hlow; rw [hC] at hy; simpa using hy
    refine ⟨false, some x, rfl, ?_, ?_, ?_⟩
    · constructor
      · intro hh; simp at hh
      · rintro ⟨y, hy, he⟩; have := hall y hy; omega
    · intro hh; simp at hh
    · intro _; exact Or.inl ⟨rfl, hall⟩
  | cons e B =>
    simp only [] at hk
    have heC : e ∈ C := by rw [hC]; simp
    have hH : H ≠ 0 := by have := h.pos e heC; have := h.low e heC; omega
    rw [if_pos ⟨by omega, by rw [height_good h]; exact hH⟩]
    have hu0 : 0 < u.ht := by
      rcases hu with ⟨_, rfl⟩ | ⟨L0, rfl⟩
      · simp [rootE]; omega
      · exact h.pos u (by rw [hC]; simp)
    rw [nodeAt_ok hok hu0]
    have hab : above 0 (e :: B) = some e.id := by
      unfold above; rw [top_zero (fun f hf => h.pos f (by rw [hC]; exact List.mem_append_right _ hf))]; rfl
    rw [hab]
    simp only []
    obtain ⟨z, hz⟩ := Option.isSome_iff_exists.1 (h.items e heC)
    have heok : itemAt s.heap e.id = some z := by
      rw [← hz]
      exact itemAt_ok (h.rep.ok (rootE H :: L) e B (by rw [hC]; rfl))
    rw [heok]
    have hve : val (fun y => cmp y x) e = cmp z x := by unfold val; rw [hz]
    rw [hve] at hk
    have hzC : z ∈ itemsOf C := mem_itemsOf.2 ⟨e, heC, hz⟩
    have hmem : ∀ y ∈ itemsOf C, y ∈ itemsOf L ∨ y = z ∨ y ∈ itemsOf B := by
      intro y hy
      rw [hC, itemsOf_append] at hy
      rcases List.mem_append.1 hy with hy | hy
      · exact Or.inl hy
      · simp only [itemsOf, List.filterMap_cons_some hz, List.mem_cons] at hy
        rcases hy with hy | hy
        · exact Or.inr (Or.inl hy)
        · exact Or.inr (Or.inr hy)
    have hB := hhigh e B rfl (by rw [hve]; exact hk.1)
    refine ⟨_, _, rfl, ?_, ?_, ?_⟩
    · simp only [decide_eq_true_eq]
      constructor
      · intro hh; exact ⟨z, hzC, by omega⟩
      · rintro ⟨y, hy, he⟩
        rcases hmem y hy with hy | rfl | hy
        · have := hlow y hy; omega
        · omega
        · have := hB y hy; omega
    · intro hh; exact ⟨z, hzC, by simp at hh; omega, rfl⟩
    · intro hh
      simp only [decide_eq_false_iff_not] at hh
      refine Or.inr ⟨z, hzC, rfl, by omega, fun y hy hpos => ?_⟩
      rcases hmem y hy with hy | rfl | hy
      · have := hlow y hy; omega
      · rw [order_refl ho]; omega
      · have hp : (itemsOf L ++ (z :: itemsOf B)).Pairwise fun a b => cmp a b < 0 := by
          have : itemsOf C = itemsOf L ++ (z :: itemsOf B) := by
            rw [hC]; simp [itemsOf, hz]
          rw [← this]; exact h.sorted
        have := (List.pairwise_cons.1 (List.pairwise_append.1 hp).2.1).1 y hy
        omega

/-! ## Mapping -/

theorem mapRest_spec (heap : Nat → Option (Node α)) (D : List (E α)) (hr : Rep heap D)
    (hpos : ∀ e ∈ D, 0 < e.ht) :
    ∀ (f : Nat) (A : List (E α)) (u : E α) (B : List (E α)), D = A ++ u :: B →
      (∀ e ∈ B, e.item.isSome) → B.length < f →
      mapRest heap f u.id = some ((itemsOf B).map some) := by
  intro f
  induction f with
  | zero => intro A u B _ _ h; omega
  | succ f ih =>
    intro A u B hD hI hf
    unfold mapRest
    rw [nodeAt_ok (hr.ok _ _ _ hD) (hpos u (by rw [hD]; simp))]
    unfold above
    rw [top_zero (fun e he => hpos e (by rw [hD]; simp [he]))]
    cases B with
    | nil => rfl
    | cons e B =>
      have hD' : D = (A ++ [u]) ++ e :: B := by rw [hD]; simp
      obtain ⟨y, hy⟩ := Option.isSome_iff_exists.1 (hI e (List.mem_cons_self ..))
      simp only [List.head?_cons, Option.map_some]
      rw [itemAt_ok (hr.ok _ _ _ hD'), hy]
      simp only []
      rw [ih _ e B hD' (fun g hg => hI g (List.mem_cons_of_mem _ hg)) (by simp at hf; omega)]
      simp [itemsOf, hy]

theorem map_good {cmp : α → α → Int} (ho : Order cmp) {s : Sl α} {C : List (E α)} {H : Nat}
    (h : Good cmp s C H) (below : α → Bool) :
    ∃ l, map below s = some l ∧ Agrees cmp (itemsOf C) (.map below) (.items l) := by
  obtain ⟨u, comp, L, B, h1, hC, hu, hv, hk, hok⟩ := search_good h fun y => if below y then -1 else 1
  unfold map
  rw [h1]
  simp only []
  rw [height_good h]
  by_cases hH : H = 0
  · rw [if_pos hH]
    have hC0 : C = [] := by
      cases hc : C with
      | nil => rfl
      | cons e C' =>
        have heC : e ∈ C := by rw [hc]; simp
        have := h.pos e heC; have := h.low e heC; omega
    refine ⟨_, rfl, fun _ => ⟨[], [], ?_, by simp, by simp, by simp, by simp⟩⟩
    rw [hC0]; simp [itemsOf]
  · rw [if_neg hH]
    obtain ⟨n, hn, hni, _⟩ := hok
    rw [hn]
    simp only []
    have hDu : ∃ A, rootE H :: C = A ++ u :: B := by
      rcases hu with ⟨rfl, rfl⟩ | ⟨L0, rfl⟩
      · exact ⟨[], by simp [hC]⟩
      · exact ⟨rootE H :: L0, by rw [hC]; simp⟩
    obtain ⟨A, hDu⟩ := hDu
    rw [mapRest_spec s.heap _ h.rep (fun e he => ?_) (s.fresh + 1) A u B hDu
      (fun e he => h.items e (by rw [hC]; simp [he]))
      (by have := h.bound; rw [hC] at this; simp at this; omega)]
    · refine ⟨_, rfl, fun hmono => ⟨itemsOf L, itemsOf B, ?_, ?_, ?_, ?_, ?_⟩⟩
      · rw [← itemsOf_append, ← hC]
      · rw [← itemsOf_append, ← hC]; exact h.sorted
      · intro y hy
        rcases hu with ⟨rfl, _⟩ | ⟨L0, rfl⟩
        · simp [itemsOf] at hy
        · obtain ⟨z, hz⟩ := Option.isSome_iff_exists.1 (h.items u (by rw [hC]; simp))
          have hbz : below z = true := by
            have := hv z hz
            cases hb : below z with
            | true => rfl
            | false => rw [hb] at this; simp at this
          rw [itemsOf_append] at hy
          have hzC : z ∈ itemsOf C := mem_itemsOf.2 ⟨u, by rw [hC]; simp, hz⟩
          rcases List.mem_append.1 hy with hy | hy
          · have hp : (itemsOf L0 ++ (z :: itemsOf B)).Pairwise fun a b => cmp a b < 0 := by
              have : itemsOf C = itemsOf L0 ++ (z :: itemsOf B) := by
                rw [hC]; simp [itemsOf, hz]
              rw [← this]; exact h.sorted
            have hlt := (List.pairwise_append.1 hp).2.2 y hy z (List.mem_cons_self ..)
            refine hmono y ?_ z hzC hlt hbz
            rw [hC, itemsOf_append, itemsOf_append]; simp [hy]
          · simp [itemsOf, hz] at hy
            subst hy; exact hbz
      · intro y hy
        cases B with
        | nil => simp [itemsOf] at hy
        | cons e B =>
          simp only [] at hk
          obtain ⟨z, hz⟩ := Option.isSome_iff_exists.1 (h.items e (by rw [hC]; simp))
          have hbz : below z = false := by
            have := hk.1
            unfold val at this
            rw [hz] at this
            cases hb : below z with
            | false => rfl
            | true => simp [hb] at this
          have hzC : z ∈ itemsOf C := mem_itemsOf.2 ⟨e, by rw [hC]; simp, hz⟩
          simp only [itemsOf, List.filterMap_cons_some hz, List.mem_cons] at hy
          rcases hy with rfl | hy
          · exact hbz
          · have hp : (itemsOf L ++ (z :: itemsOf B)).Pairwise fun a b => cmp a b < 0 := by
              have : itemsOf C = itemsOf L ++ (z :: itemsOf B) := by
                rw [hC]; simp [itemsOf, hz]
              rw [← this]; exact h.sorted
            have hlt := (List.pairwise_cons.1 (List.pairwise_append.1 hp).2.1).1 y hy
            have hyC : y ∈ itemsOf C := by
              rw [hC, itemsOf_append]
              refine List.mem_append_right _ ?_
              simp only [itemsOf, List.filterMap_cons_some hz, List.mem_cons]
              exact Or.inr hy
            cases hb : below y with
            | false => rfl
            | true => rw [hmono z hzC y hyC hlt hb] at hbz; exact hbz
      · rw [hni]
        congr 1
        rcases hu with ⟨rfl, rfl⟩ | ⟨L0, rfl⟩
        · rfl
        · obtain ⟨z, hz⟩ := Option.isSome_iff_exists.1 (h.items u (by rw [hC]; simp))
          simp [itemsOf, hz]
    · rcases List.mem_cons.1 he with rfl | he
      · simp [rootE]; omega
      · exact h.pos e he

end Np.Skip
