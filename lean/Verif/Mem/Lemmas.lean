import Verif.Mem.Spec

set_option linter.unusedSimpArgs false
set_option linter.unusedVariables false

namespace Np.Mem

open _root_.Np.Mem.Spec

theorem upd_eq {α : Type} (f : Nat → α) (i : Nat) (x : α) : upd f i x i = x := by simp [upd]
theorem upd_ne {α : Type} (f : Nat → α) {i j : Nat} (x : α) (h : j ≠ i) : upd f i x j = f j := by simp [upd, h]

structure Inv (p : Pool) (c : Count) : Prop where
  objs : p.objs = c.objs
  running : p.frees.length = c.running
  used : ∀ i, i < p.size → (p.items i).inUse = true →
    (p.items i).deleted = false ∧ (p.items i).obj < p.objs ∧ p.addr (p.items i).obj = i ∧
    (p.items i).ref = c.refs (p.items i).obj ∧ (p.items i).obj ∉ p.freed ∧ ((p.items i).ref = 0 → i ∈ p.frees) ∧
    i ∉ p.freeItems ++ p.refreshed
  unused : ∀ i, (p.items i).inUse = false → (p.items i).ref = 0
  lists : ∀ i ∈ p.freeItems ++ p.refreshed, i < p.size ∧ (p.items i).inUse = false ∧ (p.items i).deleted = false
  nodup : (p.freeItems ++ p.refreshed).Nodup
  objects : ∀ s, s < p.objs → (s ∈ p.freed ∧ c.refs s = 0) ∨
    (p.addr s < p.size ∧ (p.items (p.addr s)).inUse = true ∧ (p.items (p.addr s)).obj = s)
  freedOnce : p.freed.Nodup
  freedOld : ∀ s ∈ p.freed, s < p.objs
  pending : ∀ i ∈ p.frees, i < p.size ∧ (p.items i).deleted = false
  small : ∀ s, c.refs s < 2 ^ 32
  isNew : ∀ s, c.isNew s = false

theorem inv_init (b : Bool) : Inv { hasRefresh := b } {} := by
  refine ⟨rfl, rfl, ?_, ?_, ?_, ?_, ?_, ?_, ?_, ?_, ?_, ?_⟩ <;> simp

/-- An item that is not in use and in none of the lists is taken for a new object with one reference. -/
theorem occupy_inv {p : Pool} {c : Count} {i : Nat} (h : Inv p c) (hi : i < p.size) (hu : (p.items i).inUse = false)
    (hd : (p.items i).deleted = false) (hl : i ∉ p.freeItems ++ p.refreshed) :
    ∃ p', ref (occupy p i) i = some p' ∧ Inv p' (c.step .create) := by
  have hr : (p.items i).ref = 0 := h.unused i hu
  let x : Item := { p.items i with inUse := true, obj := p.objs }
  let y : Item := { p.items i with inUse := true, obj := p.objs, ref := ((p.items i).ref + 1) % 2 ^ 32 }
  refine ⟨{ p with items := upd (upd p.items i x) i y, objs := p.objs + 1, addr := upd p.addr p.objs i }, ?_, ?_⟩
  · unfold ref occupy
    simp only [upd_eq]
    rw [if_neg (by simp [hd])]
  · have e : upd (upd p.items i x) i y = upd p.items i { p.items i with inUse := true, obj := p.objs, ref := 1 } := by
      funext j
      by_cases hj : j = i <;> simp [upd, hj, hr, x, y]
    rw [e]
    refine ⟨?_, h.running, ?_, ?_, ?_, h.nodup, ?_, h.freedOnce, ?_, ?_, ?_, ?_⟩
    · simp only [Count.step]; rw [h.objs]
    · intro j hj hju
      by_cases hji : j = i
      · subst hji
        simp only [upd_eq, Count.step]
        refine ⟨hd, by omega, trivial, ?_, ?_, by simp, hl⟩
        · rw [← h.objs]; simp
        · intro hm
          exact absurd (h.freedOld _ hm) (by omega)
      · simp only [upd_ne _ _ hji] at hju ⊢
        obtain ⟨h1, h2, h3, h4, h5, h6, h7⟩ := h.used j hj hju
        refine ⟨h1, by omega, ?_, ?_, h5, h6, h7⟩
        · rw [upd_ne _ _ (by omega)]; exact h3
        · simp only [Count.step]
          rw [if_neg (by rw [← h.objs]; omega)]
          exact h4
    · intro j hju
      by_cases hji : j = i
      · subst hji
        simp only [upd_eq] at hju
        exact absurd hju (by simp)
      · simp only [upd_ne _ _ hji] at hju ⊢
        exact h.unused j hju
    · intro j hj
      have hji : j ≠ i := fun e => hl (e ▸ hj)
      simp only [upd_ne _ _ hji]
      exact h.lists j hj
    · intro s hs
      by_cases hso : s = p.objs
      · subst hso
        right
        simp only [upd_eq]
        exact ⟨hi, trivial, trivial⟩
      · have hs' : s < p.objs := by simp only at hs; omega
        rcases h.objects s hs' with ⟨h1, h2⟩ | ⟨h1, h2, h3⟩
        · left
          refine ⟨h1, ?_⟩
          simp only [Count.step]
          rw [if_neg (by rw [← h.objs]; exact hso)]
          exact h2
        · right
          simp only [upd_ne _ _ hso]
          have hne : p.addr s ≠ i := by
            intro e
            rw [e, hu] at h2
            exact absurd h2 (by simp)
          simp only [upd_ne _ _ hne]
          exact ⟨h1, h2, h3⟩
    · intro s hs
      have := h.freedOld s hs
      simp only
      omega
    · intro j hj
      have h1 := h.pending j hj
      refine ⟨h1.1, ?_⟩
      by_cases hji : j = i
      · subst hji; simp only [upd_eq]; exact hd
      · simp only [upd_ne _ _ hji]; exact h1.2
    · intro s
      simp only [Count.step]
      have := h.small s
      split <;> omega
    · intro s
      simp only [Count.step]
      split
      · rfl
      · exact h.isNew s

theorem occupy_inv' {p : Pool} {c : Count} {i : Nat} (h : Inv p c) (hi : i < p.size) (hu : (p.items i).inUse = false)
    (hd : (p.items i).deleted = false) (hl : i ∉ p.freeItems ++ p.refreshed) :
    ∃ p', ref (occupy p i) ((occupy p i).addr p.objs) = some p' ∧ Inv p' (c.step .create) := by
  have e : (occupy p i).addr p.objs = i := by simp [occupy, upd_eq]
  rw [e]
  exact occupy_inv h hi hu hd hl

/-- `__np_memory_space_increase` as used by `new`. -/
def grown (p : Pool) : Pool :=
  let x := refreshItem {}
  { p with refreshed := [], freeItems := [], size := p.size + 1, items := upd p.items p.size x }

theorem pick_head {items : Nat → Item} {l : List Nat} (h : ∀ i ∈ l, (items i).inUse = false) :
    pick items l = match l with | [] => none | i :: r => some (i, r) := by
  cases l with
  | nil => rfl
  | cons i r => simp [pick, h i List.mem_cons_self]

theorem refreshItem_keep (x : Item) : (refreshItem x).inUse = x.inUse ∧ (refreshItem x).deleted = x.deleted ∧
    (refreshItem x).obj = x.obj ∧ (x.inUse = true → (refreshItem x).ref = x.ref) ∧
    (x.ref = 0 → (refreshItem x).ref = 0) := by
  unfold refreshItem
  cases hx : x.inUse <;> cases hn : x.needsRefresh <;> simp [hx]

/-- Lists and items that are not in use may change. -/
theorem Inv.rearrange {p p' : Pool} {c : Count} (h : Inv p c)
    (ho : p'.objs = p.objs) (hf : p'.frees = p.frees) (ha : p'.addr = p.addr) (hfr : p'.freed = p.freed)
    (hs : p.size ≤ p'.size)
    (hn : (p'.freeItems ++ p'.refreshed).Nodup)
    (hl : ∀ i ∈ p'.freeItems ++ p'.refreshed, i ∈ p.freeItems ++ p.refreshed ∨ p.size ≤ i)
    (hi : ∀ i ∈ p'.freeItems ++ p'.refreshed, i < p'.size ∧ (p'.items i).inUse = false ∧ (p'.items i).deleted = false)
    (hitems : ∀ i, i < p.size → (p'.items i).inUse = (p.items i).inUse ∧ (p'.items i).obj = (p.items i).obj ∧
      ((p.items i).inUse = true → p'.items i = p.items i) ∧ (i ∈ p.frees → (p'.items i).deleted = (p.items i).deleted))
    (hnew : ∀ i, p.size ≤ i → i < p'.size → (p'.items i).inUse = false)
    (hun : ∀ i, (p'.items i).inUse = false → (p'.items i).ref = 0) : Inv p' c := by
  refine ⟨by rw [ho, h.objs], by rw [hf, h.running], ?_, hun, hi, hn, ?_, by rw [hfr]; exact h.freedOnce, ?_, ?_, h.small,
    h.isNew⟩
  · intro i hi1 hi2
    have hlt : i < p.size := by
      by_cases hlt : i < p.size
      · exact hlt
      · have := hnew i (by omega) hi1
        rw [this] at hi2
        exact absurd hi2 (by simp)
    have h1 := hitems i hlt
    rw [h1.1] at hi2
    obtain ⟨h2, h3, h4, h5, h6, h7, h8⟩ := h.used i hlt hi2
    rw [h1.2.2.1 hi2, ho, ha, hfr, hf]
    refine ⟨h2, h3, h4, h5, h6, h7, ?_⟩
    intro hm
    rcases hl i hm with h9 | h9
    · exact h8 h9
    · omega
  · intro s hs1
    rw [ho] at hs1
    rw [hfr, ha]
    rcases h.objects s hs1 with h1 | ⟨h1, h2, h3⟩
    · exact Or.inl h1
    · right
      have h4 := hitems _ h1
      rw [h4.1, h4.2.1]
      exact ⟨by omega, h2, h3⟩
  · intro s hs1
    rw [hfr] at hs1
    rw [ho]
    exact h.freedOld s hs1
  · intro i hi1
    rw [hf] at hi1
    have h1 := h.pending i hi1
    exact ⟨by omega, by rw [(hitems i h1.1).2.2.2 hi1]; exact h1.2⟩

theorem step_create {p : Pool} {c : Count} (h : Inv p c) :
    ∃ p', step p .create = some p' ∧ Inv p' (c.step .create) := by
  have hru : ∀ i ∈ p.refreshed, (p.items i).inUse = false := fun i hi => (h.lists i (by simp [hi])).2.1
  have hfu : ∀ i ∈ p.freeItems, (p.items i).inUse = false := fun i hi => (h.lists i (by simp [hi])).2.1
  unfold step
  cases hr : p.refreshed with
  | cons i r =>
    have hnew : new p = occupy { p with refreshed := r } i := by
      unfold new
      rw [hr, pick_head (by rw [← hr]; exact hru)]
    rw [hnew]
    have hn := h.nodup
    rw [hr] at hn
    have hi := h.lists i (by simp [hr])
    refine occupy_inv' (p := { p with refreshed := r }) ?_ hi.1 hi.2.1 hi.2.2 ?_
    · refine h.rearrange rfl rfl rfl rfl (Nat.le_refl _) ?_ ?_ ?_ ?_ ?_ h.unused
      · exact hn.sublist (List.Sublist.append (List.Sublist.refl _) (List.sublist_cons_self _ _))
      · intro j hj
        left
        simp only [List.mem_append] at hj ⊢
        rw [hr]
        rcases hj with hj | hj
        · exact Or.inl hj
        · exact Or.inr (List.mem_cons_of_mem _ hj)
      · intro j hj
        refine h.lists j ?_
        simp only [List.mem_append] at hj ⊢
        rw [hr]
        rcases hj with hj | hj
        · exact Or.inl hj
        · exact Or.inr (List.mem_cons_of_mem _ hj)
      · intro j _
        exact ⟨rfl, rfl, fun _ => rfl, fun _ => rfl⟩
      · intro j h1 h2
        simp only at h2
        omega
    · rw [List.nodup_append] at hn
      simp only [List.mem_append, not_or]
      exact ⟨fun hm => hn.2.2 i hm i List.mem_cons_self rfl, (List.nodup_cons.1 hn.2.1).1⟩
  | nil =>
    have hp1 : pick p.items p.refreshed = none := by rw [hr]; rfl
    cases hf : p.freeItems with
    | cons i r =>
      have hnew : new p =
          occupy { p with refreshed := [], freeItems := r, items := upd p.items i (refreshItem (p.items i)) } i := by
        unfold new
        rw [hp1, hf, pick_head (by rw [← hf]; exact hfu)]
      rw [hnew]
      have hn := h.nodup
      rw [hf, hr, List.append_nil] at hn
      have hi := h.lists i (by simp [hf])
      have hk := refreshItem_keep (p.items i)
      refine occupy_inv' (p := { p with refreshed := [], freeItems := r, items := upd p.items i (refreshItem (p.items i)) })
        ?_ hi.1 (by simp only [upd_eq]; rw [hk.1]; exact hi.2.1) (by simp only [upd_eq]; rw [hk.2.1]; exact hi.2.2) ?_
      · refine h.rearrange rfl rfl rfl rfl (Nat.le_refl _) ?_ ?_ ?_ ?_ ?_ ?_
        · simpa using (List.nodup_cons.1 hn).2
        · intro j hj
          left
          simp only [List.mem_append, List.not_mem_nil, or_false] at hj ⊢
          rw [hf]
          exact Or.inl (List.mem_cons_of_mem _ hj)
        · intro j hj
          have hj' : j ∈ p.freeItems ++ p.refreshed := by
            simp only [List.mem_append, List.not_mem_nil, or_false] at hj ⊢
            rw [hf]
            exact Or.inl (List.mem_cons_of_mem _ hj)
          have hji : j ≠ i := by
            intro e
            subst e
            simp only [List.mem_append, List.not_mem_nil, or_false] at hj
            exact (List.nodup_cons.1 hn).1 hj
          simp only [upd_ne _ _ hji]
          exact h.lists j hj'
        · intro j _
          by_cases hji : j = i
          · subst hji
            simp only [upd_eq]
            refine ⟨hk.1, hk.2.2.1, ?_, fun _ => hk.2.1⟩
            intro hu
            rw [hi.2.1] at hu
            exact absurd hu (by simp)
          · simp only [upd_ne _ _ hji]
            exact ⟨trivial, trivial, fun _ => trivial, fun _ => trivial⟩
        · intro j h1 h2
          simp only at h2
          omega
        · intro j hju
          by_cases hji : j = i
          · subst hji
            simp only [upd_eq]
            exact hk.2.2.2.2 (h.unused j hi.2.1)
          · simp only [upd_ne _ _ hji] at hju ⊢
            exact h.unused j hju
      · simp only [List.append_nil]
        exact (List.nodup_cons.1 hn).1
    | nil =>
      have hnew : new p = occupy (grown p) p.size := by
        unfold new
        rw [hp1, hf]
        rfl
      rw [hnew]
      refine occupy_inv' (p := grown p) ?_ (Nat.lt_succ_self _) (by simp [grown, upd_eq, refreshItem])
          (by simp [grown, upd_eq, refreshItem]) (by simp [grown])
      refine h.rearrange rfl rfl rfl rfl (Nat.le_succ _) (by simp [grown]) (by simp [grown])
        (by simp [grown]) ?_ ?_ ?_
      · intro j hj
        have hji : j ≠ p.size := by omega
        simp only [grown, upd_ne _ _ hji]
        exact ⟨trivial, trivial, fun _ => trivial, fun _ => trivial⟩
      · intro j h1 h2
        have : j = p.size := by simp only [grown] at h2; omega
        subst this
        simp [grown, upd_eq, refreshItem]
      · intro j hju
        by_cases hji : j = p.size
        · subst hji
          simp [grown, upd_eq, refreshItem]
        · simp only [grown, upd_ne _ _ hji] at hju ⊢
          exact h.unused j hju

/-- A referenced object is where it was created. -/
theorem Inv.live {p : Pool} {c : Count} (h : Inv p c) {s : Nat} (hs : s < c.objs) (hr : 0 < c.refs s) :
    p.addr s < p.size ∧ (p.items (p.addr s)).inUse = true ∧ (p.items (p.addr s)).obj = s := by
  rcases h.objects s (by rw [h.objs]; exact hs) with ⟨_, h2⟩ | h1
  · omega
  · exact h1

theorem step_ref {p : Pool} {c : Count} {s : Nat} (h : Inv p c) (hr : c.Rule (.ref s)) :
    ∃ p', step p (.ref s) = some p' ∧ Inv p' (c.step (.ref s)) := by
  obtain ⟨h1, h2, h3⟩ := hr
  have h2 : 0 < c.refs s := by
    rcases h2 with h2 | h2
    · exact h2
    · rw [h.isNew] at h2; exact absurd h2 (by simp)
  obtain ⟨l1, l2, l3⟩ := h.live h1 h2
  obtain ⟨u1, u2, u3, u4, u5, u6, u7⟩ := h.used _ l1 l2
  rw [l3] at u4 u5
  refine ⟨_, (if_neg (by simp [u1]) : ref p (p.addr s) = _), ?_⟩
  · refine ⟨h.objs, h.running, ?_, ?_, ?_, h.nodup, ?_, h.freedOnce, h.freedOld, ?_, ?_, ?_⟩
    · intro j hj hju
      by_cases hji : j = p.addr s
      · subst hji
        simp only [upd_eq, Count.step, l3, if_true]
        refine ⟨u1, by omega, trivial, ?_, u5, ?_, u7⟩
        · rw [u4, Nat.mod_eq_of_lt h3]
        · intro h0
          rw [u4, Nat.mod_eq_of_lt h3] at h0
          omega
      · simp only [upd_ne _ _ hji] at hju ⊢
        obtain ⟨v1, v2, v3, v4, v5, v6, v7⟩ := h.used j hj hju
        refine ⟨v1, v2, v3, ?_, v5, v6, v7⟩
        simp only [Count.step]
        rw [if_neg]
        · exact v4
        · intro e
          rw [e] at v3
          exact hji v3.symm
    · intro j hju
      by_cases hji : j = p.addr s
      · subst hji
        simp only [upd_eq] at hju
        rw [l2] at hju
        exact absurd hju (by simp)
      · simp only [upd_ne _ _ hji] at hju ⊢
        exact h.unused j hju
    · intro j hj
      have hji : j ≠ p.addr s := fun e => u7 (e ▸ hj)
      simp only [upd_ne _ _ hji]
      exact h.lists j hj
    · intro t ht
      rcases h.objects t ht with ⟨o1, o2⟩ | ⟨o1, o2, o3⟩
      · left
        refine ⟨o1, ?_⟩
        simp only [Count.step]
        rw [if_neg]
        · exact o2
        · rintro rfl
          exact u5 o1
      · right
        by_cases hji : p.addr t = p.addr s
        · simp only [hji, upd_eq]
          rw [hji] at o1 o2 o3
          exact ⟨o1, o2, o3⟩
        · simp only [upd_ne _ _ hji]
          exact ⟨o1, o2, o3⟩
    · intro j hj
      have h4 := h.pending j hj
      refine ⟨h4.1, ?_⟩
      by_cases hji : j = p.addr s
      · subst hji; simp only [upd_eq]; exact u1
      · simp only [upd_ne _ _ hji]; exact h4.2
    · intro t
      simp only [Count.step]
      have := h.small t
      split <;> omega
    · intro t
      simp only [Count.step]
      split
      · rfl
      · exact h.isNew t

theorem step_unref {p : Pool} {c : Count} {s : Nat} (h : Inv p c) (hr : c.Rule (.unref s)) :
    ∃ p', step p (.unref s) = some p' ∧ Inv p' (c.step (.unref s)) := by
  obtain ⟨h1, h2⟩ := hr
  obtain ⟨l1, l2, l3⟩ := h.live h1 h2
  obtain ⟨u1, u2, u3, u4, u5, u6, u7⟩ := h.used _ l1 l2
  rw [l3] at u4 u5
  refine ⟨_, ((if_neg (by simp [u1])).trans (if_neg (by rw [u4]; omega)) : unref p (p.addr s) = _), ?_⟩
  · refine ⟨h.objs, ?_, ?_, ?_, ?_, h.nodup, ?_, h.freedOnce, h.freedOld, ?_, ?_, h.isNew⟩
    · simp only [List.length_append, List.length_singleton, Count.step]
      rw [h.running]
    · intro j hj hju
      by_cases hji : j = p.addr s
      · subst hji
        simp only [upd_eq, Count.step, l3, if_true]
        refine ⟨u1, by omega, trivial, by rw [u4], u5, ?_, u7⟩
        intro _
        simp
      · simp only [upd_ne _ _ hji] at hju ⊢
        obtain ⟨v1, v2, v3, v4, v5, v6, v7⟩ := h.used j hj hju
        refine ⟨v1, v2, v3, ?_, v5, ?_, v7⟩
        · simp only [Count.step]
          rw [if_neg]
          · exact v4
          · intro e
            rw [e] at v3
            exact hji v3.symm
        · intro h0
          exact List.mem_append_left _ (v6 h0)
    · intro j hju
      by_cases hji : j = p.addr s
      · subst hji
        simp only [upd_eq] at hju
        rw [l2] at hju
        exact absurd hju (by simp)
      · simp only [upd_ne _ _ hji] at hju ⊢
        exact h.unused j hju
    · intro j hj
      have hji : j ≠ p.addr s := fun e => u7 (e ▸ hj)
      simp only [upd_ne _ _ hji]
      exact h.lists j hj
    · intro t ht
      rcases h.objects t ht with ⟨o1, o2⟩ | ⟨o1, o2, o3⟩
      · left
        refine ⟨o1, ?_⟩
        simp only [Count.step]
        rw [if_neg]
        · exact o2
        · rintro rfl
          exact u5 o1
      · right
        by_cases hji : p.addr t = p.addr s
        · simp only [hji, upd_eq]
          rw [hji] at o1 o2 o3
          exact ⟨o1, o2, o3⟩
        · simp only [upd_ne _ _ hji]
          exact ⟨o1, o2, o3⟩
    · intro j hj
      have h4 : j < p.size ∧ (p.items j).deleted = false := by
        simp only [List.mem_append, List.mem_singleton] at hj
        rcases hj with hj | rfl
        · exact h.pending j hj
        · exact ⟨l1, u1⟩
      refine ⟨h4.1, ?_⟩
      by_cases hji : j = p.addr s
      · subst hji; simp only [upd_eq]; exact u1
      · simp only [upd_ne _ _ hji]; exact h4.2
    · intro t
      simp only [Count.step]
      have := h.small t
      have := h.small s
      split <;> omega

theorem mem_eraseIdx_or {l : List Nat} {n i j : Nat} (hn : l[n]? = some i) (hj : j ∈ l) : j = i ∨ j ∈ l.eraseIdx n := by
  obtain ⟨hlt, hget⟩ := List.getElem?_eq_some_iff.1 hn
  obtain ⟨k, hk, hkj⟩ := List.mem_iff_getElem.1 hj
  by_cases hkn : k = n
  · subst hkn
    left
    rw [← hkj, hget]
  · right
    rw [List.mem_eraseIdx_iff_getElem]
    exact ⟨k, hk, hkn, hkj⟩

theorem step_free {p : Pool} {c : Count} {n : Nat} (h : Inv p c) (hr : c.Rule (.free n)) :
    ∃ p', step p (.free n) = some p' ∧ Inv p' (c.step (.free n)) := by
  have hlt : n < p.frees.length := by rw [h.running]; exact hr
  have hi : p.frees[n]? = some p.frees[n] := List.getElem?_eq_getElem hlt
  generalize hgi : p.frees[n] = i at hi
  have hmem : i ∈ p.frees := by rw [← hgi]; exact List.getElem_mem hlt
  obtain ⟨q1, q2⟩ := h.pending i hmem
  have hlen : (p.frees.eraseIdx n).length = (c.step (.free n)).running := by
    rw [List.length_eraseIdx_of_lt hlt, h.running]
    rfl
  have hsub : ∀ j ∈ p.frees.eraseIdx n, j ∈ p.frees := fun j hj => List.mem_of_mem_eraseIdx hj
  unfold step
  simp only [hi]
  unfold free
  rw [if_neg (by simp [q2])]
  by_cases hz : (p.items i).ref = 0 ∧ (p.items i).inUse = true
  · obtain ⟨u1, u2, u3, u4, u5, u6, u7⟩ := h.used i q1 hz.2
    have hcase : ∀ (x : Item) (a b : List Nat), x.inUse = false → x.deleted = false → x.ref = 0 →
        (∀ j, j ∈ a ++ b ↔ j ∈ p.freeItems ++ p.refreshed ∨ j = i) → (a ++ b).Nodup →
        Inv { p with frees := p.frees.eraseIdx n, freed := p.freed ++ [(p.items i).obj], items := upd p.items i x,
                     freeItems := a, refreshed := b } (c.step (.free n)) := by
      intro x a b x1 x2 x3 hab hnd
      refine ⟨h.objs, hlen, ?_, ?_, ?_, hnd, ?_, ?_, ?_, ?_, h.small, h.isNew⟩
      · intro j hj hju
        by_cases hji : j = i
        · subst hji
          simp only [upd_eq, x1] at hju
          exact absurd hju (by simp)
        · simp only [upd_ne _ _ hji] at hju ⊢
          obtain ⟨v1, v2, v3, v4, v5, v6, v7⟩ := h.used j hj hju
          refine ⟨v1, v2, v3, v4, ?_, ?_, ?_⟩
          · simp only [List.mem_append, List.mem_singleton, not_or]
            refine ⟨v5, ?_⟩
            intro e
            rw [e, u3] at v3
            exact hji v3.symm
          · intro h0
            rcases mem_eraseIdx_or hi (v6 h0) with h1 | h1
            · exact absurd h1 hji
            · exact h1
          · intro hm
            rcases (hab j).1 hm with h1 | h1
            · exact v7 h1
            · exact hji h1
      · intro j hju
        by_cases hji : j = i
        · subst hji; simp only [upd_eq]; exact x3
        · simp only [upd_ne _ _ hji] at hju ⊢
          exact h.unused j hju
      · intro j hj
        by_cases hji : j = i
        · subst hji; simp only [upd_eq]; exact ⟨q1, x1, x2⟩
        · simp only [upd_ne _ _ hji]
          rcases (hab j).1 hj with h1 | h1
          · exact h.lists j h1
          · exact absurd h1 hji
      · intro t ht
        rcases h.objects t ht with ⟨o1, o2⟩ | ⟨o1, o2, o3⟩
        · exact Or.inl ⟨List.mem_append_left _ o1, o2⟩
        · by_cases hji : p.addr t = i
          · left
            rw [hji] at o3
            refine ⟨by rw [o3]; simp, ?_⟩
            have : c.refs t = 0 := by rw [← o3, ← u4]; exact hz.1
            exact this
          · right
            simp only [upd_ne _ _ hji]
            exact ⟨o1, o2, o3⟩
      · rw [List.nodup_append]
        refine ⟨h.freedOnce, by simp, ?_⟩
        intro a ha b hb
        simp only [List.mem_singleton] at hb
        rw [hb]
        intro e
        exact u5 (e ▸ ha)
      · intro t ht
        simp only [List.mem_append, List.mem_singleton] at ht
        rcases ht with ht | rfl
        · exact h.freedOld t ht
        · exact u2
      · intro j hj
        have h4 := h.pending j (hsub j hj)
        refine ⟨h4.1, ?_⟩
        by_cases hji : j = i
        · subst hji; simp only [upd_eq]; exact x2
        · simp only [upd_ne _ _ hji]; exact h4.2
    rw [if_pos hz]
    by_cases hh : p.hasRefresh = true
    · simp only
      rw [if_pos hh]
      refine ⟨_, rfl, ?_⟩
      refine hcase { p.items i with inUse := false, needsRefresh := true } (p.freeItems ++ [i]) p.refreshed rfl q2 hz.1 ?_ ?_
      · intro j
        simp only [List.mem_append, List.mem_singleton]
        constructor <;> (intro hx; rcases hx with (hx | hx) | hx <;> simp [hx])
      · rw [List.append_assoc]
        exact List.perm_middle.nodup_iff.2 (List.nodup_cons.2 ⟨u7, h.nodup⟩)
    · simp only
      rw [if_neg hh]
      refine ⟨_, rfl, ?_⟩
      refine hcase { p.items i with inUse := false } p.freeItems (p.refreshed ++ [i]) rfl q2 hz.1 ?_ ?_
      · intro j
        simp only [List.mem_append, List.mem_singleton]
        constructor
        · intro hx
          rcases hx with hx | hx | hx <;> simp [hx]
        · intro hx
          rcases hx with (hx | hx) | hx <;> simp [hx]
      · rw [← List.append_assoc]
        exact List.nodup_append.2 ⟨h.nodup, by simp, fun a ha b hb => by
          simp only [List.mem_singleton] at hb
          rw [hb]
          intro e
          exact u7 (e ▸ ha)⟩
  · rw [if_neg hz]
    refine ⟨_, rfl, ?_⟩
    refine ⟨h.objs, hlen, ?_, h.unused, h.lists, h.nodup, h.objects, h.freedOnce, h.freedOld,
      fun j hj => h.pending j (hsub j hj), h.small, h.isNew⟩
    intro j hj hju
    obtain ⟨v1, v2, v3, v4, v5, v6, v7⟩ := h.used j hj hju
    refine ⟨v1, v2, v3, v4, v5, ?_, v7⟩
    intro h0
    rcases mem_eraseIdx_or hi (v6 h0) with h1 | h1
    · subst h1
      exact absurd ⟨h0, hju⟩ hz
    · exact h1

theorem step_refresh {p : Pool} {c : Count} (h : Inv p c) : Inv (refresh p) c := by
  unfold refresh
  split
  · exact h
  · rename_i i r hf
    have hi := h.lists i (by simp [hf])
    have hk := refreshItem_keep (p.items i)
    have hperm : (r ++ (p.refreshed ++ [i])).Perm (p.freeItems ++ p.refreshed) := by
      rw [hf, ← List.append_assoc]
      exact List.perm_append_singleton _ _
    have hm : ∀ j, j ∈ r ++ (p.refreshed ++ [i]) → j ∈ p.freeItems ++ p.refreshed := fun j hj => hperm.mem_iff.1 hj
    refine h.rearrange rfl rfl rfl rfl (Nat.le_refl _) ?_ ?_ ?_ ?_ ?_ ?_
    · exact hperm.nodup_iff.2 h.nodup
    · intro j hj
      exact Or.inl (hm j hj)
    · intro j hj
      have h1 := h.lists j (hm j hj)
      by_cases hji : j = i
      · subst hji
        simp only [upd_eq]
        exact ⟨h1.1, by rw [hk.1]; exact h1.2.1, by rw [hk.2.1]; exact h1.2.2⟩
      · simp only [upd_ne _ _ hji]
        exact h1
    · intro j _
      by_cases hji : j = i
      · subst hji
        simp only [upd_eq]
        refine ⟨hk.1, hk.2.2.1, ?_, fun _ => hk.2.1⟩
        intro hu
        rw [hi.2.1] at hu
        exact absurd hu (by simp)
      · simp only [upd_ne _ _ hji]
        exact ⟨trivial, trivial, fun _ => trivial, fun _ => trivial⟩
    · intro j h1 h2
      simp only at h2
      omega
    · intro j hju
      by_cases hji : j = i
      · subst hji
        simp only [upd_eq]
        exact hk.2.2.2.2 (h.unused j hi.2.1)
      · simp only [upd_ne _ _ hji] at hju ⊢
        exact h.unused j hju

theorem step_shrink {p : Pool} {c : Count} (h : Inv p c) (hr : c.running = 0) :
    ∃ p', step p .shrink = some p' ∧ Inv p' c := by
  have hfr : p.frees = [] := List.length_eq_zero_iff.1 (by rw [h.running]; exact hr)
  have key : ∀ (i : Nat) (a b : List Nat), i ∈ p.freeItems ++ p.refreshed → (i :: (a ++ b)).Perm (p.freeItems ++ p.refreshed) →
      Inv { p with freeItems := a, refreshed := b, items := upd p.items i { p.items i with deleted := true } } c := by
    intro i a b hi hperm
    have hi' := h.lists i hi
    have hn := hperm.nodup_iff.2 h.nodup
    have hm : ∀ j ∈ a ++ b, j ∈ p.freeItems ++ p.refreshed := fun j hj => hperm.mem_iff.1 (List.mem_cons_of_mem _ hj)
    have hne : ∀ j ∈ a ++ b, j ≠ i := by
      intro j hj e
      subst e
      exact (List.nodup_cons.1 hn).1 hj
    refine h.rearrange rfl rfl rfl rfl (Nat.le_refl _) (List.nodup_cons.1 hn).2 (fun j hj => Or.inl (hm j hj)) ?_ ?_ ?_ ?_
    · intro j hj
      simp only [upd_ne _ _ (hne j hj)]
      exact h.lists j (hm j hj)
    · intro j _
      by_cases hji : j = i
      · subst hji
        simp only [upd_eq]
        refine ⟨trivial, trivial, ?_, ?_⟩
        · intro hu
          rw [hi'.2.1] at hu
          exact absurd hu (by simp)
        · intro hj
          rw [hfr] at hj
          exact absurd hj (by simp)
      · simp only [upd_ne _ _ hji]
        exact ⟨trivial, trivial, fun _ => trivial, fun _ => trivial⟩
    · intro j h1 h2
      simp only at h2
      omega
    · intro j hju
      by_cases hji : j = i
      · subst hji
        simp only [upd_eq]
        exact h.unused j hi'.2.1
      · simp only [upd_ne _ _ hji] at hju ⊢
        exact h.unused j hju
  unfold step shrink
  cases hf : p.freeItems with
  | cons i r =>
    have hi := h.lists i (by simp [hf])
    simp only
    rw [if_neg (by simp [hi.2.1])]
    refine ⟨_, rfl, ?_⟩
    exact key i r p.refreshed (by simp [hf]) (by rw [hf]; exact List.Perm.refl _)
  | nil =>
    cases hre : p.refreshed with
    | cons i r =>
      have hi := h.lists i (by simp [hre])
      simp only
      rw [if_neg (by simp [hi.2.1])]
      refine ⟨_, rfl, ?_⟩
      have := key i [] r (by simp [hre]) (by rw [hf, hre]; exact List.Perm.refl _)
      simpa [hf] using this
    | nil => exact ⟨_, rfl, h⟩

theorem step_inv {p : Pool} {c : Count} {op : Op} (h : Inv p c) (hr : c.Rule op) (hn : op ≠ .new)
    (hs : op = .shrink → c.running = 0) : ∃ p', step p op = some p' ∧ Inv p' (c.step op) := by
  cases op with
  | new => exact absurd rfl hn
  | create => exact step_create h
  | ref s => exact step_ref h hr
  | unref s => exact step_unref h hr
  | free n => exact step_free h hr
  | refresh => exact ⟨_, rfl, step_refresh h⟩
  | shrink => exact step_shrink h (hs rfl)

theorem run_inv : ∀ (ops : List Op) {p : Pool} {c : Count}, Inv p c → c.Rules ops → c.Calm ops →
    ∃ p', run p ops = some p' ∧ Inv p' (c.run ops)
  | [], p, c, h, _, _ => ⟨p, rfl, h⟩
  | op :: r, p, c, h, h1, h2 => by
    obtain ⟨p', h3, h4⟩ := step_inv h h1.1 h2.1 h2.2.1
    obtain ⟨p'', h5, h6⟩ := run_inv r h4 h1.2 h2.2.2
    exact ⟨p'', by simp only [run, h3]; exact h5, h6⟩

theorem run_append : ∀ (a b : List Op) (p : Pool),
    run p (a ++ b) = match run p a with | some p' => run p' b | none => none
  | [], b, p => rfl
  | op :: r, b, p => by
    simp only [List.cons_append, run]
    cases step p op with
    | none => rfl
    | some p' => exact run_append r b p'

theorem Spec.Count.run_append : ∀ (a b : List Op) (c : Count), c.run (a ++ b) = (c.run a).run b
  | [], _, _ => rfl
  | op :: r, b, c => Spec.Count.run_append r b (c.step op)

theorem Spec.Count.rules_append : ∀ (a b : List Op) (c : Count), c.Rules (a ++ b) ↔ c.Rules a ∧ (c.run a).Rules b
  | [], b, c => by simp [Count.Rules, Count.run]
  | op :: r, b, c => by
    simp only [List.cons_append, Count.Rules, Count.run, Spec.Count.rules_append r b, and_assoc]

theorem Spec.Count.calm_append : ∀ (a b : List Op) (c : Count), c.Calm (a ++ b) ↔ c.Calm a ∧ (c.run a).Calm b
  | [], b, c => by simp [Count.Calm, Count.run]
  | op :: r, b, c => by
    simp only [List.cons_append, Count.Calm, Count.run, Spec.Count.calm_append r b, and_assoc]

/-- The list of freed objects changes only in `free`. -/
theorem step_freed {p p' : Pool} {op : Op} (h : step p op = some p') : p.freed <+: p'.freed := by
  have hnew : (new p).freed = p.freed := by
    unfold new
    split
    · rfl
    · split <;> rfl
  have href : ∀ {q q' : Pool} {i : Nat}, ref q i = some q' → q'.freed = q.freed := by
    intro q q' i hq
    unfold ref at hq
    split at hq
    · exact absurd hq (by simp)
    · simp only [Option.some.injEq] at hq
      subst hq; rfl
  cases op with
  | new =>
    simp only [step, Option.some.injEq] at h
    subst h
    rw [hnew]
    exact List.prefix_rfl
  | create =>
    rw [href h, hnew]
    exact List.prefix_rfl
  | ref s =>
    rw [href h]
    exact List.prefix_rfl
  | unref s =>
    simp only [step] at h
    unfold unref at h
    split at h
    · exact absurd h (by simp)
    · split at h
      · exact absurd h (by simp)
      · simp only [Option.some.injEq] at h
        subst h
        exact List.prefix_rfl
  | free n =>
    simp only [step] at h
    split at h
    · unfold free at h
      split at h
      · exact absurd h (by simp)
      · split at h
        · simp only at h
          split at h <;>
          · simp only [Option.some.injEq] at h
            subst h
            exact List.prefix_append _ _
        · simp only [Option.some.injEq] at h
          subst h
          exact List.prefix_rfl
    · simp only [Option.some.injEq] at h
      subst h
      exact List.prefix_rfl
  | refresh =>
    simp only [step, Option.some.injEq] at h
    subst h
    unfold refresh
    split <;> exact List.prefix_rfl
  | shrink =>
    simp only [step] at h
    unfold shrink at h
    split at h
    · split at h
      · exact absurd h (by simp)
      · simp only [Option.some.injEq] at h
        subst h
        exact List.prefix_rfl
    · split at h
      · exact absurd h (by simp)
      · simp only [Option.some.injEq] at h
        subst h
        exact List.prefix_rfl
    · simp only [Option.some.injEq] at h
      subst h
      exact List.prefix_rfl

theorem run_freed : ∀ (ops : List Op) {p p' : Pool}, run p ops = some p' → p.freed <+: p'.freed
  | [], p, p', h => by
    simp only [run, Option.some.injEq] at h
    subst h
    exact List.prefix_rfl
  | op :: r, p, p', h => by
    simp only [run] at h
    split at h
    · rename_i q hq
      exact (step_freed hq).trans (run_freed r h)
    · exact absurd h (by simp)

end Np.Mem
