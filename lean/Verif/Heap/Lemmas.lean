import Verif.Heap.Spec
set_option linter.unusedSimpArgs false
namespace Np.Heap
open Spec
variable {α : Type}

def cont (e : Nat → α) (n : Nat) : List α := (List.range' 1 n).map e

theorem swap_comp (e : Nat → α) (i j : Nat) : swap e i j = e ∘ swap id i j := by
  funext k; simp only [swap, Function.comp]; split
  · rfl
  · split <;> rfl

theorem cont_swap (e : Nat → α) (n i j : Nat) (hi : 1 ≤ i ∧ i ≤ n) (hj : 1 ≤ j ∧ j ≤ n) :
    (cont (swap e i j) n).Perm (cont e n) := by
  unfold cont
  rw [swap_comp, ← List.map_map]
  apply List.Perm.map
  have hinj : Function.Injective (swap (id : Nat → Nat) i j) := by
    intro a b hab
    simp only [swap, id] at hab
    repeat' split at hab
    all_goals omega
  have hnd : ((List.range' 1 n).map (swap id i j)).Nodup := by
    rw [List.nodup_iff_pairwise_ne, List.pairwise_map]
    refine List.Pairwise.imp ?_ (List.nodup_iff_pairwise_ne.1 (List.nodup_range' (s := 1) (n := n) 1 (by omega)))
    intro a b hab h; exact hab (hinj h)
  rw [List.perm_ext_iff_of_nodup hnd (List.nodup_range' (s := 1) (n := n) 1 (by omega))]
  intro a
  simp only [List.mem_map, List.mem_range'_1]
  constructor
  · rintro ⟨b, hb, rfl⟩
    simp only [swap, id]; repeat' split
    all_goals omega
  · intro ha
    refine ⟨swap id i j a, ?_, ?_⟩
    · simp only [swap, id]; repeat' split
      all_goals omega
    · simp only [swap, id]; repeat' split
      all_goals omega

/-- Heap shape except between `i` and its children. -/
def HeapEx (lt : α → α → Bool) (e : Nat → α) (n i : Nat) : Prop :=
  (∀ k, 2 ≤ k → k ≤ n → k / 2 ≠ i → lt (e k) (e (k / 2)) = false) ∧
  (∀ k, k ≤ n → k / 2 = i → 2 ≤ i → lt (e k) (e (i / 2)) = false)

def HeapOk (lt : α → α → Bool) (e : Nat → α) (n : Nat) : Prop := ∀ k, 2 ≤ k → k ≤ n → lt (e k) (e (k / 2)) = false

theorem swap_left (e : Nat → α) (i j : Nat) : swap e i j i = e j := by simp [swap]
theorem swap_right (e : Nat → α) (i j : Nat) : swap e i j j = e i := by
  simp only [swap]; split
  · next h => rw [h]
  · simp
theorem swap_other (e : Nat → α) {i j k : Nat} (hi : k ≠ i) (hj : k ≠ j) : swap e i j k = e k := by simp [swap, hi, hj]

theorem swap_self (e : Nat → α) (i : Nat) : swap e i i = e := by
  funext k; simp only [swap]; split
  · next h => rw [h]
  · rfl

/-- The child chosen by `binheapify` comes first among the two children. -/
theorem heapEx_swap {lt : α → α → Bool} (hw : StrictWeak lt) (e : Nat → α) (n i c : Nat) (hi : 1 ≤ i) (hc : c ≤ n) (hci : c / 2 = i)
    (hlt : lt (e c) (e i) = true) (hmin : ∀ k, k ≤ n → k / 2 = i → lt (e k) (e c) = false)
    (h : HeapEx lt e n i) : HeapEx lt (swap e i c) n c := by
  have hne : c ≠ i := by omega
  have hasym : ∀ a b, lt a b = true → lt b a = false := by
    intro a b hab
    cases hba : lt b a
    · rfl
    · have := hw.trans a b a hab hba; rw [hw.irrefl] at this; cases this
  constructor
  · intro k hk2 hkn hkc
    by_cases hki : k / 2 = i
    · rw [hki, swap_left]
      by_cases hkc' : k = c
      · rw [hkc', swap_right]; exact hasym _ _ hlt
      · rw [swap_other _ (by omega) hkc']; exact hmin k hkn hki
    · by_cases hk : k = i
      · rw [hk, swap_left, swap_other _ (by omega) (by omega)]
        exact h.2 c hc hci (by omega)
      · rw [swap_other _ hk (by omega), swap_other _ hki (by omega)]
        exact h.1 k hk2 hkn hki
  · intro k hkn hkc hc2
    rw [hci, swap_left, swap_other _ (by omega) (by omega)]
    have := h.1 k (by omega) hkn (by omega)
    rw [hkc] at this; exact this

theorem heapify_spec {lt : α → α → Bool} (hw : StrictWeak lt) (n : Nat) (hn : n ≤ 32767) : ∀ (f : Nat) (e : Nat → α) (i : Nat), 1 ≤ i →
    i ≤ n + 1 → i ≤ 32767 → n + 2 ≤ f + i →
    ∃ e', heapify lt n f e i = some e' ∧ (cont e' n).Perm (cont e n) ∧ (HeapEx lt e n i → HeapOk lt e' n)
  | 0, e, i, h1, h2, _, h3 => by omega
  | f + 1, e, i, h1, h2, hi, h3 => by
    have el : left i = 2 * i := by unfold left; omega
    have er : right i = 2 * i + 1 := by unfold right; omega
    simp only [heapify, el, er]
    generalize hl : (if 2 * i ≤ n ∧ lt (e (2 * i)) (e i) = true then 2 * i else i) = l1
    generalize hr : (if 2 * i + 1 ≤ n ∧ lt (e (2 * i + 1)) (e l1) = true then 2 * i + 1 else l1) = c
    have hasym : ∀ a b, lt a b = true → lt b a = false := by
      intro a b hab
      cases hba : lt b a
      · rfl
      · have := hw.trans a b a hab hba; rw [hw.irrefl] at this; cases this
    by_cases hc : c = i
    · rw [if_neg (by simp [hc])]
      refine ⟨e, rfl, List.Perm.refl _, ?_⟩
      intro hx k hk2 hkn
      by_cases hki : k / 2 = i
      · have hl1 : l1 = i := by
          split at hr
          · omega
          · rw [hr, hc]
        rw [hl1] at hr
        have hkk : k = 2 * i ∨ k = 2 * i + 1 := by omega
        rw [hki]
        rcases hkk with rfl | rfl
        · split at hl
          · omega
          · next hh => cases hb : lt (e (2 * i)) (e i) with
            | false => rfl
            | true => exact absurd ⟨hkn, hb⟩ hh
        · split at hr
          · omega
          · next hh => cases hb : lt (e (2 * i + 1)) (e i) with
            | false => rfl
            | true => exact absurd ⟨hkn, hb⟩ hh
      · exact hx.1 k hk2 hkn hki
    · rw [if_pos hc]
      have hfacts : c ≤ n ∧ c / 2 = i ∧ lt (e c) (e i) = true ∧ ∀ k, k ≤ n → k / 2 = i → lt (e k) (e c) = false := by
        split at hr
        · next hh =>
          subst hr
          refine ⟨hh.1, by omega, ?_, ?_⟩
          · split at hl
            · next h5 => subst hl; exact hw.trans _ _ _ hh.2 h5.2
            · subst hl; exact hh.2
          · intro k hkn hki
            have hkk : k = 2 * i ∨ k = 2 * i + 1 := by omega
            rcases hkk with rfl | rfl
            · split at hl
              · subst hl; exact hasym _ _ hh.2
              · next h5 =>
                subst hl
                have h6 : lt (e (2 * i)) (e i) = false := by
                  cases hb : lt (e (2 * i)) (e i) with
                  | false => rfl
                  | true => exact absurd ⟨hkn, hb⟩ h5
                exact hw.negtrans _ _ _ h6 (hasym _ _ hh.2)
            · exact hw.irrefl _
        · next hh =>
          subst hr
          split at hl
          · next h5 =>
            subst hl
            refine ⟨h5.1, by omega, h5.2, ?_⟩
            intro k hkn hki
            have hkk : k = 2 * i ∨ k = 2 * i + 1 := by omega
            rcases hkk with rfl | rfl
            · exact hw.irrefl _
            · cases hb : lt (e (2 * i + 1)) (e (2 * i)) with
              | false => rfl
              | true => exact absurd ⟨hkn, hb⟩ hh
          · exact absurd hl.symm hc
      obtain ⟨hcn, hci, hclt, hcmin⟩ := hfacts
      obtain ⟨e', h4, h5, h6⟩ := heapify_spec hw n hn f (swap e i c) c (by omega) (by omega) (by omega) (by omega)
      refine ⟨e', h4, h5.trans (cont_swap e n i c ⟨h1, by omega⟩ ⟨by omega, hcn⟩), ?_⟩
      intro hx
      exact h6 (heapEx_swap hw e n i c h1 hcn hci hclt hcmin hx)

/-- Heap shape except between `i` and its parent. -/
def HeapUp (lt : α → α → Bool) (e : Nat → α) (n i : Nat) : Prop :=
  (∀ k, 2 ≤ k → k ≤ n → k ≠ i → lt (e k) (e (k / 2)) = false) ∧
  (∀ k, k ≤ n → k / 2 = i → 2 ≤ i → lt (e k) (e (i / 2)) = false)

theorem siftUp_spec {lt : α → α → Bool} (hw : StrictWeak lt) (n : Nat) : ∀ (f : Nat) (e : Nat → α) (i : Nat), 1 ≤ i → i ≤ n → i < f →
    HeapUp lt e n i → ∃ e', siftUp lt f e i = some e' ∧ (cont e' n).Perm (cont e n) ∧ HeapOk lt e' n
  | 0, e, i, h1, h2, h3, _ => by omega
  | f + 1, e, i, h1, h2, h3, hx => by
    have hasym : ∀ a b, lt a b = true → lt b a = false := by
      intro a b hab
      cases hba : lt b a
      · rfl
      · have := hw.trans a b a hab hba; rw [hw.irrefl] at this; cases this
    simp only [siftUp]
    by_cases hc : i > 1 ∧ lt (e i) (e (parent i)) = true
    · rw [if_pos hc]
      obtain ⟨hi1, hlt⟩ := hc
      have hp : parent i = i / 2 := by unfold parent; rw [if_neg (by omega)]
      rw [hp] at hlt ⊢
      have : HeapUp lt (swap e i (i / 2)) n (i / 2) := by
        constructor
        · intro k hk2 hkn hk
          by_cases hki : k = i
          · rw [hki, swap_left, swap_right]; exact hasym _ _ hlt
          · rw [swap_other _ hki hk]
            by_cases h5 : k / 2 = i
            · rw [h5, swap_left]; exact hx.2 k hkn h5 (by omega)
            · by_cases h6 : k / 2 = i / 2
              · rw [h6, swap_right]
                have := hx.1 k hk2 hkn hki
                rw [h6] at this
                exact hw.negtrans _ _ _ this (hasym _ _ hlt)
              · rw [swap_other _ h5 h6]; exact hx.1 k hk2 hkn hki
        · intro k hkn hk hi2
          have e1 := hx.1 (i / 2) (by omega) (by omega) (by omega)
          rw [swap_other (k := i / 2 / 2) _ (by omega) (by omega)]
          by_cases hki : k = i
          · rw [hki, swap_left]; exact e1
          · rw [swap_other _ hki (by omega)]
            have := hx.1 k (by omega) hkn hki
            rw [hk] at this
            exact hw.negtrans _ _ _ this e1
      obtain ⟨e', h4, h5, h6⟩ := siftUp_spec hw n f (swap e i (i / 2)) (i / 2) (by omega) (by omega) (by omega) this
      exact ⟨e', h4, h5.trans (cont_swap e n i _ ⟨h1, h2⟩ ⟨by omega, by omega⟩), h6⟩
    · rw [if_neg hc]
      refine ⟨e, rfl, List.Perm.refl _, ?_⟩
      intro k hk2 hkn
      by_cases hki : k = i
      · rw [hki]
        have hp : parent i = i / 2 := by unfold parent; rw [if_neg (by omega)]
        rw [hp] at hc
        cases hb : lt (e i) (e (i / 2)) with
        | false => rfl
        | true => exact absurd ⟨by omega, hb⟩ hc
      · exact hx.1 k hk2 hkn hki

theorem heap_min {lt : α → α → Bool} (hw : StrictWeak lt) (e : Nat → α) (n : Nat) (h : HeapOk lt e n) :
    ∀ k, 1 ≤ k → k ≤ n → lt (e k) (e 1) = false := by
  intro k
  induction k using Nat.strongRecOn with
  | ind k ih =>
    intro h1 h2
    by_cases hk : k = 1
    · rw [hk]; exact hw.irrefl _
    · exact hw.negtrans _ _ _ (h k (by omega) h2) (ih (k / 2) (by omega) (by omega) (by omega))

theorem cont_congr (e e' : Nat → α) (n : Nat) (h : ∀ k, 1 ≤ k → k ≤ n → e k = e' k) : cont e n = cont e' n := by
  unfold cont
  apply List.map_congr_left
  intro k hk
  rw [List.mem_range'_1] at hk
  exact h k (by omega) (by omega)

theorem cont_succ (e : Nat → α) (n : Nat) : cont e (n + 1) = cont e n ++ [e (n + 1)] := by
  unfold cont
  rw [List.range'_concat]; simp [Nat.add_comm]

theorem mem_cont (e : Nat → α) (n : Nat) (x : α) : x ∈ cont e n ↔ ∃ k, 1 ≤ k ∧ k ≤ n ∧ e k = x := by
  unfold cont
  simp only [List.mem_map, List.mem_range'_1]
  constructor
  · rintro ⟨k, hk, rfl⟩; exact ⟨k, by omega, by omega, rfl⟩
  · rintro ⟨k, h1, h2, rfl⟩; exact ⟨k, by omega, rfl⟩

theorem cont_head (e : Nat → α) (n : Nat) (hn : 1 ≤ n) :
    (cont e n).Perm (e 1 :: cont (set e 1 (e n)) (n - 1)) := by
  obtain ⟨m, rfl⟩ : ∃ m, n = m + 1 := ⟨n - 1, by omega⟩
  rw [Nat.add_sub_cancel]
  by_cases hm : m = 0
  · subst hm; simp [cont]
  · have h1 := cont_swap e (m + 1) 1 (m + 1) ⟨by omega, by omega⟩ ⟨by omega, by omega⟩
    have h2 : cont (swap e 1 (m + 1)) (m + 1) = cont (set e 1 (e (m + 1))) m ++ [e 1] := by
      rw [cont_succ, swap_right]
      congr 1
      apply cont_congr
      intro k h3 h4
      simp only [swap, set]
      split
      · rfl
      · rw [if_neg (by omega)]
    rw [h2] at h1
    exact h1.symm.trans (List.perm_append_comm)

theorem cont_remove (e : Nat → α) (n i : Nat) (hi : 1 ≤ i) (hin : i ≤ n) :
    (cont e n).Perm (e i :: cont (swap e i n) (n - 1)) := by
  obtain ⟨m, rfl⟩ : ∃ m, n = m + 1 := ⟨n - 1, by omega⟩
  rw [Nat.add_sub_cancel]
  have h1 := cont_swap e (m + 1) i (m + 1) ⟨hi, hin⟩ ⟨by omega, by omega⟩
  rw [cont_succ, swap_right] at h1
  exact h1.symm.trans List.perm_append_comm

theorem insert_spec {lt : α → α → Bool} (hw : StrictWeak lt) (h : Heap α) (v : α) (hc : h.count < h.size)
    (hh : HeapOk lt h.e h.count) : ∃ h', insert lt h v = some h' ∧ h'.count = h.count + 1 ∧ h'.size = h.size ∧
      HeapOk lt h'.e h'.count ∧ (content h').Perm (v :: content h) := by
  have hx : HeapUp lt (set h.e (h.count + 1) v) (h.count + 1) (h.count + 1) := by
    constructor
    · intro k h1 h2 h3
      simp only [set]
      rw [if_neg h3, if_neg (by omega)]
      exact hh k h1 (by omega)
    · intro k h1 h2 h3; omega
  obtain ⟨e', h1, h2, h3⟩ := siftUp_spec hw (h.count + 1) (h.count + 1 + 1) _ (h.count + 1) (by omega) (by omega) (by omega) hx
  refine ⟨⟨h.count + 1, h.size, e'⟩, by simp [insert, hc, h1], rfl, rfl, h3, ?_⟩
  refine h2.trans ?_
  rw [cont_succ]
  have : cont (set h.e (h.count + 1) v) h.count = cont h.e h.count := by
    apply cont_congr; intro k _ h5; simp only [set]; rw [if_neg (by omega)]
  rw [this]
  simp only [set, if_true]
  exact List.perm_append_comm

theorem head_spec {lt : α → α → Bool} (hw : StrictWeak lt) (h : Heap α) (hc : 0 < h.count) (hs : h.count ≤ 32768)
    (hh : HeapOk lt h.e h.count) : ∃ h', head lt h = some (h', h.e 1) ∧ h'.count = h.count - 1 ∧ h'.size = h.size ∧
      HeapOk lt h'.e h'.count ∧ (content h).Perm (h.e 1 :: content h') := by
  let e1 := set h.e 1 (h.e h.count)
  let e2 := set e1 h.count (e1 0)
  have hx : HeapEx lt e2 (h.count - 1) 1 := by
    constructor
    · intro k h1 h2 h3
      have a1 : e2 k = h.e k := by simp only [e2, e1, set]; rw [if_neg (by omega), if_neg (by omega)]
      have a2 : e2 (k / 2) = h.e (k / 2) := by simp only [e2, e1, set]; rw [if_neg (by omega), if_neg (by omega)]
      rw [a1, a2]; exact hh k h1 (by omega)
    · intro k h1 h2 h3; omega
  obtain ⟨e', h1, h2, h3⟩ := heapify_spec hw (h.count - 1) (by omega) (65536 * 65536) e2 1 (by omega) (by omega) (by omega) (by omega)
  refine ⟨⟨h.count - 1, h.size, e'⟩, ?_, rfl, rfl, h3 hx, ?_⟩
  · simp only [head, gt_iff_lt, hc, if_true]
    simp only [e2, e1] at h1
    rw [h1]; rfl
  · have h4 : cont e2 (h.count - 1) = cont e1 (h.count - 1) := by
      apply cont_congr; intro k h5 h6; simp only [e2, set]; rw [if_neg (by omega)]
    rw [h4] at h2
    exact (cont_head h.e h.count hc).trans (List.Perm.cons _ h2.symm)

theorem remove_spec {lt : α → α → Bool} (hw : StrictWeak lt) (h : Heap α) (i : Nat) (hi : 1 ≤ i ∧ i ≤ h.count) (hs : h.count ≤ 32767) :
    ∃ h', remove lt h i = some (h', some (h.e i)) ∧ h'.count = h.count - 1 ∧ h'.size = h.size ∧
      (content h).Perm (h.e i :: content h') ∧
      (HeapOk lt h.e h.count → (2 ≤ i → lt (h.e h.count) (h.e (i / 2)) = false) → HeapOk lt h'.e h'.count) := by
  obtain ⟨e', h1, h2, h3⟩ := heapify_spec hw (h.count - 1) (by omega) (65536 * 65536) (swap h.e i h.count) i (by omega) (by omega) (by omega) (by omega)
  refine ⟨⟨h.count - 1, h.size, e'⟩, ?_, rfl, rfl, ?_, ?_⟩
  · simp only [remove]; rw [if_pos ⟨hi.2, hi.1⟩, h1]; rfl
  · exact (cont_remove h.e h.count i hi.1 hi.2).trans (List.Perm.cons _ h2.symm)
  · intro hh hp
    apply h3
    have htr : ∀ k, 1 ≤ k → k ≤ h.count - 1 → k ≠ i → swap h.e i h.count k = h.e k := fun k _ _ h6 => swap_other _ h6 (by omega)
    constructor
    · intro k a1 a2 a3
      by_cases hk : k = i
      · rw [hk, swap_left, htr (i / 2) (by omega) (by omega) (by omega)]; exact hp (by omega)
      · rw [htr k (by omega) a2 hk, htr (k / 2) (by omega) (by omega) a3]; exact hh k a1 (by omega)
    · intro k a1 a2 a3
      rw [htr k (by omega) a1 (by omega), htr (i / 2) (by omega) (by omega) (by omega)]
      have b1 := hh k (by omega) (by omega)
      rw [a2] at b1
      exact hw.negtrans _ _ _ b1 (hh i a3 hi.2)

theorem first_smallest {lt : α → α → Bool} (hw : StrictWeak lt) (h : Heap α) (hc : 0 < h.count) (hh : HeapOk lt h.e h.count) :
    Smallest lt (h.e 1) (content h) := by
  constructor
  · exact (mem_cont h.e h.count _).2 ⟨1, by omega, by omega, rfl⟩
  · intro x hx
    obtain ⟨k, h1, h2, rfl⟩ := (mem_cont h.e h.count x).1 hx
    exact heap_min hw h.e h.count hh k h1 h2

theorem content_length (h : Heap α) : (content h).length = h.count := by simp [content]

theorem content_nil (h : Heap α) : content h = [] ↔ h.count = 0 := by
  rw [← List.length_eq_zero_iff, content_length]

/-- Reachable heaps are heaps, within their size. -/
structure Good (lt : α → α → Bool) (size : Nat) (h : Heap α) : Prop where
  hsize : h.size = size
  count : h.count ≤ size
  heap : HeapOk lt h.e h.count

theorem good_init (lt : α → α → Bool) (zero : α) (size : Nat) : Good lt size (init zero size) :=
  ⟨rfl, Nat.zero_le _, fun k h1 h2 => by simp [init] at h2; omega⟩

theorem step_spec {lt : α → α → Bool} (hw : StrictWeak lt) (size : Nat) (hs : size ≤ 32768) (h : Heap α) (hg : Good lt size h) (op : Op α) :
    (¬ Allowed size (content h) op → step lt h op = none) ∧
    (Allowed size (content h) op → ∃ h' out, step lt h op = some (h', out) ∧ Good lt size h' ∧ Step lt (content h) op out (content h')) := by
  have hcs := hg.count
  have hsz := hg.hsize
  cases op with
  | insert v =>
    simp only [Allowed, content_length, step]
    constructor
    · intro hn; simp [insert]; omega
    · intro hn
      obtain ⟨h', h1, h2, h3, h4, h5⟩ := insert_spec hw h v (by omega) hg.heap
      exact ⟨h', .unit, by simp [h1], ⟨by rw [h3, hsz], by omega, h4⟩, rfl, h5⟩
  | head =>
    simp only [Allowed, ne_eq, content_nil, step]
    constructor
    · intro hn; simp [head]; omega
    · intro hn
      obtain ⟨h', h1, h2, h3, h4, h5⟩ := head_spec hw h (by omega) (by omega) hg.heap
      exact ⟨h', .val (h.e 1), by simp [h1], ⟨by rw [h3, hsz], by omega, h4⟩, h.e 1, rfl, first_smallest hw h (by omega) hg.heap, h5⟩
  | first =>
    simp only [Allowed, ne_eq, content_nil, step]
    constructor
    · intro hn; simp [first]; omega
    · intro hn
      exact ⟨h, .val (h.e 1), by simp [first, show 0 < h.count by omega], hg, h.e 1, rfl, first_smallest hw h (by omega) hg.heap, rfl⟩
  | isEmpty =>
    refine ⟨fun hn => absurd trivial hn, fun _ => ⟨h, _, rfl, hg, ?_, rfl⟩⟩
    simp only [content_nil, isEmpty]
    by_cases h0 : h.count = 0 <;> simp [h0]
  | clear =>
    refine ⟨fun hn => absurd trivial hn, fun _ => ⟨clear h, _, rfl, ⟨hsz, by simp [clear], ?_⟩, rfl, ?_⟩⟩
    · intro k h1 h2; simp [clear] at h2; omega
    · simp [content, clear]

theorem run_good {lt : α → α → Bool} (hw : StrictWeak lt) (size : Nat) (hs : size ≤ 32768) : ∀ (ops : List (Op α)) (h h' : Heap α)
    (os : List (Out α)), Good lt size h → run lt h ops = some (h', os) → Good lt size h'
  | [], h, h', os, hg, hr => by simp [run] at hr; rw [← hr.1]; exact hg
  | op :: ops, h, h', os, hg, hr => by
    by_cases ha : Allowed size (content h) op
    · obtain ⟨h1, o, e1, g1, _⟩ := (step_spec hw size hs h hg op).2 ha
      simp only [run, e1, Option.bind_eq_bind, Option.bind_some] at hr
      cases e2 : run lt h1 ops with
      | none => simp [e2] at hr
      | some p =>
        simp [e2] at hr
        exact run_good hw size hs ops h1 h' p.2 g1 (by rw [e2, ← hr.1])
    · simp [run, (step_spec hw size hs h hg op).1 ha] at hr

theorem drain_spec {lt : α → α → Bool} (hw : StrictWeak lt) (size : Nat) (hs : size ≤ 32768) : ∀ (n : Nat) (h : Heap α), Good lt size h →
    h.count = n → ∃ vs, drain lt n h = some vs ∧ vs.Perm (content h) ∧ Sorted lt vs
  | 0, h, hg, hn => ⟨[], rfl, by rw [(content_nil h).2 hn], List.Pairwise.nil⟩
  | n + 1, h, hg, hn => by
    have hcs := hg.count
    obtain ⟨h', h1, h2, h3, h4, h5⟩ := head_spec hw h (by omega) (by omega) hg.heap
    obtain ⟨vs, e1, e2, e3⟩ := drain_spec hw size hs n h' ⟨by rw [h3, hg.hsize], by omega, h4⟩ (by omega)
    refine ⟨h.e 1 :: vs, by simp [drain, h1, e1], (List.Perm.cons _ e2).trans h5.symm, ?_⟩
    refine List.pairwise_cons.2 ⟨?_, e3⟩
    intro x hx
    have : x ∈ content h := h5.mem_iff.2 (List.mem_cons_of_mem _ (e2.mem_iff.1 hx))
    exact (first_smallest hw h (by omega) hg.heap).2 x this

theorem insertAll_spec {lt : α → α → Bool} (hw : StrictWeak lt) (size : Nat) : ∀ (xs : List α) (h : Heap α), Good lt size h →
    h.count + xs.length ≤ size → ∃ h', insertAll lt xs h = some h' ∧ Good lt size h' ∧ (content h').Perm (xs ++ content h)
  | [], h, hg, _ => ⟨h, rfl, hg, List.Perm.refl _⟩
  | x :: xs, h, hg, hl => by
    simp only [List.length_cons] at hl
    have hsz := hg.hsize
    obtain ⟨h1, e1, e2, e3, e4, e5⟩ := insert_spec hw h x (by omega) hg.heap
    obtain ⟨h2, f1, f2, f3⟩ := insertAll_spec hw size xs h1 ⟨by rw [e3, hsz], by omega, e4⟩ (by omega)
    refine ⟨h2, by simp [insertAll, e1, f1], f2, f3.trans ?_⟩
    exact (List.Perm.append_left xs e5).trans List.perm_middle

end Np.Heap
