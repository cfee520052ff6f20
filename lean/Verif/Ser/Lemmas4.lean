import Verif.Ser.Lemmas3

set_option linter.unusedVariables false
set_option linter.unusedSimpArgs false

/-! # The size that a tree keeps -/
namespace Np.Ser

open Np.Tree (Name Tree Op Elem)
open Np.Tree.Spec (Kind Less Op.name Holds)
open Np.Cbor
open _root_.Np.Ser.Spec

/-- The sum of the sizes of the entries. -/
def total (l : List (Name × Val)) : Nat := (l.map fun p => keySize p.1 + valSize p.2).sum

theorem total_of : ∀ l : List (Name × Val), entsSize (Ents.of l) = total l
  | [] => rfl
  | (n, v) :: l => by
    rw [Ents.of, entsSize, total_of l]
    simp [total]

/-- What a map has for a key. -/
def share (n : Name) : Option Val → Nat
  | none => 0
  | some v => keySize n + valSize v

theorem total_split (n : Name) : ∀ l : List (Name × Val), l.Pairwise (fun a b => Less a.1 b.1) → ∀ o : Option Val, (∀ v, (n, v) ∈ l ↔ o = some v) →
    total l = share n o + total (l.filter fun p => decide (p.1 ≠ n)) := by
  intro l
  induction l with
  | nil =>
    intro _ o ho
    cases o with
    | none => rfl
    | some v => exact absurd ((ho v).2 rfl) (by simp)
  | cons p l ih =>
    intro hs o ho
    rcases p with ⟨k, w⟩
    rw [List.pairwise_cons] at hs
    by_cases hk : k = n
    · subst hk
      have how : o = some w := (ho w).1 (by simp)
      have hno : ∀ q ∈ l, decide (q.1 ≠ k) = true := by
        intro q hq
        have := hs.1 q hq
        simp only [ne_eq, decide_eq_true_eq]
        intro e
        simp only [e] at this
        exact Tree.less_irrefl _ this
      rw [List.filter_cons_of_neg (by simp), List.filter_eq_self.2 hno, how]
      simp [total, share]
    · rw [List.filter_cons_of_pos (by simp [hk])]
      have := ih hs.2 o (by
        intro v
        rw [← ho v]
        simp only [List.mem_cons, Prod.mk.injEq]
        constructor
        · exact Or.inr
        · rintro (⟨e, _⟩ | e)
          · exact absurd e.symm hk
          · exact e)
      simp only [total, List.map_cons, List.sum_cons] at this ⊢
      omega

theorem total_step {t t' : Tree Val} {m m' : Name → Option Val} (h : Holds t m) (h' : Holds t' m') (n : Name) (hm : ∀ k, k ≠ n → m' k = m k) :
    total (Tree.Spec.entries t') + share n (m n) = total (Tree.Spec.entries t) + share n (m' n) := by
  have e1 := total_split n _ h.sorted (m n) fun v => h.same n v
  have e2 := total_split n _ h'.sorted (m' n) fun v => h'.same n v
  have e3 : (Tree.Spec.entries t').filter (fun p => decide (p.1 ≠ n)) = (Tree.Spec.entries t).filter (fun p => decide (p.1 ≠ n)) := by
    refine sorted_unique _ _ ?_ (h'.sorted.filter _) (h.sorted.filter _)
    rintro ⟨k, v⟩
    simp only [List.mem_filter, ne_eq, decide_eq_true_eq]
    constructor
    · rintro ⟨g1, g2⟩
      rw [h'.same, hm k g2] at g1
      exact ⟨(h.same k v).2 g1, g2⟩
    · rintro ⟨g1, g2⟩
      rw [h.same] at g1
      exact ⟨(h'.same k v).2 (by rw [hm k g2]; exact g1), g2⟩
  rw [e3] at e2
  omega

theorem sized_step {K : Kind} {s : Sized} {m : Name → Option Val} (h : Tree.Keeps K s.tree m) (hi : s.tree.immutable = false)
    (hb : s.bytes = total (Tree.Spec.entries s.tree)) {o : Op Val} (ho : K.Admits (Op.name o)) :
    ∃ s', s.step o = .ok s' ∧ Tree.step s.tree o = .ok s'.tree ∧ s'.bytes = total (Tree.Spec.entries s'.tree) := by
  rcases Tree.good_step h hi ho with ⟨t', e1, e2, _, _⟩
  have hl := fun n (hn : K.Admits n) => h.lookup hn
  cases o with
  | insert n v =>
    have hst := total_step h.holds e2.holds n (by intro k hk; simp only [Tree.Spec.apply]; rw [if_neg hk])
    have hln := hl n ho
    simp only [Tree.Spec.apply, if_pos] at hst
    simp only [Tree.step] at e1
    simp only [Sized.step, Sized.insert, Tree.step]
    unfold Tree.insert at e1
    cases hf : Tree.find s.tree n with
    | some e =>
      rw [hf] at e1
      simp only [Except.ok.injEq] at e1
      subst e1
      refine ⟨s, rfl, ?_, hb⟩
      unfold Tree.insert
      rw [hf]
    | none =>
      rw [hf] at e1 hln
      simp only [] at e1 ⊢
      rw [e1]
      refine ⟨_, rfl, ?_, ?_⟩
      · unfold Tree.insert
        rw [hf]
        exact e1
      · simp only [Option.map_none] at hln
        rw [← hln] at hst
        simp only [share, Option.getD_none] at hst
        simp only [elemSize]
        rw [Tree.name_stored (show K.Admits n from ho)]
        omega
  | replace n v =>
    have hst := total_step h.holds e2.holds n (by intro k hk; simp only [Tree.Spec.apply]; rw [if_neg hk])
    have hln := hl n ho
    simp only [Tree.Spec.apply, if_pos] at hst
    simp only [Tree.step] at e1
    simp only [Sized.step, Sized.replace, Tree.step]
    cases hf : Tree.find s.tree n with
    | some e =>
      rw [hf] at hln
      simp only [] at e1 ⊢
      rw [e1]
      refine ⟨_, rfl, rfl, ?_⟩
      simp only [Option.map_some] at hln
      rw [← hln] at hst
      simp only [share] at hst
      have hk := ((h.good.find_some ho).1 hf).2
      have hmem := ((h.good.find_some ho).1 hf).1
      have hsp := total_split n _ h.holds.sorted (m n) fun v => h.holds.same n v
      rw [← hln] at hsp
      simp only [share] at hsp
      simp only [elemSize, hk]
      simp only [Op.name] at *
      omega
    | none =>
      rw [hf] at hln
      simp only [Sized.insert, hf]
      have e1' := e1
      unfold Tree.replace at e1'
      rw [hf] at e1'
      simp only [Tree.insert, hf] at e1'
      rw [e1']
      refine ⟨_, rfl, e1, ?_⟩
      simp only [Option.map_none] at hln
      rw [← hln] at hst
      simp only [share] at hst
      simp only [elemSize]
      rw [Tree.name_stored (show K.Admits n from ho)]
      omega
  | del n =>
    have hst := total_step h.holds e2.holds n (by intro k hk; simp only [Tree.Spec.apply]; rw [if_neg hk])
    have hln := hl n ho
    simp only [Tree.Spec.apply, if_pos] at hst
    simp only [Tree.step] at e1
    simp only [Sized.step, Sized.del, Tree.step]
    rw [e1]
    cases hf : Tree.find s.tree n with
    | none =>
      refine ⟨_, rfl, rfl, ?_⟩
      rw [hf] at hln
      simp only [Option.map_none] at hln
      rw [← hln] at hst
      simp only [share] at hst ⊢
      omega
    | some e =>
      refine ⟨_, rfl, rfl, ?_⟩
      rw [hf] at hln
      simp only [Option.map_some] at hln
      rw [← hln] at hst
      simp only [share] at hst
      have hk := ((h.good.find_some ho).1 hf).2
      simp only [elemSize, hk, Op.name]
      omega

theorem sized_run {K : Kind} : ∀ (ops : List (Op Val)) {s : Sized} {m : Name → Option Val}, Tree.Keeps K s.tree m → s.tree.immutable = false →
    s.bytes = total (Tree.Spec.entries s.tree) → (∀ o ∈ ops, K.Admits (Op.name o)) →
    ∃ s', s.run ops = .ok s' ∧ Tree.run s.tree ops = .ok s'.tree ∧ s'.bytes = total (Tree.Spec.entries s'.tree) := by
  intro ops
  induction ops with
  | nil => intro s m _ _ hb _; exact ⟨s, rfl, rfl, hb⟩
  | cons o os ih =>
    intro s m h hi hb ho
    rcases sized_step h hi hb (ho o (by simp)) with ⟨s1, e1, e2, e3⟩
    rcases Tree.good_step h hi (ho o (by simp)) with ⟨t1, f1, f2, f3, _⟩
    rw [f1] at e2
    cases e2
    rcases ih f2 f3 e3 (fun o' ho' => ho o' (by simp [ho'])) with ⟨s', g1, g2, g3⟩
    refine ⟨s', ?_, ?_, g3⟩
    · rw [Sized.run, e1]; exact g1
    · rw [Tree.run, f1]; exact g2

/-- The values in a tree are values that were given. -/
theorem after_value : ∀ (ops : List (Op Val)) (m : Name → Option Val) (P : Val → Prop), (∀ k v, m k = some v → P v) → (∀ o ∈ ops, ∀ v ∈ valueOf o, P v) →
    ∀ k v, Tree.Spec.after m ops k = some v → P v := by
  intro ops
  induction ops with
  | nil => intro m P h _ k v hk; exact h k v hk
  | cons o os ih =>
    intro m P h ho k v hk
    refine ih (Tree.Spec.apply m o) P ?_ (fun o' ho' => ho o' (by simp [ho'])) k v hk
    intro k' v' hk'
    have hov := ho o (by simp)
    cases o with
    | insert n w =>
      simp only [Tree.Spec.apply] at hk'
      split at hk'
      · simp only [Option.some.injEq] at hk'
        cases hmn : m n with
        | none => rw [hmn] at hk'; simp only [Option.getD_none] at hk'; subst hk'; exact hov w (by simp [valueOf])
        | some x => rw [hmn] at hk'; simp only [Option.getD_some] at hk'; subst hk'; exact h n x hmn
      · exact h _ _ hk'
    | replace n w =>
      simp only [Tree.Spec.apply] at hk'
      split at hk'
      · simp only [Option.some.injEq] at hk'; subst hk'; exact hov w (by simp [valueOf])
      · exact h _ _ hk'
    | del n =>
      simp only [Tree.Spec.apply] at hk'
      split at hk'
      · cases hk'
      · exact h _ _ hk'

/-- The names in a tree are names that were given. -/
theorem after_name : ∀ (ops : List (Op Val)) (m : Name → Option Val) (P : Name → Prop), (∀ k v, m k = some v → P k) → (∀ o ∈ ops, P (Op.name o)) →
    ∀ k v, Tree.Spec.after m ops k = some v → P k := by
  intro ops
  induction ops with
  | nil => intro m P h _ k v hk; exact h k v hk
  | cons o os ih =>
    intro m P h ho k v hk
    refine ih (Tree.Spec.apply m o) P ?_ (fun o' ho' => ho o' (by simp [ho'])) k v hk
    intro k' v' hk'
    have hov := ho o (by simp)
    cases o with
    | insert n w =>
      simp only [Tree.Spec.apply] at hk'
      split at hk'
      · rename_i e; rw [e]; exact hov
      · exact h _ _ hk'
    | replace n w =>
      simp only [Tree.Spec.apply] at hk'
      split at hk'
      · rename_i e; rw [e]; exact hov
      · exact h _ _ hk'
    | del n =>
      simp only [Tree.Spec.apply] at hk'
      split at hk'
      · cases hk'
      · exact h _ _ hk'

theorem allTravel_of : ∀ l : List (Name × Val), (∀ p ∈ l, Travels p.2) → AllTravel (Ents.of l)
  | [], _ => trivial
  | (n, v) :: l, h => ⟨h (n, v) (by simp), allTravel_of l fun p hp => h p (by simp [hp])⟩

theorem allSmall_of : ∀ l : List (Name × Val), (∀ p ∈ l, Small p.2) → AllSmall (Ents.of l)
  | [], _ => trivial
  | (n, v) :: l, h => ⟨h (n, v) (by simp), allSmall_of l fun p hp => h p (by simp [hp])⟩

theorem allCounted_of : ∀ l : List (Name × Val), (∀ p ∈ l, (∀ s, p.1 = .str s → s.length ≤ 255) ∧ Counted p.2) → AllCounted (Ents.of l)
  | [], _ => trivial
  | (n, v) :: l, h => ⟨(h (n, v) (by simp)).1, (h (n, v) (by simp)).2, allCounted_of l fun p hp => h p (by simp [hp])⟩

theorem levelsOf_of (d : Nat) : ∀ l : List (Name × Val), (∀ p ∈ l, 1 ≤ d ∧ levels p.2 ≤ d) → levelsOf (Ents.of l) ≤ d
  | [], _ => Nat.zero_le _
  | (n, v) :: l, h => by
    have h1 := h (n, v) (by simp)
    have h2 := levelsOf_of d l fun p hp => h p (by simp [hp])
    simp only [Ents.of, levelsOf]
    simp only at h1
    have h3 : keyLevels n ≤ 1 := by cases n <;> simp [keyLevels]
    omega

end Np.Ser
