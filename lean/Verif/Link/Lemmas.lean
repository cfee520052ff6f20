import Verif.Link.Spec
import Mathlib.Tactic.Linarith
import Mathlib.Tactic.NormNum
import Mathlib.Tactic.Ring
import Mathlib.Tactic.FieldSimp
import Mathlib.Algebra.Order.Field.Rat

set_option linter.unusedSimpArgs false
set_option linter.unusedVariables false

namespace Np.Link
open _root_.Np.Link.Spec

/-- A window, the oldest first. -/
def view {α : Type} (w : List α) (i : Nat) : List α := w.drop (i + 1) ++ w.take (i + 1)

theorem view_set {α : Type} (w : List α) (i : Nat) (x : α) (hw : w.length = 31) (hi : i < 31) :
    view (w.set (nextIdx i) x) (nextIdx i) = (view w i).tail ++ [x] := by
  unfold nextIdx W
  by_cases h : i + 1 = 31
  · rw [if_pos h]
    have e : i = 30 := by omega
    subst e
    cases w with
    | nil => simp at hw
    | cons y r =>
      simp only [List.length_cons] at hw
      simp [view, List.drop_eq_nil_of_le, hw, List.take_of_length_le]
  · rw [if_neg h]
    have h1 : i + 1 < w.length := by omega
    unfold view
    rw [List.drop_set_of_lt (by omega), List.drop_eq_getElem_cons (l := w) h1]
    have h2 : i + 1 < (w.set (i + 1) x).length := by simpa using h1
    rw [List.take_succ_eq_append_getElem h2]
    have e : (w.drop (i + 1) ++ w.take (i + 1)).tail = w.drop (i + 1 + 1) ++ w.take (i + 1) := by
      rw [List.drop_eq_getElem_cons (l := w) h1]; rfl
    rw [← List.drop_eq_getElem_cons (l := w) h1, e]
    simp [List.take_set_of_le]

theorem countP_view (w : List Bool) (i : Nat) : w.countP id = (view w i).countP id := by
  unfold view
  rw [List.countP_append, Nat.add_comm, ← List.countP_append, List.take_append_drop]

theorem total_append (a b : List Rat) : total (a ++ b) = total a + total b := by
  induction a with
  | nil => simp [total]
  | cons x r ih => simp only [List.cons_append, total, ih]; ring

theorem total_view (w : List Rat) (i : Nat) : total w = total (view w i) := by
  unfold view
  rw [total_append, add_comm, ← total_append, List.take_append_drop]

theorem view_length {α : Type} (w : List α) (i : Nat) : (view w i).length = w.length := by
  simp only [view, List.length_append, List.length_drop, List.length_take]
  omega

theorem recent_snoc {α : Type} (v : List α) (xs : List α) (hv : v.length = 31) :
    recent 31 (v ++ xs) = (v ++ xs).drop xs.length := by
  unfold recent
  congr 1
  simp [hv]

theorem update_sWin (n : Node) (now : Rat) (a : Bool) :
    (n.update now a).1.sWin = n.sWin ∧ (n.update now a).1.sIdx = n.sIdx ∧ (n.update now a).1.lWin = n.lWin ∧
      (n.update now a).1.lIdx = n.lIdx ∧ (n.update now a).1.avg = (n.sWin.countP id : Rat) / W ∧
      (n.update now a).1.latency = total n.lWin / W := by
  unfold Node.update Node.average
  simp only []
  split
  · simp
  · unfold Node.tryInsert Node.tryPing Node.tryRemove
    refine ⟨?_, ?_, ?_, ?_, ?_, ?_⟩ <;> (repeat' split) <;> rfl

theorem update_eq (n : Node) (now : Rat) (a : Bool) : n.update now a =
    if n.left then (n.average, [])
    else
      ((((n.average.tryInsert now a).1.tryPing now).1.tryRemove).1,
        (n.average.tryInsert now a).2 ++ ((n.average.tryInsert now a).1.tryPing now).2 ++ (((n.average.tryInsert now a).1.tryPing now).1.tryRemove).2) :=
  rfl

theorem handle_sWin (n : Node) (e : Event) :
    (n.handle e).sWin = n.sWin.set (nextIdx n.sIdx) (match e with | .response _ => true | .timeout _ => false) ∧
      (n.handle e).sIdx = nextIdx n.sIdx ∧ (n.handle e).lIdx = nextIdx n.lIdx := by
  cases e <;> simp [Node.handle]

theorem nextIdx_lt (i : Nat) (h : i < 31) : nextIdx i < 31 := by
  unfold nextIdx W
  split <;> omega

theorem wf_step (n : Node) (h : Wf n) (o : Op) : Wf (n.step o) := by
  obtain ⟨h1, h2, h3, h4⟩ := h
  cases o with
  | event e =>
    cases e with
    | timeout w => simp [Wf, Node.step, Node.handle, h1, h3, nextIdx_lt _ h2, nextIdx_lt _ h4]
    | response l =>
      simp only [Wf, Node.step, Node.handle, List.length_set, h1, nextIdx_lt _ h2, nextIdx_lt _ h4, true_and, and_true]
      split
      · simp [W]
      · exact h3
  | update now a =>
    obtain ⟨e1, e2, e3, e4, _⟩ := update_sWin n now a
    simp only [Wf, Node.step, e1, e2, e3, e4]
    exact ⟨h1, h2, h3, h4⟩

theorem wf_run (os : List Op) : ∀ n, Wf n → Wf (n.run os) := by
  induction os with
  | nil => intro n h; exact h
  | cons o r ih => intro n h; exact ih _ (wf_step n h o)

theorem wf_fresh (now delay : Rat) (p : Bool) : Wf (Node.fresh now delay p) := by
  refine ⟨?_, ?_, ?_, ?_⟩ <;> simp [Node.fresh, W]

theorem view_run (os : List Op) : ∀ n, Wf n →
    view (n.run os).sWin (n.run os).sIdx = (view n.sWin n.sIdx ++ outcomes os).drop (outcomes os).length := by
  induction os with
  | nil => intro n h; simp [Node.run, outcomes]
  | cons o r ih =>
    intro n h
    have h' := wf_step n h o
    show view ((n.step o).run r).sWin ((n.step o).run r).sIdx = _
    rw [ih _ h']
    have hl := view_length n.sWin n.sIdx
    cases o with
    | update now a =>
      obtain ⟨e1, e2, _⟩ := update_sWin n now a
      simp only [Node.step, e1, e2, outcomes]
    | event e =>
      obtain ⟨e1, e2, _⟩ := handle_sWin n e
      simp only [Node.step, e1, e2]
      rw [view_set _ _ _ h.1 h.2.1]
      have hne : 0 < (view n.sWin n.sIdx).length := by rw [hl, h.1]; omega
      cases hv : view n.sWin n.sIdx with
      | nil => rw [hv] at hne; simp at hne
      | cons y t => cases e <;> simp [outcomes]

theorem run_append (a b : List Op) : ∀ n : Node, n.run (a ++ b) = (n.run a).run b := by
  induction a with
  | nil => intro n; rfl
  | cons x r ih => intro n; exact ih _

theorem credit_view (now delay : Rat) (p : Bool) : view (Node.fresh now delay p).sWin (Node.fresh now delay p).sIdx = credit := by
  show view ((List.range 31).map fun i => i % 2 == 1) 0 = credit
  decide

/-- The count after a history. -/
theorem count_run (n : Node) (h : Wf n) (os : List Op) :
    (n.run os).sWin.countP id = answered (recent 31 (view n.sWin n.sIdx ++ outcomes os)) := by
  have hl := view_length n.sWin n.sIdx
  rw [countP_view _ (n.run os).sIdx, view_run os n h, recent_snoc _ _ (by rw [hl]; exact h.1)]
  rfl

theorem countP_tail (l : List Bool) (x : Bool) : l.countP id ≤ (l.tail ++ [x]).countP id + 1 - (if x then 1 else 0) := by
  cases l with
  | nil => simp
  | cons y t => cases x <;> cases y <;> simp [List.countP_cons]

theorem handle_count (n : Node) (h : Wf n) (e : Event) :
    n.sWin.countP id ≤ (n.handle e).sWin.countP id + 1 - (match e with | .response _ => 1 | .timeout _ => 0) := by
  obtain ⟨e1, e2, _⟩ := handle_sWin n e
  rw [countP_view n.sWin n.sIdx, countP_view (n.handle e).sWin (n.handle e).sIdx, e1, e2, view_set _ _ _ h.1 h.2.1]
  have := countP_tail (view n.sWin n.sIdx) (match e with | .response _ => true | .timeout _ => false)
  cases e <;> simpa using this

theorem count_le (n : Node) (h : Wf n) : n.sWin.countP id ≤ 31 := by
  rw [← h.1]; exact List.countP_le_length

theorem rate_lt (k : Nat) : ((k : Rat) / W < 1 / 4) ↔ k ≤ 7 := by
  have e : ((W : Nat) : Rat) = 31 := by norm_num [W]
  rw [e, div_lt_iff₀ (by norm_num)]
  constructor
  · intro h
    by_contra hc
    have : (8 : Rat) ≤ k := by exact_mod_cast (by omega : 8 ≤ k)
    linarith
  · intro h
    have : (k : Rat) ≤ 7 := by exact_mod_cast h
    linarith

theorem rate_gt (k : Nat) : (1 / 4 < (k : Rat) / W) ↔ 8 ≤ k := by
  have e : ((W : Nat) : Rat) = 31 := by norm_num [W]
  rw [e, lt_div_iff₀ (by norm_num)]
  constructor
  · intro h
    by_contra hc
    have : (k : Rat) ≤ 7 := by exact_mod_cast (by omega : k ≤ 7)
    linarith
  · intro h
    have : (8 : Rat) ≤ k := by exact_mod_cast h
    linarith

theorem rate_le_good (k : Nat) : ((k : Rat) / W ≤ 3 / 4) ↔ k ≤ 23 := by
  have e : ((W : Nat) : Rat) = 31 := by norm_num [W]
  rw [e, div_le_iff₀ (by norm_num)]
  constructor
  · intro h
    by_contra hc
    have : (24 : Rat) ≤ k := by exact_mod_cast (by omega : 24 ≤ k)
    linarith
  · intro h
    have : (k : Rat) ≤ 23 := by exact_mod_cast h
    linarith

/-! ## Latency -/

theorem total_pos (l : List Rat) (h : ∀ x ∈ l, 0 < x) (hne : l ≠ []) : 0 < total l := by
  have h0 : ∀ l : List Rat, (∀ x ∈ l, 0 < x) → 0 ≤ total l := by
    intro l
    induction l with
    | nil => intro _; simp [total]
    | cons y r ih =>
      intro h
      have := ih fun x hx => h x (by simp [hx])
      have := h y (by simp)
      simp only [total]; linarith
  cases l with
  | nil => exact absurd rfl hne
  | cons y r =>
    have := h0 r fun x hx => h x (by simp [hx])
    have := h y (by simp)
    simp only [total]; linarith

/-- All entries and the average are positive. -/
def LPos (n : Node) : Prop := (∀ x ∈ n.lWin, 0 < x) ∧ n.latency ≠ -1

theorem lpos_step (n : Node) (hw : Wf n) (h : LPos n) (o : Op) (ho : ∀ x ∈ times [o], 0 < x) : LPos (n.step o) := by
  cases o with
  | update now a =>
    obtain ⟨_, _, e3, _, _, e6⟩ := update_sWin n now a
    refine ⟨by simp only [Node.step, e3]; exact h.1, ?_⟩
    simp only [Node.step, e6]
    have : 0 < total n.lWin := total_pos _ h.1 (fun e => by have := hw.2.2.1; rw [e] at this; simp at this)
    have e : ((W : Nat) : Rat) = 31 := by norm_num [W]
    have : 0 < total n.lWin / W := by rw [e]; exact div_pos this (by norm_num)
    intro hc; linarith
  | event ev =>
    cases ev with
    | timeout w =>
      have hx := ho w (by simp [times])
      refine ⟨?_, h.2⟩
      intro x hm
      rcases List.mem_or_eq_of_mem_set hm with h1 | h1
      · exact h.1 x h1
      · rw [h1]; exact hx
    | response l =>
      have hx := ho l (by simp [times])
      refine ⟨?_, h.2⟩
      intro x hm
      simp only [Node.step, Node.handle, if_neg h.2, if_pos hx] at hm
      rcases List.mem_or_eq_of_mem_set hm with h1 | h1
      · exact h.1 x h1
      · rw [h1]; exact hx

theorem lview_run (os : List Op) : ∀ n, Wf n → LPos n → (∀ x ∈ times os, 0 < x) →
    view (n.run os).lWin (n.run os).lIdx = (view n.lWin n.lIdx ++ times os).drop (times os).length := by
  induction os with
  | nil => intro n h _ _; simp [Node.run, times]
  | cons o r ih =>
    intro n h hp ht
    have h' := wf_step n h o
    have ht1 : ∀ x ∈ times [o], 0 < x := by
      intro x hx
      apply ht x
      cases o with
      | update _ _ => simp [times] at hx
      | event e => cases e <;> simp [times] at hx ⊢ <;> simp [hx]
    have ht2 : ∀ x ∈ times r, 0 < x := by
      intro x hx
      apply ht x
      cases o with
      | update _ _ => exact hx
      | event e => cases e <;> simp [times, hx]
    have hp' := lpos_step n h hp o ht1
    show view ((n.step o).run r).lWin ((n.step o).run r).lIdx = _
    rw [ih _ h' hp' ht2]
    have hl := view_length n.lWin n.lIdx
    have hne : 0 < (view n.lWin n.lIdx).length := by rw [hl, h.2.2.1]; omega
    cases o with
    | update now a =>
      obtain ⟨_, _, e1, e2, _⟩ := update_sWin n now a
      simp only [Node.step, e1, e2, times]
    | event e =>
      cases e with
      | timeout w =>
        simp only [Node.step, Node.handle]
        rw [view_set _ _ _ h.2.2.1 h.2.2.2]
        cases hv : view n.lWin n.lIdx with
        | nil => rw [hv] at hne; simp at hne
        | cons y t => simp [times]
      | response l =>
        have hx := ht1 l (by simp [times])
        simp only [Node.step, Node.handle, if_neg hp.2, if_pos hx]
        rw [view_set _ _ _ h.2.2.1 h.2.2.2]
        cases hv : view n.lWin n.lIdx with
        | nil => rw [hv] at hne; simp at hne
        | cons y t => simp [times]

end Np.Link
