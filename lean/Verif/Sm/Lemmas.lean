import Verif.Sm.Spec
namespace Np.Sm
open _root_.Np.Sm.Spec
variable {W E : Type}

theorem holds_iff (r : Rule W E) (m : Machine W) (e : E) : r.holds m e = true ↔ ∀ c, r.cond = some c → c m e = true := by
  unfold Rule.holds
  cases h : r.cond with
  | none => simp
  | some c => simp

theorem applies_iff (r : Rule W E) (m : Machine W) (e : E) : (r.active && r.holds m e) = true ↔ Applies m e r := by
  rw [Bool.and_eq_true, holds_iff]; exact Iff.rfl

theorem firstRule_some {m : Machine W} {e : E} {l : List (Rule W E)} {r : Rule W E} (h : firstRule m e l = some r) : First m e l r := by
  induction l with
  | nil => exact absurd h (by simp [firstRule])
  | cons x rest ih =>
    unfold firstRule at h
    by_cases k : (x.active && x.holds m e) = true
    · rw [if_pos k] at h
      cases h
      exact ⟨[], rest, rfl, (applies_iff _ _ _).mp k, fun _ hx => (List.not_mem_nil hx).elim⟩
    · rw [if_neg k] at h
      obtain ⟨b, a, e1, h1, h2⟩ := ih h
      refine ⟨x :: b, a, by rw [e1]; rfl, h1, fun y hy => ?_⟩
      rcases List.mem_cons.mp hy with e2 | hy
      · rw [e2]; exact fun q => k ((applies_iff _ _ _).mpr q)
      · exact h2 y hy

theorem firstRule_of_first {m : Machine W} {e : E} {l : List (Rule W E)} {r : Rule W E} (h : First m e l r) : firstRule m e l = some r := by
  obtain ⟨b, a, e1, h1, h2⟩ := h
  subst e1
  induction b with
  | nil => exact if_pos ((applies_iff _ _ _).mpr h1)
  | cons x b ih =>
    show (if (x.active && x.holds m e) = true then _ else _) = _
    rw [if_neg (fun k => h2 x List.mem_cons_self ((applies_iff _ _ _).mp k))]
    exact ih (fun y hy => h2 y (List.mem_cons_of_mem _ hy))

theorem firstRule_none {m : Machine W} {e : E} {l : List (Rule W E)} : firstRule m e l = none ↔ ∀ r ∈ l, ¬ Applies m e r := by
  induction l with
  | nil => simp [firstRule]
  | cons x rest ih =>
    unfold firstRule
    by_cases k : (x.active && x.holds m e) = true
    · rw [if_pos k]
      exact ⟨fun h => absurd h (by simp), fun h => absurd ((applies_iff _ _ _).mp k) (h x List.mem_cons_self)⟩
    · rw [if_neg k, ih]
      constructor
      · intro h r hr
        rcases List.mem_cons.mp hr with e1 | hr
        · rw [e1]; exact fun q => k ((applies_iff _ _ _).mpr q)
        · exact h r hr
      · exact fun h r hr => h r (List.mem_cons_of_mem _ hr)

theorem act_flat (r : Rule W E) (h : ∀ f, r.action = some f → Flat f) : Flat r.act := by
  intro m e
  unfold Rule.act
  cases k : r.action with
  | none => rfl
  | some f => exact h f k m e

theorem mk_eq (m : Machine W) (k : Nat) (h : m.cur = k) : m = ⟨k, m.data⟩ := by cases m; cases h; rfl

end Np.Sm
