import Verif.Web.Spec
import Verif.Json.Lemmas
/-! # Lemmas about web searches -/
namespace Np.Web
open Np.Json (Text Key Val Tree Json toJson loop nameOf conv add listKey finish Acc put)
open _root_.Np.Web.Spec

theorem takeWhile_zero (t u : Text) (h : 0 ∉ t) : (t ++ 0 :: u).takeWhile (· ≠ 0) = t := by
  induction t with
  | nil => simp
  | cons a t ih =>
    simp only [List.mem_cons, not_or] at h
    rw [List.cons_append, List.takeWhile_cons, if_pos (by simp; exact fun q => h.1 q.symm), ih h.2]

theorem titleOf_has {ti : Title} {t : Text} (h : HasTitle ti t) : titleOf ti = .ok t := by
  cases h with
  | missing => rfl
  | text t behind h =>
    have e : (t ++ [0]) ++ behind = t ++ 0 :: behind := by simp
    simp only [titleOf, cstr, e]
    rw [if_pos (by simp), takeWhile_zero t behind h]

theorem collect_full (utf8 : Text → Bool) (size : Result → Nat) : ∀ (rs : List Result) (ts : List Text) (i count : Nat),
    List.Forall₂ (fun r t => titleOf r.title = .ok t) rs ts → 65535 ≤ count → count + (rs.map size).sum < 2 ^ 32 → collect utf8 size rs i count = .ok [] := by
  intro rs
  induction rs with
  | nil => intro ts i count _ _ _; rfl
  | cons r rs ih =>
    intro ts i count h hc hs
    cases h with
    | cons p q =>
      simp only [List.map_cons, List.sum_cons] at hs
      rw [collect, p]
      simp only
      rw [Nat.mod_eq_of_lt (by omega), ih _ _ _ q (by omega) (by omega)]
      simp only
      rw [if_neg (by omega)]

theorem collect_ok (utf8 : Text → Bool) (size : Result → Nat) : ∀ (rs : List Result) (ts : List Text) (i count : Nat),
    List.Forall₂ (fun r t => titleOf r.title = .ok t) rs ts → count < 65535 → count + (rs.map size).sum < 2 ^ 32 →
    ∃ l, collect utf8 size rs i count = .ok l ∧ l.map (·.2) = (List.zipWith (treeOf utf8) rs ts).take (fitting size rs count) := by
  intro rs
  induction rs with
  | nil => intro ts i count h _ _; cases h; exact ⟨[], rfl, rfl⟩
  | cons r rs ih =>
    intro ts i count h hc hs
    cases h with
    | @cons _ t _ ts p q =>
      simp only [List.map_cons, List.sum_cons] at hs
      rw [collect, p]
      simp only
      rw [Nat.mod_eq_of_lt (by omega)]
      by_cases hf : count + size r < 65535
      · obtain ⟨l, h1, h2⟩ := ih ts (i + 1) (count + size r) q hf (by omega)
        rw [h1]
        refine ⟨(i, treeOf utf8 r t) :: l, by simp only [if_pos hf], ?_⟩
        rw [fitting, if_pos hf, List.map_cons, h2, List.zipWith_cons_cons, Nat.add_comm 1, List.take_succ_cons]
      · rw [collect_full utf8 size rs ts _ _ q (by omega) (by omega)]
        refine ⟨[], by simp only [if_neg hf], ?_⟩
        rw [fitting, if_neg hf]
        simp

/-- The tree of a result becomes its JSON. -/
theorem conv_treeOf (utf8 : Text → Bool) (fmt : Nat → Text) (r : Result) (t : Text) (h1 : utf8 r.label = true) (h2 : utf8 t = true) (h3 : r.finite = true) (h4 : r.hits < 256) :
    conv fmt (.tree (treeOf utf8 r t)) = .ok (some (shown r t)) := by
  have e : Np.Json.toDouble (r.hits : Int) = r.hits := Np.Json.toDouble_exact (by simp; omega)
  simp [conv, treeOf, loop, nameOf, h1, h2, h3, e, add, listKey, put, finish, shown, hitCounter, label, similarity, title]

theorem loop_trees (fmt : Nat → Text) : ∀ (l : List (Nat × Tree)) (js : List Json) (o : List (Text × Json)) (acc : List Json),
    List.Forall₂ (fun e j => conv fmt (.tree e.2) = .ok (some j)) l js →
    loop fmt (treeOfList l) { obj := o, arr := some acc, useArray := true } = .ok { obj := o, arr := some (acc ++ js), useArray := true } := by
  intro l
  induction l with
  | nil => intro js o acc h; cases h; rw [treeOfList, loop, List.append_nil]
  | cons e l ih =>
    intro js o acc h
    cases h with
    | @cons _ j _ js p q =>
      obtain ⟨i, t⟩ := e
      rw [treeOfList, loop]
      simp only [nameOf, p, Bool.true_or, add, if_true, Option.getD_some, Option.toList_some]
      rw [ih js o (acc ++ [j]) q, List.append_assoc]
      rfl

theorem toJson_trees (fmt : Nat → Text) (l : List (Nat × Tree)) (js : List Json) (hl : l ≠ []) (h : List.Forall₂ (fun e j => conv fmt (.tree e.2) = .ok (some j)) l js) :
    toJson fmt (treeOfList l) = .ok (.arr js) := by
  cases h with
  | nil => exact absurd rfl hl
  | @cons e j l js p q =>
    obtain ⟨i, t⟩ := e
    rw [toJson, treeOfList, loop]
    simp only [nameOf, p, listKey, Bool.or_true, add, if_true, Option.getD_none, Option.toList_some, List.nil_append]
    rw [loop_trees fmt l js [] [j] q]
    rfl

theorem trees_shown (utf8 : Text → Bool) (fmt : Nat → Text) : ∀ (rs : List Result) (ts : List Text), List.Forall₂ (Plain utf8) rs ts → ∀ (n : Nat) (l : List (Nat × Tree)),
    l.map (·.2) = (List.zipWith (treeOf utf8) rs ts).take n →
    List.Forall₂ (fun e j => conv fmt (.tree e.2) = .ok (some j)) l ((List.zipWith shown rs ts).take n) := by
  intro rs ts h
  induction h with
  | nil => intro n l hl; simp at hl; subst hl; simp
  | @cons r t rs ts p _ ih =>
    intro n l hl
    cases n with
    | zero => simp at hl; subst hl; simp
    | succ n =>
      rw [List.zipWith_cons_cons, List.take_succ_cons] at hl ⊢
      cases l with
      | nil => simp at hl
      | cons e l =>
        simp only [List.map_cons, List.cons.injEq] at hl
        refine .cons ?_ (ih n l hl.2)
        rw [hl.1]
        exact conv_treeOf utf8 fmt r t p.2.1 p.2.2.1 p.2.2.2.1 p.2.2.2.2

theorem titles (utf8 : Text → Bool) {rs : List Result} {ts : List Text} (h : List.Forall₂ (Plain utf8) rs ts) : List.Forall₂ (fun (r : Result) t => titleOf r.title = .ok t) rs ts := by
  induction h with
  | nil => exact .nil
  | cons p _ ih => exact .cons (titleOf_has p.1) ih

theorem collect_ne (utf8 : Text → Bool) (size : Result → Nat) : ∀ (rs : List Result) (i count : Nat), (∀ r ∈ rs, ∃ t, titleOf r.title = .ok t) →
    ∃ l, collect utf8 size rs i count = .ok l ∧ ∀ e ∈ l, ∃ r t, e.2 = treeOf utf8 r t := by
  intro rs
  induction rs with
  | nil => intro i count _; exact ⟨[], rfl, by simp⟩
  | cons r rs ih =>
    intro i count h
    obtain ⟨t, ht⟩ := h r (List.mem_cons_self ..)
    obtain ⟨l, h1, h2⟩ := ih (i + 1) ((count + size r) % 2 ^ 32) fun x hx => h x (List.mem_cons_of_mem _ hx)
    rw [collect, ht]
    simp only [h1]
    refine ⟨_, rfl, ?_⟩
    intro e he
    split at he
    · rcases List.mem_cons.1 he with q | q
      · exact ⟨r, t, by rw [q]⟩
      · exact h2 e q
    · exact h2 e he

theorem collect_fault (utf8 : Text → Bool) (size : Result → Nat) (f : Fault) (r : Result) (hr : titleOf r.title = .error f) : ∀ (before : List Result) (rs : List Result) (i count : Nat),
    (∀ r ∈ before, ∃ t, titleOf r.title = .ok t) → collect utf8 size (before ++ r :: rs) i count = .error f := by
  intro before
  induction before with
  | nil => intro rs i count _; rw [List.nil_append, collect, hr]
  | cons b before ih =>
    intro rs i count h
    obtain ⟨t, ht⟩ := h b (List.mem_cons_self ..)
    rw [List.cons_append, collect, ht]
    simp only
    rw [ih rs _ _ fun x hx => h x (List.mem_cons_of_mem _ hx)]

theorem treeOfList_noChar (utf8 : Text → Bool) : ∀ (l : List (Nat × Tree)), (∀ e ∈ l, ∃ r t, e.2 = treeOf utf8 r t) → Np.Json.Spec.NoCharTree (treeOfList l) := by
  intro l
  induction l with
  | nil => intro _; simp [treeOfList, Np.Json.Spec.NoCharTree]
  | cons e l ih =>
    intro h
    obtain ⟨i, t⟩ := e
    obtain ⟨r, t', ht⟩ := h (i, t) (List.mem_cons_self ..)
    simp only at ht
    subst ht
    rw [treeOfList, Np.Json.Spec.NoCharTree]
    refine ⟨?_, ih fun x hx => h x (List.mem_cons_of_mem _ hx)⟩
    simp [Np.Json.Spec.NoChar, treeOf, Np.Json.Spec.NoCharTree]

end Np.Web
