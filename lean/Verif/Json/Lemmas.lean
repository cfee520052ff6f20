import Verif.Json.Spec
import Mathlib.Data.List.Forall2
/-! # Lemmas on the JSON of a tree -/
namespace Np.Json
open _root_.Np.Json.Spec

theorem toDouble_exact {n : Int} (h : n.natAbs ≤ 2 ^ 53) : toDouble n = n := by
  unfold toDouble nearest
  rw [if_pos h]
  split <;> omega

theorem put_new {ms : List (Text × Json)} {n : Text} (h : n ∉ ms.map (·.1)) (j : Json) : put ms n j = ms ++ [(n, j)] := by
  unfold put
  rw [if_neg]
  intro q
  obtain ⟨e, he, w⟩ := List.any_eq_true.1 q
  exact h (List.mem_map.2 ⟨e, he, by simpa using w⟩)

mutual

/-- The JSON value of a value, entry by entry. -/
def Rel (fmt : Nat → Text) : Val → Json → Prop
  | .int n, j => j = .num n
  | .real d _, j => j = .real d
  | .pair a b, j => j = .arr [.num a, .num b]
  | .text t _, j => j = .str t
  | .char _, _ => False
  | .tree t, j => ∃ ms, j = .obj ms ∧ RelTree fmt t ms

def RelTree (fmt : Nat → Text) : Tree → List (Text × Json) → Prop
  | .nil, ms => ms = []
  | .cons k v rest, ms => ∃ n j ms', ms = (n, j) :: ms' ∧ nameOf fmt k = some n ∧ Rel fmt v j ∧ RelTree fmt rest ms'

end

mutual

theorem conv_good (fmt : Nat → Text) : ∀ (v : Val), Good fmt v → ∃ j, conv fmt v = .ok (some j) ∧ Rel fmt v j
  | .int n, h => ⟨.num n, by rw [Good] at h; rw [conv, toDouble_exact h], by rw [Rel]⟩
  | .real d f, h => ⟨.real d, by rw [Good] at h; rw [conv, if_pos h], by rw [Rel]⟩
  | .pair a b, _ => ⟨_, by rw [conv], by rw [Rel]⟩
  | .text t u, h => ⟨.str t, by rw [Good] at h; rw [conv, if_pos h], by rw [Rel]⟩
  | .char c, h => by rw [Good] at h; exact h.elim
  | .tree t, h => by
    rw [Good] at h
    obtain ⟨ms, h1, h2⟩ := loop_good fmt t [] h.1 h.2 (by simp)
    refine ⟨.obj ms, ?_, by rw [Rel]; exact ⟨ms, rfl, h2⟩⟩
    rw [conv, h1]
    simp [finish]

theorem loop_good (fmt : Nat → Text) : ∀ (t : Tree) (acc : List (Text × Json)), GoodTree fmt t → (names fmt t).Nodup → (∀ n, some n ∈ names fmt t → n ∉ acc.map (·.1)) →
    ∃ ms, loop fmt t { obj := acc, arr := none, useArray := false } = .ok { obj := acc ++ ms, arr := none, useArray := false } ∧ RelTree fmt t ms
  | .nil, acc, _, _, _ => ⟨[], by rw [loop, List.append_nil], by rw [RelTree]⟩
  | .cons k v rest, acc, h, hn, hd => by
    rw [GoodTree] at h
    obtain ⟨⟨h1, h2⟩, h3, h4⟩ := h
    rw [names, List.nodup_cons] at hn
    obtain ⟨j, hj, hr⟩ := conv_good fmt v h3
    cases hk : nameOf fmt k with
    | none => exact absurd hk h1
    | some n =>
      have hnew : n ∉ acc.map (·.1) := hd n (by rw [names, hk]; exact List.mem_cons_self ..)
      have hl : listKey k = false := by
        cases k <;> first | rfl | exact absurd rfl (h2 _)
      obtain ⟨ms, hm, hrel⟩ := loop_good fmt rest (acc ++ [(n, j)]) h4 hn.2 (by
        intro x hx
        rw [List.map_append, List.mem_append, not_or]
        refine ⟨hd x (by rw [names]; exact List.mem_cons_of_mem _ hx), ?_⟩
        simp only [List.map_cons, List.map_nil, List.mem_singleton]
        intro e
        rw [hk] at hn
        exact hn.1 (e ▸ hx))
      refine ⟨(n, j) :: ms, ?_, ?_⟩
      · rw [loop, hk]
        simp only [hj, hl, Bool.or_self, add, Bool.false_eq_true, if_false, put_new hnew]
        rw [hm]
        simp
      · rw [RelTree]
        exact ⟨n, j, ms, rfl, hk, hr, hrel⟩

end

theorem relTree_names (fmt : Nat → Text) : ∀ (t : Tree) (ms : List (Text × Json)), RelTree fmt t ms → ms.map (some ·.1) = names fmt t
  | .nil, ms, h => by rw [RelTree] at h; rw [h, names]; rfl
  | .cons k v rest, ms, h => by
    rw [RelTree] at h
    obtain ⟨n, j, ms', rfl, h1, _, h3⟩ := h
    rw [names, h1, ← relTree_names fmt rest ms' h3]
    rfl

theorem relTree_entry (fmt : Nat → Text) (n : Text) : ∀ (t : Tree) (ms : List (Text × Json)), RelTree fmt t ms →
    match entry fmt t n with
    | some v => ∃ j, (ms.find? fun e => e.1 == n).map (·.2) = some j ∧ Rel fmt v j
    | none => (ms.find? fun e => e.1 == n) = none
  | .nil, ms, h => by rw [RelTree] at h; rw [h]; rfl
  | .cons k v rest, ms, h => by
    rw [RelTree] at h
    obtain ⟨m, j, ms', rfl, h1, h2, h3⟩ := h
    rw [entry, h1]
    by_cases q : m = n
    · subst q
      rw [if_pos rfl]
      exact ⟨j, by simp, h2⟩
    · rw [if_neg (fun e => q (Option.some.inj e))]
      have q' : (m == n) = false := by simpa using q
      rw [List.find?_cons, q']
      exact relTree_entry fmt n rest ms' h3

theorem rel_shows (fmt : Nat → Text) (v : Val) (j : Json) (h : Rel fmt v j) : Shows fmt v j := by
  cases v with
  | tree t =>
    rw [Rel] at h
    obtain ⟨ms, h1, h2⟩ := h
    exact ⟨ms, h1, relTree_names fmt t ms h2⟩
  | _ => rw [Rel] at h; exact h

theorem rel_get (fmt : Nat → Text) : ∀ (p : List Text) (v : Val) (j : Json), Rel fmt v j →
    match Spec.get fmt p v with
    | some w => ∃ k, jget p j = some k ∧ Shows fmt w k
    | none => jget p j = none
  | [], v, j, h => ⟨j, rfl, rel_shows fmt v j h⟩
  | n :: p, v, j, h => by
    cases v with
    | tree t =>
      rw [Rel] at h
      obtain ⟨ms, rfl, h2⟩ := h
      have he := relTree_entry fmt n t ms h2
      rw [Spec.get, jget]
      cases q : entry fmt t n with
      | none => rw [q] at he; rw [he]; rfl
      | some w =>
        rw [q] at he
        obtain ⟨k, h3, h4⟩ := he
        rw [h3]
        exact rel_get fmt p w k h4
    | char c => rw [Rel] at h; exact h.elim
    | int m => rw [Rel] at h; rw [h]; rfl
    | real d f => rw [Rel] at h; rw [h]; rfl
    | pair a b => rw [Rel] at h; rw [h]; rfl
    | text t u => rw [Rel] at h; rw [h]; rfl

/-- Once a list has begun, everything is put into it. -/
theorem loop_list (fmt : Nat → Text) : ∀ (l : List (Key × Val)) (obj : List (Text × Json)) (js : List Json), (∀ e ∈ l, nameOf fmt e.1 ≠ none ∧ Good fmt e.2) →
    ∃ ks, loop fmt (ofList l) { obj := obj, arr := some js, useArray := true } = .ok { obj := obj, arr := some (js ++ ks), useArray := true } ∧
      List.Forall₂ (fun e k => conv fmt e.2 = .ok (some k) ∧ Rel fmt e.2 k) l ks
  | [], obj, js, _ => ⟨[], by rw [ofList, loop, List.append_nil], .nil⟩
  | (k, v) :: l, obj, js, h => by
    obtain ⟨h1, h2⟩ := h (k, v) (List.mem_cons_self ..)
    obtain ⟨j, hj, hr⟩ := conv_good fmt v h2
    obtain ⟨ks, h3, h4⟩ := loop_list fmt l obj (js ++ [j]) (fun e he => h e (List.mem_cons_of_mem _ he))
    refine ⟨j :: ks, ?_, .cons ⟨hj, hr⟩ h4⟩
    simp only at h1
    cases hk : nameOf fmt k with
    | none => exact absurd hk h1
    | some n =>
      rw [ofList, loop, hk]
      simp only [hj, Bool.true_or, add, if_true, Option.getD_some, Option.toList_some]
      rw [h3]
      simp

mutual

theorem conv_safe (fmt : Nat → Text) : ∀ (v : Val), NoChar v → ∃ j, conv fmt v = .ok j
  | .int n, _ => ⟨_, by rw [conv]⟩
  | .real d f, _ => ⟨_, by rw [conv]⟩
  | .pair a b, _ => ⟨_, by rw [conv]⟩
  | .text t u, _ => ⟨_, by rw [conv]⟩
  | .char c, h => by rw [NoChar] at h; exact h.elim
  | .tree t, h => by
    rw [NoChar] at h
    obtain ⟨a, ha⟩ := loop_safe fmt t { obj := [], arr := none, useArray := false } h
    exact ⟨_, by rw [conv, ha]⟩

theorem loop_safe (fmt : Nat → Text) : ∀ (t : Tree) (a : Acc), NoCharTree t → ∃ b, loop fmt t a = .ok b
  | .nil, a, _ => ⟨a, by rw [loop]⟩
  | .cons k v rest, a, h => by
    rw [NoCharTree] at h
    rw [loop]
    split
    · exact loop_safe fmt rest a h.2
    · obtain ⟨j, hj⟩ := conv_safe fmt v h.1
      rw [hj]
      exact loop_safe fmt rest _ h.2

end

theorem digits_read : ∀ (fuel n : Nat), n < 10 ^ fuel → readNumber (digits fuel n) = n ∧ (∀ c ∈ digits fuel n, 48 ≤ c ∧ c ≤ 57)
  | 0, n, h => by
    have : n = 0 := by simpa using h
    subst this
    simp [digits, readNumber]
  | fuel + 1, n, h => by
    rw [digits]
    by_cases q : n < 10
    · rw [if_pos q]
      simp only [List.nil_append, readNumber, List.foldl_cons, List.foldl_nil, List.mem_singleton, forall_eq]
      omega
    · rw [if_neg q]
      obtain ⟨h1, h2⟩ := digits_read fuel (n / 10) (by rw [Nat.pow_succ] at h; omega)
      constructor
      · unfold readNumber at *
        rw [List.foldl_append, h1]
        simp only [List.foldl_cons, List.foldl_nil]
        omega
      · intro c hc
        rcases List.mem_append.1 hc with r | r
        · exact h2 c r
        · have := List.mem_singleton.1 r
          omega

theorem digits_head : ∀ (fuel n : Nat), 0 < n → n < 10 ^ fuel → ∃ c r, digits fuel n = c :: r ∧ 48 < c
  | 0, n, h0, h => by
    have : n = 0 := by simpa using h
    omega
  | fuel + 1, n, h0, h => by
    rw [digits]
    by_cases q : n < 10
    · rw [if_pos q]
      exact ⟨48 + n % 10, [], rfl, by omega⟩
    · rw [if_neg q]
      obtain ⟨c, r, h1, h2⟩ := digits_head fuel (n / 10) (by omega) (by rw [Nat.pow_succ] at h; omega)
      exact ⟨c, r ++ [48 + n % 10], by rw [h1]; rfl, h2⟩

end Np.Json
