import Verif.Trie.Lemmas3

/-! # Lemmas on histories, union and intersection -/
set_option linter.unusedSimpArgs false
set_option linter.unusedVariables false
namespace Np.Trie

open Np.Trie.Spec (nib Apart keyOf NeverEmptied)

variable {V : Type}

theorem snoc_ind {α : Type} {P : List α → Prop} (h0 : P []) (hs : ∀ l a, P l → P (l ++ [a])) (l : List α) : P l := by
  have : ∀ m : List α, P m.reverse := by
    intro m
    induction m with
    | nil => exact h0
    | cons a m ih => rw [List.reverse_cons]; exact hs _ _ ih
  have := this l.reverse
  rwa [List.reverse_reverse] at this

theorem Root.run_snoc (zero : V) (o : Op V) : ∀ (ops : List (Op V)) (r : Root V), r.run zero (ops ++ [o]) = (match r.run zero ops with
    | .error f => .error f
    | .ok r' => r'.step zero o)
  | [], r => by
    simp only [List.nil_append, Root.run]
    cases r.step zero o <;> rfl
  | x :: ops, r => by
    simp only [List.cons_append, Root.run]
    cases r.step zero x with
    | error f => rfl
    | ok r' => exact Root.run_snoc zero o ops r'

theorem spec_snoc (ops : List (Op V)) (o : Op V) : Spec.run (ops ++ [o]) = Spec.step (Spec.run ops) o := by
  simp [Spec.run, List.foldl_append]

/-- A key of the map is the key of a call. -/
theorem spec_key (ops : List (Op V)) : ∀ k, Spec.run ops k ≠ none → ∃ o ∈ ops, keyOf o = k := by
  refine snoc_ind (P := fun ops => ∀ k, Spec.run ops k ≠ none → ∃ o ∈ ops, keyOf o = k) ?_ ?_ ops
  · intro k h; exact absurd rfl h
  · intro ops o ih k h
    rw [spec_snoc] at h
    cases o with
    | put k' v =>
      simp only [Spec.step, Spec.set] at h
      by_cases he : k = k'
      · exact ⟨.put k' v, by simp, he.symm⟩
      · rw [if_neg he] at h
        obtain ⟨o, ho, hk⟩ := ih k h
        exact ⟨o, by simp [ho], hk⟩
    | del k' =>
      simp only [Spec.step, Spec.set] at h
      by_cases he : k = k'
      · rw [if_pos he] at h; exact absurd rfl h
      · rw [if_neg he] at h
        obtain ⟨o, ho, hk⟩ := ih k h
        exact ⟨o, by simp [ho], hk⟩

/-- A history ends with a trie that holds the map. -/
theorem run_holds {L : Nat} (zero : V) (ops : List (Op V)) : (∀ o ∈ ops, (keyOf o).length = L) →
    (∀ o ∈ ops, ∀ o' ∈ ops, keyOf o ≠ keyOf o' → Apart (keyOf o) (keyOf o')) → NeverEmptied ops →
    ∃ r, Root.run zero .null ops = .ok r ∧ Holds L (Spec.run ops) r ∧
      ∀ s, r = .dead s → ∃ before k after, ops = before ++ .del k :: after ∧ Spec.run (before ++ [.del k]) = fun _ => none := by
  refine snoc_ind (P := fun ops => (∀ o ∈ ops, (keyOf o).length = L) → (∀ o ∈ ops, ∀ o' ∈ ops, keyOf o ≠ keyOf o' → Apart (keyOf o) (keyOf o')) → NeverEmptied ops →
    ∃ r, Root.run zero .null ops = .ok r ∧ Holds L (Spec.run ops) r ∧
      ∀ s, r = .dead s → ∃ before k after, ops = before ++ .del k :: after ∧ Spec.run (before ++ [.del k]) = fun _ => none) ?_ ?_ ops
  · intro _ _ _
    exact ⟨.null, rfl, rfl, fun s h => by cases h⟩
  · intro ops o ih hl ha hn
    obtain ⟨r, h1, h2, h3⟩ := ih (fun x hx => hl x (by simp [hx])) (fun x hx y hy => ha x (by simp [hx]) y (by simp [hy])) (by
      intro before k after he hr x hx
      exact hn before k (after ++ [o]) (by rw [he]; simp) hr x (by simp [hx]))
    rw [Root.run_snoc, h1, spec_snoc]
    simp only []
    cases o with
    | put k v =>
      have hnd : ∀ s, r ≠ .dead s := by
        intro s e
        obtain ⟨before, k0, after, e1, e2⟩ := h3 s e
        obtain ⟨k', hk'⟩ := hn before k0 (after ++ [.put k v]) (by rw [e1]; simp) e2 (.put k v) (by simp)
        cases hk'
      obtain ⟨r', g1, g2⟩ := insert_holds h2 zero k (fun _ => v) (hl (.put k v) (by simp)) (by
        intro k' hk' hne
        obtain ⟨x, hx, rfl⟩ := spec_key ops k' hk'
        exact ha (.put k v) (by simp) x (by simp [hx]) (fun e => hne e.symm)) hnd
      refine ⟨r', g1, g2, ?_⟩
      intro s e
      subst e
      have : Spec.set (Spec.run ops) k (some v) = fun _ => none := g2
      have := congrFun this k
      simp [Spec.set] at this
    | del k =>
      refine ⟨(r.delete k).getD r, rfl, ?_⟩
      rcases delete_holds h2 k with ⟨g1, g2⟩ | ⟨r', g1, g2, g3⟩
      · rw [g1]
        have e : Spec.step (Spec.run ops) (.del k) = Spec.run ops := by
          funext k'
          simp only [Spec.step, Spec.set]
          by_cases he : k' = k
          · rw [if_pos he, he, g2]
          · rw [if_neg he]
        rw [e]
        refine ⟨h2, ?_⟩
        intro s hs
        obtain ⟨before, k0, after, e1, e2⟩ := h3 s hs
        exact ⟨before, k0, after ++ [.del k], by rw [e1]; simp, e2⟩
      · rw [g1]
        refine ⟨g3, ?_⟩
        intro s hs
        simp only [Option.getD_some] at hs
        subst hs
        exact ⟨ops, k, [], rfl, by rw [spec_snoc]; exact g3⟩

mutual
/-- No key is in two leaves. -/
theorem Trie.keys_nodup {L : Nat} : ∀ {t : Trie V}, t.Good L → (t.entries.map (·.1)).Nodup
  | .leaf _ _, _ => by simp [Trie.entries]
  | .branch s ks, hg => by
    simp only [Trie.entries]
    exact Kids.keys_nodup hg.2
theorem Kids.keys_nodup {L s : Nat} : ∀ {ks : Kids V}, ks.Good L s → (ks.entries.map (·.1)).Nodup
  | .nil, _ => by simp [Kids.entries]
  | .cons p t r, hg => by
    obtain ⟨g1, g2, g3, g4⟩ := hg
    simp only [Kids.entries, List.map_append]
    rw [List.nodup_append]
    refine ⟨Trie.keys_nodup g1, Kids.keys_nodup g4, ?_⟩
    intro a ha b hb e
    obtain ⟨x, hx, rfl⟩ := List.mem_map.1 ha
    obtain ⟨y, hy, rfl⟩ := List.mem_map.1 hb
    have h1 := g2 x hx
    have h2 := g3 _ (Kids.has_of_entry g4 hy)
    rw [e] at h1
    omega
end

/-- The entries of a trie are those of the map, each once. -/
theorem Holds.entries {L : Nat} {m : List Byte → Option V} {r : Root V} (h : Holds L m r) :
    (r.entries.map (·.1)).Nodup ∧ ∀ k v, (k, v) ∈ r.entries ↔ m k = some v := by
  cases r with
  | null => rw [show m = _ from h]; simp [Root.entries]
  | dead s => rw [show m = _ from h]; simp [Root.entries]
  | node t =>
    refine ⟨Trie.keys_nodup h.1, ?_⟩
    intro k v
    rw [← h.2.2 k]
    exact ⟨fun hm => Trie.mem_find h.1 hm, fun hf => Trie.find_mem hf⟩

/-- The union with a list of entries. -/
theorem union_holds {L : Nat} (zero : V) (combine : V → V → V × Bool) : ∀ (es : List (List Byte × V)) (m : List Byte → Option V) (r : Root V), Holds L m r →
    (∀ s, r ≠ .dead s) → (∀ e ∈ es, e.1.length = L) → (∀ e ∈ es, ∀ k, m k ≠ none → k ≠ e.1 → Apart e.1 k) →
    (∀ e ∈ es, ∀ e' ∈ es, e.1 ≠ e'.1 → Apart e.1 e'.1) → (es.map (·.1)).Nodup → (∀ e ∈ es, (combine ((m e.1).getD zero) e.2).2 = true) →
    ∃ r', r.unionList zero combine es = .ok (r', true) ∧
      Holds L (fun k => match es.find? fun e => e.1 == k with
        | none => m k
        | some e => some (combine ((m k).getD zero) e.2).1) r'
  | [], m, r, h, _, _, _, _, _, _ => ⟨r, rfl, h⟩
  | (k, w) :: es, m, r, h, hd, hl, ha, ha', hn, hc => by
    obtain ⟨r1, g1, g2⟩ := insert_holds h zero k (fun v => (combine v w).1) (hl (k, w) (by simp)) (ha (k, w) (by simp)) hd
    simp only [List.map_cons, List.nodup_cons] at hn
    have hnot : ∀ e ∈ es, e.1 ≠ k := fun e he hek => hn.1 (List.mem_map.2 ⟨e, he, hek⟩)
    have hnd : ∀ s, r1 ≠ .dead s := by
      intro s e
      subst e
      have : Spec.set m k (some (combine ((m k).getD zero) w).1) = fun _ => none := g2
      have := congrFun this k
      simp [Spec.set] at this
    obtain ⟨r', q1, q2⟩ := union_holds zero combine es _ r1 g2 hnd (fun e he => hl e (by simp [he])) (by
      intro e he k' hk' hne
      simp only [Spec.set] at hk'
      by_cases hkk : k' = k
      · subst hkk
        exact ha' e (by simp [he]) (k', w) (by simp) (fun x => hne x.symm)
      · rw [if_neg hkk] at hk'
        exact ha e (by simp [he]) k' hk' hne) (fun e he e' he' => ha' e (by simp [he]) e' (by simp [he'])) hn.2 (by
      intro e he
      simp only [Spec.set]
      rw [if_neg (hnot e he)]
      exact hc e (by simp [he]))
    refine ⟨r', ?_, ?_⟩
    · simp only [Root.unionList, g1]
      have hck := hc (k, w) (by simp)
      simp only at hck
      rw [Holds.find h k, hck]
      simp only [if_true]
      exact q1
    · have e : (fun k_1 => match List.find? (fun e => e.1 == k_1) es with
          | none => Spec.set m k (some (combine ((m k).getD zero) w).1) k_1
          | some e => some (combine ((Spec.set m k (some (combine ((m k).getD zero) w).1) k_1).getD zero) e.2).1) =
          (fun k_1 => match List.find? (fun e => e.1 == k_1) ((k, w) :: es) with
          | none => m k_1
          | some e => some (combine ((m k_1).getD zero) e.2).1) := by
        funext x
        rw [List.find?_cons]
        by_cases hx : k = x
        · subst hx
          have hno : es.find? (fun e => e.1 == k) = none := by
            rw [List.find?_eq_none]
            intro e he
            simpa using hnot e he
          rw [hno]
          simp [Spec.set]
        · have hb : ((k, w).1 == x) = false := by simpa using hx
          rw [hb]
          simp only []
          cases es.find? (fun e => e.1 == x) with
          | none => simp only [Spec.set]; rw [if_neg (fun e => hx e.symm)]
          | some e => simp only [Spec.set]; rw [if_neg (fun e => hx e.symm)]
      rw [← e]
      exact q2

theorem Kids.findAt_get {n : Nat} {k : List Byte} : ∀ {ks : Kids V}, ks.findAt n k = (ks.get n).bind fun t => t.find k
  | .nil => by simp [Kids.findAt, Kids.get]
  | .cons p t r => by
    simp only [Kids.findAt, Kids.get]
    split
    · rfl
    · exact Kids.findAt_get

theorem Kids.get_good {L s n : Nat} {u : Trie V} : ∀ {ks : Kids V}, ks.Good L s → ks.Radix s → ks.get n = some u → u.Good L ∧ u.Radix (s + 1)
  | .nil, _, _, h => by simp [Kids.get] at h
  | .cons p t r, hg, hr, h => by
    simp only [Kids.get] at h
    split at h
    · cases h; exact ⟨hg.1, hr.1⟩
    · exact Kids.get_good hg.2.2.2 hr.2 h

/-- The work on the subtries keeps the keys that both have. -/
theorem meetKids_keeps {L s s' : Nat} {combine : V → V → V × Bool} {go : Trie V → Trie V → Out (Trie V × Bool)}
    (hgo : ∀ r j r' ok, r.Good L → r.Radix (s + 1) → j.Good L → j.Radix (s' + 1) → go r j = .ok (r', ok) →
      ∀ k v w, r.find k = some v → j.find k = some w → (combine v w).2 = true → ok = true ∧ r'.find k = some (combine v w).1) :
    ∀ (ks js ks' : Kids V), ks.Good L s → ks.Radix s → js.Good L s' → js.Radix s' → meet.meetKids go ks js = .ok ks' →
      ∀ n k v w, ks.findAt n k = some v → js.findAt n k = some w → (combine v w).2 = true → ks'.findAt n k = some (combine v w).1
  | .nil, js, ks', _, _, _, _, _, n, k, v, w, hv, _, _ => by simp [Kids.findAt] at hv
  | .cons p t r, js, ks', hg, hr, hgj, hrj, h, n, k, v, w, hv, hw, hc => by
    unfold meet.meetKids at h
    cases hgp : js.get p with
    | none =>
      rw [hgp] at h
      simp only [] at h
      refine meetKids_keeps hgo r js ks' hg.2.2.2 hr.2 hgj hrj h n k v w ?_ hw hc
      simp only [Kids.findAt] at hv
      by_cases hp : p = n
      · rw [← hp, Kids.findAt_get, hgp] at hw
        cases hw
      · rwa [if_neg hp] at hv
    | some u =>
      rw [hgp] at h
      simp only [] at h
      cases hgo' : go t u with
      | error f => rw [hgo'] at h; cases h
      | ok x =>
        obtain ⟨t', ok⟩ := x
        rw [hgo'] at h
        simp only [] at h
        cases hrest : meet.meetKids go r js with
        | error f => rw [hrest] at h; cases h
        | ok q =>
          rw [hrest] at h
          simp only [Except.ok.injEq] at h
          obtain ⟨ug, ur⟩ := Kids.get_good hgj hrj hgp
          simp only [Kids.findAt] at hv
          by_cases hp : p = n
          · rw [if_pos hp] at hv
            have hu : u.find k = some w := by
              rw [← hp, Kids.findAt_get, hgp] at hw
              exact hw
            obtain ⟨o1, o2⟩ := hgo t u t' ok hg.1 hr.1 ug ur hgo' k v w hv hu hc
            rw [o1] at h
            simp only [if_true] at h
            subst h
            simp only [Kids.findAt]
            rw [if_pos hp]
            exact o2
          · rw [if_neg hp] at hv
            have ih := meetKids_keeps hgo r js q hg.2.2.2 hr.2 hgj hrj hrest n k v w hv hw hc
            cases ok with
            | false => simp only [Bool.false_eq_true, if_false] at h; subst h; exact ih
            | true =>
              simp only [if_true] at h
              subst h
              simp only [Kids.findAt]
              rw [if_neg hp]
              exact ih

theorem any_of_find {k : List Byte} {v : V} : ∀ {t : Trie V}, t.find k = some v → t.any = true
  | .leaf _ _, _ => rfl
  | .branch _ .nil, h => by simp [Trie.find, Kids.findAt] at h
  | .branch _ (.cons ..), _ => rfl

/-- The intersection keeps the keys that both tries have. -/
theorem meet_keeps {L : Nat} {combine : V → V → V × Bool} : ∀ (fuel m m' : Nat) (r j r' : Trie V) (ok : Bool), r.Good L → r.Radix m → j.Good L → j.Radix m' →
    meet combine fuel r j = .ok (r', ok) →
    ∀ k v w, r.find k = some v → j.find k = some w → (combine v w).2 = true → ok = true ∧ r'.find k = some (combine v w).1
  | 0, m, m', r, j, r', ok, _, _, _, _, h => by simp [meet] at h
  | fuel + 1, m, m', r, j, r', ok, hg, hr, hgj, hrj, h => by
    intro k v w hv hw hc
    unfold meet at h
    cases r with
    | leaf k0 v0 =>
      simp only [Except.ok.injEq] at h
      simp only [Trie.find] at hv
      split at hv
      · rename_i e
        cases hv
        subst e
        rw [hw] at h
        simp only [meetLeaf, Prod.mk.injEq] at h
        rw [← h.1, ← h.2]
        exact ⟨hc, by simp [Trie.find]⟩
      · cases hv
    | branch s ks =>
      cases j with
      | leaf k1 w1 =>
        simp only [] at h
        simp only [Trie.find] at hw
        split at hw
        · rename_i e
          cases hw
          subst e
          rw [hv] at h
          simp only [Except.ok.injEq, Prod.mk.injEq] at h
          rw [← h.1, ← h.2]
          refine ⟨hc, ?_⟩
          rw [(Trie.update_keys hg hv).2.2, if_pos rfl]
        · cases hw
      | branch s' js =>
        simp only [] at h
        by_cases hs : s = s'
        · rw [if_pos hs] at h
          cases hmk : meet.meetKids (meet combine fuel) ks js with
          | error f => rw [hmk] at h; cases h
          | ok ks' =>
            rw [hmk] at h
            simp only [Except.ok.injEq, Prod.mk.injEq] at h
            have hf : (Trie.branch s ks').find k = some (combine v w).1 := by
              simp only [Trie.find] at hv hw ⊢
              rw [← hs] at hw
              exact meetKids_keeps (fun r j r' ok a b c d e => meet_keeps fuel _ _ r j r' ok a b c d e) ks js ks' hg.2 hr.2.2 hgj.2 hrj.2.2 hmk _ k v w hv hw hc
            rw [← h.1, ← h.2]
            exact ⟨any_of_find hf, hf⟩
        · rw [if_neg hs] at h
          by_cases hlt : s < s'
          · rw [if_pos hlt] at h
            obtain ⟨k1, v1, e1, e2⟩ := Trie.leftmost_some hgj
            rw [e1] at h
            simp only [] at h
            have hn : nibble k1 s = nibble k s := hrj.2.1 _ e2 _ (Trie.find_mem hw) s hlt
            rw [hn] at h
            simp only [Trie.find] at hv
            rw [Kids.findAt_get] at hv
            cases hgt : ks.get (nibble k s) with
            | none => rw [hgt] at hv; cases hv
            | some c =>
              rw [hgt] at h hv
              simp only [Option.bind_some] at hv
              simp only [] at h
              obtain ⟨cg, cr⟩ := Kids.get_good hg.2 hr.2.2 hgt
              cases hm : meet combine fuel c (.branch s' js) with
              | error f => rw [hm] at h; cases h
              | ok x =>
                obtain ⟨c', b⟩ := x
                obtain ⟨i1, i2⟩ := meet_keeps fuel _ _ c (.branch s' js) c' b cg cr hgj hrj hm k v w hv hw hc
                rw [hm, i1] at h
                simp only [Except.ok.injEq, Prod.mk.injEq] at h
                rw [← h.1, ← h.2]
                refine ⟨rfl, ?_⟩
                simp only [Trie.find, Kids.findAt, if_true]
                exact i2
          · rw [if_neg hlt] at h
            obtain ⟨k1, v1, e1, e2⟩ := Trie.leftmost_some hg
            rw [e1] at h
            simp only [] at h
            have hn : nibble k1 s' = nibble k s' := hr.2.1 _ e2 _ (Trie.find_mem hv) s' (by omega)
            rw [hn] at h
            simp only [Trie.find] at hw
            rw [Kids.findAt_get] at hw
            cases hgt : js.get (nibble k s') with
            | none => rw [hgt] at hw; cases hw
            | some c =>
              rw [hgt] at h hw
              simp only [Option.bind_some] at hw
              simp only [] at h
              obtain ⟨cg, cr⟩ := Kids.get_good hgj.2 hrj.2.2 hgt
              cases hm : meet combine fuel (.branch s ks) c with
              | error f => rw [hm] at h; cases h
              | ok x =>
                obtain ⟨c', b⟩ := x
                obtain ⟨i1, i2⟩ := meet_keeps fuel _ _ (.branch s ks) c c' b hg hr cg cr hm k v w hv hw hc
                rw [hm, i1] at h
                simp only [Except.ok.injEq, Prod.mk.injEq] at h
                rw [← h.1, ← h.2]
                exact ⟨any_of_find i2, i2⟩

end Np.Trie
