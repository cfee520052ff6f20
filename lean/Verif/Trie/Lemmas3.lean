import Verif.Trie.Lemmas2

/-! # Lemmas on writing to a leaf and on deletion -/
set_option linter.unusedSimpArgs false
set_option linter.unusedVariables false
namespace Np.Trie

open Np.Trie.Spec (nib Apart)

variable {V : Type}

theorem Kids.has_updateAt {n : Nat} {key : List Byte} {f : V → V} {q : Nat} : ∀ {ks : Kids V}, (ks.updateAt n key f).has q = ks.has q
  | .nil => by simp [Kids.updateAt]
  | .cons p t r => by
    simp only [Kids.updateAt]
    split
    · simp [Kids.has]
    · simp [Kids.has, Kids.has_updateAt]

mutual
/-- If the key is there the walk leads to it. -/
theorem Trie.walk_of_find {L : Nat} {key : List Byte} {v : V} : ∀ {t : Trie V}, t.Good L → t.find key = some v → ∃ n, t.walk key = some (key, n)
  | .leaf k w, _, h => by
    simp only [Trie.find] at h
    split at h
    · rename_i e
      exact ⟨0, by simp [Trie.walk, e]⟩
    · cases h
  | .branch s ks, hg, h => by
    simp only [Trie.find] at h
    obtain ⟨n, hn⟩ := Kids.walk_of_find hg.2 h
    exact ⟨n + 1, by simp [Trie.walk, hn]⟩
theorem Kids.walk_of_find {L s n : Nat} {key : List Byte} {v : V} : ∀ {ks : Kids V}, ks.Good L s → ks.findAt n key = some v →
    ∃ c, ks.walkAt n key = some (some (key, c))
  | .nil, _, h => by simp [Kids.findAt] at h
  | .cons p t r, hg, h => by
    simp only [Kids.findAt] at h
    simp only [Kids.walkAt]
    split at h
    · rename_i e
      obtain ⟨c, hc⟩ := Trie.walk_of_find hg.1 h
      exact ⟨c, by rw [if_pos e, hc]⟩
    · rename_i e
      obtain ⟨c, hc⟩ := Kids.walk_of_find hg.2.2.2 h
      exact ⟨c, by rw [if_neg e, hc]⟩
end

/-- If the walk ends at the key then the key is there. -/
theorem Trie.find_of_walk {L : Nat} {key : List Byte} {n : Nat} {t : Trie V} (hg : t.Good L) (hw : t.walk key = some (key, n)) : ∃ v, t.find key = some v := by
  obtain ⟨old, m, v, h1, h2⟩ := Trie.walk_some (key := key) hg
  rw [hw] at h1
  simp only [Option.some.injEq, Prod.mk.injEq] at h1
  obtain ⟨rfl, _⟩ := h1
  exact ⟨v, Trie.mem_find hg h2⟩

mutual
/-- Writing changes no key. -/
theorem Trie.update_keys {key : List Byte} {f : V → V} {L : Nat} {v : V} : ∀ {t : Trie V}, t.Good L → t.find key = some v →
    ((t.update key f).Good L ∧ ∀ m, t.Radix m → (t.update key f).Radix m) ∧ (∀ e ∈ (t.update key f).entries, ∃ e' ∈ t.entries, e'.1 = e.1) ∧
      ∀ k', (t.update key f).find k' = if k' = key then some (f v) else t.find k'
  | .leaf k w, hg, h => by
    simp only [Trie.find] at h
    split at h
    · rename_i e
      simp only [Option.some.injEq] at h
      subst h
      refine ⟨⟨by simpa [Trie.update, Trie.Good] using hg, fun m _ => trivial⟩, ?_, ?_⟩
      · intro e' he
        simp only [Trie.update, Trie.entries, List.mem_singleton] at he
        exact ⟨(k, w), by simp [Trie.entries], by rw [he]⟩
      · intro k'
        simp only [Trie.update, Trie.find, e]
        by_cases hk : k' = key
        · simp [hk]
        · simp [hk, Ne.symm hk]
    · cases h
  | .branch s ks, hg, h => by
    simp only [Trie.find] at h
    have hhas : ks.has (nibble key s) = true := by
      have := Kids.has_of_entry hg.2 (Kids.find_mem h)
      simpa using this
    obtain ⟨h1, h2, h3, h4, h5⟩ := Kids.update_keys (f := f) hg.2 h rfl
    simp only [Trie.update, hhas, if_true]
    refine ⟨⟨⟨⟨hg.1.1, h5⟩, h1⟩, ?_⟩, h3, ?_⟩
    · intro m hr
      refine ⟨hr.1, ?_, h2 hr.2.2⟩
      intro e he e' he' j hj
      obtain ⟨x, hx, hx1⟩ := h3 e he
      obtain ⟨x', hx', hx1'⟩ := h3 e' he'
      rw [← hx1, ← hx1']
      exact hr.2.1 x hx x' hx' j hj
    · intro k'
      simp only [Trie.find]
      exact h4 k'
theorem Kids.update_keys {key : List Byte} {f : V → V} {L s n : Nat} {v : V} : ∀ {ks : Kids V}, ks.Good L s → ks.findAt n key = some v → n = nibble key s →
    (ks.updateAt n key f).Good L s ∧ (ks.Radix s → (ks.updateAt n key f).Radix s) ∧ (∀ e ∈ (ks.updateAt n key f).entries, ∃ e' ∈ ks.entries, e'.1 = e.1) ∧
      (∀ k', (ks.updateAt n key f).findAt (nibble k' s) k' = if k' = key then some (f v) else ks.findAt (nibble k' s) k') ∧ ks.updateAt n key f ≠ .nil
  | .nil, _, h, _ => by simp [Kids.findAt] at h
  | .cons p t r, hg, h, hn => by
    obtain ⟨g1, g2, g3, g4⟩ := hg
    simp only [Kids.findAt] at h
    simp only [Kids.updateAt]
    by_cases hp : p = n
    · rw [if_pos hp] at h ⊢
      obtain ⟨⟨a1, a2⟩, a3, a4⟩ := Trie.update_keys (f := f) g1 h
      refine ⟨⟨a1, ?_, g3, g4⟩, fun hr => ⟨a2 _ hr.1, hr.2⟩, ?_, ?_, by simp⟩
      · intro e he
        obtain ⟨e', he', h'⟩ := a3 e he
        rw [← h']
        exact g2 e' he'
      · intro e he
        simp only [Kids.entries, List.mem_append] at he ⊢
        rcases he with he | he
        · obtain ⟨e', he', h'⟩ := a3 e he
          exact ⟨e', Or.inl he', h'⟩
        · exact ⟨e, Or.inr he, rfl⟩
      · intro k'
        simp only [Kids.findAt]
        by_cases hq : p = nibble k' s
        · rw [if_pos hq, if_pos hq, a4]
        · rw [if_neg hq, if_neg hq, if_neg]
          intro e
          exact hq (by rw [hp, hn, e])
    · rw [if_neg hp] at h ⊢
      obtain ⟨a1, a2, a3, a4, a5⟩ := Kids.update_keys (f := f) g4 h hn
      refine ⟨⟨g1, g2, ?_, a1⟩, fun hr => ⟨hr.1, a2 hr.2⟩, ?_, ?_, by simp⟩
      · intro q hq
        rw [Kids.has_updateAt] at hq
        exact g3 q hq
      · intro e he
        simp only [Kids.entries, List.mem_append] at he ⊢
        rcases he with he | he
        · exact ⟨e, Or.inl he, rfl⟩
        · obtain ⟨e', he', h'⟩ := a3 e he
          exact ⟨e', Or.inr he', h'⟩
      · intro k'
        simp only [Kids.findAt]
        by_cases hq : p = nibble k' s
        · rw [if_pos hq, if_pos hq, if_neg]
          intro e
          exact hp (by rw [hq, hn, e])
        · rw [if_neg hq, if_neg hq, a4]
end

/-- What a deletion does to a trie. -/
def Removed (L : Nat) (key : List Byte) (t : Trie V) : Option (Option (Trie V)) → Prop
  | none => t.find key = none
  | some none => (∃ v, t.find key = some v) ∧ ∀ k', k' ≠ key → t.find k' = none
  | some (some u) => (∃ v, t.find key = some v) ∧ u.Good L ∧ (∀ k', u.find k' = if k' = key then none else t.find k') ∧ (∀ e ∈ u.entries, e ∈ t.entries) ∧
      ∀ m, t.Radix m → u.Radix m

/-- The same for the subtries of a branch. -/
def KRemoved (L s : Nat) (key : List Byte) (ks : Kids V) : Option (Kids V) → Prop
  | none => ks.findAt (nibble key s) key = none
  | some ks' => (∃ v, ks.findAt (nibble key s) key = some v) ∧ ks'.Good L s ∧ (∀ k', ks'.findAt (nibble k' s) k' = if k' = key then none else ks.findAt (nibble k' s) k') ∧
      (∀ e ∈ ks'.entries, e ∈ ks.entries) ∧ (∀ q, ks'.has q = true → ks.has q = true) ∧ (ks.Radix s → ks'.Radix s)

mutual
theorem Trie.remove_spec {L : Nat} {key : List Byte} : ∀ {t : Trie V}, t.Good L → Removed L key t (t.remove key)
  | .leaf k w, hg => by
    simp only [Trie.remove]
    by_cases h : k = key
    · rw [if_pos h]
      refine ⟨⟨w, by simp [Trie.find, h]⟩, ?_⟩
      intro k' hk
      simp only [Trie.find]
      rw [if_neg (fun e => hk (by rw [← e, h]))]
    · rw [if_neg h]
      show Trie.find key _ = none
      simp [Trie.find, h]
  | .branch s ks, hg => by
    have ih := Kids.remove_spec (key := key) hg.2
    simp only [Trie.remove]
    cases hr : ks.removeAt (nibble key s) key with
    | none =>
      rw [hr] at ih
      exact ih
    | some ks' =>
      rw [hr] at ih
      obtain ⟨i1, i2, i3, i4, i5, i6⟩ := ih
      cases ks' with
      | nil =>
        refine ⟨i1, ?_⟩
        intro k' hk
        have := i3 k'
        rw [if_neg hk] at this
        simp only [Trie.find]
        rw [← this]
        rfl
      | cons p t r =>
        refine ⟨i1, ⟨⟨hg.1.1, by simp⟩, i2⟩, i3, i4, ?_⟩
        intro m hm
        refine ⟨hm.1, ?_, i6 hm.2.2⟩
        intro e he e' he' j hj
        exact hm.2.1 e (i4 e he) e' (i4 e' he') j hj
theorem Kids.remove_spec {L s : Nat} {key : List Byte} : ∀ {ks : Kids V}, ks.Good L s → KRemoved L s key ks (ks.removeAt (nibble key s) key)
  | .nil, _ => by
    show Kids.findAt _ _ _ = none
    simp [Kids.findAt]
  | .cons p t r, hg => by
    obtain ⟨g1, g2, g3, g4⟩ := hg
    simp only [Kids.removeAt]
    by_cases hp : p = nibble key s
    · rw [if_pos hp]
      have ih := Trie.remove_spec (key := key) g1
      cases hr : t.remove key with
      | none =>
        rw [hr] at ih
        show Kids.findAt _ _ _ = none
        simp only [Kids.findAt]
        rw [if_pos hp]
        exact ih
      | some o =>
        rw [hr] at ih
        cases o with
        | none =>
          obtain ⟨⟨v, i1⟩, i2⟩ := ih
          refine ⟨⟨v, by simp only [Kids.findAt]; rw [if_pos hp]; exact i1⟩, g4, ?_, ?_, ?_, fun hr => hr.2⟩
          · intro k'
            simp only [Kids.findAt]
            by_cases hq : p = nibble k' s
            · rw [if_pos hq]
              have hno : r.findAt (nibble k' s) k' = none := by
                cases hf : r.findAt (nibble k' s) k' with
                | none => rfl
                | some x =>
                  have := g3 _ (Kids.has_of_entry g4 (Kids.find_mem hf))
                  simp only at this
                  omega
              rw [hno]
              by_cases hk : k' = key
              · rw [if_pos hk]
              · rw [if_neg hk, i2 k' hk]
            · rw [if_neg hq]
              rw [if_neg]
              intro e
              exact hq (by rw [e]; exact hp)
          · intro e he
            simp only [Kids.entries, List.mem_append]
            exact Or.inr he
          · intro q hq
            simp [Kids.has, hq]
        | some u =>
          obtain ⟨⟨v, i1⟩, i2, i3, i4, i5⟩ := ih
          refine ⟨⟨v, by simp only [Kids.findAt]; rw [if_pos hp]; exact i1⟩, ⟨i2, fun e he => g2 e (i4 e he), g3, g4⟩, ?_, ?_, ?_, fun hr => ⟨i5 _ hr.1, hr.2⟩⟩
          · intro k'
            simp only [Kids.findAt]
            by_cases hq : p = nibble k' s
            · rw [if_pos hq, if_pos hq, i3]
            · rw [if_neg hq, if_neg hq, if_neg]
              intro e
              exact hq (by rw [e]; exact hp)
          · intro e he
            simp only [Kids.entries, List.mem_append] at he ⊢
            rcases he with he | he
            · exact Or.inl (i4 e he)
            · exact Or.inr he
          · intro q hq
            simpa [Kids.has] using hq
    · rw [if_neg hp]
      have ih := Kids.remove_spec (key := key) g4
      cases hr : r.removeAt (nibble key s) key with
      | none =>
        rw [hr] at ih
        show Kids.findAt _ _ _ = none
        simp only [Kids.findAt]
        rw [if_neg hp]
        exact ih
      | some r' =>
        rw [hr] at ih
        obtain ⟨⟨v, i1⟩, i2, i3, i4, i5, i6⟩ := ih
        refine ⟨⟨v, by simp only [Kids.findAt]; rw [if_neg hp]; exact i1⟩, ⟨g1, g2, fun q hq => g3 q (i5 q hq), i2⟩, ?_, ?_, ?_, fun hr => ⟨hr.1, i6 hr.2⟩⟩
        · intro k'
          simp only [Kids.findAt]
          by_cases hq : p = nibble k' s
          · rw [if_pos hq, if_pos hq, if_neg]
            intro e
            exact hp (by rw [hq, e])
          · rw [if_neg hq, if_neg hq, i3]
        · intro e he
          simp only [Kids.entries, List.mem_append] at he ⊢
          rcases he with he | he
          · exact Or.inl he
          · exact Or.inr (i4 e he)
        · intro q hq
          simp only [Kids.has, Bool.or_eq_true] at hq ⊢
          rcases hq with hq | hq
          · exact Or.inl hq
          · exact Or.inr (i5 q hq)
end

/-- A trie that represents a map. -/
def Holds (L : Nat) (m : List Byte → Option V) : Root V → Prop
  | .null => m = fun _ => none
  | .dead _ => m = fun _ => none
  | .node t => t.Good L ∧ t.Radix 0 ∧ ∀ k, t.find k = m k

theorem Holds.find {L : Nat} {m : List Byte → Option V} {r : Root V} (h : Holds L m r) (k : List Byte) : r.find k = m k := by
  cases r with
  | null => rw [show m = _ from h]; rfl
  | dead s => rw [show m = _ from h]; rfl
  | node t => exact h.2.2 k

/-- A trie that represents a map has a key, if it is not null or dead. -/
theorem Holds.some_key {L : Nat} {m : List Byte → Option V} {t : Trie V} (h : Holds L m (.node t)) : ∃ k v, m k = some v ∧ k.length = L := by
  obtain ⟨k, v, _, hm⟩ := Trie.leftmost_some h.1
  exact ⟨k, v, by rw [← h.2.2 k]; exact Trie.mem_find h.1 hm, Trie.length_of h.1 hm⟩

/-- An insertion into a trie that is not dead, of a key that is apart from the others. -/
theorem insert_holds {L : Nat} {m : List Byte → Option V} {r : Root V} (h : Holds L m r) (zero : V) (key : List Byte) (f : V → V) (hk : key.length = L)
    (hap : ∀ k, m k ≠ none → k ≠ key → Apart key k) (hd : ∀ s, r ≠ .dead s) :
    ∃ r', r.insert zero key f = .ok r' ∧ Holds L (Spec.set m key (some (f ((m key).getD zero)))) r' := by
  cases r with
  | dead s => exact absurd rfl (hd s)
  | null =>
    refine ⟨_, rfl, by simpa [Trie.Good] using hk, trivial, ?_⟩
    intro k
    rw [show m = _ from h]
    simp only [Trie.find, Spec.set, Option.getD_none]
    by_cases he : k = key
    · simp [he]
    · simp [he, Ne.symm he]
  | node t =>
    obtain ⟨hg, hr, hf⟩ := h
    obtain ⟨old, n, v, hw, hm⟩ := Trie.walk_some (key := key) hg
    have hlen : key.length = old.length := by rw [hk]; exact (Trie.length_of hg hm).symm
    simp only [Root.insert, hw]
    cases hdf : diff key old 0 with
    | none =>
      have e := diff_none hlen hdf
      subst e
      have hfk := Trie.mem_find hg hm
      obtain ⟨⟨a1, a2⟩, _, a4⟩ := Trie.update_keys (f := f) hg hfk
      refine ⟨_, rfl, a1, a2 0 hr, ?_⟩
      intro k
      rw [a4 k]
      simp only [Spec.set]
      by_cases he : k = key
      · rw [if_pos he, if_pos he, ← hf key, hfk]; rfl
      · rw [if_neg he, if_neg he, hf]
    | some d =>
      obtain ⟨d1, d2, d3⟩ := diff_some hlen hdf
      obtain ⟨t', p1, p2⟩ := Trie.place_spec (v := f zero) hk (by rw [← hk]; exact d3) d1 d2 hg hr hw
      have hno : m key = none := by
        cases hmk : m key with
        | none => rfl
        | some x =>
          rw [← hf key] at hmk
          obtain ⟨c, hc⟩ := Trie.walk_of_find hg hmk
          rw [hw] at hc
          simp only [Option.some.injEq, Prod.mk.injEq] at hc
          rw [hc.1] at d1
          exact absurd rfl d1
      have hap' : Apart key old := hap old (by
        rw [← hf old, Trie.mem_find hg hm]
        simp) (by intro e; rw [e] at d1; exact d1 rfl)
      simp only [p1]
      refine ⟨_, rfl, p2.good, p2.radix hap' (Nat.zero_le _), ?_⟩
      intro k
      rw [p2.find k, hno]
      simp only [Spec.set, Option.getD_none]
      by_cases he : k = key
      · rw [if_pos he, if_pos he]
      · rw [if_neg he, if_neg he, hf]

/-- A deletion. -/
theorem delete_holds {L : Nat} {m : List Byte → Option V} {r : Root V} (h : Holds L m r) (key : List Byte) :
    (r.delete key = none ∧ m key = none) ∨ ∃ r', r.delete key = some r' ∧ m key ≠ none ∧ Holds L (Spec.set m key none) r' := by
  cases r with
  | null => exact Or.inl ⟨rfl, by rw [show m = _ from h]⟩
  | dead s => exact Or.inl ⟨rfl, by rw [show m = _ from h]⟩
  | node t =>
    obtain ⟨hg, hr, hf⟩ := h
    have hs := Trie.remove_spec (key := key) hg
    simp only [Root.delete]
    cases hrm : t.remove key with
    | none =>
      rw [hrm] at hs
      exact Or.inl ⟨rfl, by rw [← hf]; exact hs⟩
    | some o =>
      rw [hrm] at hs
      right
      cases o with
      | none =>
        obtain ⟨⟨v, i1⟩, i2⟩ := hs
        have hset : Spec.set m key none = fun _ => none := by
          funext k
          simp only [Spec.set]
          by_cases he : k = key
          · rw [if_pos he]
          · rw [if_neg he, ← hf, i2 k he]
        cases t with
        | leaf _ _ => exact ⟨.null, rfl, by rw [← hf, i1]; simp, hset⟩
        | branch s _ => exact ⟨.dead s, rfl, by rw [← hf, i1]; simp, hset⟩
      | some u =>
        obtain ⟨⟨v, i1⟩, i2, i3, i4, i5⟩ := hs
        refine ⟨.node u, rfl, by rw [← hf, i1]; simp, i2, i5 0 hr, ?_⟩
        intro k
        rw [i3 k]
        simp only [Spec.set]
        by_cases he : k = key
        · rw [if_pos he, if_pos he]
        · rw [if_neg he, if_neg he, hf]

end Np.Trie
