import Verif.Trie.Lemmas

/-! # Lemmas on insertion and deletion -/
set_option linter.unusedSimpArgs false
set_option linter.unusedVariables false
namespace Np.Trie

open Np.Trie.Spec (nib Apart)

variable {V : Type}

theorem Kids.findAt_put {n m : Nat} {t : Trie V} {k : List Byte} : ∀ {ks : Kids V}, (ks.put n t).findAt m k = if m = n then t.find k else ks.findAt m k
  | .nil => by
    simp only [Kids.put, Kids.findAt]
    by_cases h : m = n
    · simp [h]
    · simp [h, Ne.symm h]
  | .cons p u r => by
    simp only [Kids.put]
    split
    · simp only [Kids.findAt]
      by_cases h : m = n
      · simp [h]
      · simp [h, Ne.symm h]
    · split
      · rename_i e
        subst e
        simp only [Kids.findAt]
        by_cases h : m = n
        · simp [h]
        · simp [h, Ne.symm h]
      · rename_i h1 h2
        simp only [Kids.findAt]
        by_cases h : p = m
        · subst h
          rw [if_pos rfl, if_neg (fun e => h2 e.symm), if_pos rfl]
        · rw [if_neg h, Kids.findAt_put, if_neg h]

theorem Kids.has_put {n m : Nat} {t : Trie V} : ∀ {ks : Kids V}, (ks.put n t).has m = true ↔ m = n ∨ ks.has m = true
  | .nil => by
    simp only [Kids.put, Kids.has, Bool.or_false, beq_iff_eq, Bool.false_eq_true, or_false]
    exact ⟨Eq.symm, Eq.symm⟩
  | .cons p u r => by
    simp only [Kids.put]
    split
    · simp only [Kids.has, Bool.or_eq_true, beq_iff_eq]
      constructor
      · rintro (h | h)
        · exact Or.inl h.symm
        · exact Or.inr h
      · rintro (h | h)
        · exact Or.inl h.symm
        · exact Or.inr h
    · split
      · rename_i e
        subst e
        simp only [Kids.has, Bool.or_eq_true, beq_iff_eq]
        constructor
        · rintro (h | h)
          · exact Or.inl h.symm
          · exact Or.inr (Or.inr h)
        · rintro (h | h | h)
          · exact Or.inl h.symm
          · exact Or.inl h
          · exact Or.inr h
      · simp only [Kids.has, Bool.or_eq_true, beq_iff_eq]
        rw [Kids.has_put]
        constructor
        · rintro (h | h | h)
          · exact Or.inr (Or.inl h)
          · exact Or.inl h
          · exact Or.inr (Or.inr h)
        · rintro (h | h | h)
          · exact Or.inr (Or.inl h)
          · exact Or.inl h
          · exact Or.inr (Or.inr h)

theorem Kids.entries_put {n : Nat} {t : Trie V} {e : List Byte × V} : ∀ {ks : Kids V}, ks.has n = false → (e ∈ (ks.put n t).entries ↔ e ∈ t.entries ∨ e ∈ ks.entries)
  | .nil, _ => by simp [Kids.put, Kids.entries]
  | .cons p u r, h => by
    simp only [Kids.has, Bool.or_eq_false_iff, beq_eq_false_iff_ne, ne_eq] at h
    simp only [Kids.put]
    split
    · simp [Kids.entries]
    · rw [if_neg (fun e => h.1 e.symm)]
      simp only [Kids.entries, List.mem_append]
      rw [Kids.entries_put h.2]
      constructor
      · rintro (h | h | h)
        · exact Or.inr (Or.inl h)
        · exact Or.inl h
        · exact Or.inr (Or.inr h)
      · rintro (h | h | h)
        · exact Or.inr (Or.inl h)
        · exact Or.inl h
        · exact Or.inr (Or.inr h)

theorem Kids.put_ne_nil {n : Nat} {t : Trie V} : ∀ {ks : Kids V}, ks.put n t ≠ .nil
  | .nil => by simp [Kids.put]
  | .cons p u r => by
    simp only [Kids.put]
    split
    · simp
    · split <;> simp

theorem Kids.good_put {L s n : Nat} {t : Trie V} (ht : t.Good L) (hn : ∀ e ∈ t.entries, nibble e.1 s = n) : ∀ {ks : Kids V}, ks.has n = false → ks.Good L s →
    (ks.put n t).Good L s
  | .nil, _, _ => ⟨ht, hn, by simp [Kids.has], trivial⟩
  | .cons p u r, h, hg => by
    simp only [Kids.has, Bool.or_eq_false_iff, beq_eq_false_iff_ne, ne_eq] at h
    obtain ⟨g1, g2, g3, g4⟩ := hg
    simp only [Kids.put]
    split
    · rename_i hlt
      refine ⟨ht, hn, ?_, g1, g2, g3, g4⟩
      intro q hq
      simp only [Kids.has, Bool.or_eq_true, beq_iff_eq] at hq
      rcases hq with rfl | hq
      · exact hlt
      · exact Nat.lt_trans hlt (g3 q hq)
    · rename_i hlt
      rw [if_neg (fun e => h.1 e.symm)]
      refine ⟨g1, g2, ?_, Kids.good_put ht hn h.2 g4⟩
      intro q hq
      rcases Kids.has_put.1 hq with rfl | hq
      · omega
      · exact g3 q hq

theorem Kids.radix_put {s n : Nat} {t : Trie V} (ht : t.Radix (s + 1)) : ∀ {ks : Kids V}, ks.Radix s → (ks.put n t).Radix s
  | .nil, _ => ⟨ht, trivial⟩
  | .cons p u r, hg => by
    simp only [Kids.put]
    split
    · exact ⟨ht, hg⟩
    · split
      · exact ⟨ht, hg.2⟩
      · exact ⟨hg.1, Kids.radix_put ht hg.2⟩

/-- Radix with a lower bound. -/
theorem Trie.radix_mono {m m' : Nat} (h : m' ≤ m) : ∀ {t : Trie V}, t.Radix m → t.Radix m'
  | .leaf _ _, _ => trivial
  | .branch s ks, hr => ⟨Nat.le_trans h hr.1, hr.2⟩

/-- What an insertion of a new key does to a trie. -/
structure Placed (L m shf : Nat) (key old : List Byte) (v : V) (t t' : Trie V) : Prop where
  good : t'.Good L
  find : ∀ k', t'.find k' = if k' = key then some v else t.find k'
  mem : ∀ e, e ∈ t'.entries ↔ e = (key, v) ∨ e ∈ t.entries
  radix : Apart key old → m ≤ shf → t'.Radix m

/-- A key that differs in a nibble is not there. -/
theorem Trie.find_none_of {L : Nat} {t : Trie V} {k : List Byte} (h : ∀ e ∈ t.entries, e.1 ≠ k) : t.find k = none := by
  cases hf : t.find k with
  | none => rfl
  | some v => exact absurd rfl (h _ (Trie.find_mem hf))

theorem fork_placed {L m shf : Nat} {key old : List Byte} {v : V} {t : Trie V} (hg : t.Good L) (hk : key.length = L) (hs : shf < 2 * L)
    (hne : nibble key shf ≠ nibble old shf) (hall : ∀ e ∈ t.entries, nibble e.1 shf = nibble old shf) (hr : t.Radix (shf + 1))
    (hag : ∀ e ∈ t.entries, ∀ j, j < shf → nibble e.1 j = nibble key j) : Placed L m shf key old v t (fork shf old key v t) := by
  have hhas : (Kids.nil.put (nibble old shf) t).has (nibble key shf) = false := by
    simp [Kids.put, Kids.has, Ne.symm hne]
  have hmem : ∀ e, e ∈ (fork shf old key v t).entries ↔ e = (key, v) ∨ e ∈ t.entries := by
    intro e
    simp only [fork, Trie.entries]
    rw [Kids.entries_put hhas]
    simp [Kids.put, Kids.entries, Trie.entries]
  refine ⟨?_, ?_, hmem, ?_⟩
  · refine ⟨⟨hs, Kids.put_ne_nil⟩, ?_⟩
    refine Kids.good_put (t := .leaf key v) hk ?_ hhas ⟨hg, hall, by simp [Kids.has], trivial⟩
    intro e he
    simp only [Trie.entries, List.mem_singleton] at he
    rw [he]
  · intro k'
    simp only [fork, Trie.find]
    rw [Kids.findAt_put]
    by_cases h1 : k' = key
    · rw [if_pos (by rw [h1]), if_pos h1]
      simp [Trie.find, h1]
    · rw [if_neg h1]
      by_cases h2 : nibble k' shf = nibble key shf
      · rw [if_pos h2]
        simp only [Trie.find]
        rw [if_neg (fun e => h1 e.symm)]
        symm
        refine Trie.find_none_of (L := L) fun e he hc => hne ?_
        rw [← h2, ← hc, hall e he]
      · rw [if_neg h2]
        simp only [Kids.put, Kids.findAt]
        by_cases h3 : nibble old shf = nibble k' shf
        · rw [if_pos h3]
        · rw [if_neg h3]
          symm
          refine Trie.find_none_of (L := L) fun e he hc => h3 ?_
          rw [← hc, hall e he]
  · intro _ hm
    refine ⟨hm, ?_, ?_⟩
    · have hag' : ∀ e, e = (key, v) ∨ e ∈ t.entries → ∀ j, j < shf → nibble e.1 j = nibble key j := by
        rintro e (rfl | he) j hj
        · rfl
        · exact hag e he j hj
      intro e he e' he' j hj
      rw [hag' e ((hmem e).1 he) j hj, hag' e' ((hmem e').1 he') j hj]
    · exact Kids.radix_put (t := .leaf key v) trivial ⟨hr, trivial⟩

/-- The same for the subtries of a branch. -/
structure KPlaced (L s shf : Nat) (key old : List Byte) (v : V) (ks ks' : Kids V) : Prop where
  good : ks'.Good L s
  find : ∀ k', ks'.findAt (nibble k' s) k' = if k' = key then some v else ks.findAt (nibble k' s) k'
  mem : ∀ e, e ∈ ks'.entries ↔ e = (key, v) ∨ e ∈ ks.entries
  has : ∀ q, ks'.has q = ks.has q
  ne : ks' ≠ .nil
  radix : Apart key old → s + 1 ≤ shf → ks'.Radix s

/-- If the walk counts a branch, then the branch has a subtrie for the key, and the key agrees there with the leaf that is reached. -/
theorem Trie.walk_pos {L m : Nat} {key old : List Byte} {n : Nat} {t : Trie V} (hg : t.Good L) (hr : t.Radix m) (hw : t.walk key = some (old, n + 1)) :
    ∃ s', m ≤ s' ∧ s' < 2 * L ∧ nibble key s' = nibble old s' := by
  cases t with
  | leaf k v => simp [Trie.walk] at hw
  | branch s ks =>
    simp only [Trie.walk] at hw
    cases hk : ks.walkAt (nibble key s) key with
    | none =>
      rw [hk] at hw
      simp only [Option.map_eq_some_iff, Prod.mk.injEq] at hw
      obtain ⟨_, _, _, h⟩ := hw
      omega
    | some r =>
      rw [hk] at hw
      simp only [Option.map_eq_some_iff, Prod.mk.injEq] at hw
      obtain ⟨⟨o, c⟩, hx, h1, h2⟩ := hw
      simp only at h1 h2
      subst h1
      rw [hx] at hk
      exact ⟨s, hr.1, hg.1.1, (Kids.walkAt_nibble hg.2 hk).symm⟩

theorem Kids.walkAt_child {s n : Nat} {key old : List Byte} {c : Nat} : ∀ {ks : Kids V}, ks.Radix s → ks.walkAt n key = some (some (old, c)) →
    ∃ t : Trie V, t.Radix (s + 1) ∧ t.walk key = some (old, c) ∧ ∀ L, ks.Good L s → t.Good L
  | .nil, _, h => by simp [Kids.walkAt] at h
  | .cons p t r, hr, h => by
    simp only [Kids.walkAt] at h
    split at h
    · simp only [Option.some.injEq] at h
      exact ⟨t, hr.1, h, fun L hg => hg.1⟩
    · obtain ⟨u, h1, h2, h3⟩ := Kids.walkAt_child hr.2 h
      exact ⟨u, h1, h2, fun L hg => h3 L hg.2.2.2⟩

mutual
theorem Trie.place_spec {L shf : Nat} {key old : List Byte} {v : V} (hk : key.length = L) (hs : shf < 2 * L) (hne : nibble key shf ≠ nibble old shf)
    (hag : ∀ j, j < shf → nibble key j = nibble old j) :
    ∀ {m n : Nat} {t : Trie V}, t.Good L → t.Radix m → t.walk key = some (old, n) → ∃ t', t.place (n - 1) shf old key v = some t' ∧ Placed L m shf key old v t t'
  | m, n, .leaf k w, hg, hr, hw => by
    simp only [Trie.walk, Option.some.injEq, Prod.mk.injEq] at hw
    obtain ⟨rfl, rfl⟩ := hw
    refine ⟨_, rfl, fork_placed hg hk hs hne ?_ trivial ?_⟩
    · intro e he
      simp only [Trie.entries, List.mem_singleton] at he
      rw [he]
    · intro e he j hj
      simp only [Trie.entries, List.mem_singleton] at he
      rw [he]
      exact (hag j hj).symm
  | m, n, .branch s ks, hg, hr, hw => by
    obtain ⟨old', n', w, hw', hmem⟩ := Trie.walk_some (key := key) hg
    rw [hw] at hw'
    simp only [Option.some.injEq, Prod.mk.injEq] at hw'
    obtain ⟨rfl, rfl⟩ := hw'
    simp only [Trie.entries] at hmem
    have forked : shf < s → Placed L m shf key old v (.branch s ks) (fork shf old key v (.branch s ks)) := by
      intro hlt
      refine fork_placed hg hk hs hne ?_ ⟨hlt, hr.2⟩ ?_
      · intro e he
        exact hr.2.1 e he _ hmem shf hlt
      · intro e he j hj
        rw [hag j hj]
        exact hr.2.1 e he _ hmem j (by omega)
    simp only [Trie.walk] at hw
    cases hka : ks.walkAt (nibble key s) key with
    | none =>
      rw [hka] at hw
      simp only [Option.map_eq_some_iff, Prod.mk.injEq] at hw
      obtain ⟨_, _, _, rfl⟩ := hw
      have hno : ks.has (nibble key s) = false := Kids.walkAt_none.1 hka
      have hdiff : nibble key s ≠ nibble old s := by
        intro e
        have := Kids.has_of_entry hg.2 hmem
        simp only at this
        rw [← e, hno] at this
        cases this
      have hle : shf ≤ s := by
        refine Nat.le_of_not_lt fun hlt => hdiff (hag s hlt)
      unfold Trie.place
      by_cases he : shf = s
      · subst he
        rw [if_pos ⟨rfl, rfl⟩, hno]
        have hgood : (ks.put (nibble key shf) (.leaf key v)).Good L shf := Kids.good_put (t := .leaf key v) hk (by
          intro e he
          simp only [Trie.entries, List.mem_singleton] at he
          rw [he]) hno hg.2
        have hm : ∀ e, e ∈ (ks.put (nibble key shf) (.leaf key v)).entries ↔ e = (key, v) ∨ e ∈ ks.entries := by
          intro e
          rw [Kids.entries_put hno]
          simp [Trie.entries]
        refine ⟨_, rfl, ⟨⟨hs, Kids.put_ne_nil⟩, hgood⟩, ?_, hm, ?_⟩
        · intro k'
          simp only [Trie.find]
          rw [Kids.findAt_put]
          by_cases h1 : k' = key
          · rw [if_pos (by rw [h1]), if_pos h1]
            simp [Trie.find, h1]
          · rw [if_neg h1]
            by_cases h2 : nibble k' shf = nibble key shf
            · rw [if_pos h2]
              simp only [Trie.find]
              rw [if_neg (fun e => h1 e.symm)]
              symm
              cases hf : ks.findAt (nibble k' shf) k' with
              | none => rfl
              | some x =>
                have := Kids.has_of_entry hg.2 (Kids.find_mem hf)
                simp only at this
                rw [h2, hno] at this
                cases this
            · rw [if_neg h2]
        · intro _ hm'
          refine ⟨hm', ?_, Kids.radix_put (t := .leaf key v) trivial hr.2.2⟩
          have hag' : ∀ e, e = (key, v) ∨ e ∈ ks.entries → ∀ j, j < shf → nibble e.1 j = nibble key j := by
            rintro e (rfl | he) j hj
            · rfl
            · rw [hag j hj]
              exact hr.2.1 e he _ hmem j hj
          intro e he e' he' j hj
          rw [hag' e ((hm e).1 he) j hj, hag' e' ((hm e').1 he') j hj]
      · rw [if_neg (fun h => he h.2), if_pos ⟨rfl, by omega⟩]
        exact ⟨_, rfl, forked (by omega)⟩
    | some r =>
      rw [hka] at hw
      simp only [Option.map_eq_some_iff, Prod.mk.injEq] at hw
      obtain ⟨⟨o, c⟩, hx, h1, h2⟩ := hw
      simp only at h1 h2
      rw [h1] at hx
      subst h2
      rw [hx] at hka
      have hsame : nibble old s = nibble key s := Kids.walkAt_nibble hg.2 hka
      have hnes : shf ≠ s := fun e => hne (by rw [e]; exact hsame.symm)
      obtain ⟨ks', hp, hpl⟩ := Kids.place_spec (v := v) hk hs hne hag hg.2 hr.2.2 hka
      have descend : (∀ _ : Apart key old, s < shf) →
          Placed L m shf key old v (.branch s ks) (.branch s ks') := by
        intro hlt
        refine ⟨⟨⟨hg.1.1, hpl.ne⟩, hpl.good⟩, ?_, hpl.mem, ?_⟩
        · intro k'
          simp only [Trie.find]
          exact hpl.find k'
        · intro ha hm
          have hlt := hlt ha
          refine ⟨hr.1, ?_, hpl.radix ha hlt⟩
          have hag' : ∀ e, e = (key, v) ∨ e ∈ ks.entries → ∀ j, j < s → nibble e.1 j = nibble key j := by
            rintro e (rfl | he) j hj
            · rfl
            · rw [hag j (by omega)]
              exact hr.2.1 e he _ hmem j hj
          intro e he e' he' j hj
          rw [hag' e ((hpl.mem e).1 he) j hj, hag' e' ((hpl.mem e').1 he') j hj]
      unfold Trie.place
      simp only [Nat.add_sub_cancel]
      cases c with
      | zero =>
        rw [if_neg (fun h => hnes h.2)]
        by_cases hlt : shf < s
        · rw [if_pos ⟨rfl, hlt⟩]
          exact ⟨_, rfl, forked hlt⟩
        · rw [if_neg (fun h => hlt h.2)]
          refine ⟨.branch s ks', ?_, descend fun _ => by omega⟩
          rw [show (0 : Nat) - 1 = 0 - 1 from rfl, hp]
          rfl
      | succ c =>
        rw [if_neg (fun h => by simp at h), if_neg (fun h => by simp at h)]
        refine ⟨.branch s ks', by rw [hp]; rfl, descend ?_⟩
        intro ha
        obtain ⟨u, u1, u2, u3⟩ := Kids.walkAt_child hr.2.2 hka
        obtain ⟨s', q1, q2, q3⟩ := Trie.walk_pos (u3 L hg.2) u1 u2
        refine Classical.byContradiction fun hc => ?_
        refine ha shf s s' (by omega) (by omega) (by omega) ?_ ?_ ?_
        · rw [← nibble_eq, ← nibble_eq]; exact hne
        · rw [← nibble_eq, ← nibble_eq]; exact hsame.symm
        · rw [← nibble_eq, ← nibble_eq]; exact q3
theorem Kids.place_spec {L shf : Nat} {key old : List Byte} {v : V} (hk : key.length = L) (hs : shf < 2 * L) (hne : nibble key shf ≠ nibble old shf)
    (hag : ∀ j, j < shf → nibble key j = nibble old j) :
    ∀ {s c : Nat} {ks : Kids V}, ks.Good L s → ks.Radix s → ks.walkAt (nibble key s) key = some (some (old, c)) →
      ∃ ks', ks.placeAt (nibble key s) (c - 1) shf old key v = some ks' ∧ KPlaced L s shf key old v ks ks'
  | s, c, .nil, _, _, hw => by simp [Kids.walkAt] at hw
  | s, c, .cons p t r, hg, hr, hw => by
    obtain ⟨g1, g2, g3, g4⟩ := hg
    simp only [Kids.walkAt] at hw
    simp only [Kids.placeAt]
    by_cases hp : p = nibble key s
    · rw [if_pos hp] at hw ⊢
      simp only [Option.some.injEq] at hw
      obtain ⟨t', h1, h2⟩ := Trie.place_spec (v := v) hk hs hne hag g1 hr.1 hw
      refine ⟨.cons p t' r, by rw [h1]; rfl, ⟨h2.good, ?_, g3, g4⟩, ?_, ?_, ?_, by simp, fun ha hm => ⟨h2.radix ha hm, hr.2⟩⟩
      · intro e he
        rcases (h2.mem e).1 he with rfl | he
        · exact hp.symm
        · exact g2 e he
      · intro k'
        simp only [Kids.findAt]
        by_cases hq : p = nibble k' s
        · rw [if_pos hq, if_pos hq, h2.find]
        · rw [if_neg hq, if_neg hq, if_neg]
          intro e
          exact hq (by rw [e]; exact hp)
      · intro e
        simp only [Kids.entries, List.mem_append, h2.mem, or_assoc]
      · intro q
        simp [Kids.has]
    · rw [if_neg hp] at hw ⊢
      obtain ⟨r', h1, h2⟩ := Kids.place_spec (v := v) hk hs hne hag g4 hr.2 hw
      refine ⟨.cons p t r', by rw [h1]; rfl, ⟨g1, g2, ?_, h2.good⟩, ?_, ?_, ?_, by simp, fun ha hm => ⟨hr.1, h2.radix ha hm⟩⟩
      · intro q hq
        rw [h2.has] at hq
        exact g3 q hq
      · intro k'
        simp only [Kids.findAt]
        by_cases hq : p = nibble k' s
        · rw [if_pos hq, if_pos hq, if_neg]
          intro e
          exact hp (by rw [hq, e])
        · rw [if_neg hq, if_neg hq, h2.find]
      · intro e
        simp only [Kids.entries, List.mem_append, h2.mem]
        constructor
        · rintro (h | h | h)
          · exact Or.inr (Or.inl h)
          · exact Or.inl h
          · exact Or.inr (Or.inr h)
        · rintro (h | h | h)
          · exact Or.inr (Or.inl h)
          · exact Or.inl h
          · exact Or.inr (Or.inr h)
      · intro q
        simp [Kids.has, h2.has]
end

end Np.Trie
