import Verif.Trie.Lemmas4

/-! # Lemmas on the filter -/
set_option linter.unusedSimpArgs false
set_option linter.unusedVariables false
namespace Np.Trie

open Np.Trie.Spec (nib Apart keyOf NeverEmptied)

section
variable {V : Type}

theorem Kids.get_entries {n : Nat} {u : Trie V} {e : List Byte × V} : ∀ {ks : Kids V}, ks.get n = some u → e ∈ u.entries → e ∈ ks.entries
  | .nil, h, _ => by simp [Kids.get] at h
  | .cons p t r, h, he => by
    simp only [Kids.get] at h
    simp only [Kids.entries, List.mem_append]
    split at h
    · cases h; exact Or.inl he
    · exact Or.inr (Kids.get_entries h he)

theorem Kids.drop_entries {n : Nat} {e : List Byte × V} : ∀ {ks : Kids V}, e ∈ (ks.drop n).entries → e ∈ ks.entries
  | .nil, h => h
  | .cons p t r, h => by
    simp only [Kids.drop] at h
    simp only [Kids.entries, List.mem_append]
    split at h
    · exact Or.inr h
    · simp only [Kids.entries, List.mem_append] at h
      exact h.imp id Kids.drop_entries

theorem meetKids_only {L s : Nat} {go : Trie V → Trie V → Out (Trie V × Bool)}
    (hgo : ∀ r j r' ok, r.Good L → r.Radix (s + 1) → go r j = .ok (r', ok) → ∀ e ∈ r'.entries, ∃ v, (e.1, v) ∈ r.entries) :
    ∀ (ks js ks' : Kids V), ks.Good L s → ks.Radix s → meet.meetKids go ks js = .ok ks' → ∀ e ∈ ks'.entries, ∃ v, (e.1, v) ∈ ks.entries
  | .nil, js, ks', _, _, h, e, he => by
    unfold meet.meetKids at h
    cases h
    simp [Kids.entries] at he
  | .cons p t r, js, ks', hg, hr, h, e, he => by
    unfold meet.meetKids at h
    simp only [Kids.entries, List.mem_append]
    cases hgp : js.get p with
    | none =>
      rw [hgp] at h
      obtain ⟨v, hv⟩ := meetKids_only hgo r js ks' hg.2.2.2 hr.2 h e he
      exact ⟨v, Or.inr hv⟩
    | some u =>
      rw [hgp] at h
      simp only [] at h
      cases hgo' : go t u with
      | error f => rw [hgo'] at h; cases h
      | ok x =>
        obtain ⟨t', ok⟩ := x
        rw [hgo'] at h
        simp only [] at h
        cases hrest : meet.meetKids go r js with
        | error f => rw [hrest] at h; cases h
        | ok q =>
          rw [hrest] at h
          simp only [Except.ok.injEq] at h
          have ih := meetKids_only hgo r js q hg.2.2.2 hr.2 hrest e
          cases ok with
          | false =>
            simp only [Bool.false_eq_true, if_false] at h
            subst h
            obtain ⟨v, hv⟩ := ih he
            exact ⟨v, Or.inr hv⟩
          | true =>
            simp only [if_true] at h
            subst h
            simp only [Kids.entries, List.mem_append] at he
            rcases he with he | he
            · obtain ⟨v, hv⟩ := hgo t u t' true hg.1 hr.1 hgo' e he
              exact ⟨v, Or.inl hv⟩
            · obtain ⟨v, hv⟩ := ih he
              exact ⟨v, Or.inr hv⟩

/-- The intersection has no other keys. -/
theorem meet_only {L : Nat} {combine : V → V → V × Bool} : ∀ (fuel m : Nat) (r j r' : Trie V) (ok : Bool), r.Good L → r.Radix m →
    meet combine fuel r j = .ok (r', ok) → ∀ e ∈ r'.entries, ∃ v, (e.1, v) ∈ r.entries
  | 0, m, r, j, r', ok, _, _, h => by simp [meet] at h
  | fuel + 1, m, r, j, r', ok, hg, hr, h => by
    intro e he
    unfold meet at h
    cases r with
    | leaf k0 v0 =>
      simp only [Except.ok.injEq] at h
      cases hf : j.find k0 with
      | none =>
        rw [hf] at h
        simp only [meetLeaf, Prod.mk.injEq] at h
        rw [← h.1] at he
        exact ⟨_, he⟩
      | some w =>
        rw [hf] at h
        simp only [meetLeaf, Prod.mk.injEq] at h
        rw [← h.1] at he
        simp only [Trie.entries, List.mem_singleton] at he
        exact ⟨v0, by simp [Trie.entries, he]⟩
    | branch s ks =>
      cases j with
      | leaf k1 w1 =>
        simp only [] at h
        cases hf : (Trie.branch s ks).find k1 with
        | none =>
          rw [hf] at h
          simp only [Except.ok.injEq, Prod.mk.injEq] at h
          rw [← h.1] at he
          exact ⟨_, he⟩
        | some v =>
          rw [hf] at h
          simp only [Except.ok.injEq, Prod.mk.injEq] at h
          obtain ⟨u1, u2, u3⟩ := Trie.update_keys (f := fun _ => (combine v w1).1) hg hf
          rw [← h.1] at he
          obtain ⟨x, hx, hxe⟩ := u2 e he
          exact ⟨x.2, by rw [← hxe]; exact hx⟩
      | branch s' js =>
        simp only [] at h
        by_cases hs : s = s'
        · rw [if_pos hs] at h
          cases hmk : meet.meetKids (meet combine fuel) ks js with
          | error f => rw [hmk] at h; cases h
          | ok ks' =>
            rw [hmk] at h
            simp only [Except.ok.injEq, Prod.mk.injEq] at h
            rw [← h.1] at he
            exact meetKids_only (fun r j r' ok a b c => meet_only fuel _ r j r' ok a b c) ks js ks' hg.2 hr.2.2 hmk e he
        · rw [if_neg hs] at h
          by_cases hlt : s < s'
          · rw [if_pos hlt] at h
            cases hlm : (Trie.branch s' js).leftmost with
            | none => rw [hlm] at h; cases h
            | some k1 =>
              rw [hlm] at h
              simp only [] at h
              cases hgt : ks.get (nibble k1 s) with
              | none => rw [hgt] at h; cases h
              | some c =>
                rw [hgt] at h
                simp only [] at h
                obtain ⟨cg, cr⟩ := Kids.get_good hg.2 hr.2.2 hgt
                cases hm : meet combine fuel c (.branch s' js) with
                | error f => rw [hm] at h; cases h
                | ok x =>
                  obtain ⟨c', b⟩ := x
                  rw [hm] at h
                  cases b with
                  | false =>
                    simp only [Except.ok.injEq, Prod.mk.injEq] at h
                    rw [← h.1] at he
                    simp [Trie.entries, Kids.entries] at he
                  | true =>
                    simp only [Except.ok.injEq, Prod.mk.injEq] at h
                    rw [← h.1] at he
                    simp only [Trie.entries, Kids.entries, List.append_nil] at he
                    obtain ⟨v, hv⟩ := meet_only fuel _ c _ c' true cg cr hm e he
                    exact ⟨v, Kids.get_entries hgt hv⟩
          · rw [if_neg hlt] at h
            cases hlm : (Trie.branch s ks).leftmost with
            | none => rw [hlm] at h; cases h
            | some k1 =>
              rw [hlm] at h
              simp only [] at h
              cases hgt : js.get (nibble k1 s') with
              | none =>
                rw [hgt] at h
                simp only [Except.ok.injEq, Prod.mk.injEq] at h
                rw [← h.1] at he
                exact ⟨_, he⟩
              | some c =>
                rw [hgt] at h
                simp only [] at h
                cases hm : meet combine fuel (.branch s ks) c with
                | error f => rw [hm] at h; cases h
                | ok x =>
                  obtain ⟨c', b⟩ := x
                  rw [hm] at h
                  cases b with
                  | true =>
                    simp only [Except.ok.injEq, Prod.mk.injEq] at h
                    rw [← h.1] at he
                    exact meet_only fuel _ _ _ c' true hg hr hm e he
                  | false =>
                    cases c' with
                    | leaf _ _ => cases h
                    | branch t ks' =>
                      simp only [] at h
                      split at h
                      · simp only [Except.ok.injEq, Prod.mk.injEq] at h
                        rw [← h.1] at he
                        exact meet_only fuel _ _ _ _ false hg hr hm e (Kids.drop_entries he)
                      · cases h

end

/-- The blocks of the words that were added. -/
def Filled (done : List (List Byte)) (m : List Byte → Option Block) : Prop :=
  ∀ k, (m k = none ∧ k ∉ done) ∨ (k ∈ done ∧ ∃ x, m k = some (some x) ∧ ∀ b, bitOf k = some b → x.testBit b = true)

theorem bitOf_some {k : List Byte} (h : 256 ≤ word k) : ∃ b, bitOf k = some b := by
  unfold bitOf
  rw [if_neg]
  · exact ⟨_, rfl⟩
  · rw [Nat.shiftRight_eq_div_pow]
    have : 1 ≤ word k / 2 ^ 8 := by
      rw [Nat.le_div_iff_mul_le (by decide)]
      omega
    omega

theorem bloomAdd_holds : ∀ (ks done : List (List Byte)) (m : List Byte → Option Block) (r : Root Block), Holds 4 m r → Filled done m → (∀ s, r ≠ .dead s) →
    (∀ k ∈ ks, k.length = 4 ∧ 256 ≤ word k) → (∀ a ∈ done ++ ks, ∀ b ∈ done ++ ks, a ≠ b → Apart a b) →
    ∃ r' m', bloomAdd r ks = .ok r' ∧ Holds 4 m' r' ∧ Filled (done ++ ks) m'
  | [], done, m, r, h, hf, _, _, _ => ⟨r, m, rfl, h, by simpa using hf⟩
  | k :: ks, done, m, r, h, hf, hd, hl, ha => by
    obtain ⟨b, hb⟩ := bitOf_some (hl k (by simp)).2
    obtain ⟨r1, g1, g2⟩ := insert_holds h none k (addBit b) (hl k (by simp)).1 (by
      intro k' hk' hne
      rcases hf k' with ⟨h1, _⟩ | ⟨h1, _⟩
      · exact absurd h1 hk'
      · exact ha k (by simp) k' (by simp [h1]) (fun e => hne e.symm)) hd
    have hnd : ∀ s, r1 ≠ .dead s := by
      intro s e
      subst e
      have : Spec.set m k (some (addBit b ((m k).getD none))) = fun _ => none := g2
      have := congrFun this k
      simp [Spec.set] at this
    have hf' : Filled (done ++ [k]) (Spec.set m k (some (addBit b ((m k).getD none)))) := by
      intro k'
      by_cases he : k' = k
      · subst he
        refine Or.inr ⟨by simp, ((m k').getD none).getD 0 ||| (1 <<< b), by simp only [Spec.set, if_true, addBit], ?_⟩
        intro b' hb'
        rw [hb] at hb'
        cases hb'
        simp [Nat.testBit_or, Nat.testBit_shiftLeft]
      · simp only [Spec.set, if_neg he]
        rcases hf k' with ⟨h1, h2⟩ | ⟨h1, h2⟩
        · exact Or.inl ⟨h1, by simp [h2, he]⟩
        · exact Or.inr ⟨by simp [h1], h2⟩
    obtain ⟨r', m', q1, q2, q3⟩ := bloomAdd_holds ks (done ++ [k]) _ r1 g2 hf' hnd (fun x hx => hl x (by simp [hx])) (by simpa using ha)
    refine ⟨r', m', ?_, q2, by simpa using q3⟩
    simp only [bloomAdd, hb, g1]
    exact q1

theorem bloomCheck_holds {m : List Byte → Option Block} {r : Root Block} {done : List (List Byte)} (h : Holds 4 m r) (hf : Filled done m) :
    ∀ (ks : List (List Byte)), (∀ k ∈ ks, 256 ≤ word k) → bloomCheck r ks = .ok (decide (∀ k ∈ ks, k ∈ done))
  | [], _ => by simp [bloomCheck]
  | k :: ks, hl => by
    obtain ⟨b, hb⟩ := bitOf_some (hl k (by simp))
    have ih := bloomCheck_holds h hf ks fun x hx => hl x (by simp [hx])
    simp only [bloomCheck]
    rw [Holds.find h k]
    rcases hf k with ⟨h1, h2⟩ | ⟨h1, x, h2, h3⟩
    · rw [h1]
      simp [h2]
    · rw [h2, hb]
      simp only [Option.getD_some, h3 b hb, if_true]
      rw [ih]
      simp [h1]

end Np.Trie
