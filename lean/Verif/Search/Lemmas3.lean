import Verif.Search.Lemmas2

set_option linter.unusedVariables false
set_option linter.unusedSimpArgs false

namespace Np.Search
open _root_.Np.Search.Spec

theorem chosen_ok (index : Dhkey) (l : List Dhkey) : (∃ ts, chosen (sortBuckets (buckets index l)) = .ok ts) ↔ Spread l index := by
  have hp := sort_perm (buckets index l)
  have hmem : ∀ c : Nat × Nat, c ∈ sortBuckets (buckets index l) → ∃ p ∈ l, c.1 = distance index p := by
    intro c hc
    obtain ⟨p, hp1, hp2⟩ := (mem_buckets index l c.1 c.2).mp (hp.mem_iff.mp hc)
    exact ⟨p, List.mem_of_getElem? hp1, hp2⟩
  have hmem' : ∀ p ∈ l, ∃ c ∈ sortBuckets (buckets index l), c.1 = distance index p := by
    intro p hpl
    obtain ⟨i, hi⟩ := List.mem_iff_getElem?.mp hpl
    exact ⟨(distance index p, i), hp.mem_iff.mpr ((mem_buckets index l _ i).mpr ⟨p, hi, rfl⟩), rfl⟩
  generalize sortBuckets (buckets index l) = s at hmem hmem'
  cases s with
  | nil =>
    constructor
    · rintro ⟨ts, h⟩; simp [chosen] at h
    · rintro ⟨p, hpl, _⟩
      obtain ⟨c, hc, _⟩ := hmem' p hpl
      simp at hc
  | cons b r =>
    by_cases ha : (r.all fun c => c.1 == b.1) = true
    · constructor
      · rintro ⟨ts, h⟩; simp only [chosen, ha, if_true] at h; simp at h
      · rintro ⟨p, hpl, q, hql, hne⟩
        have key : ∀ c ∈ b :: r, c.1 = b.1 := by
          intro c hc
          rcases List.mem_cons.mp hc with hc | hc
          · rw [hc]
          · simpa using List.all_eq_true.mp ha c hc
        obtain ⟨c, hc, hcp⟩ := hmem' p hpl
        obtain ⟨d, hd, hdq⟩ := hmem' q hql
        exact absurd (by rw [← hcp, ← hdq, key c hc, key d hd]) hne
    · constructor
      · intro _
        have : ∃ c ∈ r, c.1 ≠ b.1 := Classical.byContradiction fun hc => ha (by
          rw [List.all_eq_true]
          intro c hcr
          simp only [beq_iff_eq]
          exact Classical.byContradiction fun hne => hc ⟨c, hcr, hne⟩)
        obtain ⟨c, hc, hne⟩ := this
        obtain ⟨p, hp1, hp2⟩ := hmem c (List.mem_cons_of_mem _ hc)
        obtain ⟨q, hq1, hq2⟩ := hmem b (by simp)
        exact ⟨p, hp1, q, hq1, by rw [← hp2, ← hq2]; exact hne⟩
      · intro _
        exact ⟨_, by simp only [chosen, ha, if_false]; rfl⟩

theorem store_ok (n : Node) (e : Entry) (r : Nat) (l : List Dhkey) (hl : positions n.shift n.used n.id = .ok l) (h : 6 < r ∨ Spread l e.index) :
    ∃ n', n.store e r = .ok n' := by
  unfold Node.store
  by_cases hr : r ≤ 6
  · rw [if_pos hr, hl]
    simp only []
    obtain ⟨ts, hts⟩ := (chosen_ok e.index l).mpr (h.resolve_left (by omega))
    rw [hts]
    exact ⟨_, rfl⟩
  · rw [if_neg hr]; exact ⟨n, rfl⟩

theorem search_ok (n : Node) (q : Query) (r : Nat) (l : List Dhkey) (hl : positions n.shift n.used n.id = .ok l) (hq : q.id < 255) :
    ∃ a, n.search q Dhkey.zero r = .ok a := by
  unfold Node.search
  rw [if_neg (by omega)]
  simp only []
  by_cases hr : r ≤ 6
  · rw [if_pos hr, hl]
    simp only [if_true]
    exact ⟨_, rfl⟩
  · rw [if_neg hr]; exact ⟨_, rfl⟩

theorem ask_ok (n : Node) (u : Nat) (t : Nat × Nat) (ix : Dhkey) (f : Filter) (r now : Nat) (l : List Dhkey)
    (hl : positions n.shift n.used n.id = .ok l) (hn : n.nextId < 255) : ∃ n', n.ask u t ix f r now = .ok n' ∧ n'.nextId = n.nextId + 1 := by
  have key : ∀ (m : Node) (q : Query), positions m.shift m.used m.id = .ok l → q.id < 255 → ∃ n', m.query q r now = .ok n' := by
    intro m q hm hq
    unfold Node.query
    rw [if_neg (by omega)]
    simp only []
    by_cases hs : m.server = true
    · rw [if_pos hs]
      obtain ⟨a, ha⟩ := search_ok { m with queries := fun i => if i = q.id then some q else m.queries i
                                           results := fun i => if i = q.id then some [] else m.results i
                                           pipes := m.pipes ++ [{ uuid := q.uuid, start := now, stop := now }] } q r l hm hq
      rw [ha]
      exact ⟨a.1, rfl⟩
    · rw [if_neg hs]; exact ⟨_, rfl⟩
  obtain ⟨n', h⟩ := key n.newId.2 { id := n.newId.1, uuid := u, target := t, index := ix, filter := f } hl hn
  refine ⟨n', h, ?_⟩
  rw [(query_spec _ _ _ _ _ h).2.2.2.2.2.1]
  simp only [Node.newId]
  omega

/-- Only a query of the application takes a number. -/
theorem step_nextId (n n' : Node) (o : Op) (h : step n o = .ok n') : asks [o] = 0 → n'.nextId = n.nextId := by
  intro ho
  cases o with
  | add e r =>
    rcases add_spec n n' e r h with ⟨_, h'⟩ | ⟨_, _, h'⟩
    · rw [h']
    · rcases store_spec n n' e r h' with ⟨_, h''⟩ | ⟨_, l, ts, _, _, h''⟩ <;> rw [h'']
  | ask u t i f r now => simp [asks] at ho
  | remoteQuery q r =>
    obtain ⟨⟨a, ms⟩, ha, hb⟩ := map_ok _ _ _ h
    simp only [] at hb
    subst hb
    cases q with
    | none => simp [Node.remoteQuery] at ha
    | some q => exact (search_spec _ _ _ _ _ _ ha).2.2.2.2.2.1
  | remoteEntry e r =>
    cases e with
    | none => simp [step, Node.remoteEntry] at h
    | some e => rcases store_spec n n' e r h with ⟨_, h''⟩ | ⟨_, l, ts, _, _, h''⟩ <;> rw [h'']
  | receive u i e => exact (receive_spec _ _ _ _ _ h).2.2.1
  | collect u i now =>
    obtain ⟨⟨a, ms⟩, ha, hb⟩ := map_ok _ _ _ h
    simp only [] at hb
    subst hb
    exact (collect_spec _ _ _ _ _ _ ha).2.2.2.1
  | cleanup now => simp only [step] at h; injection h with h; subst h; rfl

theorem used_same (n n' : Node) (h : Same n n') : n'.used = n.used := by
  unfold Node.used
  rw [h.2.2.1]

theorem careful_run (l : List Dhkey) : ∀ (os : List Op) (n : Node), positions n.shift n.used n.id = .ok l → n.nextId + asks os ≤ 255 →
    (∀ o ∈ os, Careful l o) → ∃ n', run n os = .ok n' := by
  intro os
  induction os with
  | nil => intro n _ _ _; exact ⟨n, rfl⟩
  | cons o r ih =>
    intro n hl hn hc
    have hco := hc o (by simp)
    have hstep : ∃ n', step n o = .ok n' ∧ n'.nextId + asks r ≤ 255 := by
      cases o with
      | add e k =>
        by_cases hs : n.server = true
        · obtain ⟨n', h'⟩ := store_ok n e k l hl (Or.inr hco.2)
          have hok : step n (.add e k) = .ok n' := by
            show n.add e k = .ok n'
            unfold Node.add
            rw [if_pos hs, if_neg (by have := hco.1; omega)]
            exact h'
          exact ⟨n', hok, by rw [step_nextId n n' _ hok rfl]; exact hn⟩
        · have hok : step n (.add e k) = .ok n := by
            show n.add e k = .ok n
            unfold Node.add
            rw [if_neg hs]
          exact ⟨n, hok, hn⟩
      | ask u t i f k now =>
        simp only [asks] at hn
        obtain ⟨n', h', hi⟩ := ask_ok n u t i f k now l hl (by omega)
        exact ⟨n', h', by omega⟩
      | remoteQuery q k =>
        obtain ⟨q', hq, hid⟩ := hco
        obtain ⟨a, ha⟩ := search_ok n q' k l hl hid
        have hok : step n (.remoteQuery q k) = .ok a.1 := by
          subst hq
          simp only [step, Node.remoteQuery, ha]
          rfl
        exact ⟨a.1, hok, by rw [step_nextId n a.1 _ hok rfl]; exact hn⟩
      | remoteEntry e k =>
        obtain ⟨e', he, hsp⟩ := hco
        obtain ⟨n', h'⟩ := store_ok n e' k l hl hsp
        have hok : step n (.remoteEntry e k) = .ok n' := by
          subst he
          exact h'
        exact ⟨n', hok, by rw [step_nextId n n' _ hok rfl]; exact hn⟩
      | receive u i e => exact absurd hco (by simp [Careful])
      | collect u i now => exact absurd hco (by simp [Careful])
      | cleanup now => exact ⟨_, rfl, hn⟩
    obtain ⟨n', h1, h2⟩ := hstep
    have hs := (step_spec n n' o h1).1
    obtain ⟨m, hm⟩ := ih n' (by rw [hs.2.1, used_same n n' hs, hs.1]; exact hl) h2 (fun o' ho' => hc o' (List.mem_cons_of_mem _ ho'))
    refine ⟨m, ?_⟩
    unfold run
    rw [h1]
    exact hm

/-! ## Peers -/

theorem authorize_spec (self : Dhkey) (p p' : Peers) (c : Candidate) (h : authorize self p c.peer c.typeSize c.known = .ok p') :
    ((∀ k, ¬ Fresh self c k) ∧ p' = p) ∨ ∃ k, Fresh self c k ∧ authorizeRows self k (List.range 8) p = .ok p' := by
  unfold authorize at h
  cases hp : c.peer with
  | none =>
    rw [hp] at h
    injection h with h
    exact Or.inl ⟨fun k hk => by have := hk.1; rw [hp] at this; simp at this, h.symm⟩
  | some k =>
    cases ht : c.typeSize with
    | none =>
      rw [hp, ht] at h
      injection h with h
      exact Or.inl ⟨fun k hk => hk.2.1 ht, h.symm⟩
    | some s =>
      rw [hp, ht] at h
      simp only [] at h
      by_cases h1 : k = self ∨ k = Dhkey.zero
      · rw [if_pos h1] at h
        injection h with h
        refine Or.inl ⟨fun k' hk => ?_, h.symm⟩
        obtain ⟨a, _, _, b, d⟩ := hk
        rw [hp] at a
        injection a with a
        subst a
        exact h1.elim b d
      · rw [if_neg h1] at h
        by_cases h2 : 22 ≤ s
        · rw [if_pos h2] at h; simp at h
        · rw [if_neg h2] at h
          by_cases h3 : c.known = true
          · rw [if_pos h3] at h
            injection h with h
            exact Or.inl ⟨fun k' hk => by have := hk.2.2.1; rw [h3] at this; simp at this, h.symm⟩
          · rw [if_neg h3] at h
            exact Or.inr ⟨k, ⟨hp, by simp [ht], by simpa using h3, fun hc => h1 (Or.inl hc), fun hc => h1 (Or.inr hc)⟩, h⟩

/-- What the table of peers holds of the candidates so far. -/
def TableInv (self : Dhkey) (cs : List Candidate) (p : Peers) : Prop :=
  ∀ j, j < 8 → ∀ i,
    (p j i ≠ Dhkey.zero → (∃ c ∈ cs, Fresh self c (p j i)) ∧ rowDistance (p j i) self j = i) ∧
    ∀ c ∈ cs, ∀ k, Fresh self c k → rowDistance k self j = i → p j i ≠ Dhkey.zero ∧ distance (p j i) self ≤ distance k self

theorem table_step (self : Dhkey) (cs : List Candidate) (p p' : Peers) (c : Candidate) (hi : TableInv self cs p)
    (h : authorize self p c.peer c.typeSize c.known = .ok p') : TableInv self (cs ++ [c]) p' := by
  rcases authorize_spec self p p' c h with ⟨hn, he⟩ | ⟨k, hk, hr⟩
  · subst he
    intro j hj i
    obtain ⟨a, b⟩ := hi j hj i
    refine ⟨fun hz => ?_, fun d hd k hk hr => ?_⟩
    · obtain ⟨⟨d, hd, hf⟩, hrd⟩ := a hz
      exact ⟨⟨d, by simp [hd], hf⟩, hrd⟩
    · rcases List.mem_append.mp hd with hd | hd
      · exact b d hd k hk hr
      · simp at hd; subst hd; exact absurd hk (hn k)
  · have hrow := rows_spec self k hk.2.2.2.2 (List.range 8) p p' List.nodup_range hr
    intro j hj i
    obtain ⟨a, b⟩ := hi j hj i
    have hp := hrow j i
    by_cases hcond : j ∈ List.range 8 ∧ i = rowDistance k self j ∧ (distance k self < distance (p j i) self ∨ p j i = Dhkey.zero)
    · rw [if_pos hcond] at hp
      rw [hp]
      refine ⟨fun _ => ⟨⟨c, by simp, hk⟩, hcond.2.1.symm⟩, fun d hd k' hk' hr' => ⟨hk.2.2.2.2, ?_⟩⟩
      rcases List.mem_append.mp hd with hd | hd
      · obtain ⟨b1, b2⟩ := b d hd k' hk' hr'
        rcases hcond.2.2 with h' | h'
        · omega
        · exact absurd h' b1
      · simp at hd
        subst hd
        have := hk.1
        rw [hk'.1] at this
        injection this with this
        rw [this]
        exact Nat.le_refl _
    · rw [if_neg hcond] at hp
      rw [hp]
      refine ⟨fun hz => ?_, fun d hd k' hk' hr' => ?_⟩
      · obtain ⟨⟨d, hd, hf⟩, hrd⟩ := a hz
        exact ⟨⟨d, by simp [hd], hf⟩, hrd⟩
      · rcases List.mem_append.mp hd with hd | hd
        · exact b d hd k' hk' hr'
        · simp at hd
          subst hd
          have := hk.1
          rw [hk'.1] at this
          injection this with this
          subst this
          have hnot : ¬ (distance k' self < distance (p j i) self ∨ p j i = Dhkey.zero) := fun hc =>
            hcond ⟨by simpa using hj, hr'.symm, hc⟩
          exact ⟨fun hc => hnot (Or.inr hc), Nat.le_of_not_lt fun hc => hnot (Or.inl hc)⟩

theorem table_all (self : Dhkey) : ∀ (ds cs : List Candidate) (p p' : Peers), TableInv self cs p → authorizeAll self ds p = .ok p' →
    TableInv self (cs ++ ds) p' := by
  intro ds
  induction ds with
  | nil => intro cs p p' hi h; simp [authorizeAll] at h; subst h; simpa using hi
  | cons d r ih =>
    intro cs p p' hi h
    unfold authorizeAll at h
    cases ha : authorize self p d.peer d.typeSize d.known with
    | error f => rw [ha] at h; simp at h
    | ok q =>
      rw [ha] at h
      have := ih (cs ++ [d]) q p' (table_step self cs p q d hi ha) h
      simpa using this

theorem rowDistance_le (a b : Dhkey) (j : Nat) : rowDistance a b j ≤ 32 := by
  unfold rowDistance ones
  exact Nat.le_trans List.countP_le_length (by simp)

end Np.Search
