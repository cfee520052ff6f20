import Verif.Search.Lemmas

set_option linter.unusedVariables false
set_option linter.unusedSimpArgs false

namespace Np.Search
open _root_.Np.Search.Spec

theorem map_ok {α β : Type} (x : Except Fault α) (f : α → β) (y : β) (h : x.map f = .ok y) : ∃ a, x = .ok a ∧ f a = y := by
  cases x with
  | error e => simp [Except.map] at h
  | ok a => exact ⟨a, rfl, by simpa [Except.map] using h⟩

/-! ## Storing -/

theorem store_spec (n n' : Node) (e : Entry) (r : Nat) (h : n.store e r = .ok n') :
    (6 < r ∧ n' = n) ∨ (r ≤ 6 ∧ ∃ l ts, positions n.shift n.used n.id = .ok l ∧ chosen (sortBuckets (buckets e.index l)) = .ok ts ∧
      n' = { n with tables := fun i => if i ∈ ts then (n.tables i).put e else n.tables i }) := by
  unfold Node.store at h
  by_cases hr : r ≤ 6
  · rw [if_pos hr] at h
    cases hp : positions n.shift n.used n.id with
    | error f => rw [hp] at h; simp at h
    | ok l =>
      rw [hp] at h
      simp only [] at h
      cases hc : chosen (sortBuckets (buckets e.index l)) with
      | error f => rw [hc] at h; simp at h
      | ok ts =>
        rw [hc] at h
        injection h with h
        exact Or.inr ⟨hr, l, ts, rfl, hc, h.symm⟩
  · rw [if_neg hr] at h
    injection h with h
    exact Or.inl ⟨by omega, h.symm⟩

theorem search_spec (n n' : Node) (q : Query) (s : Dhkey) (r : Nat) (ms) (h : n.search q s r = .ok (n', ms)) :
    n'.tables = n.tables ∧ n'.id = n.id ∧ n'.shift = n.shift ∧ n'.count = n.count ∧ n'.server = n.server ∧ n'.nextId = n.nextId ∧
      n'.pipes = n.pipes ∧ n'.queries = n.queries ∧ ∀ i, i ≠ q.id → n'.results i = n.results i := by
  unfold Node.search at h
  by_cases h1 : s = Dhkey.zero ∧ 255 ≤ q.id
  · rw [if_pos h1] at h; simp at h
  · rw [if_neg h1] at h
    simp only [] at h
    by_cases hr : r ≤ 6
    · rw [if_pos hr] at h
      cases hp : positions n.shift n.used n.id with
      | error f => rw [hp] at h; simp at h
      | ok l =>
        rw [hp] at h
        simp only [] at h
        by_cases hs : s = Dhkey.zero
        · rw [if_pos hs] at h
          injection h with h
          injection h with h _
          subst h
          refine ⟨rfl, rfl, rfl, rfl, rfl, rfl, rfl, rfl, fun i hi => ?_⟩
          simp [hi]
        · rw [if_neg hs] at h
          injection h with h
          injection h with h _
          subst h
          exact ⟨rfl, rfl, rfl, rfl, rfl, rfl, rfl, rfl, fun _ _ => rfl⟩
    · rw [if_neg hr] at h
      injection h with h
      injection h with h _
      subst h
      exact ⟨rfl, rfl, rfl, rfl, rfl, rfl, rfl, rfl, fun _ _ => rfl⟩

theorem query_spec (n n' : Node) (q : Query) (r now : Nat) (h : n.query q r now = .ok n') :
    n'.tables = n.tables ∧ n'.id = n.id ∧ n'.shift = n.shift ∧ n'.count = n.count ∧ n'.server = n.server ∧ n'.nextId = n.nextId ∧ q.id < 255 ∧
      ∀ i, i ≠ q.id → n'.results i = n.results i := by
  unfold Node.query at h
  by_cases h1 : 255 ≤ q.id
  · rw [if_pos h1] at h; simp at h
  · rw [if_neg h1] at h
    simp only [] at h
    by_cases hs : n.server = true
    · rw [if_pos hs] at h
      obtain ⟨⟨a, ms⟩, ha, hb⟩ := map_ok _ _ _ h
      simp only [] at hb
      subst hb
      obtain ⟨a1, a2, a3, a4, a5, a6, _, _, a9⟩ := search_spec _ _ _ _ _ _ ha
      refine ⟨a1, a2, a3, a4, a5, a6, by omega, fun i hi => ?_⟩
      rw [a9 i hi]
      simp [hi]
    · rw [if_neg hs] at h
      injection h with h
      subst h
      refine ⟨rfl, rfl, rfl, rfl, rfl, rfl, by omega, fun i hi => ?_⟩
      simp [hi]

/-- What no operation changes. -/
def Same (n n' : Node) : Prop := n'.id = n.id ∧ n'.shift = n.shift ∧ n'.count = n.count ∧ n'.server = n.server

theorem collect_spec (n n' : Node) (u i now : Nat) (out) (h : n.collect u i now = .ok (n', out)) :
    n'.tables = n.tables ∧ Same n n' ∧ n'.results = n.results ∧ n'.nextId = n.nextId ∧
      ∃ rs, n.results i = some rs ∧ out = if rs = [] then none else some (rs.foldl byHits []) := by
  unfold Node.collect at h
  cases hf : n.pipes.find? (fun p => p.uuid = u) with
  | none => rw [hf] at h; simp at h
  | some p =>
    rw [hf] at h
    simp only [] at h
    by_cases hi : 255 ≤ i
    · rw [if_pos hi] at h; simp at h
    · rw [if_neg hi] at h
      cases hr : n.results i with
      | none => rw [hr] at h; simp at h
      | some rs =>
        rw [hr] at h
        simp only [] at h
        by_cases he : rs = []
        · rw [if_pos he] at h
          injection h with h
          injection h with h1 h2
          subst h1
          exact ⟨rfl, ⟨rfl, rfl, rfl, rfl⟩, rfl, rfl, rs, rfl, by rw [if_pos he]; exact h2.symm⟩
        · rw [if_neg he] at h
          injection h with h
          injection h with h1 h2
          subst h1
          exact ⟨rfl, ⟨rfl, rfl, rfl, rfl⟩, rfl, rfl, rs, rfl, by rw [if_neg he]; exact h2.symm⟩

theorem receive_spec (n n' : Node) (u i : Nat) (e : Entry) (h : n.receive u i e = .ok n') :
    n'.tables = n.tables ∧ Same n n' ∧ n'.nextId = n.nextId ∧ ∀ j, j ≠ i → n'.results j = n.results j := by
  unfold Node.receive at h
  cases hf : n.pipes.find? (fun p => p.uuid = u) with
  | none => rw [hf] at h; injection h with h; subst h; exact ⟨rfl, ⟨rfl, rfl, rfl, rfl⟩, rfl, fun _ _ => rfl⟩
  | some p =>
    rw [hf] at h
    simp only [] at h
    by_cases h1 : p.start < p.stop
    · rw [if_pos h1] at h; injection h with h; subst h; exact ⟨rfl, ⟨rfl, rfl, rfl, rfl⟩, rfl, fun _ _ => rfl⟩
    · rw [if_neg h1] at h
      by_cases hi : 255 ≤ i
      · rw [if_pos hi] at h; simp at h
      · rw [if_neg hi] at h
        cases hq : n.queries i with
        | none => rw [hq] at h; simp at h
        | some q =>
          cases hr : n.results i with
          | none => rw [hq, hr] at h; simp at h
          | some rs =>
            rw [hq, hr] at h
            injection h with h
            subst h
            exact ⟨rfl, ⟨rfl, rfl, rfl, rfl⟩, rfl, fun j hj => by simp [hj]⟩

theorem add_spec (n n' : Node) (e : Entry) (r : Nat) (h : n.add e r = .ok n') :
    (n.server = false ∧ n' = n) ∨ (n.server = true ∧ r ≤ 6 ∧ n.store e r = .ok n') := by
  unfold Node.add at h
  by_cases hs : n.server = true
  · rw [if_pos hs] at h
    by_cases hr : 6 < r
    · rw [if_pos hr] at h; simp at h
    · rw [if_neg hr] at h; exact Or.inr ⟨hs, by omega, h⟩
  · rw [if_neg hs] at h
    injection h with h
    exact Or.inl ⟨by simpa using hs, h.symm⟩

/-- One operation: what stays, and what becomes of the tables. -/
theorem step_spec (n n' : Node) (o : Op) (h : step n o = .ok n') :
    Same n n' ∧ (n'.tables = n.tables ∨ ∃ e, brings o = some e ∧ ∃ ts : List Nat, n'.tables = fun i => if i ∈ ts then (n.tables i).put e else n.tables i) := by
  cases o with
  | add e r =>
    rcases add_spec n n' e r h with ⟨_, h'⟩ | ⟨_, _, h'⟩
    · subst h'; exact ⟨⟨rfl, rfl, rfl, rfl⟩, Or.inl rfl⟩
    · rcases store_spec n n' e r h' with ⟨_, h''⟩ | ⟨_, l, ts, _, _, h''⟩
      · subst h''; exact ⟨⟨rfl, rfl, rfl, rfl⟩, Or.inl rfl⟩
      · subst h''; exact ⟨⟨rfl, rfl, rfl, rfl⟩, Or.inr ⟨e, rfl, ts, rfl⟩⟩
  | ask u t i f r now =>
    obtain ⟨a1, a2, a3, a4, a5, _⟩ := query_spec _ _ _ _ _ h
    exact ⟨⟨a2, a3, a4, a5⟩, Or.inl a1⟩
  | remoteQuery q r =>
    obtain ⟨⟨a, ms⟩, ha, hb⟩ := map_ok _ _ _ h
    simp only [] at hb
    subst hb
    cases q with
    | none => simp [Node.remoteQuery] at ha
    | some q =>
      obtain ⟨a1, a2, a3, a4, a5, _⟩ := search_spec _ _ _ _ _ _ ha
      exact ⟨⟨a2, a3, a4, a5⟩, Or.inl a1⟩
  | remoteEntry e r =>
    cases e with
    | none => simp [step, Node.remoteEntry] at h
    | some e =>
      rcases store_spec n n' e r h with ⟨_, h''⟩ | ⟨_, l, ts, _, _, h''⟩
      · subst h''; exact ⟨⟨rfl, rfl, rfl, rfl⟩, Or.inl rfl⟩
      · subst h''; exact ⟨⟨rfl, rfl, rfl, rfl⟩, Or.inr ⟨e, rfl, ts, rfl⟩⟩
  | receive u i e =>
    obtain ⟨a1, a2, _⟩ := receive_spec _ _ _ _ _ h
    exact ⟨a2, Or.inl a1⟩
  | collect u i now =>
    obtain ⟨⟨a, ms⟩, ha, hb⟩ := map_ok _ _ _ h
    simp only [] at hb
    subst hb
    obtain ⟨a1, a2, _⟩ := collect_spec _ _ _ _ _ _ ha
    exact ⟨a2, Or.inl a1⟩
  | cleanup now =>
    simp only [step] at h
    injection h with h
    subst h
    exact ⟨⟨rfl, rfl, rfl, rfl⟩, Or.inl rfl⟩

theorem mem_put (t : Table) (e x : Entry) : x ∈ t.put e ↔ x = e ∨ (x ∈ t ∧ x.index ≠ e.index) := by
  unfold Table.put
  rw [List.mem_append, List.mem_filter]
  simp only [List.mem_cons, List.not_mem_nil, or_false, decide_eq_true_eq]
  exact Or.comm

theorem run_same : ∀ (os : List Op) (n n' : Node), run n os = .ok n' → Same n n' := by
  intro os
  induction os with
  | nil => intro n n' h; simp [run] at h; subst h; exact ⟨rfl, rfl, rfl, rfl⟩
  | cons o r ih =>
    intro n n' h
    unfold run at h
    cases hs : step n o with
    | error f => rw [hs] at h; simp at h
    | ok m =>
      rw [hs] at h
      obtain ⟨a1, a2, a3, a4⟩ := (step_spec n m o hs).1
      obtain ⟨b1, b2, b3, b4⟩ := ih m n' h
      exact ⟨b1.trans a1, b2.trans a2, b3.trans a3, b4.trans a4⟩

theorem run_keeps (e : Entry) (i : Nat) : ∀ (os : List Op) (n n' : Node), run n os = .ok n' → e ∈ n.tables i →
    (∀ o ∈ os, ∀ e', brings o = some e' → e'.index ≠ e.index) → e ∈ n'.tables i := by
  intro os
  induction os with
  | nil => intro n n' h he _; simp [run] at h; subst h; exact he
  | cons o r ih =>
    intro n n' h he hb
    unfold run at h
    cases hs : step n o with
    | error f => rw [hs] at h; simp at h
    | ok m =>
      rw [hs] at h
      refine ih m n' h ?_ (fun o' ho' => hb o' (List.mem_cons_of_mem _ ho'))
      rcases (step_spec n m o hs).2 with ht | ⟨e', hbr, ts, ht⟩
      · rw [ht]; exact he
      · rw [ht]
        simp only []
        split
        · exact (mem_put _ _ _).mpr (Or.inr ⟨he, fun hc => hb o (by simp) e' hbr hc.symm⟩)
        · exact he

theorem run_append : ∀ (os ps : List Op) (n n' : Node), run n (os ++ ps) = .ok n' → ∃ m, run n os = .ok m ∧ run m ps = .ok n' := by
  intro os
  induction os with
  | nil => intro ps n n' h; exact ⟨n, rfl, h⟩
  | cons o r ih =>
    intro ps n n' h
    rw [List.cons_append] at h
    unfold run at h
    cases hs : step n o with
    | error f => rw [hs] at h; simp at h
    | ok m =>
      rw [hs] at h
      obtain ⟨k, hk1, hk2⟩ := ih ps m n' h
      refine ⟨k, ?_, hk2⟩
      unfold run
      rw [hs]
      exact hk1

/-- An added entry is in a table that queries look at. -/
theorem add_stores (n n' : Node) (e : Entry) (r : Nat) (hs : n.server = true) (h : n.add e r = .ok n') :
    ∃ l, positions n.shift n.used n.id = .ok l ∧ (∃ i, i < n.used ∧ ∃ p, l[i]? = some p ∧ ∀ q ∈ l, distance e.index p ≤ distance e.index q) ∧
      ∀ i, ((∃ p, l[i]? = some p ∧ ∀ q ∈ l, distance e.index p ≤ distance e.index q) → n'.tables i = (n.tables i).put e) ∧
        (¬ (∃ p, l[i]? = some p ∧ ∀ q ∈ l, distance e.index p ≤ distance e.index q) → n'.tables i = n.tables i) := by
  rcases add_spec n n' e r h with ⟨h', _⟩ | ⟨_, hr, h'⟩
  · rw [hs] at h'; simp at h'
  · rcases store_spec n n' e r h' with ⟨h'', _⟩ | ⟨_, l, ts, hl, hc, h''⟩
    · omega
    · obtain ⟨c1, c2⟩ := chosen_spec _ _ _ hc
      subst h''
      refine ⟨l, hl, ?_, fun i => ⟨fun hi => ?_, fun hi => ?_⟩⟩
      · obtain ⟨i, hi⟩ := List.exists_mem_of_ne_nil _ c1
        obtain ⟨p, hp, hm⟩ := (c2 i).mp hi
        refine ⟨i, ?_, p, hp, hm⟩
        rw [← positions_length _ _ _ _ hl]
        exact (List.getElem?_eq_some_iff.mp hp).1
      · simp [(c2 i).mpr hi]
      · have : i ∉ ts := fun hc => hi ((c2 i).mp hc)
        simp [this]

theorem matches_iff (q : Query) (e : Entry) : matches? q e = true ↔ Alike q.index e.index ∧ SimilarEnough q.target q.filter e.filter := by
  unfold matches? near larger Alike SimilarEnough
  simp only [Bool.and_eq_true, Bool.or_eq_true, decide_eq_true_eq]

/-- What a query finds. -/
theorem query_finds (n n' : Node) (q : Query) (r now : Nat) (hs : n.server = true) (hr : r ≤ 6) (h : n.query q r now = .ok n') :
    ∃ rs, n'.results q.id = some rs ∧ (labels rs).Nodup ∧ ∀ x, x ∈ labels rs ↔
      ∃ i, i < n.used ∧ ∃ e ∈ n.tables i, Alike q.index e.index ∧ SimilarEnough q.target q.filter e.filter ∧ x = e.subject := by
  unfold Node.query at h
  by_cases h1 : 255 ≤ q.id
  · rw [if_pos h1] at h; simp at h
  · rw [if_neg h1] at h
    simp only [] at h
    rw [if_pos hs] at h
    obtain ⟨⟨a, ms⟩, ha, hb⟩ := map_ok _ _ _ h
    simp only [] at hb
    subst hb
    unfold Node.search at ha
    rw [if_neg (fun hc => h1 hc.2)] at ha
    simp only [if_true, hr] at ha
    split at ha
    · simp at ha
    · rename_i l hl
      injection ha with ha
      injection ha with ha _
      subst ha
      simp only [if_true, Option.map_some, Option.getD_some]
      refine ⟨_, rfl, tables_nodup _ _ _ _ (by simp [labels]), fun x => ?_⟩
      rw [tables_labels]
      have hlen : l.length = n.used := positions_length _ _ _ _ hl
      simp only [labels, List.map_nil, List.not_mem_nil, false_or]
      constructor
      · rintro ⟨i, hi, e, he, hm, hx⟩
        rw [sorted_numbers, hlen] at hi
        obtain ⟨m1, m2⟩ := (matches_iff _ _).mp hm
        exact ⟨i, hi, e, he, m1, m2, hx⟩
      · rintro ⟨i, hi, e, he, m1, m2, hx⟩
        exact ⟨i, (sorted_numbers _ _ _).mpr (by rw [hlen]; exact hi), e, he, (matches_iff _ _).mpr ⟨m1, m2⟩, hx⟩

theorem ask_spec (n n' : Node) (u : Nat) (t : Nat × Nat) (ix : Dhkey) (f : Filter) (r now : Nat) (hs : n.server = true) (hr : r ≤ 6)
    (h : n.ask u t ix f r now = .ok n') :
    ∃ rs, n'.results n.nextId = some rs ∧ (labels rs).Nodup ∧ ∀ x, x ∈ labels rs ↔
      ∃ i, i < n.used ∧ ∃ e ∈ n.tables i, Alike ix e.index ∧ SimilarEnough t f e.filter ∧ x = e.subject :=
  query_finds _ _ _ _ _ (show n.newId.2.server = true from hs) hr h

theorem sums_self : ∀ f : Filter, sums f f = (f.sum, f.sum) := by
  intro f
  induction f with
  | nil => rfl
  | cons a r ih => simp [sums, ih]

theorem weight_xor_self (k : Dhkey) : weight (k.xor k) = 0 := by
  unfold weight
  simp only [Dhkey.xor, Dhkey.map2, Dhkey.words, BitVec.xor_self]
  decide

theorem and_self (k : Dhkey) : k.and k = k := by
  simp [Dhkey.and, Dhkey.map2]

/-! ## Results -/

theorem byHits_spec : ∀ (rs out : Results), (out.map Result.hits).Nodup →
    ((rs.foldl byHits out).map Result.hits).Nodup ∧ (∀ x ∈ rs.foldl byHits out, x ∈ out ∨ x ∈ rs) ∧
    (∀ x ∈ out, x ∈ rs.foldl byHits out) ∧ ∀ r ∈ rs, ∃ x ∈ rs.foldl byHits out, x.hits = r.hits := by
  intro rs
  induction rs with
  | nil => intro out h; exact ⟨h, fun x hx => Or.inl hx, fun x hx => hx, by simp⟩
  | cons r rest ih =>
    intro out h
    simp only [List.foldl_cons]
    unfold byHits
    by_cases hc : out.any (fun x => x.hits == r.hits) = true
    · rw [if_pos hc]
      obtain ⟨a, b, c, d⟩ := ih out h
      refine ⟨a, fun x hx => (b x hx).imp id (List.mem_cons_of_mem _), c, fun y hy => ?_⟩
      rcases List.mem_cons.mp hy with hy | hy
      · rw [List.any_eq_true] at hc
        obtain ⟨x, hx, he⟩ := hc
        exact ⟨x, c x hx, by rw [hy]; simpa using he⟩
      · exact d y hy
    · rw [if_neg hc]
      have hn : ((out ++ [r]).map Result.hits).Nodup := by
        rw [List.map_append, List.nodup_append]
        refine ⟨h, by simp, fun a ha b hb => ?_⟩
        simp at hb
        obtain ⟨x, hx, hxa⟩ := List.mem_map.mp ha
        intro he
        exact hc (List.any_eq_true.mpr ⟨x, hx, by simp [hxa, he, hb]⟩)
      obtain ⟨a, b, c, d⟩ := ih (out ++ [r]) hn
      refine ⟨a, fun x hx => ?_, fun x hx => c x (by simp [hx]), fun y hy => ?_⟩
      · rcases b x hx with h' | h'
        · rcases List.mem_append.mp h' with h' | h'
          · exact Or.inl h'
          · simp at h'; exact Or.inr (by simp [h'])
        · exact Or.inr (List.mem_cons_of_mem _ h')
      · rcases List.mem_cons.mp hy with hy | hy
        · exact ⟨r, c r (by simp), by rw [hy]⟩
        · exact d y hy

theorem nodup_map_inj {α β : Type} (f : α → β) : ∀ (l : List α), (l.map f).Nodup → ∀ a ∈ l, ∀ b ∈ l, f a = f b → a = b := by
  intro l
  induction l with
  | nil => intro _ a ha; simp at ha
  | cons x r ih =>
    intro h a ha b hb he
    rw [List.map_cons, List.nodup_cons] at h
    rcases List.mem_cons.mp ha with ha | ha <;> rcases List.mem_cons.mp hb with hb | hb
    · rw [ha, hb]
    · exact absurd (List.mem_map.mpr ⟨b, hb, by rw [← he, ha]⟩) h.1
    · exact absurd (List.mem_map.mpr ⟨a, ha, by rw [he, hb]⟩) h.1
    · exact ih h.2 a ha b hb he

/-! ## Peers -/

theorem rows_spec (self peer : Dhkey) (hp : peer ≠ Dhkey.zero) : ∀ (js : List Nat) (p p' : Peers), js.Nodup → authorizeRows self peer js p = .ok p' →
    ∀ a b, p' a b = if a ∈ js ∧ b = rowDistance peer self a ∧ (distance peer self < distance (p a b) self ∨ p a b = Dhkey.zero) then peer else p a b := by
  intro js
  induction js with
  | nil => intro p p' _ h a b; simp [authorizeRows] at h; simp [h]
  | cons j r ih =>
    intro p p' hn h a b
    rw [List.nodup_cons] at hn
    unfold authorizeRows at h
    simp only [] at h
    by_cases h1 : 32 ≤ rowDistance peer self j
    · rw [if_pos h1] at h; simp at h
    · rw [if_neg h1] at h
      by_cases h2 : distance peer self < distance (p j (rowDistance peer self j)) self ∨ p j (rowDistance peer self j) = Dhkey.zero
      · rw [if_pos h2] at h
        rw [ih _ _ hn.2 h a b]
        by_cases ha : a = j
        · subst ha
          by_cases hb : b = rowDistance peer self a
          · subst hb
            simp [hn.1, h2]
          · simp [hn.1, hb]
        · simp [ha]
      · rw [if_neg h2] at h
        rw [ih _ _ hn.2 h a b]
        by_cases ha : a = j
        · subst ha
          by_cases hb : b = rowDistance peer self a
          · subst hb
            simp [hn.1, h2]
          · simp [hn.1, hb]
        · simp [ha]

/-- The walk finds a place with a peer that is nearer than the limit, and none of the places it passes has a nearer one. -/
theorem walk_sound (p : Nat → Dhkey) (key : Dhkey) (j : Nat) (up : Bool) (stop mine : Nat) : ∀ fuel index best target,
    (best = none → target = mine) → (∀ b, best = some b → b ≠ 0 ∧ p b ≠ Dhkey.zero ∧ rowDistance key (p b) j = target ∧ target < mine) →
    ∀ res, walk p key j up stop fuel index best target = .ok res →
      (∀ b, res = some b → b ≠ 0 ∧ p b ≠ Dhkey.zero ∧ rowDistance key (p b) j < mine ∧ rowDistance key (p b) j ≤ target) ∧
      (best ≠ none → res ≠ none) := by
  intro fuel
  induction fuel with
  | zero =>
    intro index best target h1 h2 res h
    simp [walk] at h
    subst h
    exact ⟨fun b hb => by obtain ⟨a0, a, b', c⟩ := h2 b hb; exact ⟨a0, a, by omega, by omega⟩, fun h => h⟩
  | succ f ih =>
    intro index best target h1 h2 res h
    unfold walk at h
    by_cases h0 : index = 0
    · rw [if_pos h0] at h
      injection h with h
      subst h
      exact ⟨fun b hb => by obtain ⟨a0, a, b', c⟩ := h2 b hb; exact ⟨a0, a, by omega, by omega⟩, fun h => h⟩
    · rw [if_neg h0] at h
      by_cases h3 : 32 ≤ index
      · rw [if_pos h3] at h; simp at h
      · rw [if_neg h3] at h
        simp only [] at h
        by_cases hb : (p index ≠ Dhkey.zero ∧ rowDistance key (p index) j < target)
        · have hbt : (decide (p index ≠ Dhkey.zero) && decide (rowDistance key (p index) j < target)) = true := by simp [hb.1, hb.2]
          rw [hbt] at h
          simp only [if_true] at h
          have ht : target ≤ mine := by
            cases hbe : best with
            | none => rw [h1 hbe]; exact Nat.le_refl _
            | some b => have := (h2 b hbe).2.2.2; omega
          obtain ⟨a, b⟩ := ih _ _ _ (by simp) (by
            intro b hb'
            injection hb' with hb'
            subst hb'
            exact ⟨h0, hb.1, rfl, by omega⟩) res h
          refine ⟨fun c hc => ?_, fun _ => b (by simp)⟩
          obtain ⟨x0, x, y, z⟩ := a c hc
          exact ⟨x0, x, y, by omega⟩
        · have hbt : (decide (p index ≠ Dhkey.zero) && decide (rowDistance key (p index) j < target)) = false := by
            rw [Bool.and_eq_false_iff]
            simp only [decide_eq_false_iff_not]
            exact Classical.not_and_iff_not_or_not.mp hb
          rw [hbt] at h
          simp only [Bool.false_eq_true, if_false] at h
          exact ih _ _ _ h1 h2 res h

/-- Every place the walk passes is looked at. -/
theorem walk_complete (p : Nat → Dhkey) (key : Dhkey) (j : Nat) (up : Bool) (stop mine : Nat) (hst : stop < 32) : ∀ fuel index best target,
    (best = none → target = mine) → (∀ b, best = some b → b ≠ 0 ∧ p b ≠ Dhkey.zero ∧ rowDistance key (p b) j = target ∧ target < mine) →
    (if up then index ≤ stop ∧ stop < fuel + index else stop ≤ index ∧ index < fuel + stop) → index ≠ 0 →
    ∀ res, walk p key j up stop fuel index best target = .ok res →
    ∀ i, i ≠ 0 → (if up then index ≤ i ∧ i ≤ stop else stop ≤ i ∧ i ≤ index) → p i ≠ Dhkey.zero → rowDistance key (p i) j < target →
      ∃ b, res = some b ∧ rowDistance key (p b) j ≤ rowDistance key (p i) j := by
  intro fuel
  induction fuel with
  | zero =>
    intro index best target _ _ hf
    cases up <;> simp at hf <;> omega
  | succ f ih =>
    intro index best target h1 h2 hf h0 res h i hi0 hi hpi hdi
    unfold walk at h
    rw [if_neg h0] at h
    by_cases h3 : 32 ≤ index
    · rw [if_pos h3] at h; simp at h
    · rw [if_neg h3] at h
      simp only [] at h
      by_cases hb : (p index ≠ Dhkey.zero ∧ rowDistance key (p index) j < target)
      · have hbt : (decide (p index ≠ Dhkey.zero) && decide (rowDistance key (p index) j < target)) = true := by simp [hb.1, hb.2]
        rw [hbt] at h
        simp only [if_true] at h
        have ht : target ≤ mine := by
          cases hbe : best with
          | none => rw [h1 hbe]; exact Nat.le_refl _
          | some b => have := (h2 b hbe).2.2.2; omega
        have q1 : (some index : Option Nat) = none → rowDistance key (p index) j = mine := by simp
        have q2 : ∀ b, some index = some b → b ≠ 0 ∧ p b ≠ Dhkey.zero ∧ rowDistance key (p b) j = rowDistance key (p index) j ∧
            rowDistance key (p index) j < mine := by
          intro b hb'
          injection hb' with hb'
          subst hb'
          exact ⟨h0, hb.1, rfl, by omega⟩
        obtain ⟨s1, s2⟩ := walk_sound p key j up stop mine _ _ _ _ q1 q2 res h
        by_cases hle : rowDistance key (p index) j ≤ rowDistance key (p i) j
        · cases res with
          | none => exact absurd rfl (s2 (by simp))
          | some b => exact ⟨b, rfl, Nat.le_trans (s1 b rfl).2.2.2 hle⟩
        · have hne : i ≠ index := fun hc => hle (by rw [hc]; exact Nat.le_refl _)
          have hstop : index ≠ stop := by
            intro hc
            cases up <;> simp at hi hf <;> omega
          rw [if_neg hstop] at h
          cases up with
          | true =>
            simp only [if_true] at h hi hf
            rw [if_neg (show ¬ 32 ≤ index + 1 by omega)] at h
            exact ih _ _ _ q1 q2 (by simp only [if_true]; omega) (by omega) res h i hi0 (by simp only [if_true]; omega) hpi (by omega)
          | false =>
            simp only [Bool.false_eq_true, if_false] at h hi hf
            rw [if_neg (show ¬ 32 ≤ index - 1 by omega)] at h
            exact ih _ _ _ q1 q2 (by simp only [Bool.false_eq_true, if_false]; omega) (by omega) res h i hi0
              (by simp only [Bool.false_eq_true, if_false]; omega) hpi (by omega)
      · have hbt : (decide (p index ≠ Dhkey.zero) && decide (rowDistance key (p index) j < target)) = false := by
          rw [Bool.and_eq_false_iff]
          simp only [decide_eq_false_iff_not]
          exact Classical.not_and_iff_not_or_not.mp hb
        rw [hbt] at h
        simp only [Bool.false_eq_true, if_false] at h
        have hne : i ≠ index := fun hc => hb (by rw [← hc]; exact ⟨hpi, hdi⟩)
        have hstop : index ≠ stop := by
          intro hc
          cases up <;> simp at hi hf <;> omega
        rw [if_neg hstop] at h
        cases up with
        | true =>
          simp only [if_true] at h hi hf
          rw [if_neg (show ¬ 32 ≤ index + 1 by omega)] at h
          exact ih _ _ _ h1 h2 (by simp only [if_true]; omega) (by omega) res h i hi0 (by simp only [if_true]; omega) hpi (by omega)
        | false =>
          simp only [Bool.false_eq_true, if_false] at h hi hf
          rw [if_neg (show ¬ 32 ≤ index - 1 by omega)] at h
          exact ih _ _ _ h1 h2 (by simp only [Bool.false_eq_true, if_false]; omega) (by omega) res h i hi0
            (by simp only [Bool.false_eq_true, if_false]; omega) hpi (by omega)

end Np.Search
