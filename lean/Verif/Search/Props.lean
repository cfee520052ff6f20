import Verif.Search.Lemmas3

set_option linter.unusedVariables false
set_option linter.unusedSimpArgs false

/-!
# Properties of the search node: C155–C161
-/
namespace Np.Search
open _root_.Np.Search.Spec

/-! ## C155: the tables -/

def primeB (p : Nat) : Bool := decide (2 ≤ p) && (List.range (p + 1)).all fun d => decide (d ≤ 1) || decide (d = p) || decide (p % d ≠ 0)

theorem primeB_iff (p : Nat) : primeB p = true ↔ Prime p := by
  unfold primeB Prime
  simp only [Bool.and_eq_true, decide_eq_true_eq, List.all_eq_true, List.mem_range, Bool.or_eq_true]
  refine and_congr_right fun h2 => ⟨fun h d hd => ?_, fun h d hd => ?_⟩
  · have hle := Nat.le_of_dvd (by omega) hd
    rcases h d (by omega) with (h' | h') | h'
    · left
      have : d ≠ 0 := by
        rintro rfl
        have := Nat.eq_zero_of_zero_dvd hd
        omega
      omega
    · exact Or.inr h'
    · exact absurd (Nat.mod_eq_zero_of_dvd hd) h'
  · by_cases hm : p % d = 0
    · rcases h d (Nat.dvd_of_mod_eq_zero hm) with h' | h'
      · exact Or.inl (Or.inl (by omega))
      · exact Or.inl (Or.inr h')
    · exact Or.inr hm

theorem next_prime_table : ∀ n, n < 252 → (primeB (nextPrime n) && decide (n ≤ nextPrime n) &&
    (List.range (nextPrime n - n)).all fun i => !primeB (n + i)) = true := by
  have : ((List.range 252).all fun n => primeB (nextPrime n) && decide (n ≤ nextPrime n) &&
    (List.range (nextPrime n - n)).all fun i => !primeB (n + i)) = true := by decide +kernel
  intro n hn
  exact List.all_eq_true.mp this n (List.mem_range.mpr hn)

/-- Up to 251 the least prime that is not smaller is found.  Missing: 252 to 255 (`C155_next_prime_refuted`). -/
theorem C155_next_prime_partial (n : Nat) (hn : n ≤ 251) :
    Prime (nextPrime n) ∧ n ≤ nextPrime n ∧ ∀ m, n ≤ m → m < nextPrime n → ¬ Prime m := by
  have := next_prime_table n (by omega)
  simp only [Bool.and_eq_true, decide_eq_true_eq, List.all_eq_true, List.mem_range, Bool.not_eq_true'] at this
  obtain ⟨⟨h1, h2⟩, h3⟩ := this
  refine ⟨(primeB_iff _).mp h1, h2, fun m h4 h5 hp => ?_⟩
  have := h3 (m - n) (by omega)
  rw [show n + (m - n) = m by omega, (primeB_iff m).mpr hp] at this
  simp at this

example : nextPrime 90 = 97 := by decide +kernel

/-- For 252 the answer is 1, which is no prime and not larger. -/
theorem C155_next_prime_refuted : ∃ n, n ≤ 255 ∧ ¬ Prime (nextPrime n) ∧ ¬ n ≤ nextPrime n := by
  refine ⟨252, by omega, ?_, by decide +kernel⟩
  rw [← primeB_iff]
  decide +kernel

/-- The node after its start. -/
def started (id : Dhkey) (server : Bool) (count : Nat) : Node :=
  { id := id, server := server, count := count, shift := nextPrime (256 / count % 256), tables := fun _ => [], results := fun _ => none,
    queries := fun _ => none, nextId := 0, pipes := [] }

theorem init_ok (id : Dhkey) (server : Bool) (count : Nat) (h : 0 < count) (h' : count ≤ 32) : Node.init id server count = .ok (started id server count) := by
  unfold Node.init
  rw [if_neg (by omega), if_neg (by omega)]
  rfl

theorem query_err (n : Node) (q : Query) (r now : Nat) (f : Fault) (hp : positions n.shift n.used n.id = .error f) (hs : n.server = true)
    (hq : q.id < 255) (hr : r ≤ 6) : n.query q r now = .error f := by
  unfold Node.query
  rw [if_neg (by omega)]
  simp only []
  rw [if_pos hs]
  unfold Node.search
  rw [if_neg (by omega)]
  simp only []
  rw [if_pos hr]
  have : positions n.shift (Node.used { n with queries := fun i => if i = q.id then some q else n.queries i
                                               results := fun i => if i = q.id then some [] else n.results i
                                               pipes := n.pipes ++ [{ uuid := q.uuid, start := now, stop := now }] }) n.id = .error f := hp
  rw [this]
  rfl

/-- With one table or 9 to 32 the node starts, and the tables in use (at most 16) lie at the id of the node, rotated by different amounts. -/
theorem C155_tables_partial (id : Dhkey) (server : Bool) (count : Nat) (hc : count = 1 ∨ 9 ≤ count ∧ count ≤ 32) :
    ∃ n l s, Node.init id server count = .ok n ∧ positions n.shift n.used n.id = .ok l ∧ l.length = min count 16 ∧
      (∀ i j, i < j → j < l.length → (i + 1) * s % 256 ≠ (j + 1) * s % 256) ∧
      ∀ i p, l[i]? = some p → ∀ b, b < 256 → bit p b = bit id ((b + (i + 1) * s) % 256) := by
  have hshift : ∀ c, c < 33 → (c = 1 ∨ 9 ≤ c) → (0 < nextPrime (256 / c % 256) ∧ nextPrime (256 / c % 256) < 32 ∧
      ∀ j, j < 16 → ∀ i, i < j → (i + 1) * nextPrime (256 / c % 256) % 256 ≠ (j + 1) * nextPrime (256 / c % 256) % 256) := by decide +kernel
  obtain ⟨s1, s2, s3⟩ := hshift count (by omega) (by omega)
  obtain ⟨l, h1, h2, h3⟩ := positions_spec _ s1 s2 (if count < 16 then count else 16) id
  have hlen : l.length = min count 16 := by
    rw [h2]
    split <;> omega
  refine ⟨started id server count, l, nextPrime (256 / count % 256), init_ok id server count (by omega) (by omega), h1, hlen, ?_, h3⟩
  · intro i j hij hj
    exact s3 j (by omega) i hij

example : ∃ n, Node.init ⟨1, 0, 0, 0, 0, 0, 0, 0⟩ true 20 = .ok n ∧ n.shift = 13 ∧ n.used = 16 := ⟨_, rfl, by decide +kernel, by decide +kernel⟩

/-- With 2 to 8 tables the node starts, but adding an entry and asking leave the language, always. -/
theorem C155_tables_refuted (id : Dhkey) (count : Nat) (h2 : 2 ≤ count) (h8 : count ≤ 8) :
    ∃ n, Node.init id true count = .ok n ∧ (∀ e r, r ≤ 6 → n.add e r = .error .badShift) ∧
      ∀ u t i f r now, r ≤ 6 → n.ask u t i f r now = .error .badShift := by
  have hshift : ∀ c, c < 9 → 2 ≤ c → 32 ≤ nextPrime (256 / c % 256) := by decide +kernel
  have hs := hshift count (by omega) h2
  have hp : positions (started id true count).shift (started id true count).used (started id true count).id = .error .badShift := by
    have hu : (started id true count).used = count := by
      unfold Node.used
      exact if_pos (show count < 16 by omega)
    rw [hu]
    obtain ⟨k, hk⟩ : ∃ k, count = k + 1 := ⟨count - 1, by omega⟩
    show positions (nextPrime (256 / count % 256)) count id = _
    generalize nextPrime (256 / count % 256) = s at hs
    rw [hk]
    simp only [positions, rotate]
    rw [if_pos (Or.inr hs)]
  refine ⟨_, init_ok id true count (by omega) (by omega), fun e r hr => ?_, fun u t i f r now hr => ?_⟩
  · unfold Node.add
    rw [if_pos (show (started id true count).server = true from rfl), if_neg (by omega)]
    unfold Node.store
    rw [if_pos hr, hp]
  · exact query_err (started id true count).newId.2 _ r now .badShift hp rfl (show 0 < 255 by decide) hr

/-- No table ends the process by a division, more than 32 are written outside the array. -/
theorem C155_table_count_refuted (id : Dhkey) (server : Bool) :
    Node.init id server 0 = .error .divisionByZero ∧ ∀ c, 32 < c → Node.init id server c = .error .outOfBounds := by
  refine ⟨rfl, fun c hc => ?_⟩
  unfold Node.init
  rw [if_neg (by omega), if_pos hc]

/-! ## C156: what was added is found -/

/-- A concrete node with 16 tables. -/
def sampleId : Dhkey := ⟨1, 0, 0, 0, 0, 0, 0, 0⟩

def sampleNode : Node := { id := sampleId, server := true, count := 16, shift := 17, tables := fun _ => [], results := fun _ => none,
                           queries := fun _ => none, nextId := 0, pipes := [] }

example : ∃ n, Node.init sampleId true 16 = .ok n ∧ n.shift = sampleNode.shift := ⟨_, rfl, by decide +kernel⟩

def sampleIndex : Dhkey := ⟨0x20001, 7, 0, 0, 0, 0, 0, 0⟩
def sampleEntry : Entry := { index := sampleIndex, filter := [1, 0, 2], subject := ['a'] }

/-- An added entry is found by every later query whose index and filter are similar enough, whatever happened in between.  Missing: no entry with
the same index was added in between (`C156_replaced_refuted`), the query was sent to at most six other peers (`C156_many_peers_refuted`), and
none of the steps left the language (C159). -/
theorem C156_added_is_found_partial (id : Dhkey) (count : Nat) (n₀ : Node) (h0 : Node.init id true count = .ok n₀) (before after : List Op)
    (e : Entry) (r : Nat) (n : Node) (h : run n₀ (before ++ .add e r :: after) = .ok n)
    (hother : ∀ o ∈ after, ∀ e', brings o = some e' → e'.index ≠ e.index)
    (uuid : Nat) (target : Nat × Nat) (index : Dhkey) (filter : Filter) (remote now : Nat) (n' : Node) (hr : remote ≤ 6)
    (hask : n.ask uuid target index filter remote now = .ok n') (h1 : Alike index e.index) (h2 : SimilarEnough target filter e.filter) :
    ∃ rs, n'.results n.nextId = some rs ∧ ∃ res ∈ rs, res.label = e.subject := by
  have hserver : n₀.server = true := by
    unfold Node.init at h0
    split at h0
    · simp at h0
    · split at h0
      · simp at h0
      · injection h0 with h0; rw [← h0]
  obtain ⟨m, hm1, hm2⟩ := run_append before _ n₀ n h
  have sm := run_same _ _ _ hm1
  unfold run at hm2
  cases hs : step m (.add e r) with
  | error f => rw [hs] at hm2; simp at hm2
  | ok k =>
    rw [hs] at hm2
    obtain ⟨l, hl, ⟨i, hi, hp⟩, ht⟩ := add_stores m k e r (sm.2.2.2.trans hserver) hs
    have hmem : e ∈ k.tables i := by
      rw [(ht i).1 hp]
      exact (mem_put _ _ _).mpr (Or.inl rfl)
    have sk := (step_spec m k _ hs).1
    have sn := run_same _ _ _ hm2
    have hk := run_keeps e i after k n hm2 hmem hother
    obtain ⟨rs, hrs, _, hx⟩ := ask_spec n n' uuid target index filter remote now
      (sn.2.2.2.trans (sk.2.2.2.trans (sm.2.2.2.trans hserver))) hr hask
    have hu : n.used = m.used := (used_same k n sn).trans (used_same m k sk)
    have := (hx e.subject).mpr ⟨i, by rw [hu]; exact hi, e, hk, h1, h2, rfl⟩
    obtain ⟨res, hres, hlab⟩ := List.mem_map.mp this
    exact ⟨rs, hrs, res, hres, hlab⟩

/-- Exactly the matching entries of the tables are found, every subject once. -/
theorem C156_results_exact (n n' : Node) (uuid : Nat) (target : Nat × Nat) (index : Dhkey) (filter : Filter) (remote now : Nat)
    (hs : n.server = true) (hr : remote ≤ 6) (h : n.ask uuid target index filter remote now = .ok n') :
    ∃ rs, n'.results n.nextId = some rs ∧ (rs.map Result.label).Nodup ∧ ∀ x, (∃ res ∈ rs, res.label = x) ↔
      ∃ i, i < n.used ∧ ∃ e ∈ n.tables i, Alike index e.index ∧ SimilarEnough target filter e.filter ∧ e.subject = x := by
  obtain ⟨rs, h1, h2, h3⟩ := ask_spec n n' uuid target index filter remote now hs hr h
  refine ⟨rs, h1, h2, fun x => ?_⟩
  have := h3 x
  simp only [labels, List.mem_map] at this
  rw [this]
  constructor
  · rintro ⟨i, hi, e, he, a, b, c⟩; exact ⟨i, hi, e, he, a, b, c.symm⟩
  · rintro ⟨i, hi, e, he, a, b, c⟩; exact ⟨i, hi, e, he, a, b, c.symm⟩

/-- The distance by which tables and peers are compared is the number of differing bits, modulo 256; that in a row the number of differing bits of
the word. -/
theorem C156_distance (a b : Dhkey) : distance a b = keyDiff a b % 256 ∧ ∀ j, j < 8 → rowDistance a b j = wordDiff a b j := by
  have hw : ∀ x y : BitVec 32, ones (x ^^^ y) = (List.range 32).countP fun i => x.getLsbD i != y.getLsbD i := by
    intro x y
    unfold ones
    congr 1
    funext i
    rw [BitVec.getLsbD_xor]
  have hr : ∀ j, j < 8 → rowDistance a b j = wordDiff a b j := by
    intro j hj
    have : j = 0 ∨ j = 1 ∨ j = 2 ∨ j = 3 ∨ j = 4 ∨ j = 5 ∨ j = 6 ∨ j = 7 := by omega
    rcases this with h | h | h | h | h | h | h | h <;> subst h <;>
      simp only [rowDistance, wordDiff, Dhkey.words, Dhkey.xor, Dhkey.map2, List.getD_cons_zero, List.getD_cons_succ, hw]
  refine ⟨?_, hr⟩
  have hk : (((a.xor b).words.map ones).sum) = keyDiff a b := by
    unfold keyDiff
    rw [show List.range 8 = [0, 1, 2, 3, 4, 5, 6, 7] by rfl]
    simp only [List.map_cons, List.map_nil]
    rw [← hr 0 (by omega), ← hr 1 (by omega), ← hr 2 (by omega), ← hr 3 (by omega), ← hr 4 (by omega), ← hr 5 (by omega), ← hr 6 (by omega),
      ← hr 7 (by omega)]
    rfl
  unfold distance weight
  rw [hk]

example : keyDiff sampleIndex sampleId = 4 ∧ distance sampleIndex sampleId = 4 := by decide +kernel

/-- An entry goes to the tables nearest to its index, and to no others. -/
theorem C156_nearest_tables (n n' : Node) (e : Entry) (r : Nat) (hs : n.server = true) (h : n.add e r = .ok n') :
    ∃ l, positions n.shift n.used n.id = .ok l ∧ (∃ i, i < n.used ∧ e ∈ n'.tables i) ∧
      ∀ i x, x ∈ n'.tables i ↔ if (∃ p, l[i]? = some p ∧ ∀ q ∈ l, distance e.index p ≤ distance e.index q)
        then x = e ∨ (x ∈ n.tables i ∧ x.index ≠ e.index) else x ∈ n.tables i := by
  obtain ⟨l, hl, ⟨i, hi, hp⟩, ht⟩ := add_stores n n' e r hs h
  refine ⟨l, hl, ⟨i, hi, ?_⟩, fun i x => ?_⟩
  · rw [(ht i).1 hp]
    exact (mem_put _ _ _).mpr (Or.inl rfl)
  · split
    · rename_i hc
      rw [(ht i).1 hc]
      exact mem_put _ _ _
    · rename_i hc
      rw [(ht i).2 hc]

/-- The query with the index and the filter of the entry itself matches, for every target below 1, if the index has some one and less than 256,
and the filter a count. -/
theorem C156_itself (e : Entry) (target : Nat × Nat) (ht : target.1 < target.2) (hw : 0 < weight e.index) (hf : 0 < e.filter.sum)
    (hf' : e.filter.sum < 65536) : Alike e.index e.index ∧ SimilarEnough target e.filter e.filter := by
  refine ⟨⟨by rw [and_self]; exact hw, Or.inl (weight_xor_self _)⟩, ?_⟩
  unfold SimilarEnough similarity
  simp only [sums_self, Nat.mod_eq_of_lt hf', hf, if_true]
  rw [Nat.mul_comm]
  exact Nat.mul_lt_mul_of_pos_left ht hf

example : (0 < weight sampleEntry.index) ∧ 0 < sampleEntry.filter.sum ∧ Spread ((positions 17 16 sampleId).toOption.getD []) sampleEntry.index := by
  refine ⟨by decide +kernel, by decide, ?_⟩
  refine ⟨⟨0x20000, 0, 0, 0, 0, 0, 0, 0⟩, by decide +kernel, ⟨0, 0, 0, 0, 0, 0, 0, 4⟩, by decide +kernel, by decide +kernel⟩

/-- What is stored under the subject after a history, on the sample node. -/
def found (os : List Op) : Option (List (List Char)) :=
  match run sampleNode os with
  | .ok n => (n.results 0).map labels
  | .error _ => none

/-- The hypotheses of the theorems above are met: the entry is found by its own query, with other operations in between. -/
example : found [.cleanup 5, .add sampleEntry 0, .remoteEntry (some { sampleEntry with index := ⟨0x20001, 9, 0, 0, 0, 0, 0, 0⟩, subject := ['b'] }) 1,
    .ask 77 (1, 2) sampleIndex [1, 0, 2] 0 10] = some [['a'], ['b']] := by decide +kernel

/-- An entry with the same index (the same text under another name) takes the place of the first: the first is not found any more. -/
theorem C156_replaced_refuted : ∃ (e e' : Entry), e.subject ≠ e'.subject ∧
    found [.add e 0, .ask 77 (1, 2) e.index e.filter 0 10] = some [e.subject] ∧
    found [.add e 0, .add e' 0, .ask 77 (1, 2) e.index e.filter 0 10] = some [e'.subject] :=
  ⟨sampleEntry, { sampleEntry with subject := ['b'] }, by decide, by decide +kernel, by decide +kernel⟩

/-- A query that goes to seven peers is not answered from the own tables: nothing is found. -/
theorem C156_many_peers_refuted : ∃ e : Entry, found [.add e 0, .ask 77 (1, 2) e.index e.filter 6 10] = some [e.subject] ∧
    found [.add e 0, .ask 77 (1, 2) e.index e.filter 7 10] = some [] :=
  ⟨sampleEntry, by decide +kernel, by decide +kernel⟩

/-! ## C157: the application gets the results -/

/-- What the application gets are results of the query, one for every number of hits; if the numbers all differ it gets all.  Missing: results
with the same number of hits (`C157_same_hits_refuted`). -/
theorem C157_resultset_partial (n n' : Node) (uuid id now : Nat) (out : Option Results) (h : n.collect uuid id now = .ok (n', out)) :
    ∃ rs, n.results id = some rs ∧ (out = none ↔ rs = []) ∧ ∀ o, out = some o →
      (∀ x ∈ o, x ∈ rs) ∧ (∀ r ∈ rs, ∃ x ∈ o, x.hits = r.hits) ∧ ((rs.map Result.hits).Nodup → ∀ r, r ∈ o ↔ r ∈ rs) := by
  obtain ⟨_, _, _, _, rs, hrs, ho⟩ := collect_spec n n' uuid id now out h
  refine ⟨rs, hrs, ?_, fun o hoo => ?_⟩
  · rw [ho]
    split <;> simp_all
  · rw [ho] at hoo
    split at hoo
    · simp at hoo
    · injection hoo with hoo
      obtain ⟨_, b, _, d⟩ := byHits_spec rs [] (by simp)
      rw [hoo] at b d
      have b' : ∀ x ∈ o, x ∈ rs := fun x hx => (b x hx).resolve_left (by simp)
      refine ⟨b', d, fun hn r => ⟨b' r, fun hr => ?_⟩⟩
      obtain ⟨x, hx, he⟩ := d r hr
      have := nodup_map_inj Result.hits rs hn x (b' x hx) r hr he
      rw [← this]
      exact hx

/-- Of several results with the same number of hits the application gets one, in every case: of the results of one search it never gets two that
were found equally often. -/
theorem C157_same_hits_refuted (n n' : Node) (uuid id now : Nat) (o : Results) (h : n.collect uuid id now = .ok (n', some o)) :
    ∀ x ∈ o, ∀ y ∈ o, x.hits = y.hits → x = y := by
  obtain ⟨_, _, _, _, rs, hrs, ho⟩ := collect_spec n n' uuid id now _ h
  split at ho
  · simp at ho
  · injection ho with ho
    have := (byHits_spec rs [] (by simp)).1
    rw [← ho] at this
    exact nodup_map_inj Result.hits o this

/-- What the application gets after a history. -/
def collected (os : List Op) (uuid id : Nat) : Option (List (List Char)) :=
  match run sampleNode os with
  | .ok n => match n.collect uuid id 20 with
    | .ok (_, some o) => some (labels o)
    | _ => none
  | .error _ => none

/-- Two entries match, the application gets one. -/
theorem C157_lost_refuted : ∃ e e' : Entry, found [.add e 0, .add e' 0, .ask 77 (1, 2) e.index e.filter 0 10] = some [e.subject, e'.subject] ∧
    collected [.add e 0, .add e' 0, .ask 77 (1, 2) e.index e.filter 0 10] 77 0 = some [e.subject] :=
  ⟨sampleEntry, { sampleEntry with index := ⟨0x20001, 9, 0, 0, 0, 0, 0, 0⟩, subject := ['b'] }, by decide +kernel, by decide +kernel⟩

/-! ## C158: whose results -/

/-- The results of a query are changed by nothing but a query or a result message with its number.  Missing: other nodes can send these
(`C158_remote_query_refuted`, `C158_wrong_result_refuted`). -/
theorem C158_own_results_partial (n n' : Node) (o : Op) (h : step n o = .ok n') (id : Nat)
    (h1 : ∀ u t i f r now, o = .ask u t i f r now → n.nextId ≠ id) (h2 : ∀ q r, o = .remoteQuery (some q) r → q.id ≠ id)
    (h3 : ∀ u i e, o = .receive u i e → i ≠ id) : n'.results id = n.results id := by
  cases o with
  | add e r =>
    rcases add_spec n n' e r h with ⟨_, h'⟩ | ⟨_, _, h'⟩
    · rw [h']
    · rcases store_spec n n' e r h' with ⟨_, h''⟩ | ⟨_, l, ts, _, _, h''⟩ <;> rw [h'']
  | ask u t i f r now =>
    have := (query_spec _ _ _ _ _ h).2.2.2.2.2.2.2 id
    exact this (fun hc => h1 u t i f r now rfl hc.symm)
  | remoteQuery q r =>
    obtain ⟨⟨a, ms⟩, ha, hb⟩ := map_ok _ _ _ h
    simp only [] at hb
    subst hb
    cases q with
    | none => simp [Node.remoteQuery] at ha
    | some q => exact (search_spec _ _ _ _ _ _ ha).2.2.2.2.2.2.2.2 id (fun hc => h2 q r rfl hc.symm)
  | remoteEntry e r =>
    cases e with
    | none => simp [step, Node.remoteEntry] at h
    | some e => rcases store_spec n n' e r h with ⟨_, h''⟩ | ⟨_, l, ts, _, _, h''⟩ <;> rw [h'']
  | receive u i e => exact (receive_spec _ _ _ _ _ h).2.2.2 id (fun hc => h3 u i e rfl hc.symm)
  | collect u i now =>
    obtain ⟨⟨a, ms⟩, ha, hb⟩ := map_ok _ _ _ h
    simp only [] at hb
    subst hb
    rw [(collect_spec _ _ _ _ _ _ ha).2.2.1]
  | cleanup now => simp only [step] at h; injection h with h; subst h; rfl

example : ∃ n n' : Node, step n (.ask 5 (1, 2) sampleIndex [1] 0 0) = .ok n' ∧ n.nextId = 3 ∧ n'.results 3 = some [] := by
  refine ⟨{ sampleNode with nextId := 3 }, _, rfl, rfl, ?_⟩
  decide +kernel

/-- A query of another node is never answered: whatever is found, no message is sent. -/
theorem C158_remote_unanswered_refuted (n n' : Node) (q : Option Query) (r : Nat) (ms : List (Dhkey × Result))
    (h : n.remoteQuery q r = .ok (n', ms)) : ms = [] := by
  cases q with
  | none => simp [Node.remoteQuery] at h
  | some q =>
    simp only [Node.remoteQuery, Node.search] at h
    split at h
    · simp at h
    · simp only [if_true] at h
      split at h
      · split at h
        · simp at h
        · injection h with h; injection h with _ h; exact h.symm
      · injection h with h
        injection h with _ h
        exact h.symm

/-- What another node's query finds is added to the results of the own query with the same number. -/
theorem C158_remote_query_refuted : ∃ (e e' : Entry) (q : Query), q.uuid ≠ 77 ∧ ¬ Alike e.index e'.index ∧
    found [.add e 0, .add e' 0, .ask 77 (1, 2) e.index e.filter 0 10] = some [e.subject] ∧
    found [.add e 0, .add e' 0, .ask 77 (1, 2) e.index e.filter 0 10, .remoteQuery (some q) 0] = some [e.subject, e'.subject] :=
  ⟨sampleEntry, { sampleEntry with index := ⟨0, 0, 0x1ff0, 0, 0, 0, 0, 0⟩, subject := ['b'] },
    { id := 0, uuid := 99, target := (1, 2), index := ⟨0, 0, 0x1ff0, 0, 0, 0, 0, 0⟩, filter := [1, 0, 2] }, by decide,
    by unfold Alike; decide +kernel, by decide +kernel, by decide +kernel⟩

/-- A result sent for one query (77, number 0) under the number of another (1) is counted among the results of that other one; the similarity to
the query is not looked at. -/
theorem C158_wrong_result_refuted : ∃ (os : List Op) (e : Entry) (n n' : Node), run sampleNode os = .ok n ∧ n.receive 77 1 e = .ok n' ∧
    (n.results 1) = some [] ∧ (n'.results 1).map labels = some [e.subject] ∧ ∃ q, n.queries 1 = some q ∧ q.uuid ≠ 77 ∧ matches? q e = false :=
  ⟨[.ask 77 (1, 2) sampleIndex [1, 0, 2] 0 10, .ask 78 (1, 2) sampleIndex [1, 0, 2] 0 10], { sampleEntry with index := ⟨0, 0, 0, 0, 0, 0, 0, 0⟩ },
    _, _, rfl, rfl, by decide +kernel, by decide +kernel, _, rfl, by decide, by decide +kernel⟩

/-! ## C159: nothing ends the process -/

/-- With 9 to 32 tables (or one), at most 255 queries, complete messages with numbers below 255, entries that are not equally far from all tables
and own entries sent to at most six peers, every history of additions, queries, foreign queries and entries goes through.  Missing: the cases of
the theorems below; collecting and receiving results. -/
theorem C159_no_fault_partial (id : Dhkey) (server : Bool) (count : Nat) (hc : count = 1 ∨ 9 ≤ count ∧ count ≤ 32) :
    ∃ n l, Node.init id server count = .ok n ∧ positions n.shift n.used id = .ok l ∧
      ∀ os, asks os ≤ 255 → (∀ o ∈ os, Careful l o) → ∃ n', run n os = .ok n' := by
  obtain ⟨n, l, s, h1, h2, _⟩ := C155_tables_partial id server count hc
  have hid : n.id = id ∧ n.nextId = 0 := by
    unfold Node.init at h1
    split at h1
    · simp at h1
    · split at h1
      · simp at h1
      · injection h1 with h1; rw [← h1]; exact ⟨rfl, rfl⟩
  refine ⟨n, l, h1, by rw [← hid.1]; exact h2, fun os ho hca => careful_run l os n h2 (by omega) hca⟩

/-- An entry is stored if and only if its distances from the tables are not all equal; otherwise a bucket behind the last is read. -/
theorem C159_equal_distances_refuted (n : Node) (e : Entry) (l : List Dhkey) (hs : n.server = true) (hl : positions n.shift n.used n.id = .ok l)
    (hsp : ¬ Spread l e.index) (r : Nat) (hr : r ≤ 6) : n.add e r = .error .outOfBounds := by
  unfold Node.add Node.store
  rw [if_pos hs, if_neg (by omega), if_pos hr, hl]
  simp only []
  cases hc : chosen (sortBuckets (buckets e.index l)) with
  | ok ts => exact absurd ((chosen_ok _ _).mp ⟨ts, hc⟩) hsp
  | error f =>
    simp only []
    unfold chosen at hc
    split at hc
    · simpa using hc.symm
    · split at hc
      · simpa using hc.symm
      · simp at hc

/-- With one table every entry is stored that way. -/
example (id : Dhkey) (e : Entry) : ∃ n, Node.init id true 1 = .ok n ∧ n.add e 0 = .error .outOfBounds := by
  obtain ⟨n, l, s, h1, h2, h3, _⟩ := C155_tables_partial id true 1 (Or.inl rfl)
  refine ⟨n, h1, C159_equal_distances_refuted n e l ?_ h2 ?_ 0 (by omega)⟩
  · unfold Node.init at h1
    rw [if_neg (by omega), if_neg (by omega)] at h1
    injection h1 with h1; rw [← h1]
  · rintro ⟨p, hp, q, hq, hne⟩
    match l, h3 with
    | [x], _ =>
      simp at hp hq
      rw [hp, hq] at hne
      exact hne rfl

/-- The 256th query writes behind the array of results, on every node. -/
theorem C159_too_many_queries_refuted (n : Node) (hn : n.nextId = 255) (u : Nat) (t : Nat × Nat) (i : Dhkey) (f : Filter) (r now : Nat) :
    n.ask u t i f r now = .error .outOfBounds := by
  unfold Node.ask Node.query
  exact if_pos (show 255 ≤ n.nextId by omega)

/-- That state is reached by 255 queries. -/
example : ∃ n, run sampleNode (List.replicate 255 (.ask 5 (1, 2) sampleIndex [1] 7 0)) = .ok n ∧ n.nextId = 255 := by
  obtain ⟨l, hl, _⟩ := positions_spec 17 (by omega) (by omega) 16 sampleId
  have key : ∀ k (n : Node), positions n.shift n.used n.id = .ok l → n.nextId + k ≤ 255 →
      ∃ n', run n (List.replicate k (.ask 5 (1, 2) sampleIndex [1] 7 0)) = .ok n' ∧ n'.nextId = n.nextId + k := by
    intro k
    induction k with
    | zero => intro n _ _; exact ⟨n, rfl, rfl⟩
    | succ k ih =>
      intro n hn hk
      obtain ⟨m, hm, hi⟩ := ask_ok n 5 (1, 2) sampleIndex [1] 7 0 l hn (by omega)
      have hs := (step_spec n m (.ask 5 (1, 2) sampleIndex [1] 7 0) hm).1
      obtain ⟨n', h1, h2⟩ := ih m (by rw [hs.2.1, used_same n m hs, hs.1]; exact hn) (by omega)
      refine ⟨n', ?_, by omega⟩
      rw [List.replicate_succ]
      unfold run
      rw [show step n (.ask 5 (1, 2) sampleIndex [1] 7 0) = .ok m from hm]
      exact h1
  obtain ⟨n, h1, h2⟩ := key 255 sampleNode hl (by decide)
  exact ⟨n, h1, h2⟩

/-- Messages that end the process, on every node: a query or entry without one of its parts, a query with the number 255. -/
theorem C159_messages_refuted (n : Node) (r : Nat) (q : Query) (hq : q.id = 255) :
    n.remoteQuery none r = .error .nullPointer ∧ n.remoteEntry none r = .error .nullPointer ∧ n.remoteQuery (some q) r = .error .outOfBounds := by
  refine ⟨rfl, rfl, ?_⟩
  show n.search q Dhkey.zero r = _
  unfold Node.search
  rw [if_pos ⟨rfl, by omega⟩]

/-- Collecting the results of a query after it has expired ends the process. -/
theorem C159_late_collect_refuted : ∃ (os : List Op) (n : Node), run sampleNode os = .ok n ∧ n.collect 77 0 200 = .error .nullPointer ∧
    os = [.ask 77 (1, 2) sampleIndex [1, 0, 2] 0 10, .cleanup 100] :=
  ⟨_, _, rfl, rfl, rfl⟩

/-- An own entry that is sent to more than six peers is used after it was freed. -/
theorem C159_many_peers_refuted (n : Node) (e : Entry) (r : Nat) (hs : n.server = true) (hr : 6 < r) : n.add e r = .error .useAfterFree := by
  unfold Node.add
  rw [if_pos hs, if_pos hr]

/-! ## C160: the table of peers -/

/-- The table of search peers holds, in every row and for every distance in that row, the nearest of all new peers that had it, and nothing else;
never the node itself.  Missing: the authorisations must stay in the language (`C160_opposite_refuted`, `C160_type_refuted`). -/
theorem C160_nearest_peers_partial (self : Dhkey) (cs : List Candidate) (p : Peers) (h : authorizeAll self cs (fun _ _ => Dhkey.zero) = .ok p)
    (j : Nat) (hj : j < 8) (i : Nat) :
    (p j i ≠ Dhkey.zero → p j i ≠ self ∧ (∃ c ∈ cs, c.peer = some (p j i)) ∧ rowDistance (p j i) self j = i) ∧
    ∀ c ∈ cs, ∀ k, Fresh self c k → rowDistance k self j = i → p j i ≠ Dhkey.zero ∧ distance (p j i) self ≤ distance k self := by
  have := table_all self cs [] (fun _ _ => Dhkey.zero) p (by
    intro j _ i
    exact ⟨fun hc => absurd rfl hc, fun c hc => by simp at hc⟩) h j hj i
  refine ⟨fun hz => ?_, this.2⟩
  obtain ⟨⟨c, hc, hf⟩, hr⟩ := this.1 hz
  exact ⟨hf.2.2.2.1, ⟨c, hc, hf.1⟩, hr⟩

def samplePeer : Dhkey := ⟨3, 7, 0, 0, 0, 0, 0, 1⟩

/-- The hypotheses are met: two peers, the nearer one replaces the other where both fit. -/
example : ∃ p, authorizeAll sampleId [⟨some ⟨2, 0, 0, 0, 0, 0, 0, 0xff⟩, some 3, false⟩, ⟨some samplePeer, some 3, false⟩, ⟨some sampleId, some 3, false⟩]
    (fun _ _ => Dhkey.zero) = .ok p ∧ p 0 2 = ⟨2, 0, 0, 0, 0, 0, 0, 0xff⟩ ∧ p 0 1 = samplePeer ∧ p 2 0 = samplePeer :=
  ⟨_, rfl, by decide +kernel, by decide +kernel, by decide +kernel⟩

/-- A peer whose id has the complement of one of our words writes behind the row. -/
theorem C160_opposite_refuted : ∃ self peer : Dhkey, ∀ p, authorize self p (some peer) (some 3) false = .error .outOfBounds := by
  refine ⟨⟨0x12345678, 1, 2, 3, 4, 5, 6, 7⟩, ⟨0xedcba987, 1, 2, 3, 4, 5, 6, 7⟩, fun p => ?_⟩
  unfold authorize
  simp only []
  rw [if_neg (by decide), if_neg (by omega), if_neg (by decide)]
  rw [show List.range 8 = 0 :: [1, 2, 3, 4, 5, 6, 7] by rfl]
  unfold authorizeRows
  simp only []
  rw [if_pos (by decide +kernel)]

/-- A type attribute of 22 bytes or more, from any peer, is written behind its buffer. -/
theorem C160_type_refuted (self peer : Dhkey) (p : Peers) (s : Nat) (known : Bool) (h1 : peer ≠ self) (h2 : peer ≠ Dhkey.zero) (hs : 22 ≤ s) :
    authorize self p (some peer) (some s) known = .error .outOfBounds := by
  unfold authorize
  simp only []
  rw [if_neg (by simp [h1, h2]), if_pos hs]

/-! ## C161: the choice of peers -/

/-- A peer to which an object is sent exists and is strictly nearer to the key in that row than the node itself; of the places between the first
one looked at and the own distance none has a nearer one.  Missing: the other places, and the key that is used
(`C161_own_objects_refuted`). -/
theorem C161_nearer_partial (self : Dhkey) (p : Peers) (key : Dhkey) (j : Nat) (res : Option Nat) (h : choose self p key j = .ok res) :
    (∀ b, res = some b → p j b ≠ Dhkey.zero ∧ rowDistance key (p j b) j < rowDistance key self j) ∧
    ∀ i, i ≠ 0 → p j i ≠ Dhkey.zero → rowDistance key (p j i) j < rowDistance key self j →
      rowDistance key (p j (rowDistance key self j)) j ≠ 0 →
      (rowDistance key (p j (rowDistance key self j)) j ≤ i ∧ i ≤ rowDistance key self j ∨
        rowDistance key self j ≤ i ∧ i ≤ rowDistance key (p j (rowDistance key self j)) j) →
      ∃ b, res = some b ∧ rowDistance key (p j b) j ≤ rowDistance key (p j i) j := by
  unfold choose at h
  simp only [] at h
  by_cases hm : 32 ≤ rowDistance key self j
  · rw [if_pos hm] at h; simp at h
  · rw [if_neg hm] at h
    have q1 : (none : Option Nat) = none → rowDistance key self j = rowDistance key self j := fun _ => rfl
    have q2 : ∀ b, (none : Option Nat) = some b → b ≠ 0 ∧ p j b ≠ Dhkey.zero ∧ rowDistance key (p j b) j = rowDistance key self j ∧
        rowDistance key self j < rowDistance key self j := by simp
    obtain ⟨s1, _⟩ := walk_sound (p j) key j _ _ _ _ _ _ _ q1 q2 res h
    refine ⟨fun b hb => ⟨(s1 b hb).2.1, (s1 b hb).2.2.1⟩, fun i hi hz hd h0 hbt => ?_⟩
    have hf := rowDistance_le key (p j (rowDistance key self j)) j
    generalize hfirst : rowDistance key (p j (rowDistance key self j)) j = first at h h0 hbt hf
    generalize hmine : rowDistance key self j = mine at h hbt hm hd q1 q2
    by_cases hup : first < mine
    · have hd' : decide (first < mine) = true := by simp [hup]
      rw [hd'] at h
      exact walk_complete (p j) key j true mine mine (by omega) 33 first none mine q1 (by simp) (by simp only [if_true]; omega) h0 res h i hi
        (by simp only [if_true]; omega) hz hd
    · have hd' : decide (first < mine) = false := by simp [hup]
      rw [hd'] at h
      exact walk_complete (p j) key j false mine mine (by omega) 33 first none mine q1 (by simp) (by simp only [Bool.false_eq_true, if_false]; omega)
        h0 res h i hi (by simp only [Bool.false_eq_true, if_false]; omega) hz hd

/-- Two peers in row 0 of the node `⟨3, …⟩`. -/
def samplePeers : Peers := fun j i => if j = 0 ∧ i = 2 then ⟨0xf, 1, 0, 0, 0, 0, 0, 0⟩ else if j = 0 ∧ i = 3 then ⟨4, 1, 0, 0, 0, 0, 0, 0⟩ else Dhkey.zero

instance : DecidableEq (Except Fault (Option Nat)) := fun a b =>
  match a, b with
  | .ok x, .ok y => if h : x = y then isTrue (by rw [h]) else isFalse (fun hc => h (by injection hc))
  | .error x, .error y => if h : x = y then isTrue (by rw [h]) else isFalse (fun hc => h (by injection hc))
  | .ok _, .error _ => isFalse (by simp)
  | .error _, .ok _ => isFalse (by simp)

/-- A foreign object with the key `⟨0xc, …⟩` goes to the peer `⟨4, …⟩` at distance 1, not to `⟨0xf, …⟩` at distance 2. -/
example : choose ⟨3, 0, 0, 0, 0, 0, 0, 0⟩ samplePeers ⟨0xc, 0, 0, 0, 0, 0, 0, 0⟩ 0 = .ok (some 3) := by decide +kernel

/-- A foreign object with the key `⟨4, …⟩` goes nowhere, although the word of the second peer is that of the key. -/
theorem C161_exact_peer_refuted : ∃ (self : Dhkey) (p : Peers) (key : Dhkey) (i : Nat), rowDistance key (p 0 i) 0 = 0 ∧ p 0 i ≠ Dhkey.zero ∧
    rowDistance key self 0 = 3 ∧ choose self p key 0 = .ok none :=
  ⟨⟨3, 0, 0, 0, 0, 0, 0, 0⟩, samplePeers, ⟨4, 0, 0, 0, 0, 0, 0, 0⟩, 3, by decide +kernel, by decide +kernel, by decide +kernel, by decide +kernel⟩

/-- An object of the own application is sent by the key zero, not by its index: here one whose index agrees with our own id in the row goes to a
peer that is at distance 3 from it, and with every other index to the same peer. -/
theorem C161_own_objects_refuted : ∃ (self : Dhkey) (p : Peers) (b : Nat),
    (∀ index, choose self p (routingKey true index) 0 = .ok (some b)) ∧ rowDistance self self 0 = 0 ∧ rowDistance self (p 0 b) 0 = 3 := by
  refine ⟨⟨3, 0, 0, 0, 0, 0, 0, 0⟩, samplePeers, 3, fun index => ?_, by decide +kernel, by decide +kernel⟩
  show choose _ samplePeers Dhkey.zero 0 = _
  decide +kernel

end Np.Search
