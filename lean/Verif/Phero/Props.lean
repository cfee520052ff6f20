import Verif.Phero.Lemmas4

/-! # Properties of the pheromone table: C39, C64, C65, C66 -/
namespace Np.Phero

open Np.Dhkey Np.Bloom
open _root_.Np.Phero.Spec

/-! ## C39 -/

/-- **C39, partial.**  Whatever scents arrive, from whom and in which order, and however often the table is aged: a recorded list
of next hops has at most 19 elements and no peer twice.  Missing: the order, which is not kept (`C39_order_refuted`). -/
theorem C39_bounded_unique_partial (debug : Bool) (own : Dhkey) (l : List (Nat × Op)) (t : Table) (h : run debug own Table.empty l = some t)
    (hops : List Hop) (hr : Recorded t hops) : hops.length ≤ 19 ∧ (hops.map Hop.id).Nodup := by
  rcases hr with ⟨i, e, x, he, hx, hl⟩
  have hok := ((run_ok h empty_ok) i e he).2 x hx
  rcases hl with e | e
  · rw [e]; exact hok.1
  · rw [e]; exact hok.2

/-- **C39.**  A lookup yields at most 31 such lists. -/
theorem C39_lookup_bounded (debug : Bool) (own : Dhkey) (l : List (Nat × Op)) (t : Table) (h : run debug own Table.empty l = some t)
    (id : Dhkey) (prob : Nat) (sender : Bool) : (snuffle t id prob sender).1.length ≤ 31 * 19 := by
  have hok := run_ok h empty_ok
  have hl : ∀ (sl : List Slot), (∀ x ∈ sl, SlotOk x) → (hops id sender sl).length ≤ sl.length * 19 := by
    intro sl
    induction sl with
    | nil => intro _; simp [hops]
    | cons x r ih =>
      intro hx
      have h1 := ih (fun y hy => hx y (by simp [hy]))
      have h2 := hx x (by simp)
      simp only [hops, List.flatMap_cons, List.length_append, List.length_cons] at h1 ⊢
      have h3 : (if x.bloom.check id = true then (if sender = true then x.send else x.recv).map Hop.id else []).length ≤ 19 := by
        split
        · split
          · rw [List.length_map]; exact h2.1.1
          · rw [List.length_map]; exact h2.2.1
        · simp
      omega
  unfold snuffle
  cases he : t.entry (id.t0.toNat % 257) with
  | none => simp
  | some e =>
    simp only []
    have h1 := hok _ e he
    have h2 := hl e.slots h1.2
    split
    · split
      · simp only []; omega
      · simp
    · simp

def tgt (i : Nat) : Dhkey := ⟨BitVec.ofNat 32 (257 * i), BitVec.ofNat 32 i, 2, 3, 4, 5, 6, 7⟩
def peer (i : Nat) : Dhkey := ⟨BitVec.ofNat 32 i, 0, 0, 0, 0, 0, 0, 0⟩

/-- One scent of target `k` from each of the peers, one tick apart. -/
def from_ (k : Nat) (peers : List Nat) : List (Nat × Op) :=
  (List.range peers.length).filterMap fun i => (scentOf (tgt k) (peer (peers.getD i 0)) true).map fun s => (i, Op.inhale s)

/-- A history with several next hops and an aging exists, and the lookup finds them. -/
example : ((run false Dhkey.zero Table.empty (from_ 1 [10, 5, 7] ++ [(9, .exhale 0)])).map fun t => (snuffle t (tgt 1) 0 false).1) =
    some [peer 7, peer 10] := by decide +kernel

/-- **C39 is false for the order.**  Three peers at the distances 10, 5 and 7 are recorded as 7, 10, 5: neither nearest nor
farthest first. -/
theorem C39_order_refuted : ∃ l t hops, run false Dhkey.zero Table.empty l = some t ∧ HonestRun [peer 10, peer 5, peer 7] l ∧ Recorded t hops ∧
    ¬ OrderedNear Dhkey.zero hops ∧ ¬ OrderedFar Dhkey.zero hops := by
  have hr : ((run false Dhkey.zero Table.empty (from_ 1 [10, 5, 7])).bind fun t => t.entry 0).map (fun e => e.slots.map fun x => x.recv.map Hop.id) =
      some [[peer 7, peer 10, peer 5]] := by decide +kernel
  cases h : run false Dhkey.zero Table.empty (from_ 1 [10, 5, 7]) with
  | none => rw [h] at hr; simp at hr
  | some t =>
    rw [h] at hr
    simp only [Option.bind_some, Option.map_eq_some_iff] at hr
    rcases hr with ⟨e, he, hm⟩
    cases hs : e.slots with
    | nil => rw [hs] at hm; simp at hm
    | cons x r =>
      rw [hs] at hm
      simp only [List.map_cons, List.cons.injEq] at hm
      have key : ∀ (q : List Hop) (R : Dhkey → Dhkey → Prop), q.map Hop.id = [peer 7, peer 10, peer 5] →
          List.Pairwise (fun a b => R a.id b.id) q → R (peer 7) (peer 10) ∧ R (peer 10) (peer 5) := by
        intro q R hq hp
        have hp' : List.Pairwise R (q.map Hop.id) := List.pairwise_map.2 hp
        rw [hq] at hp'
        simp only [List.pairwise_cons] at hp'
        exact ⟨hp'.1 _ (by simp), hp'.2.1 _ (by simp)⟩
      refine ⟨_, t, x.recv, h, ?_, ⟨0, e, x, he, by rw [hs]; simp, Or.inr rfl⟩, ?_, ?_⟩
      · intro now s hm'
        simp only [from_, List.mem_filterMap, Option.map_eq_some_iff] at hm'
        rcases hm' with ⟨i, hi, s', hs', he'⟩
        simp only [Prod.mk.injEq, Op.inhale.injEq] at he'
        refine ⟨tgt 1, _, true, ?_, he'.2 ▸ hs'⟩
        have : i = 0 ∨ i = 1 ∨ i = 2 := by have := List.mem_range.1 hi; simp at this; omega
        rcases this with e | e | e <;> subst e <;> simp
      · intro ho
        have := (key x.recv (fun a b => Np.Spec.num (distance Dhkey.zero a) ≤ Np.Spec.num (distance Dhkey.zero b)) hm.1 ho).2
        revert this
        decide +kernel
      · intro ho
        have := (key x.recv (fun a b => Np.Spec.num (distance Dhkey.zero b) ≤ Np.Spec.num (distance Dhkey.zero a)) hm.1 ho).1
        revert this
        decide +kernel

/-! ## C64 -/

/-- **C64, partial.**  A peer from whom the scent of a target has just been taken in is found by the lookup for that target.
Assumed: the clock has moved since the other peers of the list were recorded, no other recorded peer is exactly as far away, and the
counters of the position have room, so that they do not overflow.  Missing: without the last assumption the peer can be lost
(`C64_overflow_refuted`), without the second it is not recorded. -/
theorem C64_found_partial (debug : Bool) (own : Dhkey) (l : List (Nat × Op)) (t t' : Table) (hrun : run debug own Table.empty l = some t)
    (now : Nat) (target source : Dhkey) (dir : Bool) (s : Scent) (hs : scentOf target source dir = some s)
    (h : inhale debug own now t s = some (t', true))
    (hclock : ∀ x ∈ slotsAt t (target.t0.toNat % 257), ∀ y ∈ (if dir then x.recv else x.send), y.ts < now)
    (hdist : ∀ x ∈ slotsAt t (target.t0.toNat % 257), ∀ y ∈ (if dir then x.recv else x.send), distance own source = distance own y.id → y.id = source)
    (hroom : ∀ c, ((slotsAt t (target.t0.toNat % 257)).map fun x => x.bloom.count c).sum + 2 * ((slotsAt t (target.t0.toNat % 257)).length + 1) < 256) :
    source ∈ (snuffle t' target 0 (!dir)).1 :=
  found hs h (run_ok hrun empty_ok) hclock hdist hroom

/-- Taking in the first scent of a position meets the assumptions, for every target and peer. -/
example (target source : Dhkey) (dir : Bool) : ∃ s t', scentOf target source dir = some s ∧ inhale false Dhkey.zero 1 Table.empty s = some (t', true) ∧
    source ∈ (snuffle t' target 0 (!dir)).1 := by
  rcases scentOf_some target source dir with ⟨s, hs⟩
  rcases inhale_fair (debug := false) (now := 1) (t := Table.empty) (own := Dhkey.zero) (s := s) (peers := [source])
    (by intro i x hx; simp [slotsAt, Table.empty] at hx) (by intro p hp q hq _; simp at hp hq; rw [hp, hq])
    ⟨target, source, dir, by simp, hs⟩ (by simp [slotsAt, Table.empty]) with ⟨t', ht', _⟩
  exact ⟨s, t', hs, ht', C64_found_partial false Dhkey.zero [] Table.empty t' rfl 1 target source dir s hs ht'
    (by intro x hx; simp [slotsAt, Table.empty] at hx) (by intro x hx; simp [slotsAt, Table.empty] at hx)
    (by intro c; simp [slotsAt, Table.empty])⟩

/-- **C64 is false.**  If two of the words of the target use the same cell, each refresh by the same peer adds two to its count and
takes away one; the 255th time the counter overflows to zero and the lookup right after it finds nothing, although the
operation reports success. -/
theorem C64_overflow_refuted (debug : Bool) (own target source : Dhkey) (hne : source ≠ Dhkey.zero) (hcell : ∃ c, (cellsOf target).count c = 2) :
    ∃ s, scentOf target source true = some s ∧ ∃ t t', run debug own Table.empty (List.replicate 254 (0, .inhale s)) = some t ∧
      inhale debug own 0 t s = some (t', true) ∧ source ∉ (snuffle t' target 0 false).1 := by
  rcases scentOf_some target source true with ⟨s, hs⟩
  refine ⟨s, hs, ?_⟩
  rcases again_run (debug := debug) (own := own) hs hne 253 (by omega) with ⟨t, x, h1, h2, h3⟩
  rcases again_inhale (debug := debug) (own := own) (now := 0) h3 h2 hs hne with ⟨y, z, h4, h5, h6, h7, h8, h9⟩
  refine ⟨t, _, h1, h4, ?_⟩
  rcases hcell with ⟨c, hc⟩
  have hc' : c ∈ cellsOf target := List.count_pos_iff.1 (by omega)
  have hy : y.bloom.check target = false := by
    cases hk : y.bloom.check target with
    | false => rfl
    | true =>
      rw [check_iff] at hk
      exact absurd (by rw [h6, hc]; rfl) (hk c hc').2
  unfold snuffle
  have he : (t.set (target.t0.toNat % 257) { zero := z, slots := [y] }).entry (target.t0.toNat % 257) = some { zero := z, slots := [y] } := by
    simp [Table.set]
  rw [he]
  simp only []
  split
  · split
    · simp [hops, hy]
    · simp
  · simp

/-- Such targets exist. -/
example : ∃ c, (cellsOf ⟨18, 18, 1, 2, 3, 4, 5, 6⟩).count c = 2 := ⟨7, by decide +kernel⟩

/-! ## C65 -/

/-- **C65, partial.**  Scents of single targets, at most 30 per position, from peers at different distances never abort the process
and never leave the table locked, with any agings in between.  Missing: more scents at one position
(`C65_lock_refuted`), scents composed by a remote node (`C65_remote_refuted`). -/
theorem C65_safe_partial (debug : Bool) (own : Dhkey) (peers : List Dhkey) (hd : DistinctDistances own peers) (l : List (Nat × Op))
    (hh : HonestRun peers l) (hw : ∀ i, writes i l ≤ 30) : ∃ t, run debug own Table.empty l = some t ∧ t.held = 0 := by
  rcases run_fair (debug := debug) hd l Table.empty (by intro i x hx; simp [slotsAt, Table.empty] at hx) hh
    (by intro i; simpa [slotsAt, Table.empty] using hw i) with ⟨t, h1, _, h3⟩
  exact ⟨t, h1, h3⟩

example : DistinctDistances Dhkey.zero [peer 10, peer 5, peer 7] ∧ ∀ i, writes i (from_ 1 [10, 5, 7] ++ [(9, .exhale 0)]) ≤ 30 := by
  refine ⟨?_, ?_⟩
  · unfold DistinctDistances; decide +kernel
  · intro i
    unfold writes
    exact Nat.le_trans (List.length_filter_le _ _) (by decide +kernel)

/-- **C65 is false for many targets.**  After 31 targets with different cells have been recorded at one position, one more scent for
that position aborts a debug build; a release build reports failure and keeps the lock of the table, so that every other thread
that touches it waits for ever. -/
theorem C65_lock_refuted (own source : Dhkey) (targets : List Dhkey) (hn : targets.length = 31) (idx : Nat) (target : Dhkey)
    (hidx : ∀ x ∈ targets ++ [target], x.t0.toNat % 257 = idx)
    (hp : List.Pairwise (fun a b => ∃ c, ¬ (c ∈ cellsOf a ↔ c ∈ cellsOf b)) (targets ++ [target])) :
    (run true own Table.empty (scents source (targets ++ [target])) = none) ∧
    ∃ t, run false own Table.empty (scents source (targets ++ [target])) = some t ∧ t.held = 1 := by
  have hmain : ∀ debug, ∃ t s z, run debug own Table.empty (scents source targets) = some t ∧ t.held = 0 ∧ (slotsAt t idx).length = 31 ∧
      scents source [target] = [(0, .inhale s)] ∧ inhale debug own 0 t s = finish debug own 0 s t idx (z, slotsAt t idx, false) := by
    intro debug
    rcases run_differs (debug := debug) (own := own) (source := source) (idx := idx) targets Table.empty [] (fun x hx => hidx x (by simp [hx]))
      (by rw [List.nil_append]; exact (List.pairwise_append.1 hp).1) (by intro x hx; simp [slotsAt, Table.empty] at hx) (by simp [slotsAt, Table.empty, hn])
      with ⟨t, h1, h2, h3, h4⟩
    rcases scentOf_some target source true with ⟨s, hs⟩
    have hti := hidx target (by simp)
    rcases loop_differs (own := own) (now := 0) hs (slotsAt t idx) Nb.create rfl (by
      intro x hx
      rcases h4 x hx with ⟨d, hd, h5⟩
      exact ⟨d, h5, (List.pairwise_append.1 hp).2.2 d (by simpa using hd) target (by simp)⟩) with ⟨z, hz, _⟩
    refine ⟨t, s, z, h1, h3, by rw [h2, hn]; simp [slotsAt, Table.empty], by rw [scents_cons hs]; rfl, ?_⟩
    have := inhale_eq (debug := debug) hs (t := t) (own := own) (now := 0) (w := (z, slotsAt t idx, false)) (by rw [hti]; exact hz)
    rw [this, hti]
  constructor
  · rcases hmain true with ⟨t, s, z, h1, h2, h3, h4, h5⟩
    rw [scents_append, run_append, h1, h4]
    simp only [Option.bind_some, run, step, h5]
    unfold finish
    rw [if_pos (by simp only []; omega)]
    simp
  · rcases hmain false with ⟨t, s, z, h1, h2, h3, h4, h5⟩
    rw [scents_append, run_append, h1, h4]
    simp only [Option.bind_some, run, step, h5]
    unfold finish
    rw [if_pos (by simp only []; omega)]
    simp [Table.set, h2]

def manyTargets : List Dhkey := ((List.range 32).filter (· ≠ 15)).map tgt

instance (a b : List Nat) : Decidable (∃ c, ¬ (c ∈ a ↔ c ∈ b)) :=
  decidable_of_iff (∃ c ∈ a ++ b, ¬ (c ∈ a ↔ c ∈ b)) (by
    constructor
    · rintro ⟨c, _, h⟩; exact ⟨c, h⟩
    · rintro ⟨c, h⟩
      refine ⟨c, ?_, h⟩
      rw [List.mem_append]
      apply Classical.byContradiction
      intro hn
      exact h ⟨fun h1 => absurd (Or.inl h1) hn, fun h1 => absurd (Or.inr h1) hn⟩)

set_option maxRecDepth 20000 in
/-- Such targets exist. -/
example : manyTargets.length = 31 ∧ (∀ x ∈ manyTargets ++ [tgt 32], x.t0.toNat % 257 = 0) ∧
    List.Pairwise (fun a b => ∃ c, ¬ (c ∈ cellsOf a ↔ c ∈ cellsOf b)) (manyTargets ++ [tgt 32]) := by
  refine ⟨by decide +kernel, by decide +kernel, by decide +kernel⟩

/-- **C65 is false for scents composed by a remote node.**  Scents whose position is 0 or out of range, that lack the counter, or that
write outside the filter abort the process; and a scent that claims to have no free items does so the second time it is received. -/
theorem C65_remote_refuted :
    (∀ debug own now t last, inPheromone debug own now t { key := 0, free := some 63, bytes := [(0, 128, 1)] } 0 last = none) ∧
    (∀ debug own now t last delay key bytes, inPheromone debug own now t { key := key, free := none, bytes := bytes } delay last = none) ∧
    (∀ debug own now t last delay key free p a c, p % 65536 ≥ 2039 →
      inPheromone debug own now t { key := key, free := some free, bytes := [(p, a, c)] } delay last = none) ∧
    ((inPheromone false Dhkey.zero 0 Table.empty { key := 1, free := some 0, bytes := [(0, 128, 1)] } 0 (peer 3)).bind fun r =>
      inPheromone false Dhkey.zero 1 r.1 { key := 1, free := some 0, bytes := [(0, 128, 1)] } 0 (peer 4)).isNone = true := by
  refine ⟨?_, ?_, ?_, by decide +kernel⟩
  · intro debug own now t last
    have h0 : (deserialize { key := 0, free := some 63, bytes := [(0, 128, 1)] }).isSome = true := by decide +kernel
    unfold inPheromone
    cases hd : deserialize { key := 0, free := some 63, bytes := [(0, 128, 1)] } with
    | none => rfl
    | some f =>
      have hf : (ageBy 0 f).intersectAge (ageBy 0 f) ≠ 0 := by
        have : ((deserialize { key := 0, free := some 63, bytes := [(0, 128, 1)] }).map fun f => (ageBy 0 f).intersectAge (ageBy 0 f)) = some 128 := by
          decide +kernel
        rw [hd] at this
        simp only [Option.map_some, Option.some.injEq] at this
        omega
      simp only [Option.bind_some]
      rw [if_neg hf]
      simp
  · intro debug own now t last delay key bytes
    rfl
  · intro debug own now t last delay key free p a c hp
    have : deserialize { key := key, free := some free, bytes := [(p, a, c)] } = none := by
      unfold deserialize setBytes
      simp only []
      split
      · have h2 : ¬ (p % 65536 + 1 < 2 * cells) := by simp only [cells]; omega
        unfold setByte
        rw [if_pos (by assumption)]
        simp only [Option.bind_some, if_neg h2, Option.bind_none]
      · rfl
    unfold inPheromone
    rw [this]
    rfl

/-! ## C66 -/

/-- **C66 is false.**  When the twentieth peer arrives the list keeps the peer recorded first (tick 0) and drops the one recorded
second (tick 1): the last element older than the first one of the list is dropped, not the oldest. -/
theorem C66_oldest_refuted : ((run false Dhkey.zero Table.empty (from_ 1 ([10, 5] ++ (List.range 18).map (· + 20)))).map fun t =>
    (decide (peer 10 ∈ (snuffle t (tgt 1) 0 false).1), decide (peer 5 ∈ (snuffle t (tgt 1) 0 false).1))) = some (true, false) := by
  decide +kernel

/-- **C66, partial.**  What is dropped is older than the first element of the list, or is that element and the oldest. -/
theorem C66_dropped_partial (l : List Hop) (hne : l ≠ []) : ∃ a h b, l = a ++ h :: b ∧ removeOldest l = a ++ b ∧
    ((∀ x ∈ l, h.ts ≤ x.ts) ∨ ∃ f, l.head? = some f ∧ h.ts < f.ts) := by
  rcases removeOldest_spec hne with ⟨a, h, b, h1, h2, h3⟩
  refine ⟨a, h, b, h1, h2, ?_⟩
  rcases h3 with h3 | h3
  · exact Or.inl h3.2
  · exact Or.inr h3

example : removeOldest [⟨peer 1, 4⟩, ⟨peer 2, 1⟩, ⟨peer 3, 2⟩] = [⟨peer 1, 4⟩, ⟨peer 2, 1⟩] := by decide +kernel

end Np.Phero
