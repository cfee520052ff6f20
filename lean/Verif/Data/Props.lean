import Verif.Data.Lemmas4

/-! # Properties of datablocks -/
namespace Np.Data

open Np.Cbor
open _root_.Np.Data.Spec

instance {ε α : Type} [DecidableEq ε] [DecidableEq α] : DecidableEq (Except ε α) := by
  intro a b
  cases a <;> cases b
  · rename_i x y; exact decidable_of_iff (x = y) (by simp)
  · exact isFalse (by simp)
  · exact isFalse (by simp)
  · rename_i x y; exact decidable_of_iff (x = y) (by simp)

/-! ## C07 -/

/-- **C07**, calls never fail: on every memory of 21 bytes up to 4 GB, every sequence of calls with regular entries (see `Regular`) and fewer
than 65536 different keys returns. -/
theorem C07_returns_partial (mem : List Byte) (h1 : 21 ≤ mem.length) (h2 : mem.length < 4294967296) (ops : List (Key × Value))
    (hr : ∀ op ∈ ops, Regular op.1 op.2) (hf : FewKeys ops) :
    ∃ b0 rets b, init mem = .ok (.ok, b0) ∧ run b0 ops = .ok (rets, b) ∧ rets.length = ops.length ∧ Built mem.length (ops.zip rets) b := by
  rcases init_repr h1 h2 with ⟨b0, e1, e2, e3⟩
  rcases hf with ⟨ks, hks, hin⟩
  rcases run_spec hks ops b0 [] e3 (by simp) hr hin with ⟨rets, b, f1, f2, f3, f4, f5⟩
  have hz1 : (ops.zip rets).map Prod.fst = ops := List.map_fst_zip (by omega)
  have hz2 : (ops.zip rets).map Prod.snd = rets := List.map_snd_zip (by omega)
  refine ⟨b0, rets, b, e1, f1, f2, ⟨h1, h2⟩, ?_, ?_, mem, b0, rfl, e1, ?_⟩
  · intro c hc
    exact hr c.1 (List.of_mem_zip hc).1
  · rw [hz1]; exact ⟨ks, hks, hin⟩
  · rw [hz1, hz2]; exact f1

/-- **C07**, for regular entries and fewer than 65536 different keys: what is read for a key is the value of the last `np_set_data` for it
that returned `np_data_ok`. -/
theorem C07_last_value_partial (n : Nat) (calls : List ((Key × Value) × Ret)) (buf : List Byte) (h : Built n calls buf) :
    Readable buf (fun k => lastOk k calls) := by
  intro k _
  exact (h.repr).1.readable (fun k => lookup_empty calls k) k ‹_›

/-- C07 without the bound on the number of keys is false: with enough memory 65536 keys can be set, every call returns `np_data_ok`, and then
`np_get_data` for another key never returns. -/
theorem C07_many_refuted : ∀ mem : List Byte, 327701 ≤ mem.length → mem.length < 4294967296 →
    ∃ (b0 : List Byte) (ops : List (Key × Value)) (b : List Byte) (k : Key), init mem = .ok (.ok, b0) ∧ (∀ op ∈ ops, Regular op.1 op.2) ∧
      IsKey k ∧ run b0 ops = .ok (List.replicate ops.length .ok, b) ∧ getData b k = .error .hang := by
  intro mem h1 h2
  rcases init_repr (buf := mem) (by omega) h2 with ⟨b0, e1, _, _⟩
  rcases many_hang mem b0 rfl h1 h2 e1 with ⟨b, f1, f2⟩
  refine ⟨b0, many 65536, b, key3 65536, e1, many_regular _, key3_isKey _, ?_, f2⟩
  have : (many 65536).length = 65536 := by simp [many]
  rw [this]
  exact f1

/-! ## C08 -/

/-- **C08**, for regular entries: `np_set_data` returns `np_data_ok` if and only if the entries then in the block fit into its size, and
`np_insufficient_memory` otherwise. -/
theorem C08_fits_partial (n : Nat) (calls : List ((Key × Value) × Ret)) (buf : List Byte) (h : Built n calls buf) (k : Key) (v : Value)
    (hr : Regular k v) (hf : FewKeys ((k, v) :: calls.map Prod.fst)) :
    (usedAfter (calls ++ [((k, v), .ok)]) ≤ n → ∃ b, setData buf k v = .ok (.ok, b)) ∧
    (n < usedAfter (calls ++ [((k, v), .ok)]) → setData buf k v = .ok (.insufficientMemory, buf)) := by
  rcases h.repr with ⟨hR, hlen, hks⟩
  rcases hf with ⟨ks, hksl, hin⟩
  have hsub := hks ks hksl (fun op hop => hin op (by simp only [List.mem_cons]; exact Or.inr hop))
  have hset := hR.set hr (few_count hksl hR.nodup hsub (hin (k, v) (by simp)))
  have happ : applyOk [] (calls ++ [((k, v), .ok)]) = put k v (applyOk [] calls) := by
    rw [applyOk_append]
    rfl
  have hused : usedAfter (calls ++ [((k, v), .ok)]) = 21 + (encs (put k v (applyOk [] calls))).length := by
    rw [usedAfter_eq (by rw [happ]; exact put_nodup hR.nodup), happ]
  have hps := put_size (k := k) (v := v) (es := applyOk [] calls)
  have hls := lookup_size (k := k) (es := applyOk [] calls)
  have hu := hR.used_le
  rw [hused]
  unfold room at hset
  constructor
  · intro hle
    have : entrySize k v ≤ buf.length - (21 + (encs (applyOk [] calls)).length) +
        (match lookup k (applyOk [] calls) with | some w => entrySize k w | none => 0) := by
      cases hlk : lookup k (applyOk [] calls) <;> simp only [hlk] at hps hls ⊢ <;> omega
    rcases hset.1 this with ⟨b, hb, _⟩
    exact ⟨b, hb⟩
  · intro hlt
    apply hset.2
    cases hlk : lookup k (applyOk [] calls) <;> simp only [hlk] at hps hls ⊢ <;> omega

/-- C08 is false without `Regular`: entries with a key of 24 characters, with 24 bytes of data, with more than 65535 bytes of data, or with the
number 24 are never accepted, no matter how much room there is. -/
theorem C08_sizes_refuted (n : Nat) (calls : List ((Key × Value) × Ret)) (buf : List Byte) (h : Built n calls buf) (k : Key) (v : Value)
    (hk : k.length ≤ 254)
    (hbad : (k.length = 24 ∧ ∀ i : BitVec 32, v = .int i → i.toInt ≠ -256 ∧ i.toInt ≠ -65536) ∨
      (∃ b, (v = .bin b ∨ v = .str b) ∧ (b.length = 24 ∨ 65535 < b.length)) ∨
      v = .int 24 ∨ v = .uint 24) (r : Ret) (b : List Byte) (hset : setData buf k v = .ok (r, b)) : r ≠ .ok := by
  have hsmall : ∀ new, objectSize k v = .ok new → new < entrySize k v := by
    intro new hn
    have hks : 1 + k.length + (if k.length > 24 then 1 else 0) ≤ headSize k.length + k.length := by
      unfold headSize
      repeat' split
      all_goals omega
    have hl : ∀ m, lengthExtra m + 1 ≤ headSize m := by
      intro m
      unfold lengthExtra headSize
      repeat' split
      all_goals omega
    have hl' : ∀ m, (m = 24 ∨ 65535 < m) → lengthExtra m + 1 < headSize m := by
      intro m hm
      unfold lengthExtra headSize
      repeat' split
      all_goals omega
    have hn' : ∀ m, m < 4294967296 → 4 + numberExtra m ≤ 3 + headSize m := by
      intro m hm
      unfold numberExtra headSize
      repeat' split
      all_goals omega
    have hneg : ∀ m, m ≠ 255 → m ≠ 65535 → m < 4294967295 → 4 + numberExtra (m + 1) ≤ 3 + headSize m := by
      intro m h1 h2 h3
      exact Nat.le_of_eq (negative_size h1 h2 h3)
    have hks' : k.length = 24 → 1 + k.length + (if k.length > 24 then 1 else 0) < headSize k.length + k.length := by
      intro e
      rw [e]
      decide
    unfold objectSize at hn
    unfold entrySize
    simp only [] at hn
    cases v with
    | bin d =>
      simp only [Except.ok.injEq] at hn
      have h1 := hl d.length
      simp only []
      rcases hbad with hb | ⟨x, hx, hy⟩ | hb | hb
      · have := hks' hb.1; omega
      · rcases hx with hx | hx
        · rw [Value.bin.injEq] at hx
          rw [← hx] at hy
          have := hl' d.length hy
          omega
        · simp at hx
      · simp at hb
      · simp at hb
    | str d =>
      simp only [Except.ok.injEq] at hn
      have h1 := hl d.length
      simp only []
      rcases hbad with hb | ⟨x, hx, hy⟩ | hb | hb
      · have := hks' hb.1; omega
      · rcases hx with hx | hx
        · simp at hx
        · rw [Value.str.injEq] at hx
          rw [← hx] at hy
          have := hl' d.length hy
          omega
      · simp at hb
      · simp at hb
    | int i =>
      simp only [] at hn ⊢
      have b1 := BitVec.le_toInt i
      have b2 := BitVec.toInt_lt (x := i)
      have e1 : -2 ^ (32 - 1) = (-2147483648 : Int) := by decide
      have e2 : 2 ^ (32 - 1) = (2147483648 : Int) := by decide
      rw [e1] at b1
      rw [e2] at b2
      split at hn
      · simp at hn
      · simp only [Except.ok.injEq] at hn
        rcases hbad with hb | ⟨x, hx, _⟩ | hb | hb
        · have h1 := hks' hb.1
          have h2 := hb.2 i rfl
          generalize i.toInt = z at *
          by_cases hz : 0 ≤ z
          · rw [if_pos hz]
            have e3 : z.natAbs = z.toNat := by omega
            have := hn' z.toNat (by omega)
            rw [e3] at hn
            omega
          · rw [if_neg hz]
            have e3 : z.natAbs = (-1 - z).toNat + 1 := by omega
            have := hneg (-1 - z).toNat (by omega) (by omega) (by omega)
            rw [e3] at hn
            omega
        · rcases hx with hx | hx <;> simp at hx
        · rw [Value.int.injEq] at hb
          subst hb
          have e3 : (24 : BitVec 32).toInt = 24 := by decide
          rw [e3] at hn ⊢
          have e4 : numberExtra (24 : Int).natAbs = 0 := by decide
          have e5 : headSize (if (0 : Int) ≤ 24 then (24 : Int).toNat else (-1 - (24 : Int)).toNat) = 2 := by decide
          omega
        · simp at hb
    | uint u =>
      simp only [Except.ok.injEq] at hn
      simp only []
      have h1 := hn' u.toNat (by have := u.isLt; omega)
      rcases hbad with hb | ⟨x, hx, _⟩ | hb | hb
      · have := hks' hb.1; omega
      · rcases hx with hx | hx <;> simp at hx
      · simp at hb
      · rw [Value.uint.injEq] at hb
        subst hb
        have e4 : numberExtra (24 : BitVec 32).toNat = 0 := by decide
        have e5 : headSize (24 : BitVec 32).toNat = 2 := by decide
        omega
  cases hos : objectSize k v with
  | error f =>
    by_cases hin : k ∈ (applyOk [] calls).map Prod.fst
    · rcases mem_split hin with ⟨a, w, c, he, _⟩
      have hR := (h.repr).1
      rw [he] at hR
      rw [hR.set_old v, hos] at hset
      simp at hset
    · rw [(h.repr).1.set_new hin v, hos] at hset
      simp at hset
  | ok new => exact (h.repr).1.set_small hos (hsmall new hos) hset

/-- C08 is false for -256 and -65536 as well: there is enough room, and an assertion fails. -/
theorem C08_assert_refuted : ∃ n buf, Built n [] buf ∧ n = 100 ∧ setData buf [97] (.int (-256)) = .error .abort ∧
    setData buf [97] (.int (-65536)) = .error .abort := by
  rcases init_repr (buf := List.replicate 100 0) (by simp) (by simp) with ⟨b0, e1, _, _⟩
  refine ⟨100, b0, ⟨by omega, by simp, ⟨[], by simp, by simp⟩, List.replicate 100 0, b0, by simp, e1, rfl⟩, rfl, ?_⟩
  have e2 : init (List.replicate 100 0) = .ok (.ok, headerBytes { total := 100, used := 21, count := 0 } ++ List.replicate 79 0) := by decide +kernel
  rw [e1] at e2
  rw [(Prod.mk.inj (Except.ok.inj e2)).2]
  decide +kernel

/-! ## C09 -/

/-- **C09**, for regular entries, and for any entry with a key that is not in the block: if the call does not return `np_data_ok`, everything
is read as before. -/
theorem C09_unchanged_partial (n : Nat) (calls : List ((Key × Value) × Ret)) (buf : List Byte) (h : Built n calls buf) (k : Key) (v : Value)
    (hc : (Regular k v ∧ FewKeys ((k, v) :: calls.map Prod.fst)) ∨ lastOk k calls = none) (r : Ret) (b : List Byte)
    (hset : setData buf k v = .ok (r, b)) (hr : r ≠ .ok) : Readable b (fun k => lastOk k calls) := by
  have hR := (h.repr).1
  have hb : Repr b (applyOk [] calls) := by
    rcases hc with ⟨hreg, hf⟩ | hnone
    · by_cases hle : usedAfter (calls ++ [((k, v), .ok)]) ≤ n
      · rcases (C08_fits_partial n calls buf h k v hreg hf).1 hle with ⟨b', hb'⟩
        rw [hset] at hb'
        exact absurd (Prod.mk.inj (Except.ok.inj hb')).1 hr
      · have := (C08_fits_partial n calls buf h k v hreg hf).2 (by omega)
        rw [hset] at this
        rw [(Prod.mk.inj (Except.ok.inj this)).2]
        exact hR
    · have hk : k ∉ (applyOk [] calls).map Prod.fst := by
        intro hm
        rcases mem_split hm with ⟨a, w, c, he, hka⟩
        have hl := lookup_applyOk (k := k) calls []
        rw [he, lookup_some hka, hnone] at hl
        simp [lookup] at hl
      exact hR.fail_new hk hset hr
  intro k' _
  exact hb.readable (fun k => lookup_empty calls k) k' ‹_›

/-- C09 without the restriction is false: on a block of 200 bytes with two entries, replacing the 30 bytes of the first by 24 bytes fails, and
then reading the second never returns. -/
theorem C09_replace_refuted : ∃ (calls : List ((Key × Value) × Ret)) (buf b : List Byte) (k k' : Key) (v w : Value), Built 200 calls buf ∧
    setData buf k v = .ok (.couldNotWriteTotalLength, b) ∧ getData buf k' = .ok (.ok, some w) ∧ getData b k' = .error .hang := by
  have hi : init (List.replicate 200 0) = .ok (.ok, headerBytes { total := 200, used := 21, count := 0 } ++ List.replicate 179 0) := by decide +kernel
  let ops : List (Key × Value) := [([97], .bin (List.replicate 30 7)), ([98], .int 5)]
  rcases C07_returns_partial (List.replicate 200 0) (by rw [List.length_replicate]; omega) (by rw [List.length_replicate]; omega) ops (by decide) ⟨[[97], [98]], by simp, by decide⟩ with
    ⟨b0, rets, b, e1, e2, _, e4⟩
  rw [hi] at e1
  rw [← (Prod.mk.inj (Except.ok.inj e1)).2] at e2
  rw [List.length_replicate] at e4
  generalize hb : (match setData b [97] (.bin (List.replicate 24 7)) with | .ok x => x.2 | .error _ => []) = b'
  refine ⟨ops.zip rets, b, b', [97], [98], .bin (List.replicate 24 7), .int 5, e4, ?_, ?_, ?_⟩
  all_goals
    have key : ∃ rets b, run (headerBytes { total := 200, used := 21, count := 0 } ++ List.replicate 179 0) ops = .ok (rets, b) ∧
        setData b [97] (.bin (List.replicate 24 7)) =
          .ok (.couldNotWriteTotalLength, match setData b [97] (.bin (List.replicate 24 7)) with | .ok x => x.2 | .error _ => []) ∧
        getData b [98] = .ok (.ok, some (.int 5)) ∧
        getData (match setData b [97] (.bin (List.replicate 24 7)) with | .ok x => x.2 | .error _ => []) [98] = .error .hang := by
      have hrun : ∀ x, run (headerBytes { total := 200, used := 21, count := 0 } ++ List.replicate 179 0) ops = .ok x → True := fun _ _ => trivial
      refine ⟨[.ok, .ok], (match run (headerBytes { total := 200, used := 21, count := 0 } ++ List.replicate 179 0) ops with
        | .ok x => x.2 | .error _ => []), ?_⟩
      decide +kernel
    rcases key with ⟨rets', c, f1, f2, f3, f4⟩
    rw [f1] at e2
    have ec := (Prod.mk.inj (Except.ok.inj e2)).2
    subst ec
    subst hb
    first | exact f2 | exact f3 | exact f4

/-! ## C10 -/

/-- **C10**: with any key and value except the number -2147483648, `np_set_data` on such a block accesses no memory outside of it and does
not loop for ever. -/
theorem C10_in_bounds_partial (n : Nat) (calls : List ((Key × Value) × Ret)) (buf : List Byte) (h : Built n calls buf) (k : Key) (v : Value)
    (hv : ∀ i : BitVec 32, v = .int i → i.toInt ≠ -2147483648) :
    setData buf k v ≠ .error .ub ∧ setData buf k v ≠ .error .hang ∧ ∀ r b, setData buf k v = .ok (r, b) → b.length = n := by
  have hl := (h.repr).2.1
  rcases (h.repr).1.set_safe (k := k) hv with h' | ⟨r, b, h', h''⟩
  · rw [h']
    exact ⟨by simp, by simp, by simp⟩
  · rw [h']
    refine ⟨by simp, by simp, ?_⟩
    intro r' b' e
    rw [← (Prod.mk.inj (Except.ok.inj e)).2]
    omega

/-- **C10**: the recorded size is that of the header and the entries, and never more than the size of the block. -/
theorem C10_used_partial (n : Nat) (calls : List ((Key × Value) × Ret)) (buf : List Byte) (h : Built n calls buf) :
    buf.length = n ∧ getDataSize buf = .ok (.ok, usedAfter calls) ∧ usedAfter calls ≤ n := by
  rcases h.repr with ⟨hR, hl, _⟩
  have hu := hR.used_le
  rw [usedAfter_eq hR.nodup]
  refine ⟨hl, ?_, by omega⟩
  unfold getDataSize
  rw [hR.readHeader]
  rfl

/-- C10 fails for the smallest number: its negation is undefined behaviour. -/
theorem C10_negation_refuted : ∃ n buf, Built n [] buf ∧ setData buf [97] (.int (-2147483648)) = .error .ub := by
  rcases init_repr (buf := List.replicate 100 0) (by simp) (by simp) with ⟨b0, e1, _, _⟩
  refine ⟨100, b0, ⟨by omega, by simp, ⟨[], by simp, by simp⟩, List.replicate 100 0, b0, by simp, e1, rfl⟩, ?_⟩
  have e2 : init (List.replicate 100 0) = .ok (.ok, headerBytes { total := 100, used := 21, count := 0 } ++ List.replicate 79 0) := by decide +kernel
  rw [e1] at e2
  rw [(Prod.mk.inj (Except.ok.inj e2)).2]
  decide +kernel

/-! ## C11 -/

/-- **C11**: the callback sees the entries in the order in which their keys came in, each once, with their last values, until it returns
false, and the number of objects is that of the different keys. -/
theorem C11_iterate_partial {σ : Type} (n : Nat) (calls : List ((Key × Value) × Ret)) (buf : List Byte) (h : Built n calls buf)
    (cb : σ → Key → Value → σ × Bool) (s : σ) :
    iterate buf cb s = .ok (visit cb s (entries calls)) ∧ (entries calls).map Prod.fst = firstOrder [] calls ∧ (firstOrder [] calls).Nodup ∧
      getObjectCount buf = .ok (.ok, (firstOrder [] calls).length) := by
  rcases h.repr with ⟨hR, _, _⟩
  have hk := keys_applyOk calls [] [] (by simp)
  rw [List.map_nil, List.nil_append] at hk
  rw [entries_eq hR.nodup]
  refine ⟨hR.iterate cb s, hk, by rw [← hk]; exact hR.nodup, ?_⟩
  unfold getObjectCount
  rw [hR.readHeader, ← hk, List.length_map]
  rfl

/-! ## C12 -/

/-- **C12**: a merge ends with `np_data_ok` or `np_insufficient_memory`; after `np_data_ok` a key has the value of the source, and if the source
has none, that of the destination.  After `np_insufficient_memory` a beginning of the source has been merged. -/
theorem C12_merge_partial (n m : Nat) (calls calls' : List ((Key × Value) × Ret)) (dest src : List Byte) (hd : Built n calls dest)
    (hs : Built m calls' src) (hf : FewKeys ((calls ++ calls').map Prod.fst)) :
    ∃ r d, merge dest src = .ok (r, d) ∧ d.length = n ∧ (r = .ok ∨ r = .insufficientMemory) ∧
      (r = .ok → Readable d (fun k => (lastOk k calls').or (lastOk k calls))) ∧
      (r = .insufficientMemory → ∃ a b, entries calls' = a ++ b ∧
        Readable d (fun k => if k ∈ a.map Prod.fst then lastOk k calls' else lastOk k calls)) := by
  rcases hd.repr with ⟨hR, hl, hk⟩
  rcases hs.repr with ⟨hR', _, hk'⟩
  rcases hf with ⟨ks, hks, hin⟩
  have i1 := hk ks hks (fun op hop => hin op (by rw [List.map_append, List.mem_append]; exact Or.inl hop))
  have i2 := hk' ks hks (fun op hop => hin op (by rw [List.map_append, List.mem_append]; exact Or.inr hop))
  have hlook : ∀ (c : List ((Key × Value) × Ret)) k, lookup k (applyOk [] c) = lastOk k c := by
    intro c k
    rw [lookup_applyOk]
    simp [lookup]
  rcases hR.merge hks hR' i1 i2 with ⟨d, h1, h2, h3⟩ | ⟨d, a, b, h1, h2, h3, h4⟩
  · refine ⟨.ok, d, h1, by omega, Or.inl rfl, ?_, by simp⟩
    intro _
    apply h3.readable
    intro k
    rw [lookup_applyOk, lastOk_entries hR'.nodup, hlook, hlook]
  · refine ⟨.insufficientMemory, d, h1, by omega, Or.inr rfl, by simp, ?_⟩
    intro _
    refine ⟨a, b, by rw [entries_eq hR'.nodup]; exact h2, ?_⟩
    have hna : (a.map Prod.fst).Nodup := by
      have := hR'.nodup
      rw [h2, List.map_append, List.nodup_append] at this
      exact this.1
    apply h4.readable
    intro k
    rw [lookup_applyOk, lastOk_entries hna, hlook]
    by_cases hka : k ∈ a.map Prod.fst
    · rw [if_pos hka]
      rcases mem_split hka with ⟨a1, w, a2, he, hka1⟩
      have : lastOk k calls' = some w := by
        rw [← hlook, h2, he, List.append_assoc]
        exact lookup_some hka1
      rw [this, he, lookup_some hka1]
      rfl
    · rw [if_neg hka, lookup_none hka]
      rfl

/-! ## C67 -/

/-- **C67**, the header: reading the size and the number of objects of any 21 bytes or more returns. -/
theorem C67_header_partial (buf : List Byte) (h : 21 ≤ buf.length) : (∃ r, getDataSize buf = .ok r) ∧ ∃ r, getObjectCount buf = .ok r := by
  have : ∃ r, readHeader buf = .ok r := by
    unfold readHeader
    rw [if_neg (by simp only [headerSize]; omega)]
    simp only []
    repeat' split
    all_goals exact ⟨_, rfl⟩
  rcases this with ⟨r, e⟩
  unfold getDataSize getObjectCount
  rw [e]
  exact ⟨⟨_, rfl⟩, _, rfl⟩

/-- **C67**, iterating: for any memory of 21 bytes or more the iteration ends. -/
theorem C67_iterate_partial {σ : Type} (buf : List Byte) (h : 21 ≤ buf.length) (cb : σ → Key → Value → σ × Bool) (s : σ) :
    iterate buf cb s ≠ .error .hang := by
  have hrec : ∀ (count fuel seen : Nat) (b : List Byte) (s : σ), b.length ≤ fuel → iterateLoop cb count fuel seen b s ≠ .error .hang := by
    intro count fuel
    induction fuel with
    | zero =>
      intro seen b s hb
      have : b = [] := List.length_eq_zero_iff.1 (by omega)
      subst this
      unfold iterateLoop
      split
      · rw [readObject_nil]; simp
      · simp
    | succ f ih =>
      intro seen b s hb
      unfold iterateLoop
      split
      · cases ho : readObject b with
        | error e =>
          simp only []
          intro he
          rw [Except.error.injEq] at he
          subst he
          exact readObject_not_hang b ho
        | ok o =>
          cases o with
          | none => simp
          | some x =>
            rcases x with ⟨k, v, r⟩
            simp only []
            split
            · have := readObject_shorter ho
              exact ih _ _ _ (by omega)
            · simp
      · simp
  unfold iterate
  have : readHeader buf ≠ .error .hang := by
    have := C67_header_partial buf h
    unfold getDataSize at this
    intro he
    rw [he] at this
    rcases this.1 with ⟨r, hr⟩
    simp [Except.map] at hr
  cases hh : readHeader buf with
  | error f => intro he; simp only [Except.error.injEq] at he; subst he; exact this hh
  | ok x =>
    rcases x with ⟨r, hd⟩
    simp only []
    split
    · simp
    · exact hrec _ _ _ _ _ (by rw [List.length_drop]; omega)

/-- C67 is false: in these 21 bytes, which claim to hold one object, no search for any key ever ends. -/
theorem C67_hang_refuted : ∃ buf : List Byte, buf.length = 21 ∧ ∀ k, getData buf k = .error .hang ∧ ∀ v, setData buf k v = .error .hang := by
  refine ⟨headerBytes { total := 21, used := 21, count := 1 }, by decide, ?_⟩
  intro k
  have hrd : readHeader (headerBytes { total := 21, used := 21, count := 1 }) = .ok (.ok, { total := 21, used := 21, count := 1 }) := by decide +kernel
  have hse : search (headerBytes { total := 21, used := 21, count := 1 }) { total := 21, used := 21, count := 1 } k = .error .hang := by
    unfold search
    simp only []
    rw [if_neg (by omega), if_neg (by rw [headerBytes_length]; simp only [headerSize]; omega)]
    have : List.drop headerSize (List.take 21 (headerBytes { total := 21, used := 21, count := 1 })) = [] := by decide
    rw [this]
    unfold searchLoop
    rw [if_pos (by omega), readObject_nil]
  constructor
  · unfold getData
    rw [hrd]
    simp only []
    rw [hse]
    rfl
  · intro v
    unfold setData
    rw [hrd]
    simp only [ne_eq, not_true_eq_false, if_false]
    rw [hse]

/-- C67 is false: if the key is a number, every search uses that number as an address. -/
theorem C67_wild_refuted : ∃ buf : List Byte, ∀ k, getData buf k = .error .ub := by
  refine ⟨headerBytes { total := 23, used := 23, count := 1 } ++ [1, 1], ?_⟩
  intro k
  have hrd : readHeader (headerBytes { total := 23, used := 23, count := 1 } ++ [1, 1]) = .ok (.ok, { total := 23, used := 23, count := 1 }) := by
    decide +kernel
  have hse : search (headerBytes { total := 23, used := 23, count := 1 } ++ [1, 1]) { total := 23, used := 23, count := 1 } k = .error .ub := by
    unfold search
    simp only []
    rw [if_neg (by omega), if_neg (by rw [List.length_append, headerBytes_length]; simp only [headerSize]; decide)]
    have : List.drop headerSize (List.take 23 (headerBytes { total := 23, used := 23, count := 1 } ++ [1, 1])) = [1, 1] := by decide
    rw [this]
    unfold searchLoop
    have : readObject [1, 1] = .error .ub := by decide +kernel
    rw [if_pos (by omega), this]
  unfold getData
  rw [hrd]
  simp only []
  rw [hse]
  rfl

/-! ## The hypotheses are satisfiable -/

/-- Three calls, the second for a key that is too big for the block, the third replacing the first. -/
example : ∃ buf, Built 60 [(([97], .bin [1, 2, 3]), .ok), (([98], .bin (List.replicate 40 7)), .insufficientMemory), (([97], .int (-5)), .ok)] buf := by
  have hi : init (List.replicate 60 0) = .ok (.ok, headerBytes { total := 60, used := 21, count := 0 } ++ List.replicate 39 0) := by decide +kernel
  refine ⟨match run (headerBytes { total := 60, used := 21, count := 0 } ++ List.replicate 39 0)
    [([97], .bin [1, 2, 3]), ([98], .bin (List.replicate 40 7)), ([97], .int (-5))] with | .ok x => x.2 | .error _ => [], ⟨by omega, ?_, ?_, ?_⟩⟩
  · decide
  · exact ⟨[[97], [98]], by simp, by decide⟩
  · exact ⟨List.replicate 60 0, _, by simp, hi, by decide +kernel⟩

/-- `FewKeys` for a hundred thousand calls with one key. -/
example : FewKeys (List.replicate 100000 ([97], .int 1)) := ⟨[[97]], by simp, by
  intro op hop
  rw [(List.mem_replicate.1 hop).2]
  simp⟩

end Np.Data
