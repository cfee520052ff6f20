import Verif.Data.Lemmas

set_option linter.unusedVariables false
set_option linter.unusedSimpArgs false

/-! # Setting an entry -/
namespace Np.Data

open Np.Cbor
open _root_.Np.Data.Spec

/-- Replaces the value of a key, or appends the entry. -/
def put (k : Key) (v : Value) : List (Key × Value) → List (Key × Value)
  | [] => [(k, v)]
  | e :: r => if e.1 = k then (k, v) :: r else e :: put k v r

theorem put_new {k : Key} {v : Value} {es : List (Key × Value)} (h : k ∉ es.map Prod.fst) : put k v es = es ++ [(k, v)] := by
  induction es with
  | nil => rfl
  | cons e r ih =>
    simp only [List.map_cons, List.mem_cons, not_or] at h
    unfold put
    rw [if_neg (fun e => h.1 e.symm), ih h.2]
    rfl

theorem put_old {k : Key} {v w : Value} {a b : List (Key × Value)} (h : k ∉ a.map Prod.fst) : put k v (a ++ (k, w) :: b) = a ++ (k, v) :: b := by
  induction a with
  | nil => simp [put]
  | cons e r ih =>
    simp only [List.map_cons, List.mem_cons, not_or] at h
    rw [List.cons_append]
    unfold put
    rw [if_neg (fun e => h.1 e.symm), ih h.2]
    rfl

/-! ## Memory -/

theorem writeAt_ok {buf b : List Byte} {off : Nat} (h : off + b.length ≤ buf.length) :
    writeAt buf off b = .ok (buf.take off ++ (b ++ buf.drop (off + b.length))) := by unfold writeAt; rw [if_pos h]

theorem writeAt_length {buf b c : List Byte} {off : Nat} (h : writeAt buf off b = .ok c) : c.length = buf.length := by
  unfold writeAt at h
  split at h
  · rw [← Except.ok.inj h]
    simp only [List.length_append, List.length_take, List.length_drop]
    omega
  · simp at h

/-- Writing behind a prefix leaves the prefix. -/
theorem writeAt_prefix {p r b : List Byte} (h : b.length ≤ r.length) : writeAt (p ++ r) p.length b = .ok (p ++ (b ++ r.drop b.length)) := by
  rw [writeAt_ok (by rw [List.length_append]; omega), List.take_left, List.drop_append, List.drop_of_length_le (by omega), List.nil_append]
  congr 4
  omega

theorem writeHeader_ok {h h' : Header} {r : List Byte} (ht : 21 ≤ h'.total) : writeHeader (headerBytes h ++ r) h' = .ok (.ok, headerBytes h' ++ r) := by
  unfold writeHeader
  rw [if_neg (by simp only [headerSize]; omega)]
  have h1 := headerBytes_length h
  have h2 := headerBytes_length h'
  rw [writeAt_ok (by rw [List.length_append]; omega), List.take_zero, List.nil_append]
  show Except.ok _ = _
  rw [h2, Nat.zero_add, List.drop_left' h1]

/-! ## Sizes -/

theorem key_size {n : Nat} (h : n ≤ 254) (h' : n ≠ 24) : 1 + n + (if n > 24 then 1 else 0) = headSize n + n := by
  unfold headSize
  repeat' split
  all_goals omega

theorem length_size {n : Nat} (h : n ≠ 24) (h' : n ≤ 65535) : lengthExtra n + 1 = headSize n := by
  unfold lengthExtra headSize
  repeat' split
  all_goals omega

theorem number_size {n : Nat} (h : n ≠ 24) (h' : n < 4294967296) : 4 + numberExtra n = 3 + headSize n := by
  unfold numberExtra headSize
  repeat' split
  all_goals omega

theorem negative_size {n : Nat} (h1 : n ≠ 255) (h2 : n ≠ 65535) (h' : n < 4294967295) : 4 + numberExtra (n + 1) = 3 + headSize n := by
  unfold numberExtra headSize
  repeat' split
  all_goals omega

theorem objectSize_regular {k : Key} {v : Value} (h : Regular k v) : objectSize k v = .ok (enc k v).length := by
  rw [enc_length]
  rcases h with ⟨hk, hk24, hv⟩
  have hkl := hk.1
  have hks := key_size hkl hk24
  unfold objectSize entrySize
  simp only [hks]
  cases v with
  | bin b =>
    simp only [] at hv ⊢
    have := length_size hv.1 hv.2
    congr 1
    omega
  | str b =>
    simp only [] at hv ⊢
    have := length_size hv.1 hv.2
    congr 1
    omega
  | int i =>
    simp only [] at hv ⊢
    have h1 := BitVec.le_toInt i
    have h2 := BitVec.toInt_lt (x := i)
    have e1 : -2 ^ (32 - 1) = (-2147483648 : Int) := by decide
    have e2 : 2 ^ (32 - 1) = (2147483648 : Int) := by decide
    rw [e1] at h1
    rw [e2] at h2
    rw [if_neg hv.2.2.2]
    generalize i.toInt = z at *
    congr 1
    by_cases hz : 0 ≤ z
    · rw [if_pos hz]
      have e3 : z.natAbs = z.toNat := by omega
      have := number_size (n := z.toNat) (by omega) (by omega)
      rw [e3]
      omega
    · rw [if_neg hz]
      have e3 : z.natAbs = (-1 - z).toNat + 1 := by omega
      have := negative_size (n := (-1 - z).toNat) (by omega) (by omega) (by omega)
      rw [e3]
      omega
  | uint u =>
    simp only [] at hv ⊢
    have h1 := u.isLt
    have := number_size (n := u.toNat) hv (by omega)
    congr 1
    omega

theorem objectSize_pos {k : Key} {v : Value} {n : Nat} (h : objectSize k v = .ok n) : 0 < n := by
  unfold objectSize at h
  cases v with
  | bin b => simp only [Except.ok.injEq] at h; omega
  | str b => simp only [Except.ok.injEq] at h; omega
  | int i =>
    simp only [] at h
    split at h
    · simp at h
    · simp only [Except.ok.injEq] at h; omega
  | uint u => simp only [Except.ok.injEq] at h; omega

/-! ## `np_set_data` on a block that represents entries -/

theorem Repr.set_new {buf : List Byte} {es : List (Key × Value)} (h : Repr buf es) {k : Key} (hk : k ∉ es.map Prod.fst) (v : Value) :
    setData buf k v = match objectSize k v with
      | .error f => .error f
      | .ok new => if new > buf.length - (21 + (encs es).length) then .ok (.insufficientMemory, buf)
        else store buf k v (21 + (encs es).length) new { total := buf.length, used := 21 + (encs es).length + new, count := es.length + 1 } := by
  have hu := h.used_le
  have hl := h.len
  have hc := h.count
  unfold setData
  rw [h.readHeader]
  simp only [ne_eq, not_true_eq_false, if_false]
  rw [(h.search k).1 hk]
  simp only []
  cases objectSize k v with
  | error f => rfl
  | ok new =>
    simp only []
    have e1 : (buf.length + 18446744073709551616 - (21 + (encs es).length) + 0) % 18446744073709551616 = buf.length - (21 + (encs es).length) := by omega
    have e2 : (es.length + 1) % 4294967296 = es.length + 1 := by omega
    rw [e1, e2]

theorem Repr.set_old {buf : List Byte} {a b : List (Key × Value)} {k : Key} {w : Value} (h : Repr buf (a ++ (k, w) :: b)) (v : Value) :
    setData buf k v = match objectSize k v with
      | .error f => .error f
      | .ok new => if new > buf.length - (21 + (encs (a ++ (k, w) :: b)).length) + (enc k w).length then .ok (.insufficientMemory, buf)
        else match moveTail buf (21 + (encs (a ++ (k, w) :: b)).length) (21 + (encs a).length + (enc k w).length) new (enc k w).length with
          | .error f => .error f
          | .ok c => store c k v (21 + (encs a).length) new
              { total := buf.length, used := 21 + (encs (a ++ (k, w) :: b)).length + new - (enc k w).length, count := (a ++ (k, w) :: b).length } := by
  have hu := h.used_le
  have hl := h.len
  have hc := h.count
  have ho := objectSize_regular (h.regular (k, w) (by simp))
  simp only [] at ho
  have hle : (enc k w).length ≤ (encs (a ++ (k, w) :: b)).length := encs_le (e := (k, w)) (by simp)
  unfold setData
  rw [h.readHeader]
  simp only [ne_eq, not_true_eq_false, if_false]
  rw [(h.search k).2 a w b rfl]
  simp only [ho]
  cases objectSize k v with
  | error f => rfl
  | ok new =>
    simp only []
    have e1 : (buf.length + 18446744073709551616 - (21 + (encs (a ++ (k, w) :: b)).length) + (enc k w).length) % 18446744073709551616 =
      buf.length - (21 + (encs (a ++ (k, w) :: b)).length) + (enc k w).length := by omega
    rw [e1]
    split
    · rfl
    · cases moveTail buf (21 + (encs (a ++ (k, w) :: b)).length) (21 + (encs a).length + (enc k w).length) new (enc k w).length <;> rfl

/-- The tail is moved within the block. -/
theorem Repr.moved {buf : List Byte} {a b : List (Key × Value)} {k : Key} {w : Value} (h : Repr buf (a ++ (k, w) :: b)) {new : Nat}
    (hn : new ≤ buf.length - (21 + (encs (a ++ (k, w) :: b)).length) + (enc k w).length) :
    ∃ c q, moveTail buf (21 + (encs (a ++ (k, w) :: b)).length) (21 + (encs a).length + (enc k w).length) new (enc k w).length = .ok c ∧
      c.length = buf.length ∧
      c = headerBytes { total := buf.length, used := 21 + (encs (a ++ (k, w) :: b)).length, count := (a ++ (k, w) :: b).length } ++ (encs a ++ q) ∧
      (∃ m t, q = m ++ (encs b ++ t) ∧ m.length = new) := by
  have hu := h.used_le
  have hreg := h.region
  rcases h.bytes with ⟨rest, e⟩
  have he : (encs (a ++ (k, w) :: b)).length = (encs a).length + ((enc k w).length + (encs b).length) := by
    rw [encs_append, encs_cons, List.length_append, List.length_append]
  generalize hH : headerBytes { total := buf.length, used := 21 + (encs (a ++ (k, w) :: b)).length, count := (a ++ (k, w) :: b).length } = H at e ⊢
  have hHl : H.length = 21 := by rw [← hH]; exact headerBytes_length _
  rw [encs_append, encs_cons] at e
  simp only [] at e
  -- the part that is moved
  have hsrc : (buf.take (21 + (encs (a ++ (k, w) :: b)).length)).drop (21 + (encs a).length + (enc k w).length) = encs b := by
    have e1 : buf.take (21 + (encs (a ++ (k, w) :: b)).length) = H ++ (encs a ++ (enc k w ++ encs b)) := by
      rw [e, ← List.append_assoc H]
      exact List.take_left' (by simp only [List.length_append, hHl]; omega)
    have e2 : H ++ (encs a ++ (enc k w ++ encs b)) = (H ++ (encs a ++ enc k w)) ++ encs b := by simp
    rw [e1, e2]
    exact List.drop_left' (by simp only [List.length_append, hHl]; omega)
  unfold moveTail
  rw [if_neg (by omega), hsrc]
  have hdst : 21 + (encs a).length + (enc k w).length + new - (enc k w).length = 21 + (encs a).length + new := by omega
  rw [hdst, writeAt_ok (by omega)]
  have htake : buf.take (21 + (encs a).length + new) = H ++ (encs a ++ ((enc k w ++ (encs b ++ rest)).take new)) := by
    have e3 : buf = (H ++ encs a) ++ (enc k w ++ (encs b ++ rest)) := by rw [e]; simp
    conv => lhs; rw [e3]
    have hHa : (H ++ encs a).length = 21 + (encs a).length := by rw [List.length_append, hHl]
    rw [List.take_append, List.take_of_length_le (by omega), hHa]
    have : 21 + (encs a).length + new - (21 + (encs a).length) = new := by omega
    rw [this, List.append_assoc]
  have hbl := congrArg List.length e
  simp only [List.length_append, hHl] at hbl
  refine ⟨_, (enc k w ++ (encs b ++ rest)).take new ++ (encs b ++ buf.drop (21 + (encs a).length + new + (encs b).length)), rfl, ?_, ?_, ?_⟩
  · simp only [List.length_append, List.length_take, List.length_drop]; omega
  · rw [htake]; simp
  · refine ⟨_, _, rfl, ?_⟩
    rw [List.length_take]
    simp only [List.length_append]
    omega

/-- The end of `np_set_data`, for an entry whose size is right. -/
theorem store_exact {H : Header} {p m t : List Byte} {k : Key} {v : Value} {h' : Header} (hm : m.length = (enc k v).length) (ht : 21 ≤ h'.total) :
    store (headerBytes H ++ (p ++ (m ++ t))) k v (21 + p.length) (enc k v).length h' = .ok (.ok, headerBytes h' ++ (p ++ (enc k v ++ t))) := by
  have hl := headerBytes_length H
  unfold store
  have he : emit (enc k v).length (pieces k v) = (enc k v, true) := emit_fits (Nat.le_refl _)
  simp only [he]
  have hw : writeAt (headerBytes H ++ (p ++ (m ++ t))) (21 + p.length) (enc k v) = .ok (headerBytes H ++ (p ++ (enc k v ++ t))) := by
    have e1 : headerBytes H ++ (p ++ (m ++ t)) = (headerBytes H ++ p) ++ (m ++ t) := by simp
    have e2 : 21 + p.length = (headerBytes H ++ p).length := by rw [List.length_append, hl]
    rw [e1, e2, writeAt_prefix (by rw [List.length_append]; omega), ← hm, List.drop_left]
    simp
  rw [hw]
  simp only [ne_eq, not_true_eq_false, if_false, if_true]
  exact writeHeader_ok ht

/-- Writing never leaves the block. -/
theorem store_within {buf : List Byte} {k : Key} {v : Value} {start new : Nat} {h' : Header} (hs : start + new ≤ buf.length) (hl : 21 ≤ buf.length)
    (ht : h'.total = buf.length) :
    store buf k v start new h' = .error .abort ∨ ∃ r c, store buf k v start new h' = .ok (r, c) ∧ c.length = buf.length := by
  unfold store
  have he := emit_length new (pieces k v)
  cases hw : writeAt buf start (emit new (pieces k v)).1 with
  | error f =>
    rw [writeAt_ok (by omega)] at hw
    simp at hw
  | ok b =>
    have hb := writeAt_length hw
    simp only [hw]
    by_cases h1 : (emit new (pieces k v)).2 = true
    · rw [if_pos h1]
      by_cases h2 : (emit new (pieces k v)).1.length ≠ new
      · rw [if_pos h2]
        exact Or.inl rfl
      · rw [if_neg h2]
        right
        unfold writeHeader
        rw [if_neg (by simp only [headerSize]; omega), writeAt_ok (by rw [headerBytes_length]; omega)]
        refine ⟨_, _, rfl, ?_⟩
        simp only [List.length_append, List.length_take, List.length_drop, headerBytes_length]
        omega
    · rw [if_neg h1]
      exact Or.inr ⟨_, _, rfl, hb⟩

/-! ## Setting a regular entry -/

/-- The bytes available for the entry of a key. -/
def room (buf : List Byte) (es : List (Key × Value)) (k : Key) : Nat :=
  buf.length - (21 + (encs es).length) + match lookup k es with | some w => entrySize k w | none => 0

/-- `Repr` without the bound on the number of objects. -/
structure Shape (buf : List Byte) (es : List (Key × Value)) : Prop where
  nodup : (es.map Prod.fst).Nodup
  regular : ∀ e ∈ es, Regular e.1 e.2
  len : buf.length < 4294967296
  bytes : ∃ rest, buf = headerBytes { total := buf.length, used := 21 + (encs es).length, count := es.length } ++ (encs es ++ rest)

theorem Repr.put {buf : List Byte} {es : List (Key × Value)} (h : Repr buf es) {k : Key} {v : Value} (hr : Regular k v) :
    (entrySize k v ≤ room buf es k → ∃ buf', setData buf k v = .ok (.ok, buf') ∧ Shape buf' (Np.Data.put k v es) ∧ buf'.length = buf.length) ∧
    (room buf es k < entrySize k v → setData buf k v = .ok (.insufficientMemory, buf)) := by
  have hu := h.used_le
  have hl := h.len
  have hsz := objectSize_regular hr
  rw [← enc_length]
  by_cases hk : k ∈ es.map Prod.fst
  · rcases mem_split hk with ⟨a, w, b, he, hka⟩
    subst he
    have hroom : room buf (a ++ (k, w) :: b) k = buf.length - (21 + (encs (a ++ (k, w) :: b)).length) + (enc k w).length := by
      unfold room
      rw [lookup_some hka, enc_length]
    have hset := h.set_old v
    rw [hsz] at hset
    simp only [] at hset
    rw [hset, hroom]
    constructor
    · intro hle
      rw [if_neg (by omega)]
      rcases h.moved hle with ⟨c, q, h1, h2, h3, m, t, h4, h5⟩
      rw [h1]
      simp only []
      rw [h3, h4, store_exact h5 (by simp only []; omega)]
      have henc : (encs (a ++ (k, v) :: b)).length = (encs a).length + ((enc k v).length + (encs b).length) := by
        rw [encs_append, encs_cons, List.length_append, List.length_append]
      have henc' : (encs (a ++ (k, w) :: b)).length = (encs a).length + ((enc k w).length + (encs b).length) := by
        rw [encs_append, encs_cons, List.length_append, List.length_append]
      have hlen : (headerBytes (Header.mk buf.length (21 + (encs (a ++ (k, w) :: b)).length + (enc k v).length - (enc k w).length)
          (a ++ (k, w) :: b).length) ++ (encs a ++ (enc k v ++ (encs b ++ t)))).length = buf.length := by
        have e1 := congrArg List.length h3
        rw [h4] at e1
        simp only [List.length_append, headerBytes_length] at e1 ⊢
        omega
      refine ⟨_, rfl, ?_, hlen⟩
      rw [put_old hka]
      refine ⟨?_, ?_, by rw [hlen]; exact hl, t, ?_⟩
      · have := h.nodup
        simpa using this
      · intro e he
        rw [List.mem_append, List.mem_cons] at he
        rcases he with he | he | he
        · exact h.regular e (by simp [he])
        · rw [he]; exact hr
        · exact h.regular e (by simp [he])
      · rw [hlen]
        have e1 : 21 + (encs (a ++ (k, w) :: b)).length + (enc k v).length - (enc k w).length = 21 + (encs (a ++ (k, v) :: b)).length := by omega
        have e2 : (a ++ (k, w) :: b).length = (a ++ (k, v) :: b).length := by simp
        rw [e1, e2, encs_append, encs_cons]
        simp
    · intro hlt
      rw [if_pos (by omega)]
  · have hroom : room buf es k = buf.length - (21 + (encs es).length) := by
      unfold room
      rw [lookup_none hk]
      rfl
    have hset := h.set_new hk v
    rw [hsz] at hset
    simp only [] at hset
    rw [hset, hroom]
    constructor
    · intro hle
      rw [if_neg (by omega)]
      rcases h.bytes with ⟨rest, e⟩
      have hbl := congrArg List.length e
      simp only [List.length_append, headerBytes_length] at hbl
      have hsplit : rest = rest.take (enc k v).length ++ rest.drop (enc k v).length := (List.take_append_drop _ _).symm
      have hml : (rest.take (enc k v).length).length = (enc k v).length := by rw [List.length_take]; omega
      have hst := store_exact (H := { total := buf.length, used := 21 + (encs es).length, count := es.length }) (p := encs es)
        (t := rest.drop (enc k v).length) (h' := { total := buf.length, used := 21 + (encs es).length + (enc k v).length, count := es.length + 1 })
        hml (by simp only []; omega)
      rw [← hsplit, ← e] at hst
      rw [hst]
      have hlen : (headerBytes { total := buf.length, used := 21 + (encs es).length + (enc k v).length, count := es.length + 1 } ++
          (encs es ++ (enc k v ++ rest.drop (enc k v).length))).length = buf.length := by
        simp only [List.length_append, headerBytes_length, List.length_drop]
        omega
      refine ⟨_, rfl, ?_, hlen⟩
      rw [put_new hk]
      refine ⟨?_, ?_, by rw [hlen]; exact hl, rest.drop (enc k v).length, ?_⟩
      · rw [List.map_append, List.nodup_append]
        refine ⟨h.nodup, by simp, ?_⟩
        intro x hx y hy e
        simp only [List.map_cons, List.map_nil, List.mem_singleton] at hy
        rw [e, hy] at hx
        exact hk hx
      · intro e he
        rw [List.mem_append, List.mem_singleton] at he
        rcases he with he | he
        · exact h.regular e he
        · rw [he]; exact hr
      · rw [hlen]
        have e1 : 21 + (encs es).length + (enc k v).length = 21 + (encs (es ++ [(k, v)])).length := by
          rw [encs_append, encs_cons, encs_nil]
          simp only [List.length_append, List.length_nil]
          omega
        rw [e1, encs_append, encs_cons]
        simp
    · intro hlt
      rw [if_pos (by omega)]

theorem put_length {k : Key} {v : Value} {es : List (Key × Value)} :
    (put k v es).length = if k ∈ es.map Prod.fst then es.length else es.length + 1 := by
  by_cases hk : k ∈ es.map Prod.fst
  · rw [if_pos hk]
    rcases mem_split hk with ⟨a, w, b, he, hka⟩
    rw [he, put_old hka]
    simp
  · rw [if_neg hk, put_new hk]
    simp

theorem Repr.set {buf : List Byte} {es : List (Key × Value)} (h : Repr buf es) {k : Key} {v : Value} (hr : Regular k v)
    (hc : k ∈ es.map Prod.fst ∨ es.length + 1 < 65536) :
    (entrySize k v ≤ room buf es k → ∃ buf', setData buf k v = .ok (.ok, buf') ∧ Repr buf' (Np.Data.put k v es) ∧ buf'.length = buf.length) ∧
    (room buf es k < entrySize k v → setData buf k v = .ok (.insufficientMemory, buf)) := by
  refine ⟨fun hle => ?_, (h.put hr).2⟩
  rcases (h.put hr).1 hle with ⟨buf', h1, h2, h3⟩
  have hcount := h.count
  refine ⟨buf', h1, ⟨h2.nodup, h2.regular, ?_, h2.len, h2.bytes⟩, h3⟩
  rw [put_length]
  split
  · omega
  · rename_i hk
    rcases hc with hc | hc
    · exact absurd hc hk
    · omega

/-! ## A new block -/

theorem init_repr {buf : List Byte} (h1 : 21 ≤ buf.length) (h2 : buf.length < 4294967296) :
    ∃ b, init buf = .ok (.ok, b) ∧ b.length = buf.length ∧ Repr b [] := by
  unfold init writeHeader
  rw [if_neg (by simp only [headerSize]; omega), writeAt_ok (by rw [headerBytes_length, List.length_replicate]; omega)]
  have hlen : (headerBytes { total := buf.length, used := headerSize, count := 0 } ++ (List.replicate buf.length (0 : Byte)).drop 21).length = buf.length := by
    simp only [List.length_append, headerBytes_length, List.length_drop, List.length_replicate]
    omega
  refine ⟨_, rfl, ?_, ?_⟩
  · simp only [List.take_zero, List.nil_append, headerBytes_length, Nat.zero_add]
    exact hlen
  · simp only [List.take_zero, List.nil_append, headerBytes_length, Nat.zero_add]
    refine ⟨by simp, by simp, by simp, by rw [hlen]; exact h2, (List.replicate buf.length (0 : Byte)).drop 21, ?_⟩
    rw [hlen]
    rfl

end Np.Data
