import Verif.Data.Lemmas3

set_option linter.unusedVariables false
set_option linter.unusedSimpArgs false

/-! # More than 65535 objects -/
namespace Np.Data

open Np.Cbor
open _root_.Np.Data.Spec

theorem readObject_nil : readObject [] = .ok none := by
  unfold readObject getNext
  have : getItem 4 none [] = none := by decide
  rw [this]

theorem readObject_shorter {b r : List Byte} {k : Key} {v : Value} (h : readObject b = .ok (some (k, v, r))) : r.length < b.length := by
  unfold readObject at h
  cases h1 : getNext b with
  | none => rw [h1] at h; simp at h
  | some x =>
    rcases x with ⟨i, t, r1⟩
    have l1 := getItem_shorter h1
    simp only [] at l1
    rw [h1] at h
    simp only [] at h
    cases h2 : keyOf i with
    | error f => rw [h2] at h; simp at h
    | ok k' =>
      rw [h2] at h
      simp only [] at h
      cases h3 : getNext r1 with
      | none => rw [h3] at h; simp at h
      | some y =>
        rcases y with ⟨j, t', s⟩
        have l2 := getItem_shorter h3
        simp only [] at l2
        rw [h3] at h
        simp only [] at h
        split at h
        · simp at h
        · simp at h
        · simp only [Except.ok.injEq, Option.some.injEq, Prod.mk.injEq] at h
          rw [← h.2.2]
          omega

theorem readObject_not_hang (b : List Byte) : readObject b ≠ .error .hang := by
  have hk : ∀ i, keyOf i ≠ .error .hang := by
    intro i
    unfold keyOf
    repeat' split
    all_goals simp
  have hv : ∀ i t, valueOf i t ≠ .error .hang := by
    intro i t
    unfold valueOf
    repeat' split
    all_goals simp
  intro h
  unfold readObject at h
  split at h
  · simp at h
  · split at h
    · rename_i f hf
      simp only [Except.error.injEq] at h
      subst h
      exact hk _ hf
    · split at h
      · simp at h
      · split at h
        · rename_i f hf
          simp only [Except.error.injEq] at h
          subst h
          exact hv _ _ hf
        · simp at h
        · simp at h

theorem searchLoop_wrap {k : Key} : ∀ (es : List (Key × Value)) (fuel read off : Nat), es ≠ [] →
    (∀ e ∈ es, IsKey e.1 ∧ Sized e.2) → k ∉ es.map Prod.fst → es.length ≤ fuel → read + es.length = 65536 →
    searchLoop k 65536 fuel read off (encs es) = .error .hang := by
  intro es
  induction es with
  | nil => intro _ _ _ h; exact absurd rfl h
  | cons e r ih =>
    intro fuel read off _ hok hk hf hr
    simp only [List.length_cons] at hr hf
    have he := hok e (by simp)
    unfold searchLoop
    rw [if_pos (by omega), encs_cons, readObject_enc he.1 he.2]
    simp only []
    rw [if_neg (by intro h; exact hk (by simp [h]))]
    cases fuel with
    | zero => rfl
    | succ f =>
      simp only []
      by_cases hr0 : r = []
      · subst hr0
        simp only [List.length_nil] at hr
        have e1 : (read + 1) % 65536 = 0 := by omega
        rw [e1, encs_nil]
        unfold searchLoop
        rw [if_pos (by omega), readObject_nil]
      · have hp := List.length_pos_iff.2 hr0
        rw [Nat.mod_eq_of_lt (by omega)]
        exact ih f (read + 1) _ hr0 (fun x hx => hok x (by simp [hx])) (fun h => hk (by simp only [List.map_cons, List.mem_cons]; exact Or.inr h)) (by omega) (by omega)

theorem Shape.hang {buf : List Byte} {es : List (Key × Value)} (h : Shape buf es) (hc : es.length = 65536) {k : Key} (hk : k ∉ es.map Prod.fst) :
    getData buf k = .error .hang := by
  rcases h.bytes with ⟨rest, e⟩
  have hl := h.len
  have hbl := congrArg List.length e
  simp only [List.length_append, headerBytes_length] at hbl
  have hge := encs_length_ge es
  have hrd : readHeader buf = .ok (.ok, { total := buf.length, used := 21 + (encs es).length, count := es.length }) := by
    have := readHeader_bytes (h := { total := buf.length, used := 21 + (encs es).length, count := es.length }) hl (by simp only []; omega)
      (by simp only []; omega) (encs es ++ rest)
    rw [← e] at this
    exact this
  have hreg : (buf.take (21 + (encs es).length)).drop 21 = encs es := by
    have e1 : buf.take (21 + (encs es).length) =
        headerBytes { total := buf.length, used := 21 + (encs es).length, count := es.length } ++ encs es := by
      have e2 : headerBytes { total := buf.length, used := 21 + (encs es).length, count := es.length } ++ (encs es ++ rest) =
        (headerBytes { total := buf.length, used := 21 + (encs es).length, count := es.length } ++ encs es) ++ rest := by simp
      conv => lhs; rw [e, e2]
      exact List.take_left' (by rw [List.length_append, headerBytes_length])
    rw [e1]
    exact List.drop_left' (headerBytes_length _)
  unfold getData
  rw [hrd]
  simp only []
  unfold search
  simp only []
  rw [if_neg (by omega), if_neg (by simp only [headerSize]; omega)]
  show Except.map _ (searchLoop _ _ _ _ _ (List.drop 21 _)) = _
  rw [hreg, hc, searchLoop_wrap es _ _ _ (by intro h0; rw [h0] at hc; simp at hc) ?_ hk (by omega) (by omega)]
  · rfl
  · intro x hx
    refine ⟨(h.regular x hx).1, sized_of_le (k := x.1) (encs_le hx) (by omega)⟩

theorem run_append : ∀ (a b : List (Key × Value)) (buf c d : List Byte) (r1 r2 : List Ret), run buf a = .ok (r1, c) → run c b = .ok (r2, d) →
    run buf (a ++ b) = .ok (r1 ++ r2, d) := by
  intro a
  induction a with
  | nil =>
    intro b buf c d r1 r2 h1 h2
    simp only [run, Except.ok.injEq, Prod.mk.injEq] at h1
    rw [← h1.1, h1.2]
    exact h2
  | cons op r ih =>
    intro b buf c d r1 r2 h1 h2
    rcases op with ⟨k, v⟩
    rw [List.cons_append]
    unfold run at h1 ⊢
    cases hs : setData buf k v with
    | error f => rw [hs] at h1; simp at h1
    | ok x =>
      rcases x with ⟨ret, b1⟩
      rw [hs] at h1
      simp only [] at h1 ⊢
      cases hr : run b1 r with
      | error f => rw [hr] at h1; simp at h1
      | ok y =>
        rcases y with ⟨rets, e⟩
        rw [hr] at h1
        simp only [Except.ok.injEq, Prod.mk.injEq] at h1
        rw [ih b b1 e d rets r2 hr (by rw [h1.2]; exact h2)]
        simp only []
        rw [← h1.1]
        rfl

theorem run_all_ok : ∀ (ops : List (Key × Value)) (buf : List Byte) (es : List (Key × Value)), Repr buf es → (∀ op ∈ ops, Regular op.1 op.2) →
    ((es ++ ops).map Prod.fst).Nodup → es.length + ops.length < 65536 → 21 + (encs (es ++ ops)).length ≤ buf.length →
    ∃ b, run buf ops = .ok (List.replicate ops.length .ok, b) ∧ b.length = buf.length ∧ Repr b (es ++ ops) := by
  intro ops
  induction ops with
  | nil => intro buf es h _ _ _ _; exact ⟨buf, rfl, rfl, by rw [List.append_nil]; exact h⟩
  | cons op r ih =>
    intro buf es h hr hn hc hl
    rcases op with ⟨k, v⟩
    have hk : k ∉ es.map Prod.fst := by
      intro hm
      rw [List.map_append, List.map_cons] at hn
      exact (List.nodup_append.1 hn).2.2 _ hm _ (by simp) rfl
    simp only [List.length_cons] at hc
    have hrk := hr (k, v) (by simp)
    have he : es ++ (k, v) :: r = (es ++ [(k, v)]) ++ r := by simp
    rw [he] at hn hl
    have hroom : entrySize k v ≤ room buf es k := by
      unfold room
      rw [lookup_none hk]
      simp only [encs_append, encs_cons, encs_nil, List.length_append, List.length_nil, enc_length] at hl
      simp only []
      omega
    rcases (h.set hrk (Or.inr (by omega))).1 hroom with ⟨b1, h1, h2, h3⟩
    rw [put_new hk] at h2
    rcases ih b1 (es ++ [(k, v)]) h2 (fun x hx => hr x (by simp [hx])) hn (by simp; omega) (by omega) with ⟨b, e1, e2, e3⟩
    refine ⟨b, ?_, by omega, by rw [he]; exact e3⟩
    unfold run
    rw [h1]
    simp only []
    rw [e1]
    rfl

/-! ## 65536 keys -/

/-- A key of three characters for a number below 128³. -/
def key3 (i : Nat) : Key := [byte (1 + i % 128), byte (1 + i / 128 % 128), byte (1 + i / 16384 % 128)]

theorem key3_isKey (i : Nat) : IsKey (key3 i) := by
  refine ⟨by simp [key3], ?_⟩
  intro h
  unfold key3 at h
  simp only [List.mem_cons, List.not_mem_nil, or_false] at h
  have hz : ∀ n, n < 256 → (0 : Byte) = byte n → n = 0 := by
    intro n hn he
    have := congrArg BitVec.toNat he
    rw [byte_toNat] at this
    have h0 : (0 : Byte).toNat = 0 := rfl
    omega
  rcases h with h | h | h
  · have := hz _ (by omega) h; omega
  · have := hz _ (by omega) h; omega
  · have := hz _ (by omega) h; omega

theorem byte_inj {a b : Nat} (ha : a < 256) (hb : b < 256) (h : byte a = byte b) : a = b := by
  have := congrArg BitVec.toNat h
  rw [byte_toNat, byte_toNat] at this
  omega

theorem key3_inj {i j : Nat} (hi : i < 2097152) (hj : j < 2097152) (h : key3 i = key3 j) : i = j := by
  unfold key3 at h
  simp only [List.cons.injEq, and_true] at h
  have h1 := byte_inj (by omega) (by omega) h.1
  have h2 := byte_inj (by omega) (by omega) h.2.1
  have h3 := byte_inj (by omega) (by omega) h.2.2
  omega

/-- That many empty values. -/
def many (n : Nat) : List (Key × Value) := (List.range n).map fun i => (key3 i, .bin [])

theorem many_regular (n : Nat) : ∀ op ∈ many n, Regular op.1 op.2 := by
  intro op h
  rcases List.mem_map.1 h with ⟨i, _, e⟩
  rw [← e]
  exact ⟨key3_isKey i, by simp [key3], by simp⟩

theorem many_keys (n : Nat) : (many n).map Prod.fst = (List.range n).map key3 := by
  unfold many
  rw [List.map_map]
  rfl

theorem many_mem {n i : Nat} (hn : n ≤ 2097152) (hi : i < 2097152) : key3 i ∈ (many n).map Prod.fst ↔ i < n := by
  rw [many_keys, List.mem_map]
  constructor
  · rintro ⟨j, hj, e⟩
    rw [List.mem_range] at hj
    rw [← key3_inj (by omega) hi e]
    exact hj
  · intro h
    exact ⟨i, List.mem_range.2 h, rfl⟩

theorem many_nodup {n : Nat} (hn : n ≤ 2097152) : ((many n).map Prod.fst).Nodup := by
  induction n with
  | zero => simp [many]
  | succ m ih =>
    rw [many_keys, List.range_succ, List.map_append, ← many_keys, List.nodup_append]
    refine ⟨ih (by omega), by simp, ?_⟩
    intro x hx y hy e
    simp only [List.map_cons, List.map_nil, List.mem_singleton] at hy
    rw [e, hy, many_mem (by omega) (by omega)] at hx
    omega

theorem many_size (n : Nat) : (encs (many n)).length = 5 * n := by
  induction n with
  | zero => rfl
  | succ m ih =>
    have : many (m + 1) = many m ++ [(key3 m, .bin [])] := by unfold many; rw [List.range_succ, List.map_append]; rfl
    rw [this, encs_append, List.length_append, ih, encs_cons, encs_nil, List.append_nil, enc_length]
    simp [entrySize, headSize, key3]
    omega

theorem many_succ (m : Nat) : many (m + 1) = many m ++ [(key3 m, .bin [])] := by unfold many; rw [List.range_succ, List.map_append]; rfl

theorem many_hang {n : Nat} (mem b0 : List Byte) (hm : mem.length = n) (h1 : 327701 ≤ n) (h2 : n < 4294967296) (hi : init mem = .ok (.ok, b0)) :
    ∃ b, run b0 (many 65536) = .ok (List.replicate 65536 .ok, b) ∧ getData b (key3 65536) = .error .hang := by
  rcases init_repr (buf := mem) (by omega) (by omega) with ⟨b, e1, e2, e3⟩
  rw [hi] at e1
  have eb : b0 = b := (Prod.mk.inj (Except.ok.inj e1)).2
  subst eb
  have hlm : ∀ m, (many m).length = m := by intro m; simp [many]
  have hsplit : many 65536 = many 65535 ++ [(key3 65535, .bin [])] := many_succ 65535
  rcases run_all_ok (many 65535) b0 [] e3 (many_regular _) (by rw [List.nil_append]; exact many_nodup (by omega)) (by rw [hlm]; simp)
    (by rw [List.nil_append, many_size]; omega) with ⟨b1, f1, f2, f3⟩
  rw [List.nil_append] at f3
  have hreg := many_regular 65536 (key3 65535, .bin []) (by rw [hsplit]; simp)
  have hk : key3 65535 ∉ (many 65535).map Prod.fst := by rw [many_mem (by omega) (by omega)]; omega
  have hroom : entrySize (key3 65535) (.bin []) ≤ room b1 (many 65535) (key3 65535) := by
    unfold room
    rw [lookup_none hk, many_size]
    have : entrySize (key3 65535) (.bin []) = 5 := by simp [entrySize, headSize, key3]
    rw [this]
    simp only []
    omega
  rcases (f3.put hreg).1 hroom with ⟨b2, g1, g2, g3⟩
  rw [put_new hk, ← hsplit] at g2
  refine ⟨b2, ?_, g2.hang (hlm _) (by rw [many_mem (by omega) (by omega)]; omega)⟩
  have hlast : run b1 [(key3 65535, .bin [])] = .ok ([.ok], b2) := by unfold run; rw [g1]; rfl
  have hall := run_append _ _ _ _ _ _ _ f1 hlast
  rw [← hsplit, hlm] at hall
  rw [hall, ← List.replicate_succ']

end Np.Data
