import Verif.Ser.Lemmas2

set_option linter.unusedVariables false
set_option linter.unusedSimpArgs false

/-! # Sizes -/
namespace Np.Ser

open Np.Tree (Name Tree Op Elem)
open Np.Tree.Spec (Kind Less Op.name)
open Np.Cbor
open _root_.Np.Ser.Spec

/-! ## Writing succeeds -/

mutual
theorem writeVal_some (lib : Lib) : ∀ v : Val, Small v → ∀ d, levels v ≤ d → ∃ n b, writeVal lib d v = some (n, b) ∧ n ≤ 1
  | .pair _ _, _, d, hd => by
    simp only [levels] at hd
    exact ⟨1, _, by rw [writeVal, if_neg (by omega)], by omega⟩
  | .dhkey _, _, d, hd => by
    simp only [levels] at hd
    exact ⟨1, _, by rw [writeVal, if_neg (by omega)], by omega⟩
  | .tree w es, h, d, hd => by
    simp only [levels] at hd
    simp only [Small] at h
    cases d with
    | zero => omega
    | succ d =>
      rcases writeEnts_some lib es h.2 d (by omega) with ⟨n, b, e, hn⟩
      refine ⟨1, wrapBytes w ++ (tag 20 ++ (head 5 (n / 2) ++ b)), ?_, by omega⟩
      rw [writeVal]
      simp only [e]
      rw [if_neg (by unfold maxItems; omega)]
  | .other _, _, d, _ => ⟨0, [], rfl, by omega⟩
  | .short _, _, d, _ => ⟨1, _, rfl, by omega⟩
  | .int _, _, d, _ => ⟨1, _, rfl, by omega⟩
  | .long _, _, d, _ => ⟨1, _, rfl, by omega⟩
  | .llong _, _, d, _ => ⟨1, _, rfl, by omega⟩
  | .flt _, _, d, _ => ⟨1, _, rfl, by omega⟩
  | .dbl _, _, d, _ => ⟨1, _, rfl, by omega⟩
  | .str _, _, d, _ => ⟨1, _, rfl, by omega⟩
  | .char _, _, d, _ => ⟨1, _, rfl, by omega⟩
  | .ushort _, _, d, _ => ⟨1, _, rfl, by omega⟩
  | .uint _, _, d, _ => ⟨1, _, rfl, by omega⟩
  | .ulong _, _, d, _ => ⟨1, _, rfl, by omega⟩
  | .ullong _, _, d, _ => ⟨1, _, rfl, by omega⟩
  | .bin _, _, d, _ => ⟨1, _, rfl, by omega⟩
  | .hash _, _, d, _ => ⟨1, _, rfl, by omega⟩
theorem writeEnts_some (lib : Lib) : ∀ es : Ents, AllSmall es → ∀ d, levelsOf es ≤ d → ∃ n b, writeEnts lib d es = some (n, b) ∧ n ≤ 2 * es.list.length
  | .nil, _, d, _ => ⟨0, [], rfl, by omega⟩
  | .cons n v es, h, d, hd => by
    simp only [levelsOf] at hd
    rcases writeEnts_some lib es h.2 d (by omega) with ⟨k, b, e, hk⟩
    rcases writeVal_some lib v h.1 d (by omega) with ⟨j, vb, e2, hj⟩
    have hl : (Ents.cons n v es).list.length = es.list.length + 1 := rfl
    rw [writeEnts, e]
    cases n with
    | uuid u => exact ⟨k, b, rfl, by omega⟩
    | dhkey q =>
      refine ⟨1 + j + k, dhkeyBytes q ++ (vb ++ b), ?_, by omega⟩
      simp only [keyBytes, e2]
      rw [if_neg (by simp only [keyLevels] at hd; omega)]
    | int i => exact ⟨1 + j + k, _, by simp only [keyBytes, e2]; rfl, by omega⟩
    | dbl i => exact ⟨1 + j + k, _, by simp only [keyBytes, e2]; rfl, by omega⟩
    | str i => exact ⟨1 + j + k, _, by simp only [keyBytes, e2]; rfl, by omega⟩
    | ulong i => exact ⟨1 + j + k, _, by simp only [keyBytes, e2]; rfl, by omega⟩
end

/-! ## The bytes written are not more than computed -/

theorem tag_length {type : Nat} (h : type < 100) : (tag type).length = 3 := by
  unfold tag
  rw [head_length]
  repeat' split
  all_goals omega

theorem head_extra (m n : Nat) : (head m n).length = 1 + extra n := by
  rw [head_length]
  unfold extra
  repeat' split
  all_goals omega

theorem extra_mono {a b : Nat} (h : a ≤ b) : extra a ≤ extra b := by
  unfold extra
  repeat' split
  all_goals omega

theorem intItem_length (v : Int) : (intItem v).length ≤ 1 + extra v.natAbs := by
  unfold intItem
  split
  · rw [head_extra]
    have : v.toNat = v.natAbs := by omega
    rw [this]
    omega
  · rw [head_extra]
    have := extra_mono (show (-1 - v).toNat ≤ v.natAbs by omega)
    omega

theorem dhkeyBytes_length (k : Dhkey) : (dhkeyBytes k).length = 44 := by
  unfold dhkeyBytes
  rw [List.length_append, tag_length (by decide), List.length_append, head_length]
  simp [Dhkey.words, head4_length]

theorem keyBytes_length {lib : Lib} (hs : Short lib) {d : Nat} {n : Name} {kb : List Byte} (h : keyBytes lib d n = some kb)
    (hl : ∀ s, n = .str s → s.length ≤ 255) : kb.length ≤ keySize n := by
  cases n with
  | int i =>
    simp only [keyBytes, Option.some.injEq] at h
    subst h
    rw [List.length_append, tag_length (by decide)]
    have := intItem_length i.toInt
    have := BitVec.le_toInt i
    have := BitVec.toInt_lt (x := i)
    simp only [keySize]
    unfold extra at *
    repeat' split at *
    all_goals omega
  | dbl x =>
    simp only [keyBytes, Option.some.injEq] at h
    subst h
    exact hs.dbl x
  | str s =>
    simp only [keyBytes, Option.some.injEq] at h
    subst h
    have := hl s rfl
    simp only [List.length_append, head_extra, textBytes, List.length_map, keySize]
    rw [Nat.min_eq_left this]
    omega
  | ulong u =>
    simp only [keyBytes, Option.some.injEq] at h
    subst h
    rw [List.length_append, tag_length (by decide), head_length]
    have := u.isLt
    simp only [keySize]
    repeat' split
    all_goals omega
  | dhkey k =>
    simp only [keyBytes] at h
    split at h
    · cases h
    · cases h
      rw [dhkeyBytes_length]
      simp only [keySize, Nat.le_refl]
  | uuid u =>
    simp only [keyBytes, Option.some.injEq] at h
    subst h
    simp

theorem wrapBytes_length (w : Wrap) : (wrapBytes w).length ≤ wrapSize w := by cases w <;> decide

theorem items_le (lib : Lib) (v : Val) (d : Nat) {n : Nat} {b : List Byte} (h : writeVal lib d v = some (n, b)) : n ≤ 1 := by
  cases v with
  | tree w es =>
    cases d with
    | zero => simp [writeVal] at h
    | succ d =>
      rw [writeVal] at h
      cases hes : writeEnts lib d es with
      | none => rw [hes] at h; cases h
      | some q =>
        rw [hes] at h
        simp only [] at h
        split at h
        · cases h
        · simp only [Option.some.injEq, Prod.mk.injEq] at h
          omega
  | pair x y =>
    simp only [writeVal] at h
    split at h
    · cases h
    · simp only [Option.some.injEq, Prod.mk.injEq] at h; omega
  | dhkey k =>
    simp only [writeVal] at h
    split at h
    · cases h
    · simp only [Option.some.injEq, Prod.mk.injEq] at h; omega
  | _ => simp only [writeVal, Option.some.injEq, Prod.mk.injEq] at h; omega

mutual
theorem valSize_bound {lib : Lib} (hs : Short lib) : ∀ v : Val, Counted v → ∀ d n b, writeVal lib d v = some (n, b) → b.length ≤ valSize v
  | .short v, _, d, n, b, h => by
    simp only [writeVal, Option.some.injEq, Prod.mk.injEq] at h
    obtain ⟨rfl, rfl⟩ := h
    rw [List.length_append, tag_length (by decide)]
    have := intItem_length v.toInt
    have := BitVec.le_toInt v
    have := BitVec.toInt_lt (x := v)
    rw [valSize]
    unfold extra at *
    repeat' split at *
    all_goals omega
  | .int v, _, d, n, b, h => by
    simp only [writeVal, Option.some.injEq, Prod.mk.injEq] at h
    obtain ⟨rfl, rfl⟩ := h
    rw [List.length_append, tag_length (by decide)]
    have := intItem_length v.toInt
    have := BitVec.le_toInt v
    have := BitVec.toInt_lt (x := v)
    rw [valSize]
    unfold extra at *
    repeat' split at *
    all_goals omega
  | .long v, _, d, n, b, h => by
    simp only [writeVal, Option.some.injEq, Prod.mk.injEq] at h
    obtain ⟨rfl, rfl⟩ := h
    rw [List.length_append, tag_length (by decide)]
    have := intItem_length v.toInt
    have := BitVec.le_toInt v
    have := BitVec.toInt_lt (x := v)
    rw [valSize]
    unfold extra at *
    repeat' split at *
    all_goals omega
  | .llong v, _, d, n, b, h => by
    simp only [writeVal, Option.some.injEq, Prod.mk.injEq] at h
    obtain ⟨rfl, rfl⟩ := h
    rw [List.length_append, tag_length (by decide)]
    have := intItem_length v.toInt
    rw [valSize]
    omega
  | .flt v, _, d, n, b, h => by
    simp only [writeVal, Option.some.injEq, Prod.mk.injEq] at h
    obtain ⟨rfl, rfl⟩ := h
    exact hs.flt v
  | .dbl v, _, d, n, b, h => by
    simp only [writeVal, Option.some.injEq, Prod.mk.injEq] at h
    obtain ⟨rfl, rfl⟩ := h
    exact hs.dbl v
  | .str s, _, d, n, b, h => by
    simp only [writeVal, Option.some.injEq, Prod.mk.injEq] at h
    obtain ⟨rfl, rfl⟩ := h
    rw [List.length_append, head_extra]
    rw [valSize]
    omega
  | .char c, _, d, n, b, h => by
    simp only [writeVal, Option.some.injEq, Prod.mk.injEq] at h
    obtain ⟨rfl, rfl⟩ := h
    rw [List.length_append, head_extra]
    rw [valSize]; unfold extra
    simp
  | .ushort v, _, d, n, b, h => by
    simp only [writeVal, Option.some.injEq, Prod.mk.injEq] at h
    obtain ⟨rfl, rfl⟩ := h
    rw [List.length_append, tag_length (by decide), head_length]
    have := v.isLt
    rw [valSize]
    repeat' split
    all_goals omega
  | .uint v, hc, d, n, b, h => by
    simp only [writeVal, Option.some.injEq, Prod.mk.injEq] at h
    obtain ⟨rfl, rfl⟩ := h
    simp only [Counted] at hc
    rw [List.length_append, tag_length (by decide), head_length]
    have hi : v.toInt = v.toNat := by rw [BitVec.toInt_eq_toNat_cond, if_pos (by omega)]
    rw [valSize]
    rw [hi]
    repeat' split
    all_goals omega
  | .ulong v, _, d, n, b, h => by
    simp only [writeVal, Option.some.injEq, Prod.mk.injEq] at h
    obtain ⟨rfl, rfl⟩ := h
    rw [List.length_append, tag_length (by decide), head_length]
    have := v.isLt
    rw [valSize]
    repeat' split
    all_goals omega
  | .ullong v, _, d, n, b, h => by
    simp only [writeVal, Option.some.injEq, Prod.mk.injEq] at h
    obtain ⟨rfl, rfl⟩ := h
    rw [List.length_append, tag_length (by decide), head_extra]
    rw [valSize]
    omega
  | .pair x y, _, d, n, b, h => by
    simp only [writeVal] at h
    split at h
    · cases h
    · simp only [Option.some.injEq, Prod.mk.injEq] at h
      obtain ⟨rfl, rfl⟩ := h
      simp only [List.length_append, tag_length (show 14 < 100 by decide), head_length 4 2, head_length 0]
      have := x.isLt
      have := y.isLt
      rw [valSize]
      repeat' split
      all_goals omega
  | .bin s, hc, d, n, b, h => by
    simp only [writeVal, Option.some.injEq, Prod.mk.injEq] at h
    obtain ⟨rfl, rfl⟩ := h
    simp only [Counted] at hc
    rw [List.length_append, head_length]
    rw [valSize]
    repeat' split
    all_goals omega
  | .hash s, hc, d, n, b, h => by
    simp only [writeVal, Option.some.injEq, Prod.mk.injEq] at h
    obtain ⟨rfl, rfl⟩ := h
    simp only [Counted] at hc
    simp only [List.length_append, tag_length (show 23 < 100 by decide), head_length]
    rw [valSize]
    repeat' split
    all_goals omega
  | .dhkey k, _, d, n, b, h => by
    simp only [writeVal] at h
    split at h
    · cases h
    · simp only [Option.some.injEq, Prod.mk.injEq] at h
      obtain ⟨rfl, rfl⟩ := h
      rw [dhkeyBytes_length]
      rw [valSize]
      omega
  | .tree w es, hc, d, n, b, h => by
    simp only [Counted] at hc
    cases d with
    | zero => simp [writeVal] at h
    | succ d =>
      rw [writeVal] at h
      cases hes : writeEnts lib d es with
      | none => rw [hes] at h; cases h
      | some q =>
        rcases q with ⟨k, eb⟩
        rw [hes] at h
        simp only [] at h
        split at h
        · cases h
        · simp only [Option.some.injEq, Prod.mk.injEq] at h
          obtain ⟨rfl, rfl⟩ := h
          rcases entsSize_bound hs es hc d k eb hes with ⟨h1, h2⟩
          simp only [List.length_append, tag_length (show 20 < 100 by decide), head_extra]
          have h3 := wrapBytes_length w
          have h4 := extra_mono (show k / 2 ≤ es.list.length by omega)
          rw [valSize]
          omega
  | .other type, _, d, n, b, h => by
    simp only [writeVal, Option.some.injEq, Prod.mk.injEq] at h
    obtain ⟨rfl, rfl⟩ := h
    simp
theorem entsSize_bound {lib : Lib} (hs : Short lib) : ∀ es : Ents, AllCounted es → ∀ d k b, writeEnts lib d es = some (k, b) →
    k ≤ 2 * es.list.length ∧ b.length ≤ entsSize es
  | .nil, _, d, k, b, h => by
    simp only [writeEnts, Option.some.injEq, Prod.mk.injEq] at h
    obtain ⟨rfl, rfl⟩ := h
    simp
  | .cons n v es, hc, d, k, b, h => by
    simp only [AllCounted] at hc
    rw [writeEnts] at h
    cases hes : writeEnts lib d es with
    | none => rw [hes] at h; cases h
    | some q =>
      rcases q with ⟨k', eb⟩
      rw [hes] at h
      rcases entsSize_bound hs es hc.2.2 d k' eb hes with ⟨h1, h2⟩
      have hl : (Ents.cons n v es).list.length = es.list.length + 1 := rfl
      have hsz : entsSize (Ents.cons n v es) = keySize n + valSize v + entsSize es := rfl
      have main : (match keyBytes lib d n, writeVal lib d v with
          | some kb, some (j, vb) => some (1 + j + k', kb ++ (vb ++ eb))
          | _, _ => none) = some (k, b) → k ≤ 2 * (Ents.cons n v es).list.length ∧ b.length ≤ entsSize (Ents.cons n v es) := by
        intro h
        cases hkb : keyBytes lib d n with
        | none => rw [hkb] at h; cases h
        | some kb =>
          cases hvb : writeVal lib d v with
          | none => rw [hkb, hvb] at h; cases h
          | some q =>
            rcases q with ⟨j, vb⟩
            rw [hkb, hvb] at h
            simp only [Option.some.injEq, Prod.mk.injEq] at h
            obtain ⟨rfl, rfl⟩ := h
            have h3 := keyBytes_length hs hkb hc.1
            have h4 := valSize_bound hs v hc.2.1 d j vb hvb
            have h5 := items_le lib v d hvb
            simp only [List.length_append]
            omega
      cases n with
      | uuid u =>
        simp only [Option.some.injEq, Prod.mk.injEq] at h
        obtain ⟨rfl, rfl⟩ := h
        omega
      | int i => exact main h
      | dbl i => exact main h
      | str i => exact main h
      | ulong i => exact main h
      | dhkey i => exact main h
end

end Np.Ser
