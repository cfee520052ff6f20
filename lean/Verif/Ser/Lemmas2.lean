import Verif.Ser.Lemmas

set_option linter.unusedVariables false
set_option linter.unusedSimpArgs false

/-! # Reading what was written -/
namespace Np.Ser

open Np.Tree (Name Tree Op Elem)
open Np.Tree.Spec (Kind Less Op.name)
open Np.Cbor
open _root_.Np.Ser.Spec

/-- The function that reads a level deeper. -/
def deeperAt (lib : Lib) : Nat → Option (Tree Val → List Byte → Read)
  | 0 => none
  | d + 1 => some (readVal lib d)

theorem readVal_eq (lib : Lib) (d : Nat) : readVal lib d = readItem lib (deeperAt lib d) := by cases d <;> rfl

theorem next_tagged (lib : Lib) (type : Nat) (h : type < 100) (b r : List Byte) : next lib 4 [] (tag type ++ b ++ r) = next lib 3 [31415 + type] (b ++ r) := by
  rw [List.append_assoc]; exact next_tag lib 3 [] (by omega) _

section
variable (lib : Lib) (d : Nat) (t : Tree Val) (r : List Byte)

theorem read_signed {type : Nat} (h : type < 100) {v : Int} (h1 : -9223372036854775808 ≤ v) (h2 : v < 9223372036854775808) :
    readVal lib d t (tag type ++ intItem v ++ r) = .ok (readInt (some (31415 + type)) v, t, r) := by
  rw [readVal_eq]; unfold readItem
  rw [next_tagged lib _ h, next_int lib _ _ h1 h2]
  rfl

theorem read_unsigned {type : Nat} (h : type < 100) {n : Nat} (h2 : n < 9223372036854775808) :
    readVal lib d t (tag type ++ head 0 n ++ r) = .ok (readInt (some (31415 + type)) n, t, r) := by
  rw [readVal_eq]; unfold readItem
  rw [next_tagged lib _ h, next_uint lib _ _ h2]
  rfl

theorem read_text {s : List Byte} (h : s.length < 4294967296) (h1 : s.length ≠ 1) :
    readVal lib d t (head 3 s.length ++ s ++ r) = .ok (.str s, t, r) := by
  rw [readVal_eq]; unfold readItem
  rw [List.append_assoc, next_text lib _ _ (by omega)]
  match s, h1 with
  | [], _ => rfl
  | [c], h1 => exact absurd rfl h1
  | _ :: _ :: _, _ => rfl

theorem read_char (c : Byte) : readVal lib d t (head 3 1 ++ [c] ++ r) = .ok (.char c, t, r) := by
  rw [readVal_eq]; unfold readItem
  have h := next_text lib 4 [] (b := [c]) (by simp) r
  rw [List.length_singleton] at h
  rw [List.append_assoc, h]

theorem read_bin {s : List Byte} (h : s.length < 4294967296) : readVal lib d t (head 2 s.length ++ s ++ r) = .ok (.bin s, t, r) := by
  rw [readVal_eq]; unfold readItem
  rw [List.append_assoc, next_bytes lib _ _ (by omega)]
  rfl

theorem read_hash {s : List Byte} (h : s.length < 4294967296) : readVal lib d t (tag 23 ++ (head 2 s.length ++ s) ++ r) = .ok (.hash s, t, r) := by
  rw [readVal_eq]; unfold readItem
  rw [next_tagged lib _ (by decide), List.append_assoc, next_bytes lib _ _ (by omega)]
  rfl

theorem read_dbl {x : Int} {w : List Byte} (h1 : ∃ b l, w = b :: l ∧ b.toNat / 32 = 7) (h2 : ∀ r, lib.read (w ++ r) = some (x, r)) :
    readVal lib d t (w ++ r) = .ok (.dbl x, t, r) := by
  rw [readVal_eq]; unfold readItem
  rw [next_float lib 4 [] h1 h2]

theorem read_pair (hd : d ≠ 0) (a b : BitVec 16) :
    readVal lib d t (tag 14 ++ (head 4 2 ++ (head 0 a.toNat ++ head 0 b.toNat)) ++ r) = .ok (.pair a b, t, r) := by
  rw [readVal_eq]; unfold readItem
  have ha := a.isLt
  have hb := b.isLt
  rw [next_tagged lib _ (by decide), List.append_assoc, next_array lib _ _ (by decide)]
  have hd' : (deeperAt lib d).isNone = false := by cases d with | zero => exact absurd rfl hd | succ d => rfl
  simp only [hd', Bool.false_eq_true, if_false]
  rw [if_pos (by decide), List.append_assoc, next_uint lib _ _ (by omega)]
  simp only []
  rw [next_uint lib _ _ (by omega)]
  simp only [Body.int64, fit_unsigned]

theorem read_dhkey (hd : d ≠ 0) (k : Dhkey) : readVal lib d t (dhkeyBytes k ++ r) = .ok (.dhkey k, t, r) := by
  rw [readVal_eq]; unfold readItem dhkeyBytes
  rw [next_tagged lib _ (by decide), List.append_assoc, next_array lib _ _ (by decide)]
  have hd' : (deeperAt lib d).isNone = false := by cases d with | zero => exact absurd rfl hd | succ d => rfl
  simp only [hd', Bool.false_eq_true, if_false]
  rw [if_neg (by decide), if_pos (by decide)]
  have := readWords_words lib k.words r
  have hl : k.words.length = 8 := rfl
  rw [hl] at this
  rw [this]
  rfl

end

/-- A key is read back. -/
theorem read_key {lib : Lib} (hf : Faithful lib) {K : Kind} {n : Name} (h1 : K.Admits n) (h2 : KeyTravels n) {d : Nat} {kb : List Byte}
    (hw : keyBytes lib d n = some kb) (t : Tree Val) (r : List Byte) : ∃ key, readVal lib d t (kb ++ r) = .ok (key, t, r) ∧ keyOf key = some n := by
  cases n with
  | int i =>
    simp only [keyBytes, Option.some.injEq] at hw
    subst hw
    have := BitVec.le_toInt i
    have := BitVec.toInt_lt (x := i)
    refine ⟨.int i, ?_, rfl⟩
    rw [read_signed lib d t r (by decide) (by omega) (by omega)]
    simp only [readInt, fit_signed (by decide : 0 < 16)]
  | dbl x =>
    simp only [keyBytes, Option.some.injEq] at hw
    subst hw
    exact ⟨.dbl x, read_dbl lib d t r (hf.first x).1 (hf.dbl x), rfl⟩
  | str s =>
    simp only [keyBytes, Option.some.injEq] at hw
    subst hw
    have hs : s.length ≤ 255 ∧ ∀ b ∈ s, 0 < b ∧ b < 256 := by cases K <;> simp only [Kind.Admits] at h1; exact h1
    refine ⟨.str (textBytes s), ?_, ?_⟩
    · have hl : (textBytes s).length = s.length := by simp [textBytes]
      have := read_text lib d t r (s := textBytes s) (by omega) (by rw [hl]; exact h2)
      rw [hl] at this
      exact this
    · simp only [keyOf, Option.some.injEq, Name.str.injEq]
      have e1 : (textBytes s).map BitVec.toNat = s := by
        unfold textBytes
        rw [List.map_map]
        conv => rhs; rw [← List.map_id s]
        apply List.map_congr_left
        intro b hb
        simp only [Function.comp, byte_toNat, id]
        have := hs.2 b hb
        omega
      rw [e1]
      have : ∀ l : List Nat, (∀ b ∈ l, 0 < b ∧ b < 256) → l.takeWhile (fun x => decide (x ≠ 0)) = l := by
        intro l
        induction l with
        | nil => intro _; rfl
        | cons a l ih =>
          intro h
          have ha := (h a (by simp)).1
          rw [List.takeWhile_cons, if_pos (by simp; omega), ih fun b hb => h b (by simp [hb])]
      exact this s hs.2
  | ulong u =>
    simp only [keyBytes, Option.some.injEq] at hw
    subst hw
    have := u.isLt
    refine ⟨.ulong u, ?_, rfl⟩
    rw [read_unsigned lib d t r (by decide) (by omega)]
    simp only [readInt, fit_unsigned]
  | dhkey k =>
    simp only [keyBytes] at hw
    split at hw
    · cases hw
    · rename_i hd
      cases hw
      exact ⟨.dhkey k, read_dhkey lib d t r hd k, rfl⟩
  | uuid u => exact absurd h2 (by simp [KeyTravels])

theorem wrapOf_spec (lib : Lib) (w : Wrap) (n : Nat) (hn : n ≤ maxItems / 2) (b : List Byte) :
    ∃ tags, next lib 4 [] (wrapBytes w ++ (tag 20 ++ (head 5 n ++ b))) = some (tags, .map (2 * n), b) ∧ tags.head? = some 31435 ∧ wrapOf tags = w := by
  cases w with
  | plain =>
    refine ⟨[31435], ?_, rfl, rfl⟩
    simp only [wrapBytes, List.nil_append, tag]
    rw [next_tag lib 3 [] (by decide), next_map lib _ _ hn]
  | cwt =>
    refine ⟨[31435, 61], ?_, rfl, rfl⟩
    simp only [wrapBytes, tag]
    rw [next_tag lib 3 [] (by decide), next_tag lib 2 _ (by decide), next_map lib _ _ hn]
  | encrypted =>
    refine ⟨[31435, 96], ?_, rfl, rfl⟩
    simp only [wrapBytes, tag]
    rw [next_tag lib 3 [] (by decide), next_tag lib 2 _ (by decide), next_map lib _ _ hn]
  | signed =>
    refine ⟨[31435, 98], ?_, rfl, rfl⟩
    simp only [wrapBytes, tag]
    rw [next_tag lib 3 [] (by decide), next_tag lib 2 _ (by decide), next_map lib _ _ hn]

theorem ordered_tail {K : Kind} {p : Name × Val} {l : List (Name × Val)} (h : Ordered K (p :: l)) : Ordered K l :=
  ⟨fun q hq => h.1 q (by simp [hq]), (List.pairwise_cons.1 h.2).2⟩

mutual
/-- A value that was written is read back. -/
theorem read_write {lib : Lib} (hf : Faithful lib) : ∀ v : Val, Travels v → ∀ d n b, writeVal lib d v = some (n, b) →
    n = 1 ∧ ∀ r, ∃ t', readVal lib d Tree.create (b ++ r) = .ok (v, t', r) ∧
      ∀ w es, v = .tree w es → Tree.Spec.entries t' = es.list ∧ t'.size = es.list.length ∧ t'.immutable = false
  | .short v, h, d, n, b, hw => by
    simp only [writeVal, Option.some.injEq, Prod.mk.injEq] at hw
    obtain ⟨rfl, rfl⟩ := hw
    refine ⟨rfl, fun r => ⟨Tree.create, ?_, by simp⟩⟩
    have := BitVec.le_toInt v
    have := BitVec.toInt_lt (x := v)
    rw [read_signed lib d _ r (by decide) (by omega) (by omega)]
    simp only [readInt, fit_signed (by decide : 0 < 8)]
  | .int v, h, d, n, b, hw => by
    simp only [writeVal, Option.some.injEq, Prod.mk.injEq] at hw
    obtain ⟨rfl, rfl⟩ := hw
    refine ⟨rfl, fun r => ⟨Tree.create, ?_, by simp⟩⟩
    have := BitVec.le_toInt v
    have := BitVec.toInt_lt (x := v)
    rw [read_signed lib d _ r (by decide) (by omega) (by omega)]
    simp only [readInt, fit_signed (by decide : 0 < 16)]
  | .long v, h, d, n, b, hw => by
    simp only [writeVal, Option.some.injEq, Prod.mk.injEq] at hw
    obtain ⟨rfl, rfl⟩ := hw
    refine ⟨rfl, fun r => ⟨Tree.create, ?_, by simp⟩⟩
    have := BitVec.le_toInt v
    have := BitVec.toInt_lt (x := v)
    rw [read_signed lib d _ r (by decide) (by omega) (by omega)]
    simp only [readInt, fit_signed (by decide : 0 < 32)]
  | .llong v, h, d, n, b, hw => by
    simp only [writeVal, Option.some.injEq, Prod.mk.injEq] at hw
    obtain ⟨rfl, rfl⟩ := hw
    refine ⟨rfl, fun r => ⟨Tree.create, ?_, by simp⟩⟩
    have := BitVec.le_toInt v
    have := BitVec.toInt_lt (x := v)
    rw [read_signed lib d _ r (by decide) (by omega) (by omega)]
    simp only [readInt, BitVec.ofInt_toInt]
  | .flt v, h, d, n, b, hw => by simp only [Travels] at h
  | .dbl v, h, d, n, b, hw => by
    simp only [writeVal, Option.some.injEq, Prod.mk.injEq] at hw
    obtain ⟨rfl, rfl⟩ := hw
    exact ⟨rfl, fun r => ⟨Tree.create, read_dbl lib d _ r (hf.first v).1 (hf.dbl v), by simp⟩⟩
  | .str s, h, d, n, b, hw => by
    simp only [writeVal, Option.some.injEq, Prod.mk.injEq] at hw
    obtain ⟨rfl, rfl⟩ := hw
    simp only [Travels] at h
    exact ⟨rfl, fun r => ⟨Tree.create, read_text lib d _ r h.2.1 h.1, by simp⟩⟩
  | .char c, h, d, n, b, hw => by
    simp only [writeVal, Option.some.injEq, Prod.mk.injEq] at hw
    obtain ⟨rfl, rfl⟩ := hw
    exact ⟨rfl, fun r => ⟨Tree.create, read_char lib d _ r c, by simp⟩⟩
  | .ushort v, h, d, n, b, hw => by
    simp only [writeVal, Option.some.injEq, Prod.mk.injEq] at hw
    obtain ⟨rfl, rfl⟩ := hw
    refine ⟨rfl, fun r => ⟨Tree.create, ?_, by simp⟩⟩
    have := v.isLt
    rw [read_unsigned lib d _ r (by decide) (by omega)]
    simp only [readInt, fit_unsigned]
  | .uint v, h, d, n, b, hw => by
    simp only [writeVal, Option.some.injEq, Prod.mk.injEq] at hw
    obtain ⟨rfl, rfl⟩ := hw
    refine ⟨rfl, fun r => ⟨Tree.create, ?_, by simp⟩⟩
    have := v.isLt
    rw [read_unsigned lib d _ r (by decide) (by omega)]
    simp only [readInt, fit_unsigned]
  | .ulong v, h, d, n, b, hw => by
    simp only [writeVal, Option.some.injEq, Prod.mk.injEq] at hw
    obtain ⟨rfl, rfl⟩ := hw
    refine ⟨rfl, fun r => ⟨Tree.create, ?_, by simp⟩⟩
    have := v.isLt
    rw [read_unsigned lib d _ r (by decide) (by omega)]
    simp only [readInt, fit_unsigned]
  | .ullong v, h, d, n, b, hw => by
    simp only [writeVal, Option.some.injEq, Prod.mk.injEq] at hw
    obtain ⟨rfl, rfl⟩ := hw
    simp only [Travels] at h
    refine ⟨rfl, fun r => ⟨Tree.create, ?_, by simp⟩⟩
    rw [read_unsigned lib d _ r (by decide) h]
    simp only [readInt]
    rw [if_pos (by omega)]
    simp
  | .pair x y, h, d, n, b, hw => by
    simp only [writeVal] at hw
    split at hw
    · cases hw
    · rename_i hd
      simp only [Option.some.injEq, Prod.mk.injEq] at hw
      obtain ⟨rfl, rfl⟩ := hw
      exact ⟨rfl, fun r => ⟨Tree.create, read_pair lib d _ r hd x y, by simp⟩⟩
  | .bin s, h, d, n, b, hw => by
    simp only [writeVal, Option.some.injEq, Prod.mk.injEq] at hw
    obtain ⟨rfl, rfl⟩ := hw
    simp only [Travels] at h
    exact ⟨rfl, fun r => ⟨Tree.create, read_bin lib d _ r h, by simp⟩⟩
  | .hash s, h, d, n, b, hw => by
    simp only [writeVal, Option.some.injEq, Prod.mk.injEq] at hw
    obtain ⟨rfl, rfl⟩ := hw
    simp only [Travels] at h
    exact ⟨rfl, fun r => ⟨Tree.create, read_hash lib d _ r h, by simp⟩⟩
  | .dhkey k, h, d, n, b, hw => by
    simp only [writeVal] at hw
    split at hw
    · cases hw
    · rename_i hd
      simp only [Option.some.injEq, Prod.mk.injEq] at hw
      obtain ⟨rfl, rfl⟩ := hw
      exact ⟨rfl, fun r => ⟨Tree.create, read_dhkey lib d _ r hd k, by simp⟩⟩
  | .tree w es, h, d, n, b, hw => by
    simp only [Travels] at h
    rcases h with ⟨⟨K, hK⟩, hall⟩
    cases d with
    | zero => simp [writeVal] at hw
    | succ d =>
      rw [writeVal] at hw
      cases hes : writeEnts lib d es with
      | none => rw [hes] at hw; cases hw
      | some q =>
        rcases q with ⟨k, eb⟩
        rw [hes] at hw
        simp only [] at hw
        split at hw
        · cases hw
        · rename_i hk
          simp only [Option.some.injEq, Prod.mk.injEq] at hw
          obtain ⟨rfl, rfl⟩ := hw
          rcases reads_write hf es hall hK d k eb hes with ⟨hlen, hread⟩
          rcases rebuild hK with ⟨t, e1, e2, e3, e4⟩
          refine ⟨rfl, fun r => ⟨t, ?_, ?_⟩⟩
          · have hk2 : k / 2 = es.list.length := by omega
            rcases wrapOf_spec lib w (k / 2) (by omega) (eb ++ r) with ⟨tags, g1, g2, g3⟩
            rw [readVal_eq]
            unfold readItem
            simp only [List.append_assoc]
            rw [g1]
            simp only [deeperAt]
            rw [if_pos g2, hk2, Nat.mul_div_cancel_left _ (by decide : 0 < 2), hread Tree.create t e1 r]
            simp only [g3, e2, of_list]
          · intro w' es' he
            cases he
            exact ⟨e2, e3, e4⟩
  | .other _, h, d, n, b, hw => by simp only [Travels] at h
/-- The entries that were written are read back. -/
theorem reads_write {lib : Lib} (hf : Faithful lib) : ∀ es : Ents, AllTravel es → ∀ {K : Kind}, Ordered K es.list → ∀ d k b, writeEnts lib d es = some (k, b) →
    k = 2 * es.list.length ∧ ∀ t t', Tree.run t (inserts es.list) = .ok t' → ∀ r, readPairs (readVal lib d) es.list.length t (b ++ r) = .ok (t', r)
  | .nil, _, K, _, d, k, b, hw => by
    simp only [writeEnts, Option.some.injEq, Prod.mk.injEq] at hw
    obtain ⟨rfl, rfl⟩ := hw
    refine ⟨rfl, fun t t' hr r => ?_⟩
    simp only [Ents.list, inserts, List.map_nil, Tree.run] at hr
    cases hr
    rfl
  | .cons n v es, h, K, hK, d, k, b, hw => by
    have hn : K.Admits n ∧ KeyTravels n := hK.1 (n, v) (by simp [Ents.list])
    rw [writeEnts] at hw
    cases hes : writeEnts lib d es with
    | none => rw [hes] at hw; cases hw
    | some q =>
      rcases q with ⟨k', eb⟩
      rw [hes] at hw
      have hw' : (match keyBytes lib d n, writeVal lib d v with
        | some kb, some (j, vb) => some (1 + j + k', kb ++ (vb ++ eb))
        | _, _ => none) = some (k, b) := by
        cases n <;> first | exact hw | exact absurd hn.2 (by simp [KeyTravels])
      cases hkb : keyBytes lib d n with
      | none => rw [hkb] at hw'; cases hw'
      | some kb =>
        cases hvb : writeVal lib d v with
        | none => rw [hkb, hvb] at hw'; cases hw'
        | some q =>
          rcases q with ⟨j, vb⟩
          rw [hkb, hvb] at hw'
          simp only [Option.some.injEq, Prod.mk.injEq] at hw'
          obtain ⟨rfl, rfl⟩ := hw'
          rcases read_write hf v h.1 d j vb hvb with ⟨hj, hv⟩
          rcases reads_write hf es h.2 (ordered_tail hK) d k' eb hes with ⟨hl, hrd⟩
          refine ⟨by simp only [Ents.list, List.length_cons]; omega, fun t t' hr r => ?_⟩
          rcases insertVal_run hr with ⟨t1, f1, f2⟩
          simp only [Ents.list, List.length_cons, readPairs, List.append_assoc]
          rcases read_key hf hn.1 hn.2 hkb Tree.create (vb ++ (eb ++ r)) with ⟨key, g1, g2⟩
          rw [g1]
          simp only []
          rcases hv (eb ++ r) with ⟨t2, g3, _⟩
          rw [g3]
          simp only [g2, copyVal_same v h.1, f1]
          exact hrd t1 t' f2 r
end

end Np.Ser
