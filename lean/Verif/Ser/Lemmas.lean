import Verif.Ser.Spec
import Verif.Tree.Lemmas2
import Verif.Cbor.Lemmas

set_option linter.unusedVariables false
set_option linter.unusedSimpArgs false

/-! # Lemmas on the serialization of trees -/
namespace Np.Ser

open Np.Tree (Name Tree Op Elem)
open Np.Tree.Spec (Kind Less Op.name)
open Np.Cbor
open _root_.Np.Ser.Spec

/-! ## Rebuilding a tree from its entries -/

theorem sorted_unique {α : Type} : ∀ (a b : List (Name × α)), (∀ x, x ∈ a ↔ x ∈ b) → a.Pairwise (fun x y => Less x.1 y.1) → b.Pairwise (fun x y => Less x.1 y.1) → a = b := by
  intro a
  induction a with
  | nil =>
    intro b hm _ _
    cases b with
    | nil => rfl
    | cons y b => exact absurd ((hm y).2 (by simp)) (by simp)
  | cons x a ih =>
    intro b hm ha hb
    cases b with
    | nil => exact absurd ((hm x).1 (by simp)) (by simp)
    | cons y b =>
      rw [List.pairwise_cons] at ha hb
      have hxy : x = y := by
        rcases List.mem_cons.1 ((hm x).1 (by simp)) with h1 | h1
        · exact h1
        · rcases List.mem_cons.1 ((hm y).2 (by simp)) with h2 | h2
          · exact h2.symm
          · exact absurd (hb.1 x h1) (Tree.less_asymm (ha.1 y h2))
      subst hxy
      rw [ih b ?_ ha.2 hb.2]
      intro z
      constructor
      · intro hz
        rcases List.mem_cons.1 ((hm z).1 (by simp [hz])) with h1 | h1
        · subst h1; exact absurd (ha.1 z hz) (Tree.less_irrefl _)
        · exact h1
      · intro hz
        rcases List.mem_cons.1 ((hm z).2 (by simp [hz])) with h1 | h1
        · subst h1; exact absurd (hb.1 z hz) (Tree.less_irrefl _)
        · exact h1

/-- The calls that insert these entries. -/
def inserts (l : List (Name × Val)) : List (Op Val) := l.map fun p => .insert p.1 p.2

theorem rebuild {K : Kind} {l : List (Name × Val)} (h : Ordered K l) :
    ∃ t : Tree Val, Tree.run Tree.create (inserts l) = .ok t ∧ Tree.Spec.entries t = l ∧ t.size = l.length ∧ t.immutable = false := by
  have ho : ∀ o ∈ inserts l, K.Admits (Op.name o) := by
    intro o ho
    rcases List.mem_map.1 ho with ⟨p, hp, rfl⟩
    exact (h.1 p hp).1
  rcases Tree.good_run (inserts l) (Tree.keeps_empty (V := Val) K false) rfl ho with ⟨t, e1, e2, e3, _⟩
  have hh := e2.holds
  have key : Tree.Spec.entries t = l := by
    refine sorted_unique _ _ ?_ hh.sorted h.2
    rintro ⟨k, v⟩
    rw [hh.same]
    -- the same calls written with elements
    have h1 : inserts l = (l.map fun p => (⟨Tree.stored false p.1, p.2⟩ : Elem Val)).map fun e => Op.insert e.key.name e.val := by
      unfold inserts
      rw [List.map_map]
      apply List.map_congr_left
      intro p hp
      simp only [Function.comp]
      rw [Tree.name_stored (h.1 p hp).1]
    rw [h1, Tree.after_inserts]
    · simp only [reduceCtorEq, false_or, List.mem_map]
      constructor
      · rintro ⟨e, ⟨p, hp, rfl⟩, h2, h3⟩
        simp only at h2 h3
        rw [Tree.name_stored (h.1 p hp).1] at h2
        rw [← h2, ← h3]; exact hp
      · intro hm
        exact ⟨_, ⟨(k, v), hm, rfl⟩, Tree.name_stored (h.1 _ hm).1, rfl⟩
    · rw [List.pairwise_map]
      refine h.2.imp_of_mem ?_
      intro a b ha hb hab
      simp only
      rw [Tree.name_stored (h.1 a ha).1, Tree.name_stored (h.1 b hb).1]
      exact hab
    · intro e _; rfl
  exact ⟨t, e1, key, by rw [hh.size, key], e3⟩

theorem of_list : ∀ es : Ents, Ents.of es.list = es
  | .nil => rfl
  | .cons n v es => by simp only [Ents.list, Ents.of, of_list es]

theorem list_of : ∀ l : List (Name × Val), (Ents.of l).list = l
  | [] => rfl
  | (n, v) :: l => by simp only [Ents.list, Ents.of, list_of l]

/-! ## Copies -/

theorem insertVal_run {t t' : Tree Val} {n : Name} {v : Val} {l : List (Name × Val)} (h : Tree.run t (inserts ((n, v) :: l)) = .ok t') :
    ∃ t1, insertVal t n v = .ok t1 ∧ Tree.run t1 (inserts l) = .ok t' := by
  simp only [inserts, List.map_cons, Tree.run, Tree.step] at h
  unfold insertVal
  cases hi : Tree.insert t n v with
  | error f => rw [hi] at h; cases h
  | ok t1 => rw [hi] at h; exact ⟨t1, rfl, h⟩

mutual
theorem copyVal_same : ∀ v : Val, Travels v → copyVal v = .ok v
  | .tree w es, h => by
    rcases h with ⟨⟨K, hK⟩, h2⟩
    rcases rebuild hK with ⟨t, e1, e2, _, _⟩
    rw [copyVal, copyEnts_same es h2 Tree.create t e1]
    simp only [e2, of_list]
  | .other _, h => by simp only [Travels] at h
  | .short _, _ => rfl
  | .int _, _ => rfl
  | .long _, _ => rfl
  | .llong _, _ => rfl
  | .flt _, _ => rfl
  | .dbl _, _ => rfl
  | .str _, _ => rfl
  | .char _, _ => rfl
  | .ushort _, _ => rfl
  | .uint _, _ => rfl
  | .ulong _, _ => rfl
  | .ullong _, _ => rfl
  | .pair _ _, _ => rfl
  | .bin _, _ => rfl
  | .hash _, _ => rfl
  | .dhkey _, _ => rfl
theorem copyEnts_same : ∀ es : Ents, AllTravel es → ∀ t t', Tree.run t (inserts es.list) = .ok t' → copyEnts t es = .ok t'
  | .nil, _, t, t', h => by simp only [Ents.list, inserts, List.map_nil, Tree.run] at h; cases h; rfl
  | .cons n v es, h, t, t', hr => by
    rcases insertVal_run hr with ⟨t1, e1, e2⟩
    rw [copyEnts, copyVal_same v h.1]
    simp only [e1]
    exact copyEnts_same es h.2 t1 t' e2
end

/-! ## Items -/

theorem next_head (lib : Lib) (fuel : Nat) (tags : List Nat) {m n : Nat} (hm : m < 7) (hn : n < 18446744073709551616) (r : List Byte) :
    next lib fuel tags (head m n ++ r) =
      if m = 0 then some (tags, if n < 9223372036854775808 then .int n else .big n, r)
      else if m = 1 then if n < 9223372036854775808 then some (tags, .int (-1 - n), r) else none
      else if m = 2 then if r.length < n then none else some (tags, .bytes (r.take n), r.drop n)
      else if m = 3 then if r.length < n then none else some (tags, .text (r.take n), r.drop n)
      else if m = 4 then some (tags, .array n, r)
      else if m = 5 then if n > maxItems / 2 then none else some (tags, .map (2 * n), r)
      else match fuel with
        | 0 => none
        | f + 1 => next lib f (n :: tags) r := by
  have h := readHead_head (m := m) (by omega : m < 8) hn r
  cases hl : head m n ++ r with
  | nil => rw [hl] at h; simp [readHead] at h
  | cons x l =>
    rw [hl] at h
    rw [next.eq_def]
    simp only []
    have hx : ¬ x.toNat / 32 = 7 := by
      have h3 : x.toNat / 32 = m := by
        unfold readHead at h
        simp only [] at h
        split at h
        · cases h
        · simp only [Option.some.injEq, Prod.mk.injEq] at h; exact h.1
        · split at h
          · cases h
          · simp only [Option.some.injEq, Prod.mk.injEq] at h; exact h.1
      omega
    rw [if_neg hx, h]
    rfl

theorem next_tag (lib : Lib) (fuel : Nat) (tags : List Nat) {n : Nat} (hn : n < 18446744073709551616) (r : List Byte) :
    next lib (fuel + 1) tags (head 6 n ++ r) = next lib fuel (n :: tags) r := by
  rw [next_head lib _ _ (by decide) hn]; rfl

theorem next_uint (lib : Lib) (fuel : Nat) (tags : List Nat) {n : Nat} (hn : n < 9223372036854775808) (r : List Byte) :
    next lib fuel tags (head 0 n ++ r) = some (tags, .int n, r) := by
  rw [next_head lib _ _ (by decide) (by omega), if_pos rfl, if_pos hn]

theorem next_int (lib : Lib) (fuel : Nat) (tags : List Nat) {v : Int} (h1 : -9223372036854775808 ≤ v) (h2 : v < 9223372036854775808) (r : List Byte) :
    next lib fuel tags (intItem v ++ r) = some (tags, .int v, r) := by
  unfold intItem
  split
  · rename_i h
    rw [next_uint lib _ _ (by omega)]
    congr 4
    omega
  · rename_i h
    rw [next_head lib _ _ (by decide) (by omega), if_neg (by decide), if_pos rfl, if_pos (by omega)]
    congr 4
    omega

theorem next_bytes (lib : Lib) (fuel : Nat) (tags : List Nat) {b : List Byte} (h : b.length < 18446744073709551616) (r : List Byte) :
    next lib fuel tags (head 2 b.length ++ (b ++ r)) = some (tags, .bytes b, r) := by
  rw [next_head lib _ _ (by decide) h, if_neg (by decide), if_neg (by decide), if_pos rfl, if_neg (by simp), List.take_left, List.drop_left]

theorem next_text (lib : Lib) (fuel : Nat) (tags : List Nat) {b : List Byte} (h : b.length < 18446744073709551616) (r : List Byte) :
    next lib fuel tags (head 3 b.length ++ (b ++ r)) = some (tags, .text b, r) := by
  rw [next_head lib _ _ (by decide) h, if_neg (by decide), if_neg (by decide), if_neg (by decide), if_pos rfl, if_neg (by simp), List.take_left, List.drop_left]

theorem next_array (lib : Lib) (fuel : Nat) (tags : List Nat) {n : Nat} (h : n < 18446744073709551616) (r : List Byte) :
    next lib fuel tags (head 4 n ++ r) = some (tags, .array n, r) := by
  rw [next_head lib _ _ (by decide) h, if_neg (by decide), if_neg (by decide), if_neg (by decide), if_neg (by decide), if_pos rfl]

theorem next_map (lib : Lib) (fuel : Nat) (tags : List Nat) {n : Nat} (h : n ≤ maxItems / 2) (r : List Byte) :
    next lib fuel tags (head 5 n ++ r) = some (tags, .map (2 * n), r) := by
  have : n < 18446744073709551616 := by unfold maxItems at h; omega
  rw [next_head lib _ _ (by decide) this, if_neg (by decide), if_neg (by decide), if_neg (by decide), if_neg (by decide), if_neg (by decide), if_pos rfl,
    if_neg (by omega)]

theorem next_float (lib : Lib) (fuel : Nat) (tags : List Nat) {x : Int} {w : List Byte} (h1 : ∃ b l, w = b :: l ∧ b.toNat / 32 = 7)
    (h2 : ∀ r, lib.read (w ++ r) = some (x, r)) (r : List Byte) : next lib fuel tags (w ++ r) = some (tags, .dbl x, r) := by
  rcases h1 with ⟨b, l, rfl, hb⟩
  have := h2 r
  rw [List.cons_append] at this ⊢
  rw [next.eq_def]
  simp only []
  rw [if_pos hb, this]
  rfl

theorem next_word (lib : Lib) (w : BitVec 32) (r : List Byte) : next lib 4 [] (head4 0 w.toNat ++ r) = some ([], .int w.toNat, r) := by
  have h := readHead_head4 (m := 0) (n := w.toNat) (by decide) (by have := w.isLt; omega) r
  unfold head4 at h ⊢
  rw [List.cons_append] at h ⊢
  rw [next.eq_def]
  simp only []
  rw [if_neg (by decide), h]
  have := w.isLt
  simp only []
  rw [if_pos trivial, if_pos (by omega)]

/-! ## Numbers that fit -/

theorem fit_unsigned {w : Nat} (v : BitVec w) : fit w false (v.toNat : Int) = v := by
  unfold fit
  have := v.isLt
  have h2 : (v.toNat : Int) < 2 ^ w := by exact_mod_cast this
  rw [if_pos (by simp only [Bool.false_eq_true, if_false]; omega)]
  simp

theorem fit_signed {w : Nat} (hw : 0 < w) (v : BitVec w) : fit w true v.toInt = v := by
  unfold fit
  have h1 := BitVec.le_toInt v
  have h2 := BitVec.toInt_lt (x := v)
  rw [if_pos (by simp only [if_true]; exact ⟨h1, h2⟩)]
  simp

theorem readWords_words (lib : Lib) : ∀ (ws : List (BitVec 32)) (r : List Byte), readWords lib ws.length ((ws.map fun w => head4 0 w.toNat).flatten ++ r) = .ok (ws, r) := by
  intro ws
  induction ws with
  | nil => intro r; rfl
  | cons w ws ih =>
    intro r
    simp only [List.length_cons, List.map_cons, List.flatten_cons, List.append_assoc, readWords, readWord]
    rw [next_word]
    simp only [Body.int64, fit_unsigned, ih]

end Np.Ser
