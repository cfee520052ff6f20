import Verif.Cbor.Lemmas
import Verif.Data.Spec

set_option linter.unusedVariables false
set_option linter.unusedSimpArgs false

/-! # Reading what has been written -/
namespace Np.Data

open Np.Cbor
open _root_.Np.Data.Spec

/-- The encoding of an entry. -/
def enc (k : Key) (v : Value) : List Byte := (pieces k v).flatten

def encs (es : List (Key × Value)) : List Byte := es.flatMap fun e => enc e.1 e.2

@[simp] theorem encs_nil : encs [] = [] := rfl
@[simp] theorem encs_cons (e : Key × Value) (es : List (Key × Value)) : encs (e :: es) = enc e.1 e.2 ++ encs es := by simp [encs]
@[simp] theorem encs_append (a b : List (Key × Value)) : encs (a ++ b) = encs a ++ encs b := by simp [encs]

/-- The bytes of a value. -/
def encVal : Value → List Byte
  | .bin b => head 2 b.length ++ b
  | .str b => head 3 b.length ++ b
  | .int v => head 6 tagLong ++ intItem v.toInt
  | .uint v => head 6 tagUlong ++ head 0 v.toNat

theorem enc_eq (k : Key) (v : Value) : enc k v = head 3 k.length ++ (k ++ encVal v) := by
  cases v <;> simp [enc, pieces, encVal]

theorem enc_pos (k : Key) (v : Value) : 0 < (enc k v).length := by
  have := head_pos 3 k.length
  rw [enc_eq, List.length_append]
  omega

theorem enc_length (k : Key) (v : Value) : (enc k v).length = entrySize k v := by
  have h : ∀ m n, (head m n).length = headSize n := fun m n => head_length m n
  have ht : headSize tagLong = 3 := by decide
  have ht' : headSize tagUlong = 3 := by decide
  rw [enc_eq]
  cases v with
  | bin b => simp only [encVal, entrySize, List.length_append, h]; omega
  | str b => simp only [encVal, entrySize, List.length_append, h]; omega
  | int i =>
    simp only [encVal, entrySize, List.length_append, h, intItem, ht]
    split
    · rw [h]; omega
    · rw [h]; omega
  | uint u => simp only [encVal, entrySize, List.length_append, h, ht']; omega

/-- Sizes that fit into the numbers of the format. -/
def Sized : Value → Prop
  | .bin b => b.length < 18446744073709551616
  | .str b => b.length < 18446744073709551616
  | _ => True

theorem takeWhile_nonzero {k : Key} (h : (0 : Byte) ∉ k) : k.takeWhile (· ≠ 0) = k := by
  induction k with
  | nil => rfl
  | cons x r ih =>
    have hx : x ≠ 0 := fun e => h (by rw [e]; exact List.mem_cons_self)
    have ih' := ih (fun hm => h (List.mem_cons_of_mem _ hm))
    have hd : decide (x ≠ 0) = true := decide_eq_true hx
    rw [List.takeWhile_cons, if_pos hd, ih']

theorem getNext_key {k : Key} (h : k.length ≤ 254) (r : List Byte) : getNext (head 3 k.length ++ (k ++ r)) = some (.text k, none, r) :=
  getItem_text (by omega) r

theorem getNext_val {v : Value} (h : Sized v) (r : List Byte) : ∃ i tag, getNext (encVal v ++ r) = some (i, tag, r) ∧ valueOf i tag = .ok (some v) := by
  unfold getNext
  cases v with
  | bin b => exact ⟨_, _, by rw [encVal, List.append_assoc]; exact getItem_bytes h r, rfl⟩
  | str b => exact ⟨_, _, by rw [encVal, List.append_assoc]; exact getItem_text h r, rfl⟩
  | int i =>
    have h1 := BitVec.le_toInt i
    have h2 := BitVec.toInt_lt (x := i)
    have e1 : -2 ^ (32 - 1) = (-2147483648 : Int) := by decide
    have e2 : 2 ^ (32 - 1) = (2147483648 : Int) := by decide
    rw [e1] at h1
    rw [e2] at h2
    refine ⟨.int i.toInt, some tagLong, ?_, ?_⟩
    · rw [encVal, List.append_assoc, getItem_tag (by decide)]
      exact getItem_int (by omega) (by omega) r
    · unfold valueOf
      simp only []
      rw [if_pos trivial, if_pos ⟨h1, h2⟩, BitVec.ofInt_toInt]
  | uint u =>
    have h1 := u.isLt
    refine ⟨.int u.toNat, some tagUlong, ?_, ?_⟩
    · rw [encVal, List.append_assoc, getItem_tag (by decide)]
      exact getItem_uint (readHead_head (by decide) (by omega) r) (by omega)
    · unfold valueOf
      simp only []
      rw [if_neg (by decide), if_pos trivial, if_pos (by omega)]
      simp

theorem readObject_enc {k : Key} {v : Value} (hk : IsKey k) (hv : Sized v) (r : List Byte) : readObject (enc k v ++ r) = .ok (some (k, v, r)) := by
  unfold readObject
  rw [enc_eq, List.append_assoc, List.append_assoc, getNext_key hk.1]
  rcases getNext_val hv r with ⟨i, tag, h1, h2⟩
  have h3 : keyOf (.text k) = .ok k := by
    unfold keyOf
    simp only []
    rw [if_pos hk.1, takeWhile_nonzero hk.2]
  simp only [h3, h1, h2]

/-! ## The header -/

theorem headerBytes_length (h : Header) : (headerBytes h).length = 21 := by
  have h1 : (head 4 4).length = 1 := by decide
  have h2 : (head 0 magicNo).length = 5 := by decide
  simp [headerBytes, head4_length, h1, h2]

theorem getU32_of {b r : List Byte} {n : Nat} (h : readHead b = some (0, n, r)) (hn : n < 4294967296) : getU32 b = some (n, r) := by
  unfold getU32 getNext
  rw [getItem_uint h (by omega)]
  simp only []
  rw [if_pos (by omega)]
  simp

theorem readHeader_bytes {h : Header} (h1 : h.total < 4294967296) (h2 : h.used < 4294967296) (h3 : h.count < 4294967296) (r : List Byte) :
    readHeader (headerBytes h ++ r) = .ok (.ok, h) := by
  have hl := headerBytes_length h
  unfold readHeader
  rw [if_neg (by rw [List.length_append, hl]; simp only [headerSize]; omega), show List.take headerSize (headerBytes h ++ r) = headerBytes h from List.take_left' hl]
  have e0 : getNext (headerBytes h) = some (.array 4, none, head 0 magicNo ++ (head4 0 h.total ++ (head4 0 h.used ++ head4 0 h.count))) := by
    unfold getNext headerBytes
    rw [getItem_eq (readHead_head (by decide) (by decide) _)]
    rfl
  have e1 : getU32 (head 0 magicNo ++ (head4 0 h.total ++ (head4 0 h.used ++ head4 0 h.count))) =
      some (magicNo, head4 0 h.total ++ (head4 0 h.used ++ head4 0 h.count)) := getU32_of (readHead_head (by decide) (by decide) _) (by decide)
  have e2 : getU32 (head4 0 h.total ++ (head4 0 h.used ++ head4 0 h.count)) = some (h.total, head4 0 h.used ++ head4 0 h.count) :=
    getU32_of (readHead_head4 (by decide) h1 _) h1
  have e3 : getU32 (head4 0 h.used ++ head4 0 h.count) = some (h.used, head4 0 h.count) := getU32_of (readHead_head4 (by decide) h2 _) h2
  have e4 : getU32 (head4 0 h.count) = some (h.count, []) := by
    have := readHead_head4 (m := 0) (n := h.count) (by decide) h3 []
    rw [List.append_nil] at this
    exact getU32_of this h3
  rw [e0]
  simp only [e1, e2, e3, e4]
  rfl

/-! ## The representation -/

/-- The block holds these entries. -/
structure Repr (buf : List Byte) (es : List (Key × Value)) : Prop where
  nodup : (es.map Prod.fst).Nodup
  regular : ∀ e ∈ es, Regular e.1 e.2
  count : es.length < 65536
  len : buf.length < 4294967296
  bytes : ∃ rest, buf = headerBytes { total := buf.length, used := 21 + (encs es).length, count := es.length } ++ (encs es ++ rest)

theorem Repr.used_le {buf : List Byte} {es : List (Key × Value)} (h : Repr buf es) : 21 + (encs es).length ≤ buf.length := by
  rcases h.bytes with ⟨rest, e⟩
  have := congrArg List.length e
  rw [List.length_append, headerBytes_length, List.length_append] at this
  omega

theorem Repr.readHeader {buf : List Byte} {es : List (Key × Value)} (h : Repr buf es) :
    Np.Data.readHeader buf = .ok (.ok, { total := buf.length, used := 21 + (encs es).length, count := es.length }) := by
  rcases h.bytes with ⟨rest, e⟩
  have h1 := h.used_le
  have h2 := h.len
  have h3 := h.count
  have := readHeader_bytes (h := { total := buf.length, used := 21 + (encs es).length, count := es.length }) h2 (by simp only []; omega)
    (by simp only []; omega) (encs es ++ rest)
  rw [← e] at this
  exact this

theorem Repr.region {buf : List Byte} {es : List (Key × Value)} (h : Repr buf es) :
    (buf.take (21 + (encs es).length)).drop 21 = encs es := by
  rcases h.bytes with ⟨rest, e⟩
  generalize ht : buf.length = n at e
  rw [e, ← List.append_assoc, List.take_left' (by rw [List.length_append, headerBytes_length]), List.drop_left' (headerBytes_length _)]

theorem sized_of_le {k : Key} {v : Value} {n : Nat} (h : (enc k v).length ≤ n) (hn : n < 18446744073709551616) : Sized v := by
  rw [enc_eq, List.length_append, List.length_append] at h
  cases v with
  | bin b => simp only [encVal, List.length_append] at h; simp only [Sized]; omega
  | str b => simp only [encVal, List.length_append] at h; simp only [Sized]; omega
  | int _ => trivial
  | uint _ => trivial

theorem encs_le {es : List (Key × Value)} {e : Key × Value} (h : e ∈ es) : (enc e.1 e.2).length ≤ (encs es).length := by
  induction es with
  | nil => simp at h
  | cons x r ih =>
    rw [encs_cons, List.length_append]
    rw [List.mem_cons] at h
    rcases h with h | h
    · rw [h]; omega
    · have := ih h; omega

theorem Repr.sized {buf : List Byte} {es : List (Key × Value)} (h : Repr buf es) {e : Key × Value} (he : e ∈ es) : Sized e.2 := by
  have h1 := h.used_le
  have h2 := h.len
  have h3 := encs_le he
  exact sized_of_le (k := e.1) (n := buf.length) (by omega) (by omega)

/-! ## Searching -/

theorem searchLoop_miss {k : Key} {total : Nat} (ht : total < 65536) : ∀ (es : List (Key × Value)) (fuel read off : Nat),
    (∀ e ∈ es, IsKey e.1 ∧ Sized e.2) → k ∉ es.map Prod.fst → es.length ≤ fuel → read + es.length = total →
    searchLoop k total fuel read off (encs es) = .ok none := by
  intro es
  induction es with
  | nil =>
    intro fuel read off _ _ _ hr
    unfold searchLoop
    rw [if_neg (by simp at hr; omega)]
  | cons e r ih =>
    intro fuel read off hok hk hf hr
    simp only [List.length_cons] at hr hf
    have he := hok e (by simp)
    unfold searchLoop
    rw [if_pos (by omega), encs_cons, readObject_enc he.1 he.2]
    simp only []
    rw [if_neg (by intro h; exact hk (by simp [h]))]
    cases fuel with
    | zero => omega
    | succ f =>
      simp only []
      rw [Nat.mod_eq_of_lt (by omega)]
      exact ih f (read + 1) _ (fun x hx => hok x (by simp [hx])) (fun h => hk (by simp only [List.map_cons, List.mem_cons]; exact Or.inr h)) (by omega) (by omega)

theorem searchLoop_hit {k : Key} {v : Value} {total : Nat} (ht : total < 65536) : ∀ (a b : List (Key × Value)) (fuel read off : Nat),
    (∀ e ∈ a ++ (k, v) :: b, IsKey e.1 ∧ Sized e.2) → k ∉ a.map Prod.fst → a.length ≤ fuel → read + a.length < total →
    searchLoop k total fuel read off (encs (a ++ (k, v) :: b)) = .ok (some (off + (encs a).length, v, (enc k v).length)) := by
  intro a
  induction a with
  | nil =>
    intro b fuel read off hok _ _ hr
    have he := hok (k, v) (by simp)
    unfold searchLoop
    rw [if_pos (by simp at hr; omega), List.nil_append, encs_cons, readObject_enc he.1 he.2]
    simp
  | cons e r ih =>
    intro b fuel read off hok hk hf hr
    simp only [List.length_cons] at hr hf
    have he := hok e (by simp)
    unfold searchLoop
    rw [if_pos (by omega), List.cons_append, encs_cons, readObject_enc he.1 he.2]
    simp only []
    rw [if_neg (by intro h; exact hk (by simp [h]))]
    cases fuel with
    | zero => omega
    | succ f =>
      simp only []
      rw [Nat.mod_eq_of_lt (by omega)]
      rw [ih b f (read + 1) _ (fun x hx => hok x (by rw [List.cons_append, List.mem_cons]; exact Or.inr hx))
        (fun h => hk (by simp only [List.map_cons, List.mem_cons]; exact Or.inr h)) (by omega) (by omega)]
      simp only [encs_cons, List.length_append]
      congr 3
      omega

theorem encs_length_ge (es : List (Key × Value)) : es.length ≤ (encs es).length := by
  induction es with
  | nil => simp
  | cons e r ih =>
    have := enc_pos e.1 e.2
    rw [encs_cons, List.length_append, List.length_cons]
    omega

theorem Repr.search {buf : List Byte} {es : List (Key × Value)} (h : Repr buf es) (k : Key) :
    (k ∉ es.map Prod.fst → Np.Data.search buf { total := buf.length, used := 21 + (encs es).length, count := es.length } k = .ok none) ∧
    (∀ a v b, es = a ++ (k, v) :: b → Np.Data.search buf { total := buf.length, used := 21 + (encs es).length, count := es.length } k =
      .ok (some (21 + (encs a).length, v, (enc k v).length))) := by
  have hu := h.used_le
  have hge := encs_length_ge es
  have hok : ∀ e ∈ es, IsKey e.1 ∧ Sized e.2 := fun e he => ⟨(h.regular e he).1, h.sized he⟩
  constructor
  · intro hk
    unfold Np.Data.search
    simp only []
    split
    · rfl
    · rw [if_neg (by simp only [headerSize]; omega)]
      show searchLoop _ _ _ _ _ (List.drop 21 _) = _
      rw [h.region]
      exact searchLoop_miss h.count es _ _ _ hok hk (by omega) (by omega)
  · intro a v b e
    have hl : es.length = a.length + b.length + 1 := by rw [e]; simp; omega
    unfold Np.Data.search
    simp only []
    rw [if_neg (by omega), if_neg (by simp only [headerSize]; omega)]
    show searchLoop _ _ _ _ _ (List.drop 21 _) = _
    rw [h.region]
    have hn := h.nodup
    rw [e, List.map_append, List.map_cons] at hn
    have hka : k ∉ a.map Prod.fst := by
      intro hm
      exact (List.nodup_append.1 hn).2.2 k hm k (by simp) rfl
    have := searchLoop_hit (k := k) (v := v) h.count a b buf.length 0 headerSize (by rw [← e]; exact hok) hka (by omega) (by omega)
    rw [← e] at this
    exact this

/-- Looking up. -/
def lookup (k : Key) (es : List (Key × Value)) : Option Value := (es.find? fun e => decide (e.1 = k)).map Prod.snd

theorem lookup_none {k : Key} {es : List (Key × Value)} (h : k ∉ es.map Prod.fst) : lookup k es = none := by
  unfold lookup
  rw [List.find?_eq_none.2]
  · rfl
  · intro x hx
    simp only [decide_eq_true_eq]
    intro e
    exact h (by rw [← e]; exact List.mem_map_of_mem hx)

theorem lookup_some {k : Key} {v : Value} {a b : List (Key × Value)} (h : k ∉ a.map Prod.fst) : lookup k (a ++ (k, v) :: b) = some v := by
  unfold lookup
  rw [List.find?_append, List.find?_eq_none.2]
  · simp
  · intro x hx
    simp only [decide_eq_true_eq]
    intro e
    exact h (by rw [← e]; exact List.mem_map_of_mem hx)

theorem mem_split {k : Key} {es : List (Key × Value)} (h : k ∈ es.map Prod.fst) : ∃ a v b, es = a ++ (k, v) :: b ∧ k ∉ a.map Prod.fst := by
  induction es with
  | nil => simp at h
  | cons e r ih =>
    by_cases he : e.1 = k
    · exact ⟨[], e.2, r, by rw [← he]; rfl, by simp⟩
    · have : k ∈ r.map Prod.fst := by
        simp only [List.map_cons, List.mem_cons] at h
        rcases h with h | h
        · exact absurd h.symm he
        · exact h
      rcases ih this with ⟨a, v, b, h1, h2⟩
      refine ⟨e :: a, v, b, by rw [h1]; rfl, ?_⟩
      simp only [List.map_cons, List.mem_cons, not_or]
      exact ⟨fun h => he h.symm, h2⟩

theorem Repr.getData {buf : List Byte} {es : List (Key × Value)} (h : Repr buf es) (k : Key) :
    Np.Data.getData buf k = .ok (match lookup k es with | some v => (.ok, some v) | none => (.keyNotFound, none)) := by
  unfold Np.Data.getData
  rw [h.readHeader]
  simp only []
  by_cases hk : k ∈ es.map Prod.fst
  · rcases mem_split hk with ⟨a, v, b, h1, h2⟩
    rw [(h.search k).2 a v b h1, h1, lookup_some h2]
    rfl
  · rw [(h.search k).1 hk, lookup_none hk]
    rfl

end Np.Data
