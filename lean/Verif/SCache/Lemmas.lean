import Verif.SCache.Spec

set_option linter.unusedVariables false
set_option linter.unusedSimpArgs false

namespace Np.SCache

open _root_.Np.SCache.Spec

variable {α : Type}

theorem search_append (key : Bytes) (a b : List (Bytes × α)) : search key (a ++ b) = (search key a).or (search key b) := by
  induction a with
  | nil => rfl
  | cons x r ih =>
    rcases x with ⟨k, v⟩
    simp only [List.cons_append, search]
    split
    · rfl
    · exact ih

theorem search_congr {a b : Bytes} (h : SameKey a b) (l : List (Bytes × α)) : search a l = search b l := by
  induction l with
  | nil => rfl
  | cons x r ih =>
    rcases x with ⟨k, v⟩
    have h' : a.take keyBytes = b.take keyBytes := h
    simp only [search]
    rw [ih]
    by_cases hc : k.take keyBytes = b.take keyBytes
    · rw [if_pos hc, if_pos (by rw [hc, h'])]
    · rw [if_neg hc, if_neg (by rw [h']; exact hc)]

theorem index_congr {hash : Bytes → Nat} {t : Table α} {a b : Bytes} (h : SameKey a b) (ha : 32 ≤ a.length) (hb : 32 ≤ b.length) :
    t.index hash a = t.index hash b := by
  unfold SameKey at h
  have h1 : ¬ a.length < keyBytes := by simp only [keyBytes]; omega
  have h2 : ¬ b.length < keyBytes := by simp only [keyBytes]; omega
  simp only [Table.index, keyBytes] at *
  simp only [h1, h2, h, false_or]

theorem index_some (hash : Bytes → Nat) {t : Table α} {a : Bytes} (hs : t.size ≠ 0) (ha : 32 ≤ a.length) :
    t.index hash a = some (hash (a.take 32) % 65536 % t.size) := by
  unfold Table.index
  rw [if_neg (by simp only [keyBytes]; omega)]
  rfl

/-- One insertion. -/
theorem add_spec (hash : Bytes → Nat) {t : Table α} {k : Bytes} (v : α) (hs : t.size ≠ 0) (hk : 32 ≤ k.length) :
    ∃ t' b old, add hash t k v = some (t', b) ∧ get hash t k = some old ∧ b = old.isNone ∧ t'.size = t.size ∧ (b = false → t' = t) ∧
      ∀ key, 32 ≤ key.length → get hash t' key = (get hash t key).map fun o => o.or (if SameKey k key then some v else none) := by
  have hi := index_some hash hs hk
  unfold add get
  rw [hi]
  simp only [Option.map_some]
  cases hf : search k (t.bucket (hash (k.take 32) % 65536 % t.size)) with
  | some w =>
    refine ⟨t, false, some w, by simp, rfl, rfl, rfl, fun _ => rfl, ?_⟩
    intro key hkey
    have hj := index_some hash hs hkey
    rw [hj]
    simp only [Option.map_some, Option.some.injEq]
    by_cases he : SameKey k key
    · have : t.index hash k = t.index hash key := index_congr he hk hkey
      rw [hi, hj, Option.some.injEq] at this
      rw [← this, ← search_congr he, hf]
      rfl
    · rw [if_neg he]; simp
  | none =>
    refine ⟨_, true, none, rfl, rfl, rfl, rfl, by simp, ?_⟩
    intro key hkey
    have hj := index_some hash hs hkey
    have hj' : ∀ f, Table.index hash (Table.mk t.size f : Table α) key = t.index hash key := fun _ => rfl
    rw [hj', hj]
    simp only [Option.map_some, Option.some.injEq]
    by_cases hb : hash (key.take 32) % 65536 % t.size = hash (k.take 32) % 65536 % t.size
    · rw [if_pos hb, search_append, hb]
      congr 1
      simp only [search, List.take_take, Nat.min_self]
      by_cases he : SameKey k key
      · rw [if_pos he, if_pos (show k.take keyBytes = key.take keyBytes from he)]
      · rw [if_neg he, if_neg (show ¬ k.take keyBytes = key.take keyBytes from he)]
    · rw [if_neg hb]
      have hne : ¬ SameKey k key := by
        intro he
        unfold SameKey at he
        rw [he] at hb
        exact hb rfl
      rw [if_neg hne]; simp

theorem run_spec (hash : Bytes → Nat) : ∀ (l : List (Bytes × α)) (t : Table α), t.size ≠ 0 → Whole l →
    ∃ t', run hash t l = some t' ∧ t'.size = t.size ∧ ∀ key, 32 ≤ key.length → get hash t' key = (get hash t key).map fun o => o.or (firstAdd key l) := by
  intro l
  induction l with
  | nil =>
    intro t hs _
    refine ⟨t, rfl, rfl, ?_⟩
    intro key hk
    simp [firstAdd, get, index_some hash hs hk]
  | cons x r ih =>
    intro t hs hw
    rcases x with ⟨k, v⟩
    rcases add_spec hash v hs (hw (k, v) (by simp)) with ⟨t1, b, old, h1, _, _, h2, _, h3⟩
    rcases ih t1 (by rw [h2]; exact hs) (fun y hy => hw y (by simp [hy])) with ⟨t', h4, h5, h6⟩
    refine ⟨t', by simp [run, h1, h4], by rw [h5, h2], ?_⟩
    intro key hk
    rw [h6 key hk, h3 key hk, Option.map_map]
    congr 1
    funext o
    simp only [Function.comp, Option.or_assoc]
    congr 1
    unfold firstAdd
    rw [List.find?_cons]
    by_cases he : SameKey k key
    · simp [he]
    · simp [he]

end Np.SCache
