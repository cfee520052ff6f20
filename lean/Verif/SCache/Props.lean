import Verif.SCache.Lemmas

/-! # C13: the simple cache -/
namespace Np.SCache

open _root_.Np.SCache.Spec

/-- **C13.**  After any sequence of insertions into a new cache with at least one bucket, and for every hash function, a lookup yields the
value of the first insertion for the key, and nothing if there was none. -/
theorem C13_first_add {α : Type} (hash : Bytes → Nat) (size : Nat) (h1 : 1 ≤ size) (h2 : size < 65536) (l : List (Bytes × α)) (hw : Whole l) :
    ∃ t, run hash (Table.init α size) l = some t ∧ ∀ key, 32 ≤ key.length → get hash t key = some (firstAdd key l) := by
  have hs : (Table.init α size).size ≠ 0 := by simp only [Table.init]; omega
  rcases run_spec hash l (Table.init α size) hs hw with ⟨t, h3, _, h4⟩
  refine ⟨t, h3, ?_⟩
  intro key hk
  rw [h4 key hk]
  unfold get
  rw [index_some hash hs hk]
  rfl

/-- **C13.**  Inserting a key that is present reports false and changes nothing; inserting an absent one reports true. -/
theorem C13_add_again {α : Type} (hash : Bytes → Nat) (size : Nat) (h1 : 1 ≤ size) (h2 : size < 65536) (l : List (Bytes × α)) (hw : Whole l)
    (key : Bytes) (hk : 32 ≤ key.length) (v : α) : ∃ t t' b, run hash (Table.init α size) l = some t ∧ add hash t key v = some (t', b) ∧
      (b = false ↔ ∃ x ∈ l, SameKey x.1 key) ∧ (b = false → t' = t) := by
  have hs : (Table.init α size).size ≠ 0 := by simp only [Table.init]; omega
  rcases C13_first_add hash size h1 h2 l hw with ⟨t, h3, h4⟩
  rcases run_spec hash l (Table.init α size) hs hw with ⟨t2, h5, h6, _⟩
  rw [h3, Option.some.injEq] at h5
  subst h5
  rcases add_spec hash v (t := t) (by rw [h6]; exact hs) hk with ⟨t', b, old, h7, h8, h9, _, h10, _⟩
  refine ⟨t, t', b, h3, h7, ?_, h10⟩
  rw [h4 key hk, Option.some.injEq] at h8
  rw [h9, ← h8]
  unfold firstAdd
  cases hf : l.find? fun x => decide (SameKey x.1 key) with
  | none =>
    simp only [Option.map_none, Option.isNone_none, Bool.true_eq_false, false_iff]
    rintro ⟨x, hx, hsame⟩
    have := List.find?_eq_none.1 hf x hx
    simp [hsame] at this
  | some y =>
    simp only [Option.map_some, Option.isNone_some, true_iff]
    exact ⟨y, List.mem_of_find?_eq_some hf, by simpa using List.find?_some hf⟩

def key (i : Nat) : Bytes := BitVec.ofNat 8 i :: List.replicate 31 0

/-- Keys that collide in a bucket, one of them twice. -/
example : ∃ t, run (fun _ => 7) (Table.init Nat 5) [(key 1, 10), (key 2, 20), (key 1 ++ [9], 30)] = some t ∧
    get (fun _ => 7) t (key 1) = some (some 10) ∧ get (fun _ => 7) t (key 2) = some (some 20) ∧ get (fun _ => 7) t (key 3) = some none := by
  refine ⟨_, rfl, by decide, by decide, by decide⟩

example : Whole [(key 1, 10), (key 2, 20), (key 1 ++ [9], 30)] := by unfold Whole; decide

end Np.SCache
