import Verif.Trie.Model

/-! # What a user of a trie expects: a map from keys to values -/
namespace Np.Trie.Spec

open Np.Trie (Byte Op)

variable {V : Type}

/-- A map with one change. -/
def set (m : List Byte → Option V) (k : List Byte) (x : Option V) : List Byte → Option V := fun k' => if k' = k then x else m k'

/-- The map after a call. -/
def step (m : List Byte → Option V) : Op V → List Byte → Option V
  | .put k v => set m k (some v)
  | .del k => set m k none

/-- The map after calls, beginning with the empty map. -/
def run (ops : List (Op V)) : List Byte → Option V := ops.foldl step fun _ => none

/-- The key of a call. -/
def keyOf : Op V → List Byte
  | .put k _ => k
  | .del k => k

/-- The upper half of a byte, then the lower half of it, and so on. -/
def nib (k : List Byte) (i : Nat) : Nat := if i % 2 = 0 then (k.getD (i / 2) 0).toNat / 16 else (k.getD (i / 2) 0).toNat % 16

/-- Behind a nibble in which they differ, two keys agree in at most one nibble. -/
def Apart (a b : List Byte) : Prop := ∀ i j m, i < j → j < m → m < 2 * a.length → nib a i ≠ nib b i → nib a j = nib b j → nib a m ≠ nib b m

/-- No call inserts after a deletion has emptied the map. -/
def NeverEmptied : List (Op V) → Prop := fun ops => ∀ before k after, ops = before ++ .del k :: after → run (before ++ [.del k]) = (fun _ => none) →
  ∀ o ∈ after, ∃ k', o = .del k'

end Np.Trie.Spec
