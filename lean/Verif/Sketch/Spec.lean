import Verif.Sketch.Model

/-! # What a user expects of signatures, windows of words and indexes -/
namespace Np.Sketch.Spec

open Np.Sketch (Byte Word)

/-- The windows of `n` consecutive words, each joined to one text. -/
def windows (n : Nat) (words : List (List Byte)) : List (List Byte) := (List.range (words.length + 1 - n)).map fun i => ((words.drop i).take n).flatten

/-- The elements of a text: its windows of `n` words, or for a text of fewer words the whole of it. -/
def elements (n : Nat) (words : List (List Byte)) : List (List Byte) := if words = [] then [] else windows (min n words.length) words

/-- A number is the least of a bound and of the values of a function on a list. -/
def Least (bound : Nat) (f : List Byte → Nat) (xs : List (List Byte)) (m : Nat) : Prop :=
  m ≤ bound ∧ (∀ x ∈ xs, m ≤ f x) ∧ (m = bound ∨ ∃ x ∈ xs, m = f x)

/-- A number is the greatest of zero and of the values of a function on a list. -/
def Greatest (f : List Byte → Nat) (xs : List (List Byte)) (m : Nat) : Prop :=
  (∀ x ∈ xs, f x ≤ m) ∧ (m = 0 ∨ ∃ x ∈ xs, m = f x)

/-- Two lists have the same members. -/
def SameSet (xs ys : List (List Byte)) : Prop := ∀ x, x ∈ xs ↔ x ∈ ys

end Np.Sketch.Spec
