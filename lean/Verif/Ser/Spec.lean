import Verif.Ser.Model

/-! # What the serialization of trees is used for -/
namespace Np.Ser.Spec

open Np.Ser
open Np.Tree (Name Op)
open Np.Tree.Spec (Kind Less)

/-- The library reads a float or a double that it has written, and what it writes begins with a byte of the major type of these. -/
structure Faithful (lib : Lib) : Prop where
  first : ∀ x, (∃ b l, lib.dbl x = b :: l ∧ b.toNat / 32 = 7) ∧ ∃ b l, lib.flt x = b :: l ∧ b.toNat / 32 = 7
  dbl : ∀ x r, lib.read (lib.dbl x ++ r) = some (x, r)
  flt : ∀ x r, lib.read (lib.flt x ++ r) = some (x, r)

/-- A float takes at most five bytes and a double nine. -/
structure Short (lib : Lib) : Prop where
  dbl : ∀ x, (lib.dbl x).length ≤ 9
  flt : ∀ x, (lib.flt x).length ≤ 5

/-- A key that arrives: not a uuid, and not a text of one character. -/
def KeyTravels : Name → Prop
  | .uuid _ => False
  | .str s => s.length ≠ 1
  | _ => True

/-- The entries of a tree: its keys are of one kind and in order. -/
def Ordered (K : Kind) (l : List (Name × Val)) : Prop := (∀ p ∈ l, K.Admits p.1 ∧ KeyTravels p.1) ∧ l.Pairwise fun a b => Less a.1 b.1

mutual
/-- A value that arrives: not a text of one character, not an unsigned of 2^63 or more, not a float, not of a type that is not serialized; and the same
for all that is in a tree. Texts and binaries have a size of 32 bits. -/
def Travels : Val → Prop
  | .str s => s.length ≠ 1 ∧ s.length < 4294967296 ∧ ∀ c ∈ s, c ≠ 0
  | .bin b => b.length < 4294967296
  | .hash b => b.length < 4294967296
  | .ullong v => v.toNat < 9223372036854775808
  | .flt _ => False
  | .other _ => False
  | .tree _ es => (∃ K, Ordered K es.list) ∧ AllTravel es
  | _ => True
/-- All values arrive. -/
def AllTravel : Ents → Prop
  | .nil => True
  | .cons _ v es => Travels v ∧ AllTravel es
end

mutual
/-- A value whose size is computed right: no unsigned of 16 bits from 32768 on, and no hash of more than 255 bytes; text and binary sizes have 32 bits. -/
def Counted : Val → Prop
  | .uint v => v.toNat < 32768
  | .hash b => b.length ≤ 255
  | .bin b => b.length < 4294967296
  | .tree _ es => AllCounted es
  | _ => True
/-- All values. -/
def AllCounted : Ents → Prop
  | .nil => True
  | .cons n v es => (∀ s, n = .str s → s.length ≤ 255) ∧ Counted v ∧ AllCounted es
end

/-- How many levels a key opens. -/
def keyLevels : Name → Nat
  | .dhkey _ => 1
  | _ => 0

mutual
/-- How many levels a value opens. -/
def levels : Val → Nat
  | .pair _ _ => 1
  | .dhkey _ => 1
  | .tree _ es => levelsOf es + 1
  | _ => 0
/-- The levels of the keys and values of a tree. -/
def levelsOf : Ents → Nat
  | .nil => 0
  | .cons n v es => max (max (keyLevels n) (levels v)) (levelsOf es)
end

mutual
/-- No tree has more than 32767 entries. -/
def Small : Val → Prop
  | .tree _ es => es.list.length ≤ 32767 ∧ AllSmall es
  | _ => True
/-- Of all values. -/
def AllSmall : Ents → Prop
  | .nil => True
  | .cons _ v es => Small v ∧ AllSmall es
end

/-- The value a call stores. -/
def valueOf : Op Val → List Val
  | .insert _ v => [v]
  | .replace _ v => [v]
  | .del _ => []

end Np.Ser.Spec
