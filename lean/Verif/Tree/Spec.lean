import Verif.Tree.Model
import Verif.Rb.Spec
import Verif.Dhkey.Spec

/-! # What a tree is used for: a map from keys to values -/
namespace Np.Tree.Spec

open Np.Tree

variable {V : Type}

/-- The keys used in one tree. All are of one type; texts have at most 255 bytes, and integers lie in a window of 32768 values. -/
inductive Kind where
  | texts
  | doubles
  | ids
  | uuids
  | ints (lo : Int)
  | ulongs (lo : Nat)

/-- The key is of that kind. -/
def Kind.Admits : Kind → Name → Prop
  | .texts, .str s => s.length ≤ 255 ∧ ∀ b ∈ s, 0 < b ∧ b < 256
  | .doubles, .dbl _ => True
  | .ids, .dhkey _ => True
  | .uuids, .uuid _ => True
  | .ints lo, .int i => lo ≤ i.toInt ∧ i.toInt < lo + 32768
  | .ulongs lo, .ulong u => lo ≤ u.toNat ∧ u.toNat < lo + 32768
  | _, _ => False

/-- The order of the keys: numbers by size, texts as in a dictionary. -/
def Less : Name → Name → Prop
  | .str a, .str b => a < b
  | .dbl a, .dbl b => a < b
  | .dhkey a, .dhkey b => Np.Spec.num a < Np.Spec.num b
  | .uuid a, .uuid b => a.toNat < b.toNat
  | .int a, .int b => a.toInt < b.toInt
  | .ulong a, .ulong b => a.toNat < b.toNat
  | _, _ => False

instance (a b : Name) : Decidable (Less a b) := by cases a <;> cases b <;> unfold Less <;> infer_instance

/-- The key a call is about. -/
def Op.name : Op V → Name
  | .insert n _ => n
  | .replace n _ => n
  | .del n => n

/-- What a call does to a map. -/
def apply (m : Name → Option V) : Op V → Name → Option V
  | .insert n v, k => if k = n then some ((m n).getD v) else m k
  | .replace n v, k => if k = n then some v else m k
  | .del n, k => if k = n then none else m k

/-- The map after a history. -/
def after (m : Name → Option V) : List (Op V) → Name → Option V
  | [] => m
  | o :: os => after (apply m o) os

/-- The entries of a tree, in the order of an iteration. -/
def entries (t : Tree V) : List (Name × V) := (elems t).map fun e => (e.key.name, e.val)

/-- The tree holds this map: its entries are those of the map, each once and in order, and the size is their number. -/
structure Holds (t : Tree V) (m : Name → Option V) : Prop where
  same : ∀ k v, (k, v) ∈ entries t ↔ m k = some v
  sorted : (entries t).Pairwise fun a b => Less a.1 b.1
  size : t.size = (entries t).length

/-- The tree was built from an empty one by these calls. -/
def Built (inPlace : Bool) (ops : List (Op V)) (t : Tree V) : Prop := run { (create : Tree V) with inPlace := inPlace } ops = .ok t

end Np.Tree.Spec
