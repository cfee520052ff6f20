import Verif.Json.Model
/-! # What is asked of the JSON of a tree -/
namespace Np.Json.Spec
open _root_.Np.Json

/-- The names of the entries of a tree. -/
def names (fmt : Nat → Text) : Tree → List (Option Text)
  | .nil => []
  | .cons k _ rest => nameOf fmt k :: names fmt rest

/-- The keys of a tree. -/
def keys : Tree → List Key
  | .nil => []
  | .cons k _ rest => k :: keys rest

/-- The value of a name. -/
def entry (fmt : Nat → Text) : Tree → Text → Option Val
  | .nil, _ => none
  | .cons k v rest, n => if nameOf fmt k = some n then some v else entry fmt rest n

/-- Follows a path of names. -/
def get (fmt : Nat → Text) : List Text → Val → Option Val
  | [], v => some v
  | n :: p, .tree t => (entry fmt t n).bind (get fmt p)
  | _ :: _, _ => none

/-- Follows a path of names. -/
def jget : List Text → Json → Option Json
  | [], j => some j
  | n :: p, .obj ms => ((ms.find? fun e => e.1 == n).map (·.2)).bind (jget p)
  | _ :: _, _ => none

mutual

/-- A value without lists: every tree in it has names, all different, whole numbers are not above 2^53, the others are finite, texts are UTF-8, and there are no
single characters. -/
def Good (fmt : Nat → Text) : Val → Prop
  | .int n => n.natAbs ≤ 2 ^ 53
  | .real _ finite => finite = true
  | .pair _ _ => True
  | .tree t => GoodTree fmt t ∧ (names fmt t).Nodup
  | .char _ => False
  | .text _ utf8 => utf8 = true

def GoodTree (fmt : Nat → Text) : Tree → Prop
  | .nil => True
  | .cons k v rest => (nameOf fmt k ≠ none ∧ ∀ i, k ≠ .int i) ∧ Good fmt v ∧ GoodTree fmt rest

end

mutual

/-- There is no single character in the value, at any depth. -/
def NoChar : Val → Prop
  | .char _ => False
  | .tree t => NoCharTree t
  | _ => True

def NoCharTree : Tree → Prop
  | .nil => True
  | .cons _ v rest => NoChar v ∧ NoCharTree rest

end

/-- The JSON value shows the value; for a tree, it has an entry for each of its names, in the same order. -/
def Shows (fmt : Nat → Text) : Val → Json → Prop
  | .int n, j => j = .num n
  | .real d _, j => j = .real d
  | .pair a b, j => j = .arr [.num a, .num b]
  | .text t _, j => j = .str t
  | .char _, _ => False
  | .tree t, j => ∃ ms, j = .obj ms ∧ ms.map (some ·.1) = names fmt t

/-- Reads a number written in decimal digits. -/
def readNumber (t : Text) : Nat := t.foldl (fun a c => 10 * a + (c - 48)) 0

/-- What a tree with these entries looks like. -/
def ofList : List (Key × Val) → Tree
  | [] => .nil
  | (k, v) :: l => .cons k v (ofList l)

end Np.Json.Spec
