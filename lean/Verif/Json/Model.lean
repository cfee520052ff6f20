/-!
# Model of the JSON of a tree, `np_tree2json` and `np_treeval2json` of src/np_util.c

The elements of a tree are given in the order in which they are visited.  The library that builds JSON values, parson, is not in the repository: a value of a name
that is there already replaces the old one, strings that are not UTF-8 and numbers that are not finite give no value.  Numbers with a fraction are told apart by a
number, and the text of one is a parameter.  Texts are lists of bytes.
-/
namespace Np.Json

abbrev Text := List Nat

/-- The keys of a tree: texts, `int16_t`, `double`, `uint32_t`, and all others. -/
inductive Key
  | str (t : Text)
  | int (i : Int)
  | dbl (d : Nat)
  | ulong (n : Nat)
  | other (n : Nat)
  deriving DecidableEq, Repr

mutual

/-- The values of a tree: the types of whole numbers, numbers with a fraction (with whether they are finite), two numbers, a tree, a single character, and those
that are shown by a text (with whether it is UTF-8). -/
inductive Val
  | int (n : Int)
  | real (d : Nat) (finite : Bool)
  | pair (a b : Nat)
  | tree (t : Tree)
  | char (c : Nat)
  | text (t : Text) (utf8 : Bool)

inductive Tree
  | nil
  | cons (k : Key) (v : Val) (rest : Tree)

end

/-- JSON values. -/
inductive Json
  | num (n : Int)
  | real (d : Nat)
  | str (t : Text)
  | arr (js : List Json)
  | obj (ms : List (Text × Json))

/-- `np_treeval_to_str` of a character is the address of its own argument, src/util/np_treeval.c:234-238, used at src/np_util.c:202-203 after it has returned. -/
inductive Fault
  | dangling
  deriving DecidableEq, Repr

/-- The decimal digits of a number; `fuel` is at least their count. -/
def digits : Nat → Nat → Text
  | 0, _ => []
  | fuel + 1, n => (if n < 10 then [] else digits fuel (n / 10)) ++ [48 + n % 10]

/-- The `double` next to a natural number, ties to even. -/
def nearest (n : Nat) : Nat :=
  if n ≤ 2 ^ 53 then n
  else
    let u := 2 ^ (Nat.log2 n - 52)
    let q := n / u
    let r := n % u
    (if 2 * r > u ∨ (2 * r = u ∧ q % 2 = 1) then q + 1 else q) * u

/-- The argument of `json_value_init_number` is a `double`, src/np_util.c:146-179. -/
def toDouble (n : Int) : Int := if n < 0 then -(nearest n.natAbs : Int) else nearest n.natAbs

/-- `json_object_set_value`. -/
def put (ms : List (Text × Json)) (n : Text) (j : Json) : List (Text × Json) :=
  if ms.any (fun e => e.1 == n) then ms.map fun e => if e.1 == n then (n, j) else e else ms ++ [(n, j)]

/-- The name of an entry, src/np_util.c:255-288; `none`: the entry is left out. -/
def nameOf (fmt : Nat → Text) : Key → Option Text
  | .str t => some t
  | .int i => some (if i < 0 then 45 :: digits 6 i.natAbs else digits 6 i.natAbs)
  | .dbl d => some (fmt d)
  | .ulong n => some (digits 11 n)
  | .other _ => none

/-- The key of an entry that turns the rest into a list, src/np_util.c:256-257. -/
def listKey : Key → Bool
  | .int _ => true
  | _ => false

/-- The variables of the loop: `ret`, `arr` and `useArray`, src/np_util.c:244-253. -/
structure Acc where
  obj : List (Text × Json)
  arr : Option (List Json)
  useArray : Bool

/-- The end of an iteration, src/np_util.c:292-307. -/
def add (a : Acc) (name : Text) (j : Option Json) : Acc :=
  if a.useArray then { a with arr := some (a.arr.getD [] ++ j.toList) }
  else match j with
    | none => a
    | some j => { a with obj := put a.obj name j }

/-- The end of `np_tree2json`, src/np_util.c:323-328. -/
def finish (a : Acc) : Json :=
  match a.arr with
  | some js => .arr js
  | none => .obj a.obj

mutual

/-- `np_treeval2json`, src/np_util.c:140-210. -/
def conv (fmt : Nat → Text) : Val → Except Fault (Option Json)
  | .int n => .ok (some (.num (toDouble n)))
  | .real d finite => .ok (if finite then some (.real d) else none)
  | .pair a b => .ok (some (.arr [.num a, .num b]))
  | .tree t => match loop fmt t { obj := [], arr := none, useArray := false } with
    | .error f => .error f
    | .ok a => .ok (some (finish a))
  | .char _ => .error .dangling
  | .text t utf8 => .ok (if utf8 then some (.str t) else none)

/-- The loop of `np_tree2json`, src/np_util.c:254-309. -/
def loop (fmt : Nat → Text) : Tree → Acc → Except Fault Acc
  | .nil, a => .ok a
  | .cons k v rest, a =>
    match nameOf fmt k with
    | none => loop fmt rest a
    | some name => match conv fmt v with
      | .error f => .error f
      | .ok j => loop fmt rest (add { a with useArray := a.useArray || listKey k } name j)

end

/-- `np_tree2json`, src/np_util.c:243-329. -/
def toJson (fmt : Nat → Text) (t : Tree) : Except Fault Json := (loop fmt t { obj := [], arr := none, useArray := false }).map finish

end Np.Json
