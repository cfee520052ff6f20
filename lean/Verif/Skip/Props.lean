import Verif.Skip.Lemmas5

/-! # C47: the skip list is a set -/
namespace Np.Skip

open _root_.Np.Skip.Spec

/-- C47.  For every order of the items and every sequence of operations on a new skip list (and
whatever the random heights are) nothing undefined happens and every report is the one of a set:
`add` reports whether the item was new, `remove` whether it was there, `find` whether it is there,
with the stored item, `size` the number of items, and `map` visits the items in order. -/
theorem C47_set {α : Type} {cmp : α → α → Int} (ho : Order cmp) (ops : List (Op α)) :
    ∃ outs s, perform' cmp init ops = some (outs, s) ∧ AllAgree cmp [] ops outs := by
  obtain ⟨outs, s, _, _, h1, h2, _⟩ := perform'_good ho ops [] (init_good cmp) (List.Perm.refl _)
  exact ⟨outs, s, h1, h2⟩

/-- C47.  Destroying a skip list after any sequence of operations frees every node once and leaves
none behind. -/
theorem C47_freed {α : Type} {cmp : α → α → Int} (ho : Order cmp) (ops : List (Op α)) :
    ∃ outs s heap, perform' cmp init ops = some (outs, s) ∧ destroy s = some heap ∧
      ∀ p, heap p = none := by
  obtain ⟨outs, s, _, _, h1, _, h3⟩ := perform'_good ho ops [] (init_good cmp) (List.Perm.refl _)
  obtain ⟨heap, h4, h5⟩ := destroy_good h3
  exact ⟨outs, s, heap, h1, h4, h5⟩

/-- The order of the integers meets the hypothesis. -/
theorem intOrder : Order fun a b : Int => a - b where
  swap a b := by omega
  trans a b c := by omega

/-- A run with towers of different heights. -/
example :
    ((perform' (fun a b : Int => a - b) init
      [.add 5 0#31, .add 3 1#31, .add 9 0#31, .add 7 7#31, .add 5 1#31, .find 6, .remove 3, .remove 3,
       .find 7, .size]).map fun r => (r.1.map fun o => match o with
        | .done b => (b, (none : Option Int), 0)
        | .found b x => (b, x, 1)
        | .size n => (true, none, n)
        | .items _ => (true, none, 0), height r.2)) =
      some ([(true, none, 0), (true, none, 0), (true, none, 0), (true, none, 0), (false, none, 0),
        (false, some 7, 1), (true, none, 0), (false, none, 0), (true, some 7, 1), (true, none, 3)], 4) := by
  decide +kernel

/-- Iterating starts with the null pointer of the root, then all items in order. -/
example :
    ((perform' (fun a b : Int => a - b) init
      [.add 5 0#31, .add 3 1#31, .add 9 0#31, .map fun _ => false]).map fun r =>
        r.1.map fun o => match o with
        | .items l => l
        | _ => []) = some [[], [], [], [none, some 3, some 5, some 9]] := by
  decide +kernel

/-- And from a bound on: the last item below it, then the rest. -/
example :
    ((perform' (fun a b : Int => a - b) init
      [.add 5 0#31, .add 3 1#31, .add 9 0#31, .map fun y => decide (y < 9)]).map fun r =>
        r.1.map fun o => match o with
        | .items l => l
        | _ => []) = some [[], [], [], [some 5, some 9]] := by
  decide +kernel

end Np.Skip
