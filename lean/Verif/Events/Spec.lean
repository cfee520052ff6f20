import Verif.Events.Model

/-! # What the order of events means, in terms of the log only -/
namespace Np.Events.Spec

open Np.Events

/-- The events raised for chain `c`, in this order. -/
def raised (c : Nat) : List Entry → List Chained :=
  List.filterMap fun | .raised d x => if d = c then some x else none | _ => none

/-- Begin and end of the handling of an event. -/
inductive Act | begins (x : Chained) | ends (x : Chained)
deriving DecidableEq

/-- What happened to the events of chain `c`. -/
def acts (c : Nat) : List Entry → List Act :=
  List.filterMap fun
    | .begin d x => if d = c then some (.begins x) else none
    | .finish d x => if d = c then some (.ends x) else none
    | _ => none

/-- Handled one after the other: the first begins and ends, then the second begins and ends, and so on. -/
def oneByOne (l : List Chained) : List Act := l.flatMap fun x => [.begins x, .ends x]

/-- The references chain `c` took and released. -/
def taken (c : Nat) : List Entry → List Nat :=
  List.filterMap fun | .taken d o => if d = c then some o else none | _ => none
def released (c : Nat) : List Entry → List Nat :=
  List.filterMap fun | .released d o => if d = c then some o else none | _ => none

end Np.Events.Spec
