import Verif.Mem.Model

/-! # Objects and their references as the callers see them -/
namespace Np.Mem.Spec

open Np.Mem

/-- The number of objects created, the references that exist for each, whether it is new and was never referenced, and
how many calls of unref are not finished. -/
structure Count where
  objs : Nat := 0
  refs : Nat → Nat := fun _ => 0
  isNew : Nat → Bool := fun _ => false
  running : Nat := 0

def Count.step (c : Count) : Op → Count
  | .new => { c with objs := c.objs + 1, refs := fun j => if j = c.objs then 0 else c.refs j,
                     isNew := fun j => if j = c.objs then true else c.isNew j }
  | .create => { c with objs := c.objs + 1, refs := fun j => if j = c.objs then 1 else c.refs j,
                        isNew := fun j => if j = c.objs then false else c.isNew j }
  | .ref s => { c with refs := fun j => if j = s then c.refs s + 1 else c.refs j,
                       isNew := fun j => if j = s then false else c.isNew j }
  | .unref s => { c with refs := fun j => if j = s then c.refs s - 1 else c.refs j, running := c.running + 1 }
  | .free _ => { c with running := c.running - 1 }
  | .refresh => c
  | .shrink => c

/-- The callers keep the rules: a reference is taken only for an object that is referenced or was just created, dropped
only if there is one, and there are less than 2^32 of them. -/
def Count.Rule (c : Count) : Op → Prop
  | .ref s => s < c.objs ∧ (0 < c.refs s ∨ c.isNew s = true) ∧ c.refs s + 1 < 2 ^ 32
  | .unref s => s < c.objs ∧ 0 < c.refs s
  | .free n => n < c.running
  | _ => True

def Count.run : Count → List Op → Count
  | c, [] => c
  | c, op :: r => Count.run (c.step op) r

/-- All steps keep the rules. -/
def Count.Rules : Count → List Op → Prop
  | _, [] => True
  | c, op :: r => c.Rule op ∧ Count.Rules (c.step op) r

/-- Creating an object is not interrupted, and memory is given back only while no unref is running. -/
def Count.Calm : Count → List Op → Prop
  | _, [] => True
  | c, op :: r => op ≠ .new ∧ (op = .shrink → c.running = 0) ∧ Count.Calm (c.step op) r

end Np.Mem.Spec
