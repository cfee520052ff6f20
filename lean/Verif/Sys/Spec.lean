import Verif.Sys.Model
/-!
# What a user of the reports expects
-/
namespace Np.Sys.Spec
open _root_.Np.Sys
open Np.Http (Text)

/-- What happens to a server: a report arrives from a sender, its user asks for all reports, or for that on a node. -/
inductive Op (α : Type)
  | report (sender : Text) (r : Report α)
  | all (now : Int) (own : α)
  | info (now : Int) (own : α) (target : Text)

def step {α : Type} (me : Text) (st : St α) : Op α → Except Fault (St α)
  | .report f r => (receive st f r).map (·.1)
  | .all now own => (getAll st now own).map (·.1)
  | .info now own t => (getInfo st me now own t).map (·.1)

def run {α : Type} (me : Text) (st : St α) : List (Op α) → Except Fault (St α)
  | [] => .ok st
  | o :: os => match step me st o with
    | .error f => .error f
    | .ok st' => run me st' os

/-- A server that has just been enabled, with the http interface or without. -/
def Enabled {α : Type} (me : Text) (st : St α) : Prop := st = enable { cache := none, hooks := none } me ∨ st = enable { cache := none, hooks := some [] } me

/-- A report as `np_sysinfo_enable_client` sends it: about a node, with a time. -/
def Proper {α : Type} (r : Report α) : Prop := (∃ s, r.source = some s ∧ s.length ≤ 255) ∧ r.stamp.isSome

/-- All reports of a history are proper. -/
def AllProper {α : Type} (ops : List (Op α)) : Prop := ∀ f r, Op.report f r ∈ ops → Proper r

/-- The time of a report, of one that has a time. -/
def time {α : Type} (r : Report α) : Int := r.stamp.getD 0

/-- A report that is more than ninety seconds old. -/
def Old {α : Type} (r : Report α) (now : Int) : Prop := time r + 90000000 < now

/-- The times at which all reports were asked for. -/
def asked {α : Type} : List (Op α) → List Int
  | [] => []
  | .all now _ :: os => now :: asked os
  | _ :: os => asked os

/-- A report was received and was not too old at any later moment at which all were asked for. -/
def Standing {α : Type} (ops : List (Op α)) (s : Text) (r : Report α) : Prop :=
  ∃ a b f, ops = a ++ .report f r :: b ∧ r.source = some s ∧ ∀ now ∈ asked b, ¬ Old r now

/-- What is known about a node: a newest one among the standing reports about it. -/
def Newest {α : Type} (ops : List (Op α)) (s : Text) : Option (Report α) → Prop
  | none => ∀ r, ¬ Standing ops s r
  | some r => Standing ops s r ∧ ∀ r', Standing ops s r' → time r' ≤ time r

/-- A path of the http interface, "/sysinfo/" and a text. -/
def pagePath (s : Text) : Text := [47, 115, 121, 115, 105, 110, 102, 111, 47] ++ s

/-- A request without anything else. -/
def get (path : Text) : Http.Req := { Http.fresh with path := some path }

end Np.Sys.Spec
