import Verif.Log.Model

/-!
# What is expected of the log
-/
namespace Np.Log.Spec

/-- Which messages an application gets that selects `sel`: errors and warnings in any case; others if their level is selected, verbose ones
only if that is selected too, and if they are about no module, a selected one, or everything is selected (`LOG_GLOBAL`). -/
def Wanted (sel level : Level) : Prop :=
  level.getLsbD 0 = true ∨ level.getLsbD 1 = true ∨
    ((∃ k, k < 8 ∧ level.getLsbD k = true ∧ sel.getLsbD k = true) ∧
      (level.getLsbD 5 = true → sel.getLsbD 5 = true) ∧
      ((∀ k, 8 ≤ k → k < 36 → level.getLsbD k = false) ∨ (∃ k, 8 ≤ k ∧ k < 36 ∧ level.getLsbD k = true ∧ sel.getLsbD k = true) ∨
        sel.getLsbD 35 = true))

/-- The line for a message. -/
def line (pre body : List Char) : List Char := pre ++ ' ' :: body ++ ['\n']

/-- The lines of all messages in a history which pass the selection, in order. -/
def lines (sel : Selection) : List Op → List (List Char)
  | [] => []
  | .message level pre body _ :: r => if accepts sel level then line pre body :: lines sel r else lines sel r
  | .flush _ _ :: r => lines sel r
  | .tick _ _ :: r => lines sel r

/-- The answers of the operating system in a step. -/
def answers : Op → List Int
  | .message _ _ _ ans => ans
  | .flush _ ans => ans
  | .tick _ ans => ans

/-- Each call of `write` fails or writes all of up to `n` bytes. -/
def Whole (n : Nat) (ans : List Int) : Prop := ∀ a ∈ ans, a < 0 ∨ (n : Int) ≤ a

/-- How many of the five levels a message has. -/
def levels (level : Level) : Nat :=
  (level.getLsbD 0).toNat + (level.getLsbD 1).toNat + (level.getLsbD 2).toNat + (level.getLsbD 3).toNat + (level.getLsbD 4).toNat

/-- A step which a careful program makes: a message with a text and at most three levels; the next log file can be opened. -/
def Careful : Op → Prop
  | .message level _ body _ => body ≠ [] ∧ levels level ≤ 3
  | .flush _ _ => True
  | .tick opens _ => opens = true

/-- How often an entry is in a list. -/
def times {α : Type} [DecidableEq α] (e : α) (l : List α) : Nat := l.count e

/-- The entries logged in a history of several threads. -/
def logged {α : Type} : List (Move α) → List α
  | [] => []
  | .log e :: r => e :: logged r
  | .take _ :: r => logged r
  | .write _ :: r => logged r
  | .putBack _ :: r => logged r

end Np.Log.Spec
