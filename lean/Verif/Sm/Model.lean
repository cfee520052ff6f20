/-!
# Model of the generic state machine, `src/util/np_statemachine.c`

The functions of a machine (action, enter, exit) are arbitrary functions of the machine: they change the data of the user and, through a nested call,
the current state.  Conditions are functions of the machine that change nothing (the program does not forbid that they do).  The table of states is a
total function; a missing state would be a `NULL` pointer in the program.  Numbers of states are `uint8_t` in the program and unbounded here.

Within /repo only `invoke` and the functions that build the table are used by the library (src/np_key.c; its table is modelled in area Keys); `invokeAll`
and `go` are called by test/unit/test_statemachine.c only.
-/
namespace Np.Sm

/-- `_current_state` and `_user_data` of `struct np_util_statemachine_s`, include/util/np_statemachine.h:51-59. -/
structure Machine (W : Type) where
  cur : Nat
  data : W
  deriving DecidableEq, Repr

/-- `np_util_statemachine_func`, include/util/np_statemachine.h:27-28. -/
abbrev Func (W E : Type) := Machine W → E → Machine W

/-- `struct np_util_statemachine_transition_s`, include/util/np_statemachine.h:30-35.  `_source_state` is never read. -/
structure Rule (W E : Type) where
  active : Bool
  target : Nat
  action : Option (Func W E)
  cond : Option (Machine W → E → Bool)

/-- `struct np_util_statemachine_state_s`, include/util/np_statemachine.h:39-48, without the name and the function for errors, which is never called. -/
structure State (W E : Type) where
  id : Nat
  enter : Func W E
  exit : Func W E
  rules : List (Rule W E)

abbrev Table (W E : Type) := Nat → State W E

/-- The condition of a rule, src/util/np_statemachine.c:41-42: without one the rule applies. -/
def Rule.holds {W E : Type} (r : Rule W E) (m : Machine W) (e : E) : Bool :=
  match r.cond with
  | none => true
  | some c => c m e

/-- The call of the action, src/util/np_statemachine.c:48. -/
def Rule.act {W E : Type} (r : Rule W E) (m : Machine W) (e : E) : Machine W :=
  match r.action with
  | none => m
  | some f => f m e

/-- The search for the first rule that applies, src/util/np_statemachine.c:32-42, 70. -/
def firstRule {W E : Type} (m : Machine W) (e : E) : List (Rule W E) → Option (Rule W E)
  | [] => none
  | r :: rest => if r.active && r.holds m e then some r else firstRule m e rest

/-- The body for the rule that applies, src/util/np_statemachine.c:47-62.  If the state changed during the action or the exit function, it stays,
and `current_state` is still the state that was left. -/
def apply {W E : Type} (t : Table W E) (m : Machine W) (e : E) (r : Rule W E) : Machine W :=
  let st := t m.cur
  let m1 := r.act m e
  if r.target ≠ st.id then
    let m2 := st.exit m1 e
    if m2.cur = m.cur then (t r.target).enter { m2 with cur := r.target } e
    else st.enter m2 e
  else if m1.cur = m.cur then { m1 with cur := r.target }
  else m1

/-- `np_util_statemachine_invoke_auto_transition`, src/util/np_statemachine.c:22-74. -/
def invoke {W E : Type} (t : Table W E) (m : Machine W) (e : E) : Machine W × Bool :=
  match firstRule m e (t m.cur).rules with
  | none => (m, false)
  | some r => (apply t m e r, true)

/-- `np_util_statemachine_invoke_auto_transitions`, src/util/np_statemachine.c:76-90; `noop`: the event without content. -/
def invokeAll {W E : Type} (t : Table W E) (noop : E) (m : Machine W) : Machine W × Bool := invoke t m noop

/-- `enum np_util_statemachine_error_codes`, include/util/np_statemachine.h:17-21. -/
inductive Result | ok | conditionNotMet | noRule
  deriving DecidableEq, Repr

/-- The body for a rule with the wanted target, src/util/np_statemachine.c:124-146: the state is set in any case. -/
def applyTo {W E : Type} (t : Table W E) (m : Machine W) (e : E) (r : Rule W E) : Machine W :=
  let st := t m.cur
  let m1 := r.act m e
  if r.target ≠ st.id then (t r.target).enter { st.exit m1 e with cur := r.target } e
  else { m1 with cur := r.target }

/-- The loop of `np_util_statemachine_transition`, src/util/np_statemachine.c:102-159. -/
def goLoop {W E : Type} (t : Table W E) (noop : E) (m : Machine W) (target : Nat) : List (Rule W E) → Machine W × Result
  | [] => (m, .noRule)
  | r :: rest =>
    if r.active then
      if r.target = target then
        if r.holds m noop then (applyTo t m noop r, .ok) else (m, .conditionNotMet)
      else goLoop t noop m target rest
    else goLoop t noop m target rest

/-- `np_util_statemachine_transition`, src/util/np_statemachine.c:92-161. -/
def go {W E : Type} (t : Table W E) (noop : E) (m : Machine W) (target : Nat) : Machine W × Result :=
  goLoop t noop m target (t m.cur).rules

/-- `np_util_statemachine_add_transition`, src/util/np_statemachine.c:194-240: `none` if the assertion on the number (223) ends the process.  The
counter, a `uint8_t`, is incremented (221) before that; at 255 the process ends, so it never wraps.  The result of `calloc` (206) is not checked in the
program and taken to be memory here. -/
def addRule {W E : Type} (s : State W E) (r : Rule W E) : Option (State W E) :=
  if s.rules.length + 1 < 255 then some { s with rules := s.rules ++ [r] } else none

/-- Adding one rule after the other, as in src/np_key.c:170-486. -/
def addRules {W E : Type} (s : State W E) : List (Rule W E) → Option (State W E)
  | [] => some s
  | r :: rest =>
    match addRule s r with
    | none => none
    | some s' => addRules s' rest

end Np.Sm
