import Verif.Events.Lemmas

/-! # Properties of event chains

`h` is what handling an event does; it may be any program.  `x` is the event the outermost chain is started with. -/
namespace Np.Events

open Np (Dhkey)
open _root_.Np.Events.Spec

/-- Nothing happened yet. -/
def fresh {S : Type} (s : S) : St S := ⟨s, 0, []⟩

theorem wellRun_of_start {S : Type} (h : S → Chained → Prog S) (depth : Nat) (x : Chained) (s : S)
    (hok : (start h depth x (fresh s)).1 = .ok) (c : Nat) : WellRun c (view c (start h depth x (fresh s)).2.log) := by
  have hr := ((start_ok h depth x (fresh s) (fun _ _ => rfl)).1 hok).1
  by_cases hc : c < (start h depth x (fresh s)).2.next
  · exact hr.new c (Nat.zero_le _) hc
  · rw [hr.future c (by omega)]
    refine ⟨rfl, rfl, rfl, ?_, ?_, by simp [raised]⟩
    · intro a y hp
      simp at hp
    · intro a o b hV
      simp at hV

/-- **C36, order.** Whatever the handlers do: the events raised for a chain are handled in the order in which they were
raised, each exactly once, one after the other. -/
theorem C36_in_order_exactly_once {S : Type} (h : S → Chained → Prog S) (depth : Nat) (x : Chained) (s : S)
    (hok : (start h depth x (fresh s)).1 = .ok) (c : Nat) :
    acts c (start h depth x (fresh s)).2.log = oneByOne (raised c (start h depth x (fresh s)).2.log) := by
  rw [← acts_view, ← raised_view]
  exact (wellRun_of_start h depth x s hok c).runs

/-- **C36, after the raising event.** When the handling of an event begins, it has been raised, the events raised before it
have been handled, and no event of the chain is being handled: the one that raised it has ended. -/
theorem C36_after_the_raising_event {S : Type} (h : S → Chained → Prog S) (depth : Nat) (x : Chained) (s : S)
    (hok : (start h depth x (fresh s)).1 = .ok) (c : Nat) (y : Chained) (before after : List Entry)
    (hl : (start h depth x (fresh s)).2.log = before ++ .begin c y :: after) :
    ∃ done rest, raised c before = done ++ y :: rest ∧ acts c before = oneByOne done := by
  have hw := (wellRun_of_start h depth x s hok c).causal
  have hp : view c before ++ [Entry.begin c y] <+: view c (start h depth x (fresh s)).2.log := by
    refine ⟨view c after, ?_⟩
    rw [hl, view_append, view_cons]
    simp [Entry.chain]
  obtain ⟨done, rest, h1, h2⟩ := hw _ _ hp
  exact ⟨done, rest, by rw [← raised_view]; exact h1, by rw [← acts_view]; exact h2⟩

/-- **C36, references.** A chain takes one reference for the payload of every event raised for it and releases exactly
these, after its last event was handled. -/
theorem C36_references_released_once {S : Type} (h : S → Chained → Prog S) (depth : Nat) (x : Chained) (s : S)
    (hok : (start h depth x (fresh s)).1 = .ok) (c : Nat) :
    taken c (start h depth x (fresh s)).2.log =
        (raised c (start h depth x (fresh s)).2.log).filterMap (·.event.payload) ∧
      released c (start h depth x (fresh s)).2.log = taken c (start h depth x (fresh s)).2.log ∧
      ∀ o before after, (start h depth x (fresh s)).2.log = before ++ .released c o :: after →
        acts c after = [] ∧ raised c after = [] := by
  have hw := wellRun_of_start h depth x s hok c
  refine ⟨?_, ?_, ?_⟩
  · rw [← taken_view, ← raised_view]
    exact hw.takes
  · rw [← taken_view, ← released_view]
    exact hw.releases
  · intro o before after hl
    have := hw.last (view c before) o (view c after) (by
      rw [hl, view_append, view_cons]
      simp [Entry.chain])
    rw [acts_view, raised_view] at this
    exact this

/-- The event the chain was started with is the first of it. -/
theorem C36_starts_with_its_event {S : Type} (h : S → Chained → Prog S) (depth : Nat) (x : Chained) (s : S)
    (hok : (start h depth x (fresh s)).1 = .ok) :
    (raised 0 (start h depth x (fresh s)).2.log).head? = some x := by
  obtain ⟨t, ht⟩ := ((start_ok h depth x (fresh s) (fun _ _ => rfl)).1 hok).2
  rw [← ht]
  simp [raised, fresh]

/-- **C36, limit.** A chain has at most 255 events; the process is aborted only if a handler raises one more. -/
theorem C36_limit {S : Type} (h : S → Chained → Prog S) (depth : Nat) (x : Chained) (s : S) :
    ((start h depth x (fresh s)).1 = .ok → ∀ c, (raised c (start h depth x (fresh s)).2.log).length ≤ 255) ∧
    ((start h depth x (fresh s)).1 = .full → ∃ c, 255 < (raised c (start h depth x (fresh s)).2.log).length) := by
  refine ⟨fun hok c => ?_, fun hf => (start_ok h depth x (fresh s) (fun _ _ => rfl)).2 hf⟩
  rw [← raised_view]
  exact (wellRun_of_start h depth x s hok c).size

/-! ## A concrete case

Event 0 raises 1 (with payload 7) and 2 and starts a chain with event 4 (payload 9) in between; 1 raises 3; 4 raises 5. -/

def ev (n : Nat) (p : Option Nat) : Chained := ⟨Dhkey.zero, ⟨n, p⟩⟩

def sample (s : Nat) (x : Chained) : Prog Nat :=
  match x.event.type with
  | 0 => .raise (ev 1 (some 7)) (.start (s + 1) (ev 4 (some 9)) fun s' => .raise (ev 2 none) (.ret (s' + 1)))
  | 1 => .raise (ev 3 none) (.ret s)
  | 4 => .raise (ev 5 (some 9)) (.ret (s + 10))
  | _ => .ret s

example : (start sample 3 (ev 0 none) (fresh 0)).1 = .ok ∧
    (start sample 3 (ev 0 none) (fresh 0)).2.state = 12 ∧
    acts 0 (start sample 3 (ev 0 none) (fresh 0)).2.log =
      oneByOne [ev 0 none, ev 1 (some 7), ev 2 none, ev 3 none] ∧
    acts 1 (start sample 3 (ev 0 none) (fresh 0)).2.log = oneByOne [ev 4 (some 9), ev 5 (some 9)] ∧
    released 0 (start sample 3 (ev 0 none) (fresh 0)).2.log = [7] ∧
    released 1 (start sample 3 (ev 0 none) (fresh 0)).2.log = [9, 9] := by
  decide +kernel

/-- A handler that raises the same event again and again reaches the limit. -/
example : (start (fun (s : Unit) x => Prog.raise x (.ret s)) 1 (ev 0 none) (fresh ())).1 = .full := by decide +kernel

end Np.Events
