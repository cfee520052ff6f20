import Verif.Sm.Lemmas
/-!
# C167-C170: the state machine
-/
namespace Np.Sm
open _root_.Np.Sm.Spec

/-! ## A machine for the examples: states 0, 1, 2; the data is the list of calls, the newest last; the event is a number -/

def say (n : Nat) : Func (List Nat) Nat := fun m _ => { m with data := m.data ++ [n] }

/-- State `k` says `10 * k + 1` when it is entered and `10 * k + 2` when it is left. -/
def st (k : Nat) (rules : List (Rule (List Nat) Nat)) : State (List Nat) Nat :=
  { id := k, enter := say (10 * k + 1), exit := say (10 * k + 2), rules := rules }

def tab : Table (List Nat) Nat := fun k =>
  st k (if k = 0 then
    [⟨true, 2, some (say 100), some fun _ e => e == 5⟩, ⟨false, 2, some (say 101), none⟩, ⟨true, 1, some (say 102), some fun _ e => e == 6⟩,
      ⟨true, 0, some (say 103), some fun _ e => e == 7⟩, ⟨true, 2, some (say 104), some fun _ e => e == 0⟩]
  else if k = 1 then [⟨true, 2, none, none⟩] else [])

theorem tab_numbered : Numbered tab := fun _ => rfl

/-! ## C167: an event -/

/-- C167: an event is handled exactly if a rule of the current state applies to it; otherwise nothing changes. -/
theorem C167_handled_iff {W E : Type} (t : Table W E) (m : Machine W) (e : E) :
    ((invoke t m e).2 = true ↔ ∃ r ∈ (t m.cur).rules, Applies m e r) ∧
    ((invoke t m e).2 = false → (invoke t m e).1 = m) := by
  unfold invoke
  cases h : firstRule m e (t m.cur).rules with
  | none =>
    have k := firstRule_none.mp h
    exact ⟨⟨fun q => absurd q (by simp), fun ⟨r, hr, ha⟩ => absurd ha (k r hr)⟩, fun _ => rfl⟩
  | some r =>
    obtain ⟨b, a, e1, h1, _⟩ := firstRule_some h
    exact ⟨⟨fun _ => ⟨r, by rw [e1]; exact List.mem_append_right _ List.mem_cons_self, h1⟩, fun _ => rfl⟩, fun q => absurd q (by simp)⟩

example : (invoke tab ⟨0, []⟩ 9).2 = false ∧ (invoke tab ⟨0, []⟩ 6).2 = true := by decide

/-- C167: the first rule that applies decides.  If it leads to another state and no function makes a nested call, the action, the exit function of the
state that is left and the enter function of the target are called, once each and in this order, and the machine is in the target. -/
theorem C167_first_rule_partial {W E : Type} (t : Table W E) (m : Machine W) (e : E) (r : Rule W E) (hn : Numbered t)
    (hf : First m e (t m.cur).rules r) (ha : ∀ f, r.action = some f → Flat f) (hx : Flat (t m.cur).exit) (he : Flat (t r.target).enter)
    (ht : r.target ≠ m.cur) :
    (invoke t m e).1 = ⟨r.target, effect (t r.target).enter r.target (effect (t m.cur).exit m.cur (r.act m e).data e) e⟩ := by
  have a := act_flat r ha m e
  have x := hx (r.act m e) e
  unfold invoke
  rw [firstRule_of_first hf]
  show apply t m e r = _
  unfold apply
  simp only []
  rw [if_pos (by rw [hn]; exact ht), if_pos (x.trans a)]
  have k := he { (t m.cur).exit (r.act m e) e with cur := r.target } e
  rw [mk_eq _ r.target k]
  unfold effect
  rw [mk_eq (r.act m e) m.cur a]

/-- C167: if it leads to the same state, only the action is called. -/
theorem C167_same_state_partial {W E : Type} (t : Table W E) (m : Machine W) (e : E) (r : Rule W E) (hn : Numbered t)
    (hf : First m e (t m.cur).rules r) (ha : ∀ f, r.action = some f → Flat f) (ht : r.target = m.cur) :
    (invoke t m e).1 = r.act m e := by
  have a := act_flat r ha m e
  unfold invoke
  rw [firstRule_of_first hf]
  show apply t m e r = _
  unfold apply
  simp only []
  rw [if_neg (by rw [hn]; exact fun k => k ht), if_pos a, ht, mk_eq (r.act m e) m.cur a]

/-- The calls in the example: event 6 takes the third rule, event 7 the fourth, which stays. -/
example : (invoke tab ⟨0, []⟩ 6).1 = ⟨1, [102, 2, 11]⟩ ∧ (invoke tab ⟨0, []⟩ 7).1 = ⟨0, [103]⟩ ∧ (invoke tab ⟨0, []⟩ 5).1 = ⟨2, [100, 2, 21]⟩ := by
  decide

/-- The hypotheses hold in the example, for a rule that is not the first one of the state. -/
example : (invoke tab ⟨0, []⟩ 6).1.cur = 1 := by
  rw [C167_first_rule_partial tab ⟨0, []⟩ 6 ⟨true, 1, some (say 102), some fun _ e => e == 6⟩ tab_numbered (firstRule_some rfl)
    (fun f h => by cases h; exact fun _ _ => rfl) (fun _ _ => rfl) (fun _ _ => rfl) (by decide)]

example : (invoke tab ⟨0, [1]⟩ 7).1.data = [1, 103] := by
  rw [C167_same_state_partial tab ⟨0, [1]⟩ 7 ⟨true, 0, some (say 103), some fun _ e => e == 7⟩ tab_numbered (firstRule_some rfl)
    (fun f h => by cases h; exact fun _ _ => rfl) rfl]
  rfl

/-- State 0 goes to state 2 on event 3, with the given action, and to state 1 on event 6. -/
def withAction (f : Option (Func (List Nat) Nat)) : Table (List Nat) Nat := fun k =>
  st k (if k = 0 then [⟨true, 2, f, some fun _ e => e == 3⟩, ⟨true, 1, some (say 102), some fun _ e => e == 6⟩] else [])

/-- The action for event 3 hands event 6 to the machine. -/
def nested : Table (List Nat) Nat := withAction (some fun m _ => (invoke (withAction none) m 6).1)

/-- The inner call is a call of the machine itself: on event 6 the action for event 3 plays no part. -/
theorem nested_same (f : Option (Func (List Nat) Nat)) (l : List Nat) : invoke (withAction f) ⟨0, l⟩ 6 = invoke (withAction none) ⟨0, l⟩ 6 := rfl

/-- C167 fails with a nested call: the machine is then in the state of the nested call, but the exit function of the state that was left is called a
second time, and at last its enter function. -/
theorem C167_nested_refuted : Numbered nested ∧ invoke nested ⟨0, []⟩ 6 = (⟨1, [102, 2, 11]⟩, true) ∧
    invoke nested ⟨0, []⟩ 3 = (⟨1, [102, 2, 11, 2, 1]⟩, true) := ⟨fun _ => rfl, by decide, by decide⟩

/-- C167, the general case: whenever the action ends in another state and the exit function makes no nested call, the enter function of the state that
was left is the last one to be called. -/
theorem C167_left_state_entered_refuted {W E : Type} (t : Table W E) (m : Machine W) (e : E) (r : Rule W E) (hn : Numbered t)
    (hf : First m e (t m.cur).rules r) (hx : Flat (t m.cur).exit) (ht : r.target ≠ m.cur) (hc : (r.act m e).cur ≠ m.cur) :
    (invoke t m e).1 = (t m.cur).enter ((t m.cur).exit (r.act m e) e) e := by
  unfold invoke
  rw [firstRule_of_first hf]
  show apply t m e r = _
  unfold apply
  simp only []
  rw [if_pos (by rw [hn]; exact ht), if_neg (by rw [hx]; exact hc)]

example : (invoke nested ⟨0, []⟩ 3).1.data = [102, 2, 11, 2, 1] := by
  rw [C167_left_state_entered_refuted nested ⟨0, []⟩ 3 _ (fun _ => rfl) (firstRule_some rfl) (fun _ _ => rfl) (by decide) (by decide)]
  rfl

/-! ## C168: a transition on request -/

/-- C168: the request succeeds if the first active rule with the target applies. -/
theorem C168_request_partial {W E : Type} (t : Table W E) (noop : E) (m : Machine W) (target : Nat) (before after : List (Rule W E)) (r : Rule W E)
    (hl : (t m.cur).rules = before ++ r :: after) (hb : ∀ x ∈ before, x.active = true → x.target ≠ target)
    (ha : Applies m noop r) (ht : r.target = target) (he : Flat (t target).enter) :
    (go t noop m target).2 = .ok ∧ (go t noop m target).1.cur = target := by
  have hg : go t noop m target = (applyTo t m noop r, .ok) := by
    unfold go
    rw [hl]
    clear hl
    induction before with
    | nil =>
      show (if r.active = true then _ else _) = _
      rw [if_pos ha.1, if_pos ht, if_pos ((holds_iff _ _ _).mpr ha.2)]
    | cons x b ih =>
      have h := ih (fun y hy => hb y (List.mem_cons_of_mem _ hy))
      show (if x.active = true then _ else _) = _
      by_cases k : x.active = true
      · rw [if_pos k, if_neg (hb x List.mem_cons_self k)]; exact h
      · rw [if_neg k]; exact h
  rw [hg]
  refine ⟨rfl, ?_⟩
  show (applyTo t m noop r).cur = target
  unfold applyTo
  simp only []
  by_cases k : r.target ≠ (t m.cur).id
  · rw [if_pos k, ht]; exact he _ _
  · rw [if_neg k]; exact ht

example : go tab 0 ⟨1, []⟩ 2 = (⟨2, [12, 21]⟩, .ok) := by decide

/-- The hypotheses hold for the request of state 1 in state 0 on event 6, after two rules for another target. -/
example : (go tab 6 ⟨0, []⟩ 1).2 = .ok :=
  (C168_request_partial tab 6 ⟨0, []⟩ 1 [_, _] [_, _] ⟨true, 1, some (say 102), some fun _ e => e == 6⟩ rfl
    (fun x h _ => by rcases List.mem_cons.mp h with e | h
                     · rw [e]; decide
                     · rw [List.mem_singleton.mp h]; decide)
    ⟨rfl, fun c h => by cases h; rfl⟩ rfl (fun _ _ => rfl)).1

/-- C168: a request without an active rule for it says so, and a request that fails changes nothing. -/
theorem C168_failed_request {W E : Type} (t : Table W E) (noop : E) (m : Machine W) (target : Nat) :
    ((go t noop m target).2 = .noRule ↔ ∀ r ∈ (t m.cur).rules, r.active = true → r.target ≠ target) ∧
    ((go t noop m target).2 ≠ .ok → (go t noop m target).1 = m) := by
  unfold go
  induction (t m.cur).rules with
  | nil => exact ⟨⟨fun _ _ h => (List.not_mem_nil h).elim, fun _ => rfl⟩, fun _ => rfl⟩
  | cons x l ih =>
    unfold goLoop
    by_cases k : x.active = true
    · rw [if_pos k]
      by_cases q : x.target = target
      · rw [if_pos q]
        have no : ¬ ∀ r ∈ x :: l, r.active = true → r.target ≠ target := fun h => h x List.mem_cons_self k q
        by_cases c : x.holds m noop = true
        · rw [if_pos c]; exact ⟨⟨fun h => absurd h (by simp), fun h => absurd h no⟩, fun h => absurd rfl h⟩
        · rw [if_neg c]; exact ⟨⟨fun h => absurd h (by simp), fun h => absurd h no⟩, fun _ => rfl⟩
      · rw [if_neg q]
        refine ⟨ih.1.trans ⟨fun h r hr => ?_, fun h r hr => h r (List.mem_cons_of_mem _ hr)⟩, ih.2⟩
        rcases List.mem_cons.mp hr with e1 | hr
        · rw [e1]; exact fun _ => q
        · exact h r hr
    · rw [if_neg k]
      refine ⟨ih.1.trans ⟨fun h r hr => ?_, fun h r hr => h r (List.mem_cons_of_mem _ hr)⟩, ih.2⟩
      rcases List.mem_cons.mp hr with e1 | hr
      · rw [e1]; exact fun z => absurd z k
      · exact h r hr

example : go tab 9 ⟨2, []⟩ 0 = (⟨2, []⟩, .noRule) ∧ go tab 9 ⟨0, []⟩ 1 = (⟨0, []⟩, .conditionNotMet) := by decide

/-- C168 fails: the fifth rule of state 0 leads to state 2 and applies to the event without content, but the first rule for state 2 does not, and the
request ends there. -/
theorem C168_later_rule_refuted : (∃ r ∈ (tab 0).rules, r.target = 2 ∧ Applies (⟨0, []⟩ : Machine (List Nat)) 0 r) ∧
    go tab 0 ⟨0, []⟩ 2 = (⟨0, []⟩, .conditionNotMet) := by
  refine ⟨⟨⟨true, 2, some (say 104), some fun _ e => e == 0⟩, ?_, rfl, rfl, ?_⟩, by decide⟩
  · exact List.mem_cons_of_mem _ (List.mem_cons_of_mem _ (List.mem_cons_of_mem _ (List.mem_cons_of_mem _ List.mem_cons_self)))
  · intro c h; cases h; rfl

/-! ## C169: transitions until none is possible -/

/-- Rules that apply to the event without content, one after the other: 0 → 1 → 2. -/
def chain : Table (List Nat) Nat := fun k => st k (if k < 2 then [⟨true, k + 1, none, none⟩] else [])

/-- C169: something happens exactly if a rule applies. -/
theorem C169_some_partial {W E : Type} (t : Table W E) (noop : E) (m : Machine W) :
    (invokeAll t noop m).2 = true ↔ ∃ r ∈ (t m.cur).rules, Applies m noop r := (C167_handled_iff t m noop).1

/-- C169 fails: after the call another transition is possible. -/
theorem C169_until_none_refuted : (invokeAll chain 0 ⟨0, []⟩).1.cur = 1 ∧
    (invokeAll chain 0 (invokeAll chain 0 ⟨0, []⟩).1).2 = true := by decide

/-! ## C170: building the table -/

/-- C170: up to 254 rules in total are kept, in the order in which they were added; one more ends the process. -/
theorem C170_rules_kept {W E : Type} (s : State W E) (l : List (Rule W E)) (h0 : s.rules.length < 255) :
    (s.rules.length + l.length < 255 → addRules s l = some { s with rules := s.rules ++ l }) ∧
    (255 ≤ s.rules.length + l.length → addRules s l = none) := by
  induction l generalizing s with
  | nil =>
    refine ⟨fun _ => by simp [addRules], fun h => ?_⟩
    simp only [List.length_nil] at h
    omega
  | cons r rest ih =>
    simp only [List.length_cons]
    by_cases k : s.rules.length + 1 < 255
    · have e : addRules s (r :: rest) = addRules { s with rules := s.rules ++ [r] } rest := by simp [addRules, addRule, k]
      rw [e]
      have h := ih { s with rules := s.rules ++ [r] } (by simpa using k)
      simp only [List.length_append, List.length_cons, List.length_nil, List.append_assoc, List.cons_append, List.nil_append] at h
      exact ⟨fun q => h.1 (by omega), fun q => h.2 (by omega)⟩
    · have e : addRules s (r :: rest) = none := by simp [addRules, addRule, k]
      exact ⟨fun q => absurd q (by omega), fun _ => e⟩

example : (addRules (st 0 []) ((List.range 254).map fun i => ⟨true, i, none, none⟩)).isSome = true ∧
    (addRules (st 0 []) ((List.range 255).map fun i => ⟨true, i, none, none⟩)).isSome = false := by decide +kernel

end Np.Sm
