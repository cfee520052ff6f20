import Verif.Events.Spec

set_option linter.unusedSimpArgs false
set_option linter.unusedVariables false

namespace Np.Events

open Np (Dhkey)
open _root_.Np.Events.Spec

def Entry.chain : Entry → Nat
  | .raised c _ | .taken c _ | .begin c _ | .finish c _ | .released c _ => c

/-- The entries of one chain. -/
def view (c : Nat) (l : List Entry) : List Entry := l.filter fun e => e.chain == c

theorem view_append (c : Nat) (a b : List Entry) : view c (a ++ b) = view c a ++ view c b := by simp [view]
theorem view_cons (c : Nat) (e : Entry) (b : List Entry) :
    view c (e :: b) = (if e.chain = c then [e] else []) ++ view c b := by
  unfold view
  rw [List.filter_cons]
  by_cases h : e.chain = c <;> simp [h]
theorem view_nil (c : Nat) : view c [] = [] := rfl

theorem view_none {c : Nat} {l : List Entry} (h : ∀ e ∈ l, e.chain ≠ c) : view c l = [] := by
  unfold view
  rw [List.filter_eq_nil_iff]
  intro e he
  simpa using h e he

theorem view_self {c : Nat} {l : List Entry} (h : ∀ e ∈ l, e.chain = c) : view c l = l := by
  unfold view
  rw [List.filter_eq_self]
  intro e he
  simpa using h e he

theorem filterMap_view {α : Type} (c : Nat) (f : Entry → Option α) (hf : ∀ e, e.chain ≠ c → f e = none) :
    ∀ l : List Entry, (view c l).filterMap f = l.filterMap f
  | [] => rfl
  | e :: r => by
    rw [view_cons, List.filterMap_append, filterMap_view c f hf r]
    by_cases h : e.chain = c
    · simp only [h, if_true]
      cases hfe : f e <;> simp [hfe]
    · simp only [h, if_false, List.filterMap_cons, hf e h, List.filterMap_nil, List.nil_append]

theorem raised_view (c : Nat) (l : List Entry) : raised c (view c l) = raised c l := by
  unfold raised
  refine filterMap_view c _ ?_ l
  intro e he
  cases e <;> simp_all [Entry.chain]
theorem acts_view (c : Nat) (l : List Entry) : acts c (view c l) = acts c l := by
  unfold acts
  refine filterMap_view c _ ?_ l
  intro e he
  cases e <;> simp_all [Entry.chain]
theorem taken_view (c : Nat) (l : List Entry) : taken c (view c l) = taken c l := by
  unfold taken
  refine filterMap_view c _ ?_ l
  intro e he
  cases e <;> simp_all [Entry.chain]
theorem released_view (c : Nat) (l : List Entry) : released c (view c l) = released c l := by
  unfold released
  refine filterMap_view c _ ?_ l
  intro e he
  cases e <;> simp_all [Entry.chain]

theorem raised_append (c : Nat) (a b : List Entry) : raised c (a ++ b) = raised c a ++ raised c b := by simp [raised]
theorem acts_append (c : Nat) (a b : List Entry) : acts c (a ++ b) = acts c a ++ acts c b := by simp [acts]
theorem taken_append (c : Nat) (a b : List Entry) : taken c (a ++ b) = taken c a ++ taken c b := by simp [taken]
theorem released_append (c : Nat) (a b : List Entry) : released c (a ++ b) = released c a ++ released c b := by
  simp [released]

/-- Before an event begins it was raised: fewer events have begun (and ended) than were raised. -/
def Causal (c : Nat) (V : List Entry) : Prop :=
  ∀ a x, (a ++ [Entry.begin c x]) <+: V → ∃ done rest, raised c a = done ++ x :: rest ∧ acts c a = oneByOne done

/-- After a reference was released nothing is raised or handled any more. -/
def Last (c : Nat) (V : List Entry) : Prop :=
  ∀ a o b, V = a ++ Entry.released c o :: b → acts c b = [] ∧ raised c b = []

/-- A chain that ran to its end. -/
structure WellRun (c : Nat) (V : List Entry) : Prop where
  runs : acts c V = oneByOne (raised c V)
  takes : taken c V = (raised c V).filterMap (·.event.payload)
  releases : released c V = taken c V
  causal : Causal c V
  last : Last c V
  size : (raised c V).length ≤ maxSize

/-- A chain whose first `idx` events were handled. -/
structure Running (c : Nat) (idx : Nat) (chain : List Chained) (V : List Entry) : Prop where
  raises : raised c V = chain
  runs : acts c V = oneByOne (chain.take idx)
  takes : taken c V = chain.filterMap (·.event.payload)
  releases : released c V = []
  causal : Causal c V
  size : chain.length ≤ maxSize

/-- A chain of which event `x` is being handled. -/
structure Busy (c : Nat) (idx : Nat) (x : Chained) (chain : List Chained) (V : List Entry) : Prop where
  here : chain[idx]? = some x
  raises : raised c V = chain
  runs : acts c V = oneByOne (chain.take idx) ++ [.begins x]
  takes : taken c V = chain.filterMap (·.event.payload)
  releases : released c V = []
  causal : Causal c V
  size : chain.length ≤ maxSize

theorem Causal.snoc {c : Nat} {V : List Entry} {e : Entry} (h : Causal c V)
    (he : ∀ x, e = .begin c x → ∃ done rest, raised c V = done ++ x :: rest ∧ acts c V = oneByOne done) :
    Causal c (V ++ [e]) := by
  intro a x hp
  rcases List.prefix_concat_iff.1 hp with h1 | h1
  · have := List.append_inj' h1 rfl
    obtain ⟨rfl, h2⟩ := this
    simp only [List.cons.injEq, and_true] at h2
    exact he x h2.symm
  · exact h a x h1

theorem Causal.append {c : Nat} {V l : List Entry} (h : Causal c V) (hl : ∀ e ∈ l, ∀ x, e ≠ .begin c x) :
    Causal c (V ++ l) := by
  induction l generalizing V with
  | nil => simpa using h
  | cons e r ih =>
    rw [show V ++ e :: r = (V ++ [e]) ++ r by simp]
    refine ih ?_ fun e' he' => hl e' (List.mem_cons_of_mem _ he')
    exact h.snoc fun x hx => absurd hx (hl e List.mem_cons_self x)

theorem oneByOne_append (a b : List Chained) : oneByOne (a ++ b) = oneByOne a ++ oneByOne b := by simp [oneByOne]

/-- What a chain started in `st` leaves behind when it ran to its end. -/
structure Ran {S : Type} (st st' : St S) : Prop where
  old : ∀ c, c < st.next → view c st'.log = view c st.log
  new : ∀ c, st.next ≤ c → c < st'.next → WellRun c (view c st'.log)
  future : ∀ c, st'.next ≤ c → view c st'.log = []
  next : st.next ≤ st'.next
  grows : st.log <+: st'.log

/-- Code of chain `c` ran: the other chains and the new ones. -/
structure Code {S : Type} (c : Nat) (st st' : St S) : Prop where
  old : ∀ d, d < st.next → d ≠ c → view d st'.log = view d st.log
  new : ∀ d, st.next ≤ d → d < st'.next → WellRun d (view d st'.log)
  future : ∀ d, st'.next ≤ d → view d st'.log = []
  next : st.next ≤ st'.next
  grows : st.log <+: st'.log

theorem Code.refl {S : Type} {c : Nat} {st : St S} (h : ∀ d, st.next ≤ d → view d st.log = []) : Code c st st :=
  ⟨fun _ _ _ => rfl, fun d h1 h2 => absurd h2 (by omega), h, Nat.le_refl _, List.prefix_rfl⟩

theorem Code.trans {S : Type} {c : Nat} {a b d : St S} (hc : c < a.next) (h1 : Code c a b) (h2 : Code c b d) :
    Code c a d := by
  refine ⟨?_, ?_, h2.future, Nat.le_trans h1.next h2.next, h1.grows.trans h2.grows⟩
  · intro e he hne
    rw [h2.old e (Nat.lt_of_lt_of_le he h1.next) hne, h1.old e he hne]
  · intro e he hlt
    by_cases hb : e < b.next
    · rw [h2.old e hb (by omega)]
      exact h1.new e he hb
    · exact h2.new e (by omega) hlt

/-- Entries of the chain itself. -/
theorem Code.write {S : Type} {c : Nat} {st : St S} {l : List Entry} (hc : c < st.next)
    (hf : ∀ d, st.next ≤ d → view d st.log = []) (hl : ∀ e ∈ l, e.chain = c) : Code c st (st.write l) := by
  refine ⟨?_, ?_, ?_, Nat.le_refl _, List.prefix_append _ _⟩
  · intro d _ hne
    unfold St.write
    simp only
    rw [view_append, view_none (l := l) fun e he => by rw [hl e he]; exact fun e => hne e.symm, List.append_nil]
  · intro d h1 h2
    exact absurd h2 (by simpa [St.write] using h1)
  · intro d h1
    unfold St.write
    simp only
    rw [view_append, view_none (l := l) fun e he => by
      rw [hl e he]
      have : st.next ≤ d := h1
      omega, List.append_nil]
    exact hf d h1

theorem Ran.code {S : Type} {c : Nat} {st st' : St S} (h : Ran st st') : Code c st st' :=
  ⟨fun d hd _ => h.old d hd, h.new, h.future, h.next, h.grows⟩

/-- The outcome of a chain. -/
def Full {S : Type} (st : St S) : Prop := ∃ c, maxSize < (raised c st.log).length

def StartOk {S : Type} (start : Chained → St S → Outcome × St S) : Prop :=
  ∀ x st, (∀ d, st.next ≤ d → view d st.log = []) →
    ((start x st).1 = .ok → Ran st (start x st).2 ∧ st.log ++ [.raised st.next x] <+: (start x st).2.log) ∧ ((start x st).1 = .full → Full (start x st).2)

section
variable {S : Type}

def raiseEntries (c : Nat) (x : Chained) : List Entry :=
  .raised c x :: (match x.event.payload with | some o => [.taken c o] | none => [])

theorem raiseEntries_chain {c : Nat} {x : Chained} : ∀ e ∈ raiseEntries c x, e.chain = c := by
  unfold raiseEntries
  cases x.event.payload <;> simp [Entry.chain]

theorem raiseEntries_begin {c : Nat} {x : Chained} : ∀ e ∈ raiseEntries c x, ∀ y, e ≠ .begin c y := by
  unfold raiseEntries
  cases x.event.payload <;> simp

theorem raiseEntries_raised (c : Nat) (x : Chained) : raised c (raiseEntries c x) = [x] := by
  unfold raiseEntries raised
  cases x.event.payload <;> simp
theorem raiseEntries_acts (c : Nat) (x : Chained) : acts c (raiseEntries c x) = [] := by
  unfold raiseEntries acts
  cases x.event.payload <;> simp
theorem raiseEntries_taken (c : Nat) (x : Chained) : taken c (raiseEntries c x) = [x].filterMap (·.event.payload) := by
  unfold raiseEntries taken
  cases h : x.event.payload <;> simp [h]
theorem raiseEntries_released (c : Nat) (x : Chained) : released c (raiseEntries c x) = [] := by
  unfold raiseEntries released
  cases x.event.payload <;> simp

theorem add_ok {c : Nat} {x : Chained} {r : Res S} (h : r.chain.length < maxSize) :
    raise c x r = ⟨r.st.write (raiseEntries c x), .ok, r.chain ++ [x]⟩ := by
  unfold raise add
  rw [if_pos h]
  cases h : x.event.payload <;> simp [St.write, raiseEntries, h]

theorem add_full {c : Nat} {x : Chained} {r : Res S} (h : ¬ r.chain.length < maxSize) :
    raise c x r = { r with st := r.st.write [.raised c x], outcome := .full } := by
  unfold raise add
  rw [if_neg h]

theorem view_write {c : Nat} {st : St S} {l : List Entry} (hl : ∀ e ∈ l, e.chain = c) :
    view c (st.write l).log = view c st.log ++ l := by
  unfold St.write
  simp only
  rw [view_append, view_self hl]

theorem Busy.raise {c idx : Nat} {x y : Chained} {chain : List Chained} {V : List Entry}
    (h : Busy c idx x chain V) (hs : chain.length < maxSize) : Busy c idx x (chain ++ [y]) (V ++ raiseEntries c y) := by
  have hi : idx < chain.length := by
    rcases List.getElem?_eq_some_iff.1 h.here with ⟨hlt, _⟩
    exact hlt
  refine ⟨?_, ?_, ?_, ?_, ?_, h.causal.append raiseEntries_begin, ?_⟩
  · rw [List.getElem?_append_left hi]; exact h.here
  · rw [raised_append, raiseEntries_raised, h.raises]
  · rw [acts_append, raiseEntries_acts, List.append_nil, h.runs, List.take_append_of_le_length (by omega)]
  · rw [taken_append, raiseEntries_taken, h.takes, List.filterMap_append]
  · rw [released_append, raiseEntries_released, h.releases]; rfl
  · simp only [List.length_append, List.length_cons, List.length_nil]; omega

theorem Busy.full {c idx : Nat} {x : Chained} {r : Res S} (h : Busy c idx x r.chain (view c r.st.log))
    (y : Chained) (hs : ¬ r.chain.length < maxSize) : Full (r.st.write [.raised c y]) := by
  refine ⟨c, ?_⟩
  have h1 : raised c r.st.log = r.chain := by rw [← raised_view, h.raises]
  simp only [St.write, raised_append, h1, List.length_append]
  simp only [raised, List.filterMap_cons, if_true, List.filterMap_nil, List.length_singleton]
  omega

theorem runProg_ok {start : Chained → St S → Outcome × St S} (hstart : StartOk start) {c idx : Nat} {x : Chained} :
    ∀ (p : Prog S) (r : Res S), c < r.st.next → (∀ d, r.st.next ≤ d → view d r.st.log = []) →
      Busy c idx x r.chain (view c r.st.log) →
      ((runProg start c p r).outcome = .ok →
        Code c r.st (runProg start c p r).st ∧
          Busy c idx x (runProg start c p r).chain (view c (runProg start c p r).st.log)) ∧
      ((runProg start c p r).outcome = .full → Full (runProg start c p r).st) := by
  intro p
  induction p with
  | ret s =>
    intro r hc hf hb
    refine ⟨fun _ => ⟨⟨fun _ _ _ => rfl, fun d h1 h2 => absurd h2 (by simp only [runProg]; omega), hf, Nat.le_refl _,
      List.prefix_rfl⟩, hb⟩, ?_⟩
    intro h
    simp [runProg] at h
  | raise y rest ih =>
    intro r hc hf hb
    by_cases hs : r.chain.length < maxSize
    · have hw := Code.write (l := raiseEntries c y) hc hf raiseEntries_chain
      have heq : runProg start c (.raise y rest) r =
          runProg start c rest ⟨r.st.write (raiseEntries c y), .ok, r.chain ++ [y]⟩ := by
        simp only [runProg, add_ok hs]
      rw [heq]
      have hb' : Busy c idx x (r.chain ++ [y]) (view c (r.st.write (raiseEntries c y)).log) := by
        rw [view_write raiseEntries_chain]
        exact hb.raise hs
      obtain ⟨h1, h2⟩ := ih ⟨r.st.write (raiseEntries c y), .ok, r.chain ++ [y]⟩ hc hw.future hb'
      refine ⟨fun ho => ?_, h2⟩
      obtain ⟨h3, h4⟩ := h1 ho
      exact ⟨hw.trans hc h3, h4⟩
    · have heq : runProg start c (.raise y rest) r = { r with st := r.st.write [.raised c y], outcome := .full } := by
        simp only [runProg, add_full hs]
      rw [heq]
      exact ⟨fun h => by simp at h, fun _ => hb.full y hs⟩
  | start s y rest ih =>
    intro r hc hf hb
    have hs := hstart y { r.st with state := s } hf
    cases hst : start y { r.st with state := s } with
    | mk o st =>
      rw [hst] at hs
      cases o with
      | ok =>
        have heq : runProg start c (.start s y rest) r = runProg start c (rest st.state) { r with st := st } := by
          simp only [runProg, hst]
        rw [heq]
        have hr := (hs.1 rfl).1
        have hcode : Code c r.st st := ⟨fun d hd _ => hr.old d hd, hr.new, hr.future, hr.next, hr.grows⟩
        have hb' : Busy c idx x r.chain (view c st.log) := by
          rw [hr.old c hc]
          exact hb
        obtain ⟨h1, h2⟩ := ih st.state { r with st := st } (Nat.lt_of_lt_of_le hc hr.next) hr.future hb'
        refine ⟨fun ho => ?_, h2⟩
        obtain ⟨h3, h4⟩ := h1 ho
        exact ⟨hcode.trans hc h3, h4⟩
      | full =>
        have heq : runProg start c (.start s y rest) r = { r with st := st, outcome := .full } := by
          simp only [runProg, hst]
        rw [heq]
        exact ⟨fun h => by simp at h, fun _ => hs.2 rfl⟩
      | deep =>
        have heq : runProg start c (.start s y rest) r = { r with st := st, outcome := .deep } := by
          simp only [runProg, hst]
        rw [heq]
        exact ⟨fun h => by simp at h, fun h => by simp at h⟩

theorem Running.begin {c idx : Nat} {x : Chained} {chain : List Chained} {V : List Entry}
    (h : Running c idx chain V) (hx : chain[idx]? = some x) : Busy c idx x chain (V ++ [.begin c x]) := by
  obtain ⟨hlt, hget⟩ := List.getElem?_eq_some_iff.1 hx
  refine ⟨hx, ?_, ?_, ?_, ?_, ?_, h.size⟩
  · rw [raised_append, h.raises]; simp [raised]
  · rw [acts_append, h.runs]; simp [acts]
  · rw [taken_append, h.takes]; simp [taken]
  · rw [released_append, h.releases]; simp [released]
  · refine h.causal.snoc ?_
    intro y hy
    simp only [Entry.begin.injEq, true_and] at hy
    subst hy
    refine ⟨chain.take idx, chain.drop (idx + 1), ?_, h.runs⟩
    rw [h.raises, ← hget, ← List.drop_eq_getElem_cons hlt, List.take_append_drop]

theorem Busy.finish {c idx : Nat} {x : Chained} {chain : List Chained} {V : List Entry}
    (h : Busy c idx x chain V) : Running c (idx + 1) chain (V ++ [.finish c x]) := by
  obtain ⟨hlt, hget⟩ := List.getElem?_eq_some_iff.1 h.here
  refine ⟨?_, ?_, ?_, ?_, ?_, h.size⟩
  · rw [raised_append, h.raises]; simp [raised]
  · rw [acts_append, h.runs, List.take_add_one, h.here, oneByOne_append, List.append_assoc]
    simp [acts, oneByOne]
  · rw [taken_append, h.takes]; simp [taken]
  · rw [released_append, h.releases]; simp [released]
  · exact h.causal.append (by simp)

theorem loop_ok {h : S → Chained → Prog S} {start : Chained → St S → Outcome × St S} (hstart : StartOk start)
    {c : Nat} : ∀ (n idx : Nat) (r : Res S), c < r.st.next → (∀ d, r.st.next ≤ d → view d r.st.log = []) →
      r.outcome = .ok → maxSize < n + idx → Running c idx r.chain (view c r.st.log) →
      ((loop h start c n idx r).outcome = .ok →
        Code c r.st (loop h start c n idx r).st ∧
        ∃ k, (loop h start c n idx r).chain.length ≤ k ∧
          Running c k (loop h start c n idx r).chain (view c (loop h start c n idx r).st.log)) ∧
      ((loop h start c n idx r).outcome = .full → Full (loop h start c n idx r).st) := by
  intro n
  induction n with
  | zero =>
    intro idx r hc hf ho hn hr
    have := hr.size
    simp only [loop]
    exact ⟨fun _ => ⟨Code.refl hf, idx, by omega, hr⟩, fun h => by rw [ho] at h; simp at h⟩
  | succ n ih =>
    intro idx r hc hf ho hn hr
    cases hx : r.chain[idx]? with
    | none =>
      have hlen := List.getElem?_eq_none_iff.1 hx
      simp only [loop, hx]
      exact ⟨fun _ => ⟨Code.refl hf, idx, hlen, hr⟩, fun h => by rw [ho] at h; simp at h⟩
    | some x =>
      have hl : ∀ e ∈ [Entry.begin c x], e.chain = c := by simp [Entry.chain]
      have hw := Code.write (l := [.begin c x]) hc hf hl
      have hb : Busy c idx x r.chain (view c (r.st.write [.begin c x]).log) := by
        rw [view_write hl]
        exact hr.begin hx
      obtain ⟨h1, h2⟩ := runProg_ok hstart (h r.st.state x) { r with st := r.st.write [.begin c x] } hc hw.future hb
      cases hp : runProg start c (h r.st.state x) { r with st := r.st.write [.begin c x] } with
      | mk st o chain =>
        rw [hp] at h1 h2
        cases o with
        | ok =>
          obtain ⟨h3, h4⟩ := h1 rfl
          simp only at h3 h4
          have h5 := hw.trans hc h3
          have hc' : c < st.next := Nat.lt_of_lt_of_le hc h5.next
          have hl2 : ∀ e ∈ [Entry.finish c x], e.chain = c := by simp [Entry.chain]
          have hw2 := Code.write (l := [.finish c x]) hc' h5.future hl2
          have hr2 : Running c (idx + 1) chain (view c (st.write [.finish c x]).log) := by
            rw [view_write hl2]
            exact h4.finish
          have heq : loop h start c (n + 1) idx r = loop h start c n (idx + 1) ⟨st.write [.finish c x], .ok, chain⟩ := by
            simp only [loop, hx, hp]
          rw [heq]
          obtain ⟨h6, h7⟩ := ih (idx + 1) ⟨st.write [.finish c x], .ok, chain⟩ hc' hw2.future rfl (by omega) hr2
          refine ⟨fun hok => ?_, h7⟩
          obtain ⟨h8, h9⟩ := h6 hok
          exact ⟨(h5.trans hc hw2).trans hc h8, h9⟩
        | full =>
          have heq : loop h start c (n + 1) idx r = ⟨st, .full, chain⟩ := by simp only [loop, hx, hp]
          rw [heq]
          exact ⟨fun h => by simp at h, fun _ => h2 rfl⟩
        | deep =>
          have heq : loop h start c (n + 1) idx r = ⟨st, .deep, chain⟩ := by simp only [loop, hx, hp]
          rw [heq]
          exact ⟨fun h => by simp at h, fun h => by simp at h⟩

theorem cleanup_chain {c : Nat} : ∀ (l : List Chained), ∀ e ∈ cleanup c l, e.chain = c
  | [], e, h => by simp [cleanup] at h
  | x :: r, e, h => by
    simp only [cleanup, List.mem_append] at h
    rcases h with h | h
    · cases hp : x.event.payload <;> simp [hp] at h
      subst h; rfl
    · exact cleanup_chain r e h

theorem cleanup_only {c : Nat} : ∀ (l : List Chained), ∀ e ∈ cleanup c l, ∃ o, e = .released c o
  | [], e, h => by simp [cleanup] at h
  | x :: r, e, h => by
    simp only [cleanup, List.mem_append] at h
    rcases h with h | h
    · cases hp : x.event.payload <;> simp [hp] at h
      exact ⟨_, h⟩
    · exact cleanup_only r e h

theorem cleanup_released (c : Nat) : ∀ (l : List Chained), released c (cleanup c l) = l.filterMap (·.event.payload)
  | [] => rfl
  | x :: r => by
    simp only [cleanup]
    rw [released_append, cleanup_released c r]
    cases hp : x.event.payload <;> simp [released, hp]

theorem only_released {c : Nat} {l : List Entry} (h : ∀ e ∈ l, ∃ o, e = Entry.released c o) :
    raised c l = [] ∧ acts c l = [] ∧ taken c l = [] := by
  refine ⟨?_, ?_, ?_⟩
  all_goals
    first
    | unfold raised
    | unfold acts
    | unfold taken
    rw [List.filterMap_eq_nil_iff]
    intro e he
    obtain ⟨o, rfl⟩ := h e he
    rfl

theorem Running.done {c idx : Nat} {chain : List Chained} {V : List Entry} (h : Running c idx chain V)
    (hi : chain.length ≤ idx) : WellRun c (V ++ cleanup c chain) := by
  obtain ⟨h1, h2, h3⟩ := only_released (c := c) (cleanup_only chain)
  refine ⟨?_, ?_, ?_, ?_, ?_, ?_⟩
  · rw [acts_append, raised_append, h1, h2, List.append_nil, List.append_nil, h.runs, h.raises,
      List.take_of_length_le hi]
  · rw [taken_append, raised_append, h1, h3, List.append_nil, List.append_nil, h.takes, h.raises]
  · rw [released_append, taken_append, h3, h.releases, h.takes, cleanup_released, List.append_nil]; rfl
  · refine h.causal.append ?_
    intro e he x hx
    obtain ⟨o, ho⟩ := cleanup_only chain e he
    rw [ho] at hx
    cases hx
  · intro a o b hV
    have hb : ∀ e ∈ b, ∃ o, e = Entry.released c o := by
      rcases List.append_eq_append_iff.1 hV with ⟨t, h4, h5⟩ | ⟨t, h4, h5⟩
      · intro e he
        refine cleanup_only chain e ?_
        rw [h5]
        simp [he]
      · cases t with
        | nil =>
          simp only [List.nil_append] at h5
          intro e he
          refine cleanup_only chain e ?_
          rw [← h5]
          simp [he]
        | cons y t =>
          simp only [List.cons_append, List.cons.injEq] at h5
          have := h.releases
          rw [h4, released_append, ← h5.1] at this
          simp [released] at this
    exact ⟨(only_released hb).2.1, (only_released hb).1⟩
  · rw [raised_append, h1, List.append_nil, h.raises]
    exact h.size

theorem startN_ok (h : S → Chained → Prog S) {rounds : Nat} (hrounds : maxSize < rounds + 0) :
    ∀ n, StartOk (startN h rounds n) := by
  intro n
  induction n with
  | zero =>
    intro x st hf
    exact ⟨fun h => by simp [startN] at h, fun h => by simp [startN] at h⟩
  | succ n ih =>
    intro x st hf
    have hadd : raise st.next x ⟨{ st with next := st.next + 1 }, .ok, []⟩ =
        ⟨({ st with next := st.next + 1 } : St S).write (raiseEntries st.next x), .ok, [x]⟩ :=
      add_ok (by simp [maxSize])
    have hf1 : ∀ d, st.next + 1 ≤ d → view d st.log = [] := fun d hd => hf d (by omega)
    have hw := Code.write (st := ({ st with next := st.next + 1 } : St S)) (c := st.next)
      (l := raiseEntries st.next x) (Nat.lt_succ_self _) hf1 raiseEntries_chain
    have hv : view st.next (({ st with next := st.next + 1 } : St S).write (raiseEntries st.next x)).log =
        raiseEntries st.next x := by
      rw [view_write raiseEntries_chain]
      simp only
      rw [hf _ (Nat.le_refl _), List.nil_append]
    have hrun : Running st.next 0 [x]
        (view st.next (({ st with next := st.next + 1 } : St S).write (raiseEntries st.next x)).log) := by
      rw [hv]
      refine ⟨raiseEntries_raised _ _, ?_, raiseEntries_taken _ _, raiseEntries_released _ _, ?_, by simp [maxSize]⟩
      · rw [raiseEntries_acts]; rfl
      · have : Causal st.next [] := by
          intro a y hp
          simp at hp
        simpa using this.append (raiseEntries_begin (c := st.next) (x := x))
    obtain ⟨h1, h2⟩ := loop_ok (h := h) ih rounds 0
      ⟨({ st with next := st.next + 1 } : St S).write (raiseEntries st.next x), .ok, [x]⟩
      (Nat.lt_succ_self _) hw.future rfl hrounds hrun
    cases hl : loop h (startN h rounds n) st.next rounds 0
        ⟨({ st with next := st.next + 1 } : St S).write (raiseEntries st.next x), .ok, [x]⟩ with
    | mk st' o chain =>
      rw [hl] at h1 h2
      cases o with
      | ok =>
        have heq : startN h rounds (n + 1) x st = (.ok, st'.write (cleanup st.next chain)) := by
          simp only [startN, hadd, hl]
        rw [heq]
        refine ⟨fun _ => ?_, fun h => by simp at h⟩
        obtain ⟨h3, k, h4, h5⟩ := h1 rfl
        simp only at h3 h4 h5
        have h6 := hw.trans (Nat.lt_succ_self _) h3
        have hc : st.next < st'.next := Nat.lt_of_lt_of_le (Nat.lt_succ_self _) h6.next
        have h7 := h6.trans (Nat.lt_succ_self _) (Code.write (l := cleanup st.next chain) hc h6.future (cleanup_chain _))
        have hfirst : st.log ++ [.raised st.next x] <+: (st'.write (cleanup st.next chain)).log := by
          refine List.IsPrefix.trans ?_ (h3.grows.trans (List.prefix_append _ _))
          simp only [St.write, raiseEntries]
          refine ⟨match x.event.payload with | some o => [.taken st.next o] | none => [], ?_⟩
          rw [List.append_assoc]
          rfl
        refine ⟨⟨?_, ?_, h7.future, by have := h7.next; simp only at this ⊢; omega, h7.grows⟩, hfirst⟩
        · intro d hd
          exact h7.old d (by simp only; omega) (by omega)
        · intro d h8 h9
          by_cases hd : d = st.next
          · subst hd
            simp only
            rw [view_write (cleanup_chain _)]
            exact h5.done h4
          · exact h7.new d (by simp only; omega) h9
      | full =>
        have heq : startN h rounds (n + 1) x st = (.full, st') := by
          simp only [startN, hadd, hl]
        rw [heq]
        exact ⟨fun h => by simp at h, fun _ => h2 rfl⟩
      | deep =>
        have heq : startN h rounds (n + 1) x st = (.deep, st') := by
          simp only [startN, hadd, hl]
        rw [heq]
        exact ⟨fun h => by simp at h, fun h => by simp at h⟩

theorem start_ok (h : S → Chained → Prog S) (n : Nat) : StartOk (start h n) :=
  startN_ok h (Nat.lt_succ_self _) n

end

end Np.Events
