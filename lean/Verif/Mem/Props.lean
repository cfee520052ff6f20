import Verif.Mem.Lemmas

/-!
# Reference counted objects: properties

C46: a reference counted object is released exactly when its last reference is dropped, never earlier and never twice.

The full statement is refuted: creating an object is two steps, and an unref that is still running for the former object
at the same place releases the new one.  Proved is the statement for all interleavings in which creating an object is not
interrupted and memory is given back to the system only while no unref is running.
-/
namespace Np.Mem

open _root_.Np.Mem.Spec

/-- A container of which nothing was used so far. -/
def empty (hasRefresh : Bool) : Pool := { hasRefresh := hasRefresh }

/-- For every interleaving of steps that keep the rules of references: nothing aborts, an object is released at most once,
only while it has no references, and it is released once the unref calls have returned. -/
theorem C46_released_exactly_when_unreferenced_partial (hasRefresh : Bool) (ops : List Op)
    (rules : Count.Rules {} ops) (calm : Count.Calm {} ops) :
    ∃ p, run (empty hasRefresh) ops = some p ∧ p.freed.Nodup ∧
      (∀ s ∈ p.freed, s < (Count.run {} ops).objs ∧ (Count.run {} ops).refs s = 0) ∧
      ((Count.run {} ops).running = 0 → ∀ s, s < (Count.run {} ops).objs → (Count.run {} ops).refs s = 0 → s ∈ p.freed) := by
  obtain ⟨p, h1, h2⟩ := run_inv ops (inv_init hasRefresh) rules calm
  refine ⟨p, h1, h2.freedOnce, ?_, ?_⟩
  · intro s hs
    have hlt := h2.freedOld s hs
    refine ⟨by rw [← h2.objs]; exact hlt, ?_⟩
    rcases h2.objects s hlt with ⟨_, h3⟩ | ⟨h3, h4, h5⟩
    · exact h3
    · exact absurd hs (h5 ▸ (h2.used _ h3 h4).2.2.2.2.1)
  · intro hr s hs h0
    rcases h2.objects s (by rw [h2.objs]; exact hs) with ⟨h3, _⟩ | ⟨h3, h4, h5⟩
    · exact h3
    · obtain ⟨_, _, _, u4, _, u6, _⟩ := h2.used _ h3 h4
      rw [h5] at u4
      have hm := u6 (by rw [u4]; exact h0)
      have hl := h2.running
      rw [hr] at hl
      rw [List.length_eq_zero_iff.1 hl] at hm
      exact absurd hm (by simp)

/-- Objects that are referenced never share their place, so nothing that is done with one object touches another one. -/
theorem C46_places_not_shared_partial (hasRefresh : Bool) (ops : List Op) (rules : Count.Rules {} ops)
    (calm : Count.Calm {} ops) (p : Pool) (hp : run (empty hasRefresh) ops = some p) (s t : Nat)
    (hs : s < (Count.run {} ops).objs) (hs' : 0 < (Count.run {} ops).refs s)
    (ht : t < (Count.run {} ops).objs) (ht' : 0 < (Count.run {} ops).refs t) (hst : s ≠ t) : p.addr s ≠ p.addr t := by
  obtain ⟨p', h1, h2⟩ := run_inv ops (inv_init hasRefresh) rules calm
  have : some p' = some p := by rw [← h1, ← hp]; rfl
  cases this
  obtain ⟨_, _, h3⟩ := h2.live hs hs'
  obtain ⟨_, _, h4⟩ := h2.live ht ht'
  intro e
  rw [e, h4] at h3
  exact hst h3.symm

/-- The place of a referenced object stays the same, in use and with the right number of references. -/
theorem C46_place_kept_partial (hasRefresh : Bool) (a b : List Op) (rules : Count.Rules {} (a ++ b))
    (calm : Count.Calm {} (a ++ b)) (p q : Pool) (hp : run (empty hasRefresh) a = some p)
    (hq : run (empty hasRefresh) (a ++ b) = some q) :
    p.freed <+: q.freed ∧ ∀ s, s < (Count.run {} (a ++ b)).objs → 0 < (Count.run {} (a ++ b)).refs s →
      (q.items (q.addr s)).inUse = true ∧ (q.items (q.addr s)).deleted = false ∧
      (q.items (q.addr s)).ref = (Count.run {} (a ++ b)).refs s := by
  constructor
  · rw [run_append, hp] at hq
    exact run_freed b hq
  · obtain ⟨p', h1, h2⟩ := run_inv (a ++ b) (inv_init hasRefresh) rules calm
    have : some p' = some q := by rw [← h1, ← hq]; rfl
    cases this
    intro s hs hs'
    obtain ⟨h3, h4, h5⟩ := h2.live hs hs'
    obtain ⟨u1, _, _, u4, _⟩ := h2.used _ h3 h4
    exact ⟨h4, u1, by rw [u4, h5]⟩

/-- Two threads share an object and drop it at the same time, another object is created at the same place. -/
def sample : List Op :=
  [.create, .create, .ref 0, .unref 0, .unref 0, .free 1, .free 0, .refresh, .create, .unref 1, .free 0, .shrink]

example : Count.Calm {} sample := by
  simp [sample, Count.Calm, Count.step]

example : Count.Rules {} sample := by
  simp [sample, Count.Rules, Count.Rule, Count.step]

example : (run (empty true) sample).map (fun p => (p.freed, p.addr 0, p.addr 1, p.addr 2, p.frees)) =
    some ([0, 1], 0, 1, 0, []) := by decide

/-- Full statement: every interleaving of steps that keep the rules releases objects only while they have no references. -/
def C46_never_early_full : Prop :=
  ∀ (hasRefresh : Bool) (ops : List Op), Count.Rules {} ops → ∀ p, run (empty hasRefresh) ops = some p →
    ∀ s ∈ p.freed, (Count.run {} ops).refs s = 0 ∧ (Count.run {} ops).isNew s = false

/-- Threads A and B hold a reference each and drop it.  Before A's call reaches `np_memory_free`, B's call is finished and
thread C has got the place for a new object.  A's call then releases the object of C. -/
def race : List Op := [.create, .ref 0, .unref 0, .unref 0, .free 1, .new, .free 0, .ref 1]

theorem C46_never_early_refuted : ¬ C46_never_early_full := by
  intro h
  have hr : Count.Rules {} race := by simp [race, Count.Rules, Count.Rule, Count.step]
  have h2 : (run (empty false) race).map (fun p => p.freed) = some [0, 1] := by decide
  cases h3 : run (empty false) race with
  | none => rw [h3] at h2; exact absurd h2 (by simp)
  | some p =>
    rw [h3] at h2
    simp only [Option.map_some, Option.some.injEq] at h2
    have h4 := h false race hr p h3 1 (by rw [h2]; simp)
    exact absurd h4.1 (by decide)

/-- Full statement: callers that keep the rules never cause an abort or an access to memory that was given back. -/
def C46_no_abort_full : Prop :=
  ∀ (hasRefresh : Bool) (ops : List Op), Count.Rules {} ops → (run (empty hasRefresh) ops).isSome

/-- As before, but the memory manager gives the place back to the system before A's call reaches `np_memory_free`. -/
def race2 : List Op := [.create, .ref 0, .unref 0, .unref 0, .free 1, .shrink, .free 0]

theorem C46_no_abort_refuted : ¬ C46_no_abort_full := by
  intro h
  have hr : Count.Rules {} race2 := by simp [race2, Count.Rules, Count.Rule, Count.step]
  exact absurd (h false race2 hr) (by decide)

/-- Two callers whose new object was released under them are both given the same place. -/
theorem C46_place_shared_after_race :
    (run (empty false) (race ++ [.create])).map (fun p => (p.addr 1, p.addr 2)) = some (0, 0) ∧
    Count.Rules {} (race ++ [.create]) ∧
    0 < (Count.run {} (race ++ [.create])).refs 1 ∧ 0 < (Count.run {} (race ++ [.create])).refs 2 := by
  refine ⟨by decide, ?_, by decide, by decide⟩
  simp [race, Count.Rules, Count.Rule, Count.step]

end Np.Mem
