import Verif.Ack.Lemmas

/-! # C71, C72, C73: acknowledgements, timeouts and redelivery -/
namespace Np.Ack

open _root_.Np.Ack.Spec
open _root_.Np.Tree (Tree Name Elem Fault Keeps elems find sought against)
open _root_.Np.Rb (toList)

/-! ## C71: an acknowledgement is about the message it names -/

/-- The state after a history, to look at. -/
def after (ops : List Op) : St := match run ⟨20, 5⟩ init ops with | .ok s => s | .error _ => init

/-- C71 fails: two messages were sent and the second is acknowledged, but the first is reported as acknowledged, while the second waits on and
is sent again. -/
theorem C71_other_refuted : (after [.send 1 100, .send 2 100, .ack 2 101, .cleanup 102, .redeliver 110]).log = [.sent 1, .sent 2, .acked 1, .sent 2] ∧
    waiting (after [.send 1 100, .send 2 100, .ack 2 101, .cleanup 102, .redeliver 110]) = [2] := by decide

/-- C71 fails: an acknowledgement for a message that was never sent makes the one that waits count as acknowledged. -/
theorem C71_unknown_refuted : (after [.send 1 100, .ack 77 101, .cleanup 102]).log = [.sent 1, .acked 1] ∧
    waiting (after [.send 1 100, .ack 77 101, .cleanup 102]) = [] := by decide

/-- C71, partial: if only one message waits, its acknowledgement is reported at the next check, and the message is not sent again. Missing:
acknowledgements while several messages wait, and acknowledgements that name another message. -/
theorem C71_single_partial {cfg : Cfg} {ops : List Op} {s : St} (h : run cfg init ops = .ok s) {u : BitVec 128} (hw : waiting s = [u])
    {now later : Nat} (h0 : now ≠ 0) (hl : ∀ e ∈ elems s.handlers, later ≤ e.val.expiresAt) :
    ∃ s', run cfg s [.ack u now, .cleanup later] = .ok s' ∧ s'.log = s.log ++ [.acked u] ∧ waiting s' = [] ∧ redelivered s' = [] := by
  rcases reach_inv h with ⟨mh, mp, hi⟩
  -- the tree has one element
  have hroot : ∃ c e, s.handlers.root = .node c .leaf e .leaf ∧ e.val.uuid = u := by
    unfold waiting elems at hw
    cases hr : s.handlers.root with
    | leaf => rw [hr] at hw; simp [toList] at hw
    | node c l e r =>
      rw [hr] at hw
      simp only [toList, List.map_append, List.map_cons] at hw
      have hlen := congrArg List.length hw
      simp only [List.length_append, List.length_map, List.length_cons, List.length_nil] at hlen
      have hl0 : l = .leaf := by
        cases l with
        | leaf => rfl
        | node => simp [toList] at hlen; omega
      have hr0 : r = .leaf := by
        cases r with
        | leaf => rfl
        | node => simp [toList] at hlen; omega
      subst hl0 hr0
      simp only [toList, List.map_nil, List.nil_append, List.cons.injEq, and_true] at hw
      exact ⟨c, e, rfl, hw⟩
  rcases hroot with ⟨c, e, hroot, he⟩
  have hel : elems s.handlers = [e] := by unfold elems; rw [hroot]; rfl
  have hkey : ∃ w, e.key = .uuid w := by
    rcases hi.kh.good.keys e (by rw [hel]; simp) with ⟨n, h1, h2⟩
    rcases admits_uuid h1 with ⟨w, hw⟩
    rw [hw] at h2
    exact ⟨w, h2⟩
  rcases hkey with ⟨w, hkey⟩
  have hcmp : against (sought (.str ((bytes u).takeWhile (· ≠ 0)))) e = 0 := by
    unfold against
    rw [hkey]
    rfl
  have hfind : find s.handlers (.str ((bytes u).takeWhile (· ≠ 0))) = some e := by
    unfold find
    rw [hroot, Rb.find, if_neg (by omega), if_neg (by omega)]
  have hexp := hl e (by rw [hel]; simp)
  rcases ack_inv hi u now with ⟨mh1, k1, k2, k3⟩
  have hack : elems (ack u now s).handlers = [⟨e.key, { e.val with receivedAt := now }⟩] := by
    unfold ack
    rw [hfind]
    rcases setVal_found hfind { e.val with receivedAt := now } with ⟨a, b, h1, h2⟩
    have h1' : elems s.handlers = a ++ e :: b := h1
    rw [hel] at h1'
    have ha : a = [] := by
      cases a with
      | nil => rfl
      | cons x a => simp at h1'
    subst ha
    simp only [List.nil_append, List.cons.injEq, true_and] at h1'
    subst h1'
    exact h2
  rcases cleanup_inv k1 later with ⟨s', g1, mh', mp', g2, g3, g4⟩
  have hdue : due later { e.val with receivedAt := now } = some (.acked u) := by
    unfold due
    rw [if_neg (by simpa using hexp), if_pos (by simpa using h0)]
    simp [he]
  have hvis : visited (ack u now s).handlers = [⟨e.key, { e.val with receivedAt := now }⟩] := by
    unfold visited; rw [hack]; rfl
  refine ⟨s', ?_, ?_, ?_, ?_⟩
  · simp only [run, step, g1]
  · rw [g3, hvis, k2]
    simp only [List.filterMap_cons, hdue, List.filterMap_nil]
  · have hnone : ∀ v, v ∉ waiting s' := by
      intro v hv
      rw [g2.waiting_iff, g4, hvis, List.filter_cons_of_pos (by rw [hdue]; rfl)] at hv
      split at hv
      · simp at hv
      · rename_i hn
        rw [k3 v, ← hi.waiting_iff v, hw, List.mem_singleton] at hv
        exact hn (by simp [hv, he])
    exact List.eq_nil_iff_forall_not_mem.2 hnone
  · have hnone : ∀ v, v ∉ redelivered s' := by
      intro v hv
      rw [g2.redelivered_iff, ← g2.same, g4, hvis, List.filter_cons_of_pos (by rw [hdue]; rfl)] at hv
      split at hv
      · simp at hv
      · rename_i hn
        rw [k3 v, ← hi.waiting_iff v, hw, List.mem_singleton] at hv
        exact hn (by simp [hv, he])
    exact List.eq_nil_iff_forall_not_mem.2 hnone

/-- One message waits, after another was acknowledged. -/
example : waiting (after [.send 1 100, .ack 1 101, .cleanup 102, .send 2 103]) = [2] ∧
    (after [.send 1 100, .ack 1 101, .cleanup 102, .send 2 103, .ack 2 104, .cleanup 105]).log = [.sent 1, .acked 1, .sent 2, .acked 2] := by decide

/-! ## C72: one report for one message, and silence afterwards -/

/-- C72: no history makes a call fail, and a message is reported as acknowledged or timed out at most as often as it was sent by the application;
never both for one message. -/
theorem C72_at_most_once (cfg : Cfg) (ops : List Op) : ∃ s, run cfg init ops = .ok s ∧ ∀ u, reports u s.log ≤ sends u ops := by
  rcases run_inv cfg ops inv_init with ⟨s, e1, mh, mp, e2, _⟩
  refine ⟨s, e1, fun u => ?_⟩
  have := e2.cnt u
  omega

/-- C72: once a message that was sent once has been reported as acknowledged or timed out, it is never transmitted again, whatever happens then. -/
theorem C72_silent {cfg : Cfg} {ops later : List Op} {s s' : St} (h : run cfg init ops = .ok s) {u : BitVec 128} (h1 : sends u ops = 1)
    (h2 : 0 < reports u s.log) (h3 : sends u later = 0) (h' : run cfg s later = .ok s') :
    transmissions u s'.log = transmissions u s.log := by
  rcases reach_inv h with ⟨mh, mp, hi⟩
  have hn : mh (.uuid u) = none := by
    have := hi.cnt u
    rw [h1] at this
    cases hm : mh (.uuid u) with
    | none => rfl
    | some c => rw [hm] at this; simp only [one] at this; omega
  rcases run_inv cfg later hi with ⟨s2, e1, mh', mp', _, e3⟩
  rw [e1] at h'
  cases h'
  exact (e3 u h3 hn).2

/-- A message that times out is sent again before, and not afterwards. -/
example : (after [.send 1 100, .redeliver 106, .redeliver 111, .cleanup 121, .redeliver 130]).log = [.sent 1, .sent 1, .sent 1, .timedOut 1] ∧
    sends 1 [.send 1 100, .redeliver 106, .redeliver 111, .cleanup 121, .redeliver 130] = 1 := by decide

/-! ## C73: timeouts are reported -/

/-- C73, partial: if at most 31 messages wait, a check reports every one whose time has passed, and no other, as timed out. Missing: more than 31. -/
theorem C73_timeout_partial {cfg : Cfg} {ops : List Op} {s : St} (h : run cfg init ops = .ok s) (hlen : (waiting s).length ≤ 31) (now : Nat) :
    ∃ s' new, run cfg s [.cleanup now] = .ok s' ∧ s'.log = s.log ++ new ∧
      (∀ u, Seen.timedOut u ∈ new ↔ ∃ e ∈ elems s.handlers, e.val.uuid = u ∧ e.val.expiresAt < now) ∧
      (∀ e ∈ elems s.handlers, e.val.expiresAt < now → e.val.uuid ∉ waiting s' ∧ e.val.uuid ∉ redelivered s') := by
  rcases reach_inv h with ⟨mh, mp, hi⟩
  rcases cleanup_inv hi now with ⟨s', g1, mh', mp', g2, g3, g4⟩
  have hvis : visited s.handlers = elems s.handlers := by
    unfold visited
    apply List.take_of_length_le
    unfold waiting at hlen
    rw [List.length_map] at hlen
    exact hlen
  refine ⟨s', _, by simp only [run, step, g1], g3, ?_, ?_⟩
  · intro u
    rw [hvis, List.mem_filterMap]
    constructor
    · rintro ⟨e, he, h1⟩
      unfold due at h1
      split at h1
      · rename_i hlt
        simp only [Option.some.injEq, Seen.timedOut.injEq] at h1
        exact ⟨e, he, h1, hlt⟩
      · split at h1 <;> simp at h1
    · rintro ⟨e, he, h1, h2⟩
      exact ⟨e, he, by unfold due; rw [if_pos h2, h1]⟩
  · intro e he hlt
    have hm : mh' (.uuid e.val.uuid) = none := by
      rw [g4, if_pos]
      exact List.mem_map.2 ⟨e, List.mem_filter.2 ⟨by rw [hvis]; exact he, by unfold due; rw [if_pos hlt]; rfl⟩, rfl⟩
    constructor
    · rw [g2.waiting_iff, hm]; simp
    · rw [g2.redelivered_iff, ← g2.same, hm]; simp

/-- C73 fails with 32 messages: the time of the last has passed, and it is not reported, because 31 others with smaller uuids wait. -/
theorem C73_many_refuted : waiting (after (.send 31 100 :: (List.range 31).map (fun i => Op.send (BitVec.ofNat 128 i) 120) ++ [.cleanup 130])) =
    (List.range 32).map (fun i => BitVec.ofNat 128 i) ∧
    (after (.send 31 100 :: (List.range 31).map (fun i => Op.send (BitVec.ofNat 128 i) 120) ++ [.cleanup 130])).log.countP (Reports 31) = 0 := by decide +kernel

end Np.Ack
