import Verif.Link.Lemmas

set_option linter.unusedVariables false

/-!
# Theorems about the quality of a link to a peer
-/
namespace Np.Link
open _root_.Np.Link.Spec

/-- C143: after any history of a new peer, each update sets the success rate to the share of answers among the last 31 outcomes, where a peer
starts with a credit of 31 outcomes of which 15 are answers. -/
theorem C143_rate_is_share_of_answers (t0 delay : Rat) (p : Bool) (os : List Op) (now : Rat) (a : Bool) :
    (((Node.fresh t0 delay p).run os).update now a).1.avg = (answered (recent 31 (credit ++ outcomes os)) : Rat) / 31 := by
  obtain ⟨_, _, _, _, e, _⟩ := update_sWin ((Node.fresh t0 delay p).run os) now a
  rw [e, count_run _ (wf_fresh t0 delay p), credit_view]
  norm_num [W]

/-- C143: once there were 31 outcomes the credit plays no part. -/
theorem C143_credit_is_used_up (t0 delay : Rat) (p : Bool) (os : List Op) (now : Rat) (a : Bool) (h : 31 ≤ (outcomes os).length) :
    (((Node.fresh t0 delay p).run os).update now a).1.avg = (answered (recent 31 (outcomes os)) : Rat) / 31 := by
  rw [C143_rate_is_share_of_answers]
  have e : recent 31 (credit ++ outcomes os) = recent 31 (outcomes os) := by
    unfold recent
    have hl : credit.length = 31 := rfl
    rw [List.drop_append, List.drop_eq_nil_of_le (by rw [List.length_append, hl]; omega), List.nil_append]
    have e' : (credit ++ outcomes os).length - 31 - credit.length = (outcomes os).length - 31 := by
      rw [List.length_append, hl]; omega
    rw [e']
  rw [e]

/-- C143: the rate is a number from 0 to 1. -/
theorem C143_rate_is_a_share (t0 delay : Rat) (p : Bool) (os : List Op) (now : Rat) (a : Bool) :
    0 ≤ (((Node.fresh t0 delay p).run os).update now a).1.avg ∧ (((Node.fresh t0 delay p).run os).update now a).1.avg ≤ 1 := by
  obtain ⟨_, _, _, _, e, _⟩ := update_sWin ((Node.fresh t0 delay p).run os) now a
  have hc := count_le _ (wf_run os _ (wf_fresh t0 delay p))
  rw [e]
  have e31 : ((W : Nat) : Rat) = 31 := by norm_num [W]
  have hq : ((((Node.fresh t0 delay p).run os).sWin.countP id : Nat) : Rat) ≤ 31 := by exact_mod_cast hc
  have h0 : (0 : Rat) ≤ ((((Node.fresh t0 delay p).run os).sWin.countP id : Nat) : Rat) := by positivity
  rw [e31]
  exact ⟨div_nonneg h0 (by norm_num), by rw [div_le_iff₀ (by norm_num)]; linarith⟩

example : 31 ≤ (outcomes (List.replicate 40 (.event (.response 1)))).length := by decide

/-- C144 (partial): if the times are positive and the peer was updated before its first outcome, then after 31 outcomes each update sets the
latency to the mean of the last 31 times, where a request without an answer counts with the time waited.  Missing: see the refutations. -/
theorem C144_latency_is_mean_partial (t0 delay : Rat) (p : Bool) (u : Rat) (b : Bool) (os : List Op) (now : Rat) (a : Bool)
    (hpos : ∀ x ∈ times os, 0 < x) (h : 31 ≤ (times os).length) :
    (((Node.fresh t0 delay p).run (.update u b :: os)).update now a).1.latency = mean (recent 31 (times os)) := by
  show ((((Node.fresh t0 delay p).step (.update u b)).run os).update now a).1.latency = _
  have hw := wf_step _ (wf_fresh t0 delay p) (.update u b)
  have hp : LPos ((Node.fresh t0 delay p).step (.update u b)) := by
    obtain ⟨_, _, e3, _, _, e6⟩ := update_sWin (Node.fresh t0 delay p) u b
    constructor
    · intro x hx
      simp only [Node.step, e3] at hx
      simp only [Node.fresh] at hx
      rw [List.eq_of_mem_replicate hx]
      norm_num
    · simp only [Node.step, e6]
      have hq : 0 < total (Node.fresh t0 delay p).lWin := by
        apply total_pos
        · intro x hx
          simp only [Node.fresh] at hx
          rw [List.eq_of_mem_replicate hx]
          norm_num
        · simp [Node.fresh, W]
      have e : ((W : Nat) : Rat) = 31 := by norm_num [W]
      have : 0 < total (Node.fresh t0 delay p).lWin / W := by rw [e]; exact div_pos hq (by norm_num)
      intro hc; linarith
  generalize (Node.fresh t0 delay p).step (.update u b) = n at hw hp
  obtain ⟨_, _, _, _, _, e⟩ := update_sWin (n.run os) now a
  have hl := view_length n.lWin n.lIdx
  rw [e, total_view _ (n.run os).lIdx, lview_run os n hw hp hpos, List.drop_append, hl, hw.2.2.1, List.drop_eq_nil_of_le (by rw [hl, hw.2.2.1]; exact h),
    List.nil_append]
  unfold mean recent
  have hlen : ((times os).drop ((times os).length - 31)).length = 31 := by rw [List.length_drop]; omega
  rw [hlen]
  norm_num [W]

example : (∀ x ∈ times (List.replicate 40 (.event (.response 1))), (0 : Rat) < x) ∧
    31 ≤ (times (List.replicate 40 (.event (.response 1)))).length := by
  constructor
  · intro x hx
    have : x = 1 := by revert hx; simp [times]
    rw [this]; norm_num
  · decide

/-- C144 (partial): if the first outcome of a new peer is an answer which comes before the first update, the latency is its time. -/
theorem C144_first_answer_is_latency_partial (t0 delay : Rat) (p : Bool) (l : Rat) (hl : 0 < l) (now : Rat) (a : Bool) :
    (((Node.fresh t0 delay p).run [.event (.response l)]).update now a).1.latency = l := by
  obtain ⟨_, _, _, _, _, e⟩ := update_sWin ((Node.fresh t0 delay p).run [.event (.response l)]) now a
  have hs : ((Node.fresh t0 delay p).run [.event (.response l)]).lWin = List.replicate 31 l := by
    simp only [Node.run, Node.step, Node.handle, Node.fresh, if_true, if_pos hl]
    rfl
  rw [e, hs]
  have : total (List.replicate 31 l) = 31 * l := by
    simp only [List.replicate, total]
    ring
  rw [this]
  norm_num [W]

/-- C144, refuted: a peer is updated before its first answer in the usual case, as an update runs every few milliseconds; a made-up latency of
a hundredth of a second then stays in the mean: an answer after two seconds gives less than a tenth of a second. -/
theorem C144_first_latency_refuted :
    let n := (Node.fresh 0 10 false).run [.update 1 true, .event (.response 2)]
    (n.update 2 true).1.latency = 23 / 310 ∧ (23 / 310 : Rat) < 1 / 10 := by
  decide +kernel

/-- C144, refuted: an answer at the same time as the request, before the first update, gives a negative latency. -/
theorem C144_negative_latency_refuted :
    let n := (Node.fresh 0 10 false).run [.event (.response 0)]
    (n.update 2 true).1.latency < 0 := by
  decide +kernel

/-- C145: from any state, a peer which leaves 24 requests in a row without an answer is judged to be bad by the next update. -/
theorem C145_silent_peer_is_bad (n : Node) (hw : Wf n) (os : List Op) (hs : ∀ b ∈ outcomes os, b = false) (h : 24 ≤ (outcomes os).length)
    (now : Rat) (a : Bool) : Bad ((n.run os).update now a).1 := by
  obtain ⟨_, _, _, _, e, _⟩ := update_sWin (n.run os) now a
  unfold Bad
  rw [e, rate_lt, count_run n hw, recent_snoc _ _ (by rw [view_length]; exact hw.1), List.drop_append]
  unfold answered
  rw [List.countP_append]
  have h1 : (List.drop (outcomes os).length (view n.sWin n.sIdx)).countP id ≤ 7 := by
    refine Nat.le_trans List.countP_le_length ?_
    rw [List.length_drop, view_length, hw.1]
    omega
  have h2 : ((outcomes os).drop ((outcomes os).length - (view n.sWin n.sIdx).length)).countP id = 0 := by
    rw [List.countP_eq_zero]
    intro b hb
    simp [hs b (List.mem_of_mem_drop hb)]
  omega

/-- C145: a new peer is judged to be bad after 15 requests in a row without an answer, and not after 14. -/
theorem C145_new_silent_peer (t0 delay : Rat) (p : Bool) (os : List Op) (hs : ∀ b ∈ outcomes os, b = false) (now : Rat) (a : Bool) :
    Bad (((Node.fresh t0 delay p).run os).update now a).1 ↔ 15 ≤ (outcomes os).length := by
  unfold Bad
  rw [C143_rate_is_share_of_answers]
  have hrep : outcomes os = List.replicate (outcomes os).length false := List.eq_replicate_iff.mpr ⟨rfl, hs⟩
  have e31 : (31 : Rat) = ((W : Nat) : Rat) := by norm_num [W]
  rw [e31, rate_lt]
  generalize hm : (outcomes os).length = m at hrep ⊢
  rw [hrep, recent_snoc _ _ (by rfl), List.length_replicate, List.drop_append]
  unfold answered
  rw [List.countP_append]
  have h2 : ((List.replicate m false).drop (m - credit.length)).countP id = 0 := by
    rw [List.countP_eq_zero]
    intro b hb
    simp [List.eq_of_mem_replicate (List.mem_of_mem_drop hb)]
  rw [h2, Nat.add_zero]
  have hlow : ∀ m, m < 31 → ((List.drop m credit).countP id ≤ 7 ↔ 15 ≤ m) := by decide
  by_cases hc : m < 31
  · exact hlow m hc
  · rw [List.drop_eq_nil_of_le (show credit.length ≤ m by show 31 ≤ m; omega)]
    simp
    omega

/-- C145: a peer which is not bad and answers every request stays so. -/
theorem C145_answering_peer_is_not_bad (n : Node) (hw : Wf n) (t : Rat) (b : Bool) (hn : ¬ Bad (n.update t b).1) (os : List Op)
    (hs : ∀ b ∈ outcomes os, b = true) (now : Rat) (a : Bool) : ¬ Bad ((n.run os).update now a).1 := by
  induction os generalizing n t b with
  | nil =>
    obtain ⟨_, _, _, _, e, _⟩ := update_sWin n now a
    obtain ⟨_, _, _, _, e', _⟩ := update_sWin n t b
    unfold Bad at hn ⊢
    simp only [Node.run]
    rw [e]
    rw [e'] at hn
    exact hn
  | cons o r ih =>
    have hw' := wf_step n hw o
    have hr : ∀ b ∈ outcomes r, b = true := by
      intro x hx
      apply hs x
      cases o with
      | update _ _ => exact hx
      | event e => cases e <;> simp [outcomes, hx]
    refine ih (n.step o) hw' t b ?_ hr
    obtain ⟨_, _, _, _, e, _⟩ := update_sWin (n.step o) t b
    obtain ⟨_, _, _, _, e', _⟩ := update_sWin n t b
    unfold Bad at hn ⊢
    rw [e, rate_lt]
    rw [e', rate_lt] at hn
    cases o with
    | update x y =>
      obtain ⟨e1, _⟩ := update_sWin n x y
      simp only [Node.step]
      rw [e1]; exact hn
    | event ev =>
      cases ev with
      | timeout w => exact absurd (hs false (by simp [outcomes])) (by simp)
      | response l =>
        have := handle_count n hw (.response l)
        simp only [Node.step] at this ⊢
        simp only [Nat.add_sub_cancel] at this
        omega

/-- C145: a new peer which answers every request is never judged to be bad. -/
theorem C145_new_answering_peer_is_not_bad (t0 delay : Rat) (p : Bool) (os : List Op) (hs : ∀ b ∈ outcomes os, b = true) (now : Rat)
    (a : Bool) : ¬ Bad (((Node.fresh t0 delay p).run os).update now a).1 := by
  apply C145_answering_peer_is_not_bad _ (wf_fresh t0 delay p) 0 false _ os hs
  rw [show (Node.fresh t0 delay p).update 0 false = ((Node.fresh t0 delay p).run []).update 0 false from rfl,
    C145_new_silent_peer _ _ _ _ (by simp [outcomes])]
  simp [outcomes]

/-- C145: a single outcome changes the number of answers in the window by one at most, so `k` failures in a row cannot make a peer bad whose
window holds more than `k + 7` answers. -/
theorem C145_good_peer_survives_failures (n : Node) (hw : Wf n) (os : List Op) (h : (outcomes os).length + 8 ≤ n.sWin.countP id) (now : Rat)
    (a : Bool) : ¬ Bad ((n.run os).update now a).1 := by
  induction os generalizing n with
  | nil =>
    obtain ⟨_, _, _, _, e, _⟩ := update_sWin n now a
    unfold Bad
    simp only [Node.run]
    rw [e, rate_lt]
    omega
  | cons o r ih =>
    refine ih (n.step o) (wf_step n hw o) ?_
    cases o with
    | update x y =>
      obtain ⟨e1, _⟩ := update_sWin n x y
      simp only [Node.step]
      rw [e1]; exact h
    | event ev =>
      have := handle_count n hw ev
      cases ev with
      | timeout w => simp only [Node.step, outcomes, List.length_cons] at *; omega
      | response l => simp only [Node.step, outcomes, List.length_cons] at *; omega

example : Wf ((Node.fresh 0 10 false).run [.event (.response 1), .event (.timeout 3), .update 4 true]) :=
  wf_run _ _ (wf_fresh 0 10 false)

example : (∀ b ∈ outcomes (List.replicate 24 (.event (.timeout 1))), b = false) ∧
    24 ≤ (outcomes (List.replicate 24 (.event (.timeout 1)))).length := by
  constructor <;> decide

example : ∃ n : Node, Wf n ∧ (outcomes [.event (.timeout 1), .event (.timeout 1)]).length + 8 ≤ n.sWin.countP id :=
  ⟨Node.fresh 0 10 false, wf_fresh 0 10 false, by decide⟩

/-- C146: as long as the peer was not sent a leave message, an update after the time for the next ping sends a ping, except to a peer which it
judges to be bad; no peer is neither pinged nor judged to be bad. -/
theorem C146_ping_or_bad (n : Node) (now : Rat) (a : Bool) (hl : n.left = false) (hd : n.nextPing ≤ now) :
    Action.ping ∈ (n.update now a).2 ∨ Bad (n.update now a).1 := by
  obtain ⟨_, _, _, _, e, _⟩ := update_sWin n now a
  by_cases hb : Bad (n.update now a).1
  · exact Or.inr hb
  · left
    unfold Bad at hb
    rw [e, rate_lt] at hb
    have hg : badLink < (n.sWin.countP id : Rat) / W := (rate_gt _).mpr (by omega)
    unfold Node.update
    simp only [Node.average, hl, Bool.false_eq_true, if_false]
    have ht : ∀ m : Node, m.avg = (n.sWin.countP id : Rat) / W → m.nextPing = n.nextPing → Action.ping ∈ (m.tryPing now).2 := by
      intro m h1 h2
      unfold Node.tryPing
      rw [h1, h2, if_pos ⟨hg, hd⟩]
      simp
    simp only [List.mem_append]
    left; right
    apply ht <;> (unfold Node.tryInsert; split <;> rfl)

/-- C146: a peer which was sent a ping is due for the next one within the longest interval, less than the time of grace, and not before three
quarters of the shortest. -/
theorem C146_ping_interval (n : Node) (hw : Wf n) (now : Rat) (a : Bool) (h : Action.ping ∈ (n.update now a).2) :
    now + pingSec * (3 / 4) < (n.update now a).1.nextPing ∧ (n.update now a).1.nextPing ≤ now + pingMaxSec ∧ pingMaxSec < graceSec := by
  have hc := count_le n hw
  have hr : ((n.sWin.countP id : Nat) : Rat) / W ≤ 1 := by
    have e31 : ((W : Nat) : Rat) = 31 := by norm_num [W]
    have hq : ((n.sWin.countP id : Nat) : Rat) ≤ 31 := by exact_mod_cast hc
    rw [e31, div_le_iff₀ (by norm_num)]; linarith
  refine ⟨?_, ?_, by norm_num [graceSec]⟩
  all_goals
    have hleft : n.left = false := by
      cases hc : n.left
      · rfl
      · rw [update_eq, if_pos hc] at h; simp at h
    rw [update_eq, if_neg (by simp [hleft])] at h ⊢
    simp only [List.mem_append] at h
    have hping : ∀ m : Node, m.avg = (n.sWin.countP id : Rat) / W → Action.ping ∈ (m.tryPing now).2 →
        now + pingSec * (3 / 4) < (m.tryPing now).1.tryRemove.1.nextPing ∧ (m.tryPing now).1.tryRemove.1.nextPing ≤ now + pingMaxSec := by
      intro m h1 h2
      unfold Node.tryPing at h2 ⊢
      split at h2
      · rename_i hcond
        rw [if_pos hcond]
        have hb := hcond.1
        rw [h1] at hb
        have hrem : ∀ k : Node, k.tryRemove.1.nextPing = k.nextPing := by
          intro k; unfold Node.tryRemove; split <;> rfl
        rw [hrem]
        simp only [h1]
        generalize ((n.sWin.countP id : Nat) : Rat) / W = q at *
        unfold badLink at hb
        unfold pingMaxSec pingSec
        split <;> constructor <;> linarith
      · simp at h2
    have hins : Action.ping ∉ ((Node.average n).tryInsert now a).2 := by
      unfold Node.tryInsert; split <;> simp
    have hrm : ∀ m : Node, Action.ping ∉ m.tryRemove.2 := by
      intro m; unfold Node.tryRemove; split <;> simp
    rcases h with (h | h) | h
    · exact absurd h hins
    · have := hping _ (by unfold Node.tryInsert; split <;> rfl) h
      first | exact this.1 | exact this.2
    · exact absurd h (hrm _)

/-- C146: no ping is sent before its time. -/
theorem C146_no_early_ping (n : Node) (now : Rat) (a : Bool) (h : now < n.nextPing) : Action.ping ∉ (n.update now a).2 := by
  unfold Node.update
  simp only []
  split
  · simp
  · have hp : ∀ m : Node, m.nextPing = n.nextPing → Action.ping ∉ (m.tryPing now).2 := by
      intro m hm
      unfold Node.tryPing
      rw [hm, if_neg (fun hc => absurd hc.2 (not_le.mpr h))]
      simp
    have hins : Action.ping ∉ ((Node.average n).tryInsert now a).2 := by
      unfold Node.tryInsert; split <;> simp
    have hrm : ∀ m : Node, Action.ping ∉ m.tryRemove.2 := by
      intro m; unfold Node.tryRemove; split <;> simp
    simp only [List.mem_append, not_or]
    exact ⟨⟨hins, hp _ (by unfold Node.tryInsert; split <;> rfl)⟩, hrm _⟩

example : Action.ping ∈ ((Node.fresh 0 10 false).update 11 true).2 := by decide +kernel

/-- C147: an update never takes a peer out of the routing table which answered the latest request. -/
theorem C147_answer_keeps_in_table (n : Node) (hw : Wf n) (os : List Op) (l : Rat) (now : Rat) (a : Bool) :
    Action.remove ∉ ((n.run (os ++ [.event (.response l)])).update now a).2 := by
  have hl : (n.run (os ++ [.event (.response l)])).latest = true := by
    have hw' := wf_run os n hw
    rw [run_append]
    simp only [Node.run, Node.step, Node.handle, Node.latest]
    have : nextIdx (n.run os).sIdx < ((n.run os).sWin.set (nextIdx (n.run os).sIdx) true).length := by
      rw [List.length_set, hw'.1]; exact nextIdx_lt _ hw'.2.1
    rw [List.getD_eq_getElem?_getD, List.getElem?_eq_getElem this, List.getElem_set_self]; rfl
  generalize n.run (os ++ [.event (.response l)]) = m at hl
  unfold Node.update
  simp only []
  split
  · simp
  · have hrm : ∀ k : Node, k.latest = true → Action.remove ∉ k.tryRemove.2 := by
      intro k hk; unfold Node.tryRemove; rw [if_neg (by simp [hk])]; simp
    have h1 : Action.remove ∉ ((Node.average m).tryInsert now a).2 := by
      unfold Node.tryInsert; split <;> simp
    have h2 : ∀ k : Node, Action.remove ∉ (k.tryPing now).2 := by
      intro k; unfold Node.tryPing; split <;> simp
    simp only [List.mem_append, not_or]
    refine ⟨⟨h1, h2 _⟩, hrm _ ?_⟩
    have h3 : ∀ k : Node, (k.tryPing now).1.latest = k.latest := by
      intro k; unfold Node.tryPing; split <;> rfl
    have h4 : ∀ k : Node, (k.tryInsert now a).1.latest = k.latest := by
      intro k; unfold Node.tryInsert; split <;> rfl
    rw [h3, h4]
    exact hl

/-- C147: after an update which follows a request without an answer, the peer is in the routing table only if it was in it and at least 24 of
the last 31 requests were answered (or the peer was sent a leave message). -/
theorem C147_failing_peer_leaves_table (n : Node) (hw : Wf n) (os : List Op) (w : Rat) (now : Rat) (a : Bool)
    (hleft : (n.run (os ++ [.event (.timeout w)])).left = false) :
    ((n.run (os ++ [.event (.timeout w)])).update now a).1.inTable = true ↔
      (n.run (os ++ [.event (.timeout w)])).inTable = true ∧ 24 ≤ (n.run (os ++ [.event (.timeout w)])).sWin.countP id := by
  have hl : (n.run (os ++ [.event (.timeout w)])).latest = false := by
    have hw' := wf_run os n hw
    rw [run_append]
    simp only [Node.run, Node.step, Node.handle, Node.latest]
    have : nextIdx (n.run os).sIdx < ((n.run os).sWin.set (nextIdx (n.run os).sIdx) false).length := by
      rw [List.length_set, hw'.1]; exact nextIdx_lt _ hw'.2.1
    rw [List.getD_eq_getElem?_getD, List.getElem?_eq_getElem this, List.getElem_set_self]; rfl
  generalize n.run (os ++ [.event (.timeout w)]) = m at hl hleft
  unfold Node.update
  have e0 : (Node.average m).left = false := hleft
  have e1 : (Node.average m).tryInsert now a = (Node.average m, []) := by
    unfold Node.tryInsert
    rw [if_neg]
    intro hc
    have : m.latest = true := hc.2.1
    rw [hl] at this; simp at this
  simp only [e0, e1, Bool.false_eq_true, if_false]
  have h3 : ((Node.average m).tryPing now).1.latest = false := by
    have : ((Node.average m).tryPing now).1.latest = m.latest := by unfold Node.tryPing; split <;> rfl
    rw [this, hl]
  have h4 : ((Node.average m).tryPing now).1.inTable = m.inTable := by unfold Node.tryPing; split <;> rfl
  have h5 : ((Node.average m).tryPing now).1.avg = (m.sWin.countP id : Rat) / W := by unfold Node.tryPing; split <;> rfl
  generalize ((Node.average m).tryPing now).1 = k at h3 h4 h5
  unfold Node.tryRemove
  have hg : k.avg ≤ goodLink ↔ m.sWin.countP id ≤ 23 := by rw [h5]; exact rate_le_good _
  by_cases hc : k.latest = false ∧ k.inTable = true ∧ k.avg ≤ goodLink
  · rw [if_pos hc]
    have := hg.mp hc.2.2
    simp
    omega
  · rw [if_neg hc]
    simp only [h4]
    constructor
    · intro ht
      refine ⟨ht, ?_⟩
      rcases Nat.lt_or_ge (m.sWin.countP id) 24 with hlt | hge
      · exact absurd ⟨h3, by rw [h4]; exact ht, hg.mpr (by omega)⟩ hc
      · exact hge
    · exact fun h => h.1

/-- C147: a peer is put into the routing table by an update exactly if it is not in it, has answered its latest request, is known for longer
than the ping interval, takes connections itself and was not sent a leave message. -/
theorem C147_insert_iff (n : Node) (now : Rat) (a : Bool) :
    Action.insert ∈ (n.update now a).2 ↔
      n.inTable = false ∧ n.latest = true ∧ n.created + pingSec < now ∧ n.passive = false ∧ n.left = false := by
  unfold Node.update
  have e0 : (Node.average n).left = n.left := rfl
  have hrm : ∀ k : Node, Action.insert ∉ k.tryRemove.2 := by
    intro k; unfold Node.tryRemove; split <;> simp
  have hpg : ∀ k : Node, Action.insert ∉ (k.tryPing now).2 := by
    intro k; unfold Node.tryPing; split <;> simp
  simp only [e0]
  cases hl : n.left
  · simp only [Bool.false_eq_true, if_false, List.mem_append, hrm, hpg, or_false]
    unfold Node.tryInsert
    have e1 : (Node.average n).inTable = n.inTable := rfl
    have e2 : (Node.average n).latest = n.latest := rfl
    have e3 : (Node.average n).created = n.created := rfl
    have e4 : (Node.average n).passive = n.passive := rfl
    rw [e1, e2, e3, e4]
    split
    · rename_i h; simp [h]
    · rename_i h
      simp only [List.not_mem_nil, false_iff]
      intro hc; exact h ⟨hc.1, hc.2.1, hc.2.2.1, hc.2.2.2.1⟩
  · simp

/-- C147: a peer which is in the leafset or in the routing table, has a valid token, has been found in at most 15 attempts, was not sent a
leave message, and answers every request, is neither dropped nor asked to leave, whenever it is looked at. -/
theorem C147_answering_peer_is_kept (t0 delay : Rat) (p : Bool) (os : List Op) (hs : ∀ b ∈ outcomes os, b = true) (now t : Rat) (a : Bool)
    (attempts : Nat) (ha : attempts ≤ 15)
    (ht : (((Node.fresh t0 delay p).run os).update now a).1.inLeafset = true ∨ (((Node.fresh t0 delay p).run os).update now a).1.inTable = true)
    (hl : (((Node.fresh t0 delay p).run os).update now a).1.left = false) :
    (((Node.fresh t0 delay p).run os).update now a).1.isInvalid t attempts true = false ∧
      (((Node.fresh t0 delay p).run os).update now a).1.hasToLeave t = false := by
  have hb := C145_new_answering_peer_is_not_bad t0 delay p os hs now a
  unfold Bad at hb
  generalize (((Node.fresh t0 delay p).run os).update now a).1 = m at *
  have hb' : ¬ m.avg < badLink := hb
  constructor
  · unfold Node.isInvalid
    rcases ht with ht | ht <;> simp [hl, ht, hb', show ¬ 15 < attempts by omega]
  · unfold Node.hasToLeave
    rcases ht with ht | ht <;> simp [hl, ht, hb']

/-- C147: nothing is held against a peer within the time of grace; a peer is asked to leave before it is dropped. -/
theorem C147_grace (n : Node) (now : Rat) (attempts : Nat) (tok : Bool) (h : now < n.created + graceSec) :
    n.isInvalid now attempts tok = false := by
  unfold Node.isInvalid
  rw [if_pos h]

/-- C147: a peer that is bad, or in neither table, is dropped once the time of grace is over. -/
theorem C147_bad_peer_is_dropped (n : Node) (now : Rat) (attempts : Nat) (tok : Bool) (h : n.created + graceSec ≤ now)
    (hb : Bad n ∨ (n.inLeafset = false ∧ n.inTable = false)) : n.isInvalid now attempts tok = true := by
  unfold Node.isInvalid
  rw [if_neg (not_lt.mpr h)]
  rcases hb with hb | ⟨h1, h2⟩
  · have hb' : n.avg < badLink := hb
    rw [if_pos hb']
    repeat' split
    all_goals rfl
  · simp [h1, h2]

/-- C147, refuted: "one lost ping does not cost a peer its place in the routing table".  A new peer which answered 16 requests in a row, and
took its place, loses it with the first failure, because the failures it was credited with in the beginning still count. -/
theorem C147_one_loss_refuted :
    let n := (Node.fresh 0 10 false).run (List.replicate 16 (.event (.response 1)) ++ [.update 1000 true])
    n.inTable = true ∧ Action.remove ∈ ((n.handle (.timeout 5)).update 1001 true).2 := by
  decide +kernel

example : Wf (Node.fresh 0 10 false) ∧ ((Node.fresh 0 10 false).run ([.event (.response 1)] ++ [.event (.timeout 2)])).left = false :=
  ⟨wf_fresh 0 10 false, rfl⟩

example : (((Node.fresh 0 10 false).run [.event (.response 1)]).update 40 true).1.inTable = true ∧
    (((Node.fresh 0 10 false).run [.event (.response 1)]).update 40 true).1.left = false := by decide +kernel

end Np.Link
