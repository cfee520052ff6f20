import Verif.Channel.Spec
namespace Np.Channel

theorem addToCache_spec (c : Conf) (p : Policy) (hp : c.cachePolicy = policyFlags p) (cache : List Msg) (m : Msg) :
    addToCache c cache m = Spec.arrive c.cacheSize p cache m := by
  unfold addToCache Spec.arrive
  rw [hp]
  by_cases h : c.cacheSize ≤ cache.length
  · have h2 : ¬ cache.length < c.cacheSize := by omega
    cases p <;> simp [h, h2] <;> simp [policyFlags, flagCmp, FIFO, LIFO, OVERFLOW_PURGE, OVERFLOW_REJECT, List.dropLast_eq_take]
  · have h2 : cache.length < c.cacheSize := by omega
    simp [h, h2]

theorem flushLoop_eq (f : Nat → Bool) : ∀ (n : Nat) (l : List Msg), l.length ≤ n →
    flushLoop f n l = (l.takeWhile (fun m => f m.session), l.dropWhile (fun m => f m.session))
  | 0, [], _ => by simp [flushLoop]
  | n + 1, [], _ => by simp [flushLoop]
  | n + 1, m :: ms, h => by
    simp only [flushLoop]
    by_cases hm : f m.session
    · have ih := flushLoop_eq f n ms (by simpa using h)
      simp [hm, ih]
    · simp only [hm, Bool.false_eq_true, if_false]
      have : ∀ k, flushLoop f k (m :: ms) = ([], m :: ms) := by
        intro k; induction k with
        | zero => simp [flushLoop]
        | succ k ih => simp [flushLoop, hm, ih]
      simp [this, hm]

theorem callLoop_true (m : Msg) : ∀ (cbs : List Callback), (callLoop m cbs true).1 = Spec.invoked m cbs
  | [] => by simp [callLoop, Spec.invoked]
  | cb :: cbs => by
    have ih := callLoop_true m cbs
    simp only [callLoop, Spec.invoked, if_true, Bool.true_and]
    by_cases h : cb.result m
    · simp [h, ih]
    · simp only [h, Bool.false_eq_true, if_false]
      cases cbs <;> simp [callLoop]

theorem callLoop_ret (m : Msg) : ∀ (cbs : List Callback) (b : Bool),
    (callLoop m cbs b).2 = (b && cbs.all fun cb => cb.result m)
  | [], b => by simp [callLoop]
  | cb :: cbs, b => by
    have ih := callLoop_ret m cbs (b && cb.result m)
    cases b <;> simp_all [callLoop]

theorem callLoop_false (m : Msg) (cbs : List Callback) : callLoop m cbs false = ([], false) := by
  cases cbs <;> simp [callLoop]

theorem arrive_length (size : Nat) (p : Policy) (hs : 0 < size) (cache : List Msg) (m : Msg)
    (h : cache.length ≤ size) : (Spec.arrive size p cache m).length ≤ size := by
  unfold Spec.arrive
  split
  · simp; omega
  · cases p <;> simp <;> omega

theorem flush_sublist (c : Conf) (f : Nat → Bool) (cache : List Msg) : (flush c f cache).2.Sublist cache := by
  unfold flush
  split
  · split
    · rw [flushLoop_eq f _ _ (Nat.le_refl _)]; exact List.dropWhile_sublist _
    · split
      · rw [flushLoop_eq f _ _ (by simp)]
        have := (List.dropWhile_sublist (fun m : Msg => f m.session) (l := cache.reverse)).reverse
        simpa using this
      · exact List.Sublist.refl _
  · exact List.Sublist.refl _

theorem step_sublist (c : Conf) (p : Policy) (hp : c.cachePolicy = policyFlags p) (cache pre : List Msg)
    (h : cache.Sublist pre) (op : CacheOp) : (cacheStep c cache op).Sublist (pre ++ Spec.arrivals [op]) := by
  cases op with
  | arrive m =>
    simp only [cacheStep, addToCache_spec c p hp, Spec.arrivals, Spec.arrive]
    split
    · exact h.append (List.Sublist.refl _)
    · cases p
      · exact h.trans (List.sublist_append_left _ _)
      · exact ((List.drop_sublist _ _).trans h).append (List.Sublist.refl _)
      · exact h.trans (List.sublist_append_left _ _)
      · exact ((List.take_sublist _ _).trans h).append (List.Sublist.refl _)
  | flush ss => rw [show Spec.arrivals [_] = [] from rfl, List.append_nil]; exact (flush_sublist _ _ _).trans h
  | expire now => rw [show Spec.arrivals [_] = [] from rfl, List.append_nil]; exact (List.filter_sublist).trans h

theorem arrivals_cons (op : CacheOp) (ops : List CacheOp) : Spec.arrivals (op :: ops) = Spec.arrivals [op] ++ Spec.arrivals ops := by
  cases op <;> simp [Spec.arrivals]

/-- The first expiry recorded for an id protects it until the clean-up passes that time. -/
theorem unique_false_of_mem (c : Conf) (hc : c.uniqueCheck = true) (t : UniqueTree) (m : Msg)
    (h : t.any (fun e => e.1 == m.uuid) = true) : checkUnique c t m = (false, t) := by
  simp [checkUnique, hc, h]

theorem handleIn_userCalls_of_dup (c : Conf) (hc : c.uniqueCheck = true) (r : Run) (m : Msg)
    (h : r.unique.any (fun e => e.1 == m.uuid) = true) :
    (handleIn c r m).userCalls = [] ∧ (handleIn c r m).internalCalls = [] ∧ (handleIn c r m).run.unique = r.unique := by
  simp [handleIn, unique_false_of_mem c hc _ _ h, callLoop_false]

theorem handleIn_unique (c : Conf) (r : Run) (m : Msg) : (handleIn c r m).run.unique = (checkUnique c r.unique m).2 := by
  simp only [handleIn]

theorem deliveries_none_of_entry (c : Conf) (hc : c.uniqueCheck = true) (u : Nat) (e : Int) :
    ∀ (ops : List InOp) (r : Run), (∃ x ∈ r.unique, x.1 = u ∧ e ≤ x.2) → Spec.cleanupsUntil e ops →
      Spec.countUuid u (deliveries c r ops) = 0
  | [], _, _, _ => by simp [deliveries, Spec.countUuid]
  | .message m :: ops, r, ⟨x, hx, hxu, hxe⟩, hcl => by
    simp only [deliveries, inStep]
    by_cases hd : r.unique.any (fun y => y.1 == m.uuid) = true
    · obtain ⟨h1, _, h3⟩ := handleIn_userCalls_of_dup c hc r m hd
      rw [h1]
      have ih := deliveries_none_of_entry c hc u e ops (handleIn c r m).run ⟨x, by rw [h3]; exact hx, hxu, hxe⟩ hcl
      simpa [Spec.countUuid] using ih
    · have hne : m.uuid ≠ u := by
        intro he
        apply hd
        rw [List.any_eq_true]
        exact ⟨x, hx, by simp [hxu, he]⟩
      have hx' : x ∈ (handleIn c r m).run.unique := by
        rw [handleIn_unique]
        simp only [checkUnique, hc, if_true]
        split
        · exact hx
        · exact List.mem_append_left _ hx
      have ih := deliveries_none_of_entry c hc u e ops (handleIn c r m).run ⟨x, hx', hxu, hxe⟩ hcl
      simp only [Spec.countUuid, List.filter_append, List.length_append] at ih ⊢
      rw [ih]
      split <;> simp [hne]
  | .cleanup now :: ops, r, ⟨x, hx, hxu, hxe⟩, hcl => by
    obtain ⟨hn, hcl⟩ := hcl
    simp only [deliveries, inStep]
    have ih := deliveries_none_of_entry c hc u e ops { r with unique := cleanupUnique c now r.unique }
      ⟨x, by
        simp only [cleanupUnique, hc, if_true, List.mem_filter]
        refine ⟨hx, ?_⟩
        simp only [Bool.not_eq_true', decide_eq_false_iff_not]; omega, hxu, hxe⟩ hcl
    simpa using ih

theorem at_most_once_from (c : Conf) (hc : c.uniqueCheck = true) (u : Nat) (e : Int) :
    ∀ (ops : List InOp) (r : Run), Spec.cleanupsUntil e ops → Spec.copiesExpireFrom u e ops →
      Spec.countUuid u (deliveries c r ops) ≤ 1
  | [], _, _, _ => by simp [deliveries, Spec.countUuid]
  | .cleanup now :: ops, r, hcl, hex => by
    simp only [deliveries, inStep]
    simpa using at_most_once_from c hc u e ops _ hcl.2 hex
  | .message m :: ops, r, hcl, hex => by
    simp only [deliveries, inStep]
    by_cases hu : m.uuid = u
    · by_cases hd : r.unique.any (fun y => y.1 == m.uuid) = true
      · obtain ⟨h1, _, _⟩ := handleIn_userCalls_of_dup c hc r m hd
        rw [h1]
        simpa using at_most_once_from c hc u e ops _ hcl hex.2
      · have hin : ∃ x ∈ (handleIn c r m).run.unique, x.1 = u ∧ e ≤ x.2 := by
          refine ⟨(m.uuid, m.expiry), ?_, hu, hex.1 hu⟩
          rw [handleIn_unique]
          simp [checkUnique, hc, hd]
        have h0 := deliveries_none_of_entry c hc u e ops _ hin hcl
        simp only [Spec.countUuid, List.filter_append, List.length_append] at h0 ⊢
        rw [h0]
        split <;> simp [hu]
    · have ih := at_most_once_from c hc u e ops (handleIn c r m).run hcl hex.2
      simp only [Spec.countUuid, List.filter_append, List.length_append] at ih ⊢
      split
      · simpa using ih
      · simpa [hu] using ih

theorem mem_takeWhile_imp {α : Type} (q : α → Bool) : ∀ (l : List α) (a : α), a ∈ l.takeWhile q → q a = true
  | [], a, h => by simp at h
  | x :: xs, a, h => by
    rw [List.takeWhile_cons] at h
    split at h
    · rcases List.mem_cons.1 h with rfl | h
      · assumption
      · exact mem_takeWhile_imp q xs a h
    · simp at h

theorem flush_split (c : Conf) (f : Nat → Bool) (cache : List Msg) :
    ((flush c f cache).1 ++ (flush c f cache).2).Perm cache := by
  unfold flush
  split
  · split
    · rw [flushLoop_eq f _ _ (Nat.le_refl _)]; simp
    · split
      · rw [flushLoop_eq f _ _ (by simp)]
        simp only
        refine (List.Perm.append_left _ (List.reverse_perm _)).trans ?_
        rw [List.takeWhile_append_dropWhile]; exact List.reverse_perm _
      · simp
  · simp

theorem flush_released (c : Conf) (f : Nat → Bool) (cache : List Msg) (m : Msg) (h : m ∈ (flush c f cache).1) :
    f m.session = true := by
  have key : ∀ l : List Msg, m ∈ (flushLoop f l.length l).1 → f m.session = true := by
    intro l hm
    rw [flushLoop_eq f _ _ (Nat.le_refl _)] at hm
    simpa using mem_takeWhile_imp _ l m hm
  unfold flush at h
  split at h
  · split at h
    · exact key _ h
    · split at h
      · have := key cache.reverse; rw [List.length_reverse] at this; exact this h
      · simp at h
  · simp at h

end Np.Channel
