import Verif.Channel.Lemmas
/-! # C24–C28: message cache, at-most-once delivery, max_parallel, callback order, set-once callbacks -/
namespace Np.Channel

/-! ## C24 message cache -/

/-- C24: an arriving message is handled as the configured policy says, for every cache content. -/
theorem C24_policy (c : Conf) (p : Policy) (hp : c.cachePolicy = policyFlags p) (cache : List Msg) (m : Msg) :
    addToCache c cache m = Spec.arrive c.cacheSize p cache m := addToCache_spec c p hp cache m

/-- C24: with any of the four policies and a cache size of at least one, the cache never exceeds the
configured size, after every history of Spec.arrivals, flushes and expiries. -/
theorem C24_bounded (c : Conf) (p : Policy) (hp : c.cachePolicy = policyFlags p) (hs : 0 < c.cacheSize)
    (ops : List CacheOp) : (cacheRun c ops).length ≤ c.cacheSize := by
  suffices ∀ cache : List Msg, cache.length ≤ c.cacheSize → (ops.foldl (cacheStep c) cache).length ≤ c.cacheSize by
    exact this [] (by simp)
  induction ops with
  | nil => intro cache h; exact h
  | cons op ops ih =>
    intro cache h
    apply ih
    cases op with
    | arrive m => simp only [cacheStep, addToCache_spec c p hp]; exact arrive_length _ p hs _ _ h
    | flush ss => exact Nat.le_trans (flush_sublist _ _ _).length_le h
    | expire now => exact Nat.le_trans (List.length_filter_le _ _) h

/-- C24: at any time the cache holds only messages that arrived, each as often as it arrived at most, in order of arrival. -/
theorem C24_order_of_arrival (c : Conf) (p : Policy) (hp : c.cachePolicy = policyFlags p) (ops : List CacheOp) :
    (cacheRun c ops).Sublist (Spec.arrivals ops) := by
  suffices ∀ (cache pre : List Msg), cache.Sublist pre → (ops.foldl (cacheStep c) cache).Sublist (pre ++ Spec.arrivals ops) by
    simpa [cacheRun] using this [] [] (List.Sublist.refl _)
  induction ops with
  | nil => intro cache pre h; simpa [Spec.arrivals] using h
  | cons op ops ih =>
    intro cache pre h
    have := ih _ _ (step_sublist c p hp cache pre h op)
    rw [arrivals_cons, ← List.append_assoc]; exact this

/-- C24: nothing is dropped from the cache silently while there is room: without overflow, flush or expiry
every arrived message is cached. -/
theorem C24_no_loss (c : Conf) (ms : List Msg) (h : ms.length ≤ c.cacheSize) :
    cacheRun c (ms.map CacheOp.arrive) = ms := by
  suffices ∀ cache : List Msg, cache.length + ms.length ≤ c.cacheSize →
      (ms.map CacheOp.arrive).foldl (cacheStep c) cache = cache ++ ms by
    simpa [cacheRun] using this [] (by simpa using h)
  clear h
  induction ms with
  | nil => intro cache _; simp
  | cons m ms ih =>
    intro cache h
    simp only [List.length_cons] at h
    simp only [List.map_cons, List.foldl_cons, cacheStep, addToCache]
    rw [if_neg (by omega), ih _ (by simp; omega)]
    simp

/-- C24: every loss is explained, at any point of any history: overflow by the policy, a known partner, or expiry. -/
theorem C24_loss_explained (c : Conf) (p : Policy) (hp : c.cachePolicy = policyFlags p) (ops : List CacheOp) (op : CacheOp) :
    Spec.explained c p (cacheRun c ops) op (cacheRun c (ops ++ [op])) := by
  have e : cacheRun c (ops ++ [op]) = cacheStep c (cacheRun c ops) op := by simp [cacheRun]
  rw [e]
  generalize cacheRun c ops = cache
  cases op with
  | arrive m => exact addToCache_spec c p hp cache m
  | flush ss =>
    intro m hm hn
    have h1 := flush_split c (fun s => ss.contains s) cache
    have h2 := (h1.mem_iff (a := m)).2 hm
    rcases List.mem_append.1 h2 with h | h
    · simpa using flush_released c _ cache m h
    · exact absurd h hn
  | expire now =>
    simp only [Spec.explained, cacheStep, cleanupCache]
    congr 1; funext m
    simp only [isExpired]
    by_cases h : now < m.expiry
    · simp [h]
    · simp [h]; omega

example : cacheRun ⟨2, policyFlags .fifoPurge, 2, true, false, false⟩
    [.arrive ⟨1, 9, 0, 0⟩, .arrive ⟨2, 9, 0, 0⟩, .arrive ⟨3, 9, 0, 0⟩] = [⟨2, 9, 0, 0⟩, ⟨3, 9, 0, 0⟩] := by decide
example : cacheRun ⟨2, policyFlags .lifoPurge, 2, true, false, false⟩
    [.arrive ⟨1, 9, 0, 0⟩, .arrive ⟨2, 9, 0, 0⟩, .arrive ⟨3, 9, 0, 0⟩] = [⟨1, 9, 0, 0⟩, ⟨3, 9, 0, 0⟩] := by decide

/-! ## C51 cached messages are released -/

/-- C51, proved part: if every cached message has a partner and the cache is within its size, the
check releases all of them, oldest first for FIFO and newest first for LIFO, and leaves the cache empty.
Missing: release of *each* message that has a partner, see `C51_release_refuted`. -/
theorem C51_release_all_partial (c : Conf) (p : Policy) (hp : c.cachePolicy = policyFlags p) (f : Nat → Bool)
    (cache : List Msg) (hl : cache.length ≤ c.cacheSize) (hall : ∀ m ∈ cache, f m.session = true) :
    flush c f cache = (match p with | .fifoReject | .fifoPurge => cache | .lifoReject | .lifoPurge => cache.reverse, []) := by
  have e1 : ∀ l : List Msg, (∀ m ∈ l, f m.session = true) →
      flushLoop f l.length l = (l, []) := by
    intro l h
    rw [flushLoop_eq f _ _ (Nat.le_refl _)]
    clear hall hl
    induction l with
    | nil => rfl
    | cons m l ih =>
      have hm := h m (by simp)
      have := ih (fun x hx => h x (by simp [hx]))
      simp only [Prod.mk.injEq] at this
      simp [hm, this.1, this.2]
  have e2 := e1 cache.reverse (by simpa using hall)
  rw [List.length_reverse] at e2
  have e3 := e1 cache hall
  unfold flush
  rw [if_pos hl]
  cases p <;> simp [hp, policyFlags, flagCmp, FIFO, LIFO, OVERFLOW_PURGE, OVERFLOW_REJECT, e2, e3]

/-- C51: no message is released twice or invented by a check: what is released and what stays is a split of the cache. -/
theorem C51_split (c : Conf) (f : Nat → Bool) (cache : List Msg) :
    ((flush c f cache).1 ++ (flush c f cache).2).Perm cache := flush_split c f cache

/-- C51: nothing is released without a partner. -/
theorem C51_only_with_partner (c : Conf) (f : Nat → Bool) (cache : List Msg) (m : Msg) (h : m ∈ (flush c f cache).1) :
    f m.session = true := flush_released c f cache m h

/-- C51 is violated: a message whose partner is known stays in the cache behind one whose partner is not
(head-of-line blocking: `peek` is not advanced, src/core/np_comp_msgproperty.c:693-700). -/
theorem C51_release_refuted :
    ¬ ∀ (c : Conf) (p : Policy) (f : Nat → Bool) (cache : List Msg), c.cachePolicy = policyFlags p →
      cache.length ≤ c.cacheSize → ∀ m ∈ cache, f m.session = true → m ∈ (flush c f cache).1 := by
  intro h
  have := h ⟨16, policyFlags .fifoPurge, 2, true, false, false⟩ .fifoPurge (fun s => s == 7)
    [⟨1, 9, 3, 0⟩, ⟨2, 9, 7, 0⟩] rfl (by decide) ⟨2, 9, 7, 0⟩ (by simp) (by decide)
  revert this; decide

example : ∀ m ∈ ([⟨1, 9, 3, 0⟩, ⟨2, 9, 7, 0⟩] : List Msg), (fun s : Nat => decide (s > 2)) m.session = true := by decide

/-! ## C25 at most once -/

/-- C25, proved part: on a channel configured by `np_set_mx_properties` (which switches the check on) a message id is handed
to the receive callbacks at most once as long as no clean-up runs later than the earliest expiry among its copies.
Every interleaving of messages, duplicates and clean-ups is covered.
Missing: copies sent again with a later timestamp, see `C25_at_most_once_refuted`. -/
theorem C25_at_most_once_partial (c : Conf) (hc : c.uniqueCheck = true) (r : Run) (ops : List InOp) (u : Nat) (e : Int)
    (hcl : Spec.cleanupsUntil e ops) (hex : Spec.copiesExpireFrom u e ops) :
    Spec.countUuid u (deliveries c r ops) ≤ 1 := at_most_once_from c hc u e ops r hcl hex

/-- C25 is violated: redelivery (src/core/np_comp_msgproperty.c:957-973) sends the same id again with a later timestamp, the
receiver keeps the first expiry only, and after a clean-up the unexpired copy is delivered a second time. -/
theorem C25_at_most_once_refuted :
    ¬ ∀ (c : Conf) (r : Run) (ops : List InOp) (u : Nat) (e : Int), c.uniqueCheck = true →
      Spec.cleanupsUntil e ops → (∃ m, InOp.message m ∈ ops ∧ m.uuid = u ∧ e ≤ m.expiry) →
      Spec.countUuid u (deliveries c r ops) ≤ 1 := by
  intro h
  have := h ⟨16, policyFlags .fifoPurge, 2, true, false, false⟩
    ⟨[], [], 0, [], [⟨0, fun _ => true⟩]⟩
    [.message ⟨5, 10, 0, 0⟩, .cleanup 11, .message ⟨5, 20, 0, 0⟩] 5 20 rfl (by simp [Spec.cleanupsUntil])
    ⟨⟨5, 20, 0, 0⟩, by simp, rfl, by decide⟩
  revert this; decide

example : Spec.cleanupsUntil 10 [.message ⟨5, 10, 0, 0⟩, .cleanup 9, .message ⟨5, 12, 0, 0⟩] ∧
    Spec.copiesExpireFrom 5 10 [.message ⟨5, 10, 0, 0⟩, .cleanup 9, .message ⟨5, 12, 0, 0⟩] := by
  simp [Spec.cleanupsUntil, Spec.copiesExpireFrom]

/-! ## C26 max_parallel -/

/-- C26 is violated completely: the threshold check can never hold a message back, because the counter is capped at
`max_parallel` and the check asks for a larger value. -/
theorem C26_never_breached (c : Conf) (ackNone : Bool) (ops : List OutOp) :
    thresholdBreached c (outRun c ackNone ops).threshold = false := by
  suffices ∀ s : OutState, s.threshold ≤ c.maxThreshold → (ops.foldl (outStep c ackNone) s).threshold ≤ c.maxThreshold by
    have := this ⟨0, [], []⟩ (by simp)
    simp only [thresholdBreached, outRun]
    exact decide_eq_false (by omega)
  have inc : ∀ t, t ≤ c.maxThreshold → thresholdIncrease c t ≤ c.maxThreshold := by
    intro t h; unfold thresholdIncrease; split <;> omega
  have dec : ∀ t, t ≤ c.maxThreshold → thresholdDecrease t ≤ c.maxThreshold := by
    intro t h; unfold thresholdDecrease; split <;> omega
  induction ops with
  | nil => intro s h; exact h
  | cons op ops ih =>
    intro s h
    apply ih
    cases op with
    | send u =>
      simp only [outStep]
      split
      · exact h
      · cases ackNone <;> simp
        · exact inc _ h
        · exact dec _ (inc _ h)
    | store u =>
      simp only [outStep]
      split
      · exact h
      · exact inc _ h
    | done u =>
      simp only [outStep]
      split
      · exact dec _ h
      · exact h

/-- C26 is violated: with `max_parallel = 1` two acknowledged messages are in flight at the same time. -/
theorem C26_max_parallel_refuted :
    ¬ ∀ (c : Conf) (ops : List OutOp), (outRun c false ops).inFlight.length ≤ c.maxThreshold := by
  intro h
  have := h ⟨16, policyFlags .fifoPurge, 1, true, false, false⟩ [.send 1, .store 1, .send 2, .store 2]
  revert this; decide

/-- C26: for every limit n ≥ 0 and every m there is a schedule with m messages in flight. -/
theorem C26_unbounded (c : Conf) (m : Nat) : ∃ ops, (outRun c false ops).inFlight.length = m := by
  refine ⟨(List.range m).map OutOp.send, ?_⟩
  suffices ∀ (l : List Nat) (s : OutState), s.threshold ≤ c.maxThreshold →
      ((l.map OutOp.send).foldl (outStep c false) s).inFlight.length = s.inFlight.length + l.length by
    have := this (List.range m) ⟨0, [], []⟩ (by simp)
    simpa [outRun] using this
  intro l
  induction l with
  | nil => intro s _; simp
  | cons u l ih =>
    intro s h
    simp only [List.map_cons, List.foldl_cons]
    have hb : thresholdBreached c s.threshold = false := by simp [thresholdBreached]; omega
    rw [ih]
    · simp [outStep, hb]; omega
    · simp only [outStep, hb]
      simp only [Bool.false_eq_true, if_false, thresholdIncrease]; split <;> omega

/-- C26, proved part: the counter itself never exceeds `max_parallel` and a channel without acknowledgements
returns to zero after each message. -/
theorem C26_counter_partial (c : Conf) (us : List Nat) :
    (outRun c true (us.map OutOp.send)).threshold = 0 ∧ (outRun c true (us.map OutOp.send)).inFlight = [] := by
  suffices ∀ (l : List Nat) (s : OutState), s.threshold = 0 → s.inFlight = [] →
      ((l.map OutOp.send).foldl (outStep c true) s).threshold = 0 ∧ ((l.map OutOp.send).foldl (outStep c true) s).inFlight = [] by
    exact this us ⟨0, [], []⟩ rfl rfl
  intro l
  induction l with
  | nil => intro s h1 h2; exact ⟨h1, h2⟩
  | cons u l ih =>
    intro s h1 h2
    simp only [List.map_cons, List.foldl_cons]
    have hb : thresholdBreached c s.threshold = false := by simp [thresholdBreached, h1]
    apply ih
    · rw [outStep, if_neg (by simp [hb])]
      simp only [h1, if_true, thresholdIncrease]
      split <;> simp [thresholdDecrease]
    · simp [outStep, hb, h2]

/-! ## C27 receive callbacks -/

/-- C27 at the level of the channel: a fresh message accepted by the internal callbacks is handed to the user callbacks in
registration order, up to and including the first that rejects it, and no further. -/
theorem C27_dispatch_order (c : Conf) (r : Run) (m : Msg) (hi : c.isInternal = false) (hv : c.isVirtual = false)
    (hfresh : (checkUnique c r.unique m).1 = true) (hint : ∀ cb ∈ r.callbacks, cb.result m = true) :
    (handleIn c r m).userCalls = Spec.invoked m r.userCallbacks ∧
    (handleIn c r m).ok = r.userCallbacks.all (fun cb => cb.result m) := by
  have e : (callLoop m r.callbacks true).2 = true := by
    rw [callLoop_ret]; simpa using hint
  have hc : checkUnique c r.unique m = (true, (checkUnique c r.unique m).2) := Prod.ext hfresh rfl
  simp only [handleIn]
  rw [hc]
  simp only [hi, hv, e, and_self, if_true]
  exact ⟨callLoop_true m _, by rw [callLoop_ret]; simp⟩

/-- C27: a message rejected by uniqueness or by an internal callback (e.g. decryption failed) reaches no user callback. -/
theorem C27_rejected_internally (c : Conf) (r : Run) (m : Msg)
    (h : (checkUnique c r.unique m).1 = false ∨ ∃ cb ∈ r.callbacks, cb.result m = false) :
    (handleIn c r m).userCalls = [] ∧ (handleIn c r m).ok = false := by
  have e : (callLoop m r.callbacks (checkUnique c r.unique m).1).2 = false := by
    rw [callLoop_ret]
    rcases h with h | ⟨cb, hcb, hr⟩
    · simp [h]
    · rw [Bool.and_eq_false_iff]; right
      rw [List.all_eq_false]; exact ⟨cb, hcb, by simp [hr]⟩
  simp only [handleIn]
  simp [e]

/-- C27: internal and virtual channels never reach a user callback. -/
theorem C27_internal_channels (c : Conf) (r : Run) (m : Msg) (h : c.isInternal = true ∨ c.isVirtual = true) :
    (handleIn c r m).userCalls = [] := by
  simp only [handleIn]
  rcases h with h | h <;> simp [h]

/-- C27 holds for listeners registered directly: for all callbacks and all results. -/
theorem C27_listener_order (c : Conf) (cbs : List Callback) (m : Msg) (hi : c.isInternal = false) (hv : c.isVirtual = false) :
    (handleIn c (cbs.foldl addReceiveListener ⟨[], [], 0, [], []⟩) m).userCalls = Spec.invoked m cbs := by
  have key : ∀ (r : Run), cbs.foldl addReceiveListener r = { r with userCallbacks := r.userCallbacks ++ cbs } := by
    induction cbs with
    | nil => intro r; simp
    | cons cb cbs ih => intro r; simp [ih, addReceiveListener]
  have := (C27_dispatch_order c (cbs.foldl addReceiveListener ⟨[], [], 0, [], []⟩) m hi hv
    (by rw [key]; simp [checkUnique]; split <;> rfl) (by rw [key]; simp)).1
  rw [this, key]; simp

/-- C27 is violated by `np_add_receive_cb`: a callback after a rejecting one is still invoked, because the
wrapper drops the user's result. -/
theorem C27_stop_on_reject_refuted :
    ¬ ∀ (c : Conf) (cbs : List Callback) (m : Msg), c.isInternal = false → c.isVirtual = false →
      (handleIn c (cbs.foldl addReceiveCb ⟨[], [], 0, [], []⟩) m).userCalls = Spec.invoked m cbs := by
  intro h
  have := h ⟨16, policyFlags .fifoPurge, 1, true, false, false⟩ [⟨1, fun _ => false⟩, ⟨2, fun _ => true⟩] ⟨1, 9, 0, 0⟩ rfl rfl
  revert this; decide

/-- C27, proved part for `np_add_receive_cb`: all registered callbacks are invoked, in registration order, exactly once
per registration (whatever they return). Missing: stopping at the first rejection. -/
theorem C27_registration_order_partial (c : Conf) (cbs : List Callback) (m : Msg) (hi : c.isInternal = false)
    (hv : c.isVirtual = false) :
    (handleIn c (cbs.foldl addReceiveCb ⟨[], [], 0, [], []⟩) m).userCalls = cbs.map Callback.name := by
  have key : ∀ (cbs : List Callback) (r : Run), cbs.foldl addReceiveCb r =
      { r with userCallbacks := r.userCallbacks ++ cbs.map receiveConverter } := by
    intro cbs
    induction cbs with
    | nil => intro r; simp
    | cons cb cbs ih => intro r; simp [ih, addReceiveCb]
  have := (C27_dispatch_order c (cbs.foldl addReceiveCb ⟨[], [], 0, [], []⟩) m hi hv
    (by rw [key]; simp [checkUnique]; split <;> rfl) (by rw [key]; simp)).1
  rw [this, key]
  simp only [List.nil_append]
  clear this key
  induction cbs with
  | nil => rfl
  | cons cb cbs ih => simp [Spec.invoked, receiveConverter, ih]

example : (checkUnique ⟨16, policyFlags .fifoPurge, 1, true, false, false⟩ [(4, 9)] ⟨1, 9, 0, 0⟩).1 = true := by decide

/-! ## C28 set-once callbacks -/

/-- C28, proved part (channel level): `np_set_mx_authorize_cb` never replaces a callback that is set, and reports
`np_invalid_operation` exactly when it could set none. -/
theorem C28_mx_set_once_partial (s : MxCallbacks) (cb : Nat) :
    (∀ old, s.inbound = some (some old) → (setMxAuthorize s cb).1.inbound = some (some old)) ∧
    (∀ old, s.outbound = some (some old) → (setMxAuthorize s cb).1.outbound = some (some old)) ∧
    ((setMxAuthorize s cb).2 = .invalidOperation ↔ s.inbound ≠ some none ∧ s.outbound ≠ some none) ∧
    ((setMxAuthorize s cb).2 = .ok ∨ (setMxAuthorize s cb).2 = .invalidOperation) := by
  rcases s with ⟨_ | _ | i, _ | _ | o⟩ <;> simp [setMxAuthorize]

/-- C28: over any sequence of `np_set_mx_authorize_cb` calls on an existing channel the first callback stays. -/
theorem C28_mx_first_stays (cb : Nat) (cbs : List Nat) :
    (cbs.foldl (fun s c => (setMxAuthorize s c).1) (setMxAuthorize ⟨some none, some none⟩ cb).1) =
      ⟨some (some cb), some (some cb)⟩ := by
  have e : (setMxAuthorize ⟨some none, some none⟩ cb).1 = ⟨some (some cb), some (some cb)⟩ := rfl
  rw [e]
  induction cbs with
  | nil => rfl
  | cons c cbs ih => simpa [setMxAuthorize] using ih

/-- C28 is violated by the global setters: the second call succeeds and replaces the callback. -/
theorem C28_global_set_once_refuted :
    ¬ ∀ (c : Ctx) (f g : Nat), let c1 := (setAuthorize c f).1
      (setAuthorize c1 g).2 = .invalidOperation ∧ (setAuthorize c1 g).1.authorize = some f := by
  intro h; have := h ⟨none, none, none⟩ 1 2; revert this; decide

/-- The same for the two other global setters. -/
theorem C28_global_set_once_refuted' :
    (¬ ∀ (c : Ctx) (f g : Nat), (setAuthenticate (setAuthenticate c f).1 g).1.authenticate = some f) ∧
    (¬ ∀ (c : Ctx) (f g : Nat), (setAccounting (setAccounting c f).1 g).1.accounting = some f) := by
  constructor <;> (intro h; have := h ⟨none, none, none⟩ 1 2; revert this; decide)

end Np.Channel
