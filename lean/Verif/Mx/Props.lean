import Verif.Mx.Lemmas3

/-!
# C42, C74: settings of a channel
-/
namespace Np.Mx
open Np (Dhkey)
open Np.Channel (flagCmp Policy)
open _root_.Np.Mx.Spec

/-- Settings to play with. -/
def sample (role : Role) (cacheSize : BitVec 16) : Props :=
  ⟨role, .destination, zeros, .pub, Dhkey.zero, .lifoReject, cacheSize, 4, 5, 20 * second, 10 * second, 30⟩

/-- C42: for every history of calls, also for other channels, `np_get_mx_properties` reports the settings that were given, and the former value of a number
that was given as zero. Missing: histories that are not `Orderly` (see the counterexamples), reply and audience, an `intentUpdate` of zero, fractions of a
second of intents; what happens if an intent lives longer than 2^32 seconds is undefined. -/
theorem C42_readback_partial (ttl : Int) (s : Dhkey) (past : List Op) (st : St) (h : run ttl init past.reverse = some st) (ho : Orderly s past) :
    get st s = (expected ttl s past).getD noProps :=
  (good_run ttl s past h ho).get

example : ∃ st, run 7 init [.listen Dhkey.zero, .set Dhkey.zero (sample .provider 5), .send Dhkey.max, .send Dhkey.zero, .set Dhkey.zero (sample .consumer 0)]
    = some st ∧ Orderly Dhkey.zero
      [.set Dhkey.zero (sample .consumer 0), .send Dhkey.zero, .send Dhkey.max, .set Dhkey.zero (sample .provider 5), .listen Dhkey.zero] ∧
    (get st Dhkey.zero).cacheSize = 5 ∧ (get st Dhkey.zero).messageTtl = 30 ∧ (get st Dhkey.zero).role = .consumer := by
  have : (run 7 init [.listen Dhkey.zero, .set Dhkey.zero (sample .provider 5), .send Dhkey.max, .send Dhkey.zero,
    .set Dhkey.zero (sample .consumer 0)]).map (fun st => ((get st Dhkey.zero).cacheSize, (get st Dhkey.zero).messageTtl, (get st Dhkey.zero).role))
    = some (5, 30, .consumer) := by decide +kernel
  rw [Option.map_eq_some_iff] at this
  obtain ⟨st, h1, h2⟩ := this
  simp only [Prod.mk.injEq] at h2
  refine ⟨st, h1, ?_, h2.1, h2.2.1, h2.2.2⟩
  refine ⟨fun _ _ h => by simp [sample] at h, ⟨fun _ => Or.inl ⟨rfl, ?_, by simp [sample]⟩, ⟨fun h => ?_, ⟨fun _ _ _ => Or.inl rfl, trivial⟩⟩⟩⟩
  · simp [Incomplete, sample]
  · exact absurd h (by decide)

/-- C42: properties for a protected channel without audience are refused and change nothing, all others are accepted. -/
theorem C42_refused (ttl : Int) (past : List Op) (st : St) (h : run ttl init past = some st) (s : Dhkey) (p : Props) :
    (Incomplete p → set ttl st s p = some (st, false)) ∧
    ∀ st' ok, set ttl st s p = some (st', ok) → (ok = true ↔ ¬ Incomplete p) := by
  have hi := run_inv ttl inv_init h
  constructor
  · intro hp
    unfold set
    rw [if_pos ((refused_iff p).mpr hp)]
  · intro st' ok hset
    obtain ⟨_, _, a3, a4⟩ := set_spec ttl hi s p hset
    constructor
    · intro hok hp
      have := (a3 hp).2
      rw [hok] at this; simp at this
    · intro hp; exact (a4 hp).1

example : Incomplete { sample .prosumer 5 with audience := .prot } ∧ ¬ Incomplete { sample .prosumer 5 with audience := .prot, audienceId := Dhkey.max } := by
  decide

/-- C42: after every history, settings with a role that sends are in effect for sending, unless the channel is on hold. Missing: the former values are
those of the receiving half; if there is none, they are lost. -/
theorem C42_sending_partial (ttl : Int) (past : List Op) (st : St) (h : run ttl init past = some st) (s : Dhkey) (p : Props) (st' : St)
    (hs0 : set ttl st s p = some (st', true)) (hrole : p.role ≠ .consumer) (hold : ¬ OnHold st s) :
    sending st' s = some (changed (if (st.rx s).isSome then get st s else fresh ttl p.role) p) := by
  have hi := run_inv ttl inv_init h
  obtain ⟨_, _, a3, a4⟩ := set_spec ttl hi s p hs0
  have hn : ¬ Incomplete p := fun hp => by have := (a3 hp).2; simp at this
  obtain ⟨_, st1, i, c, c', e1, i1, hc, hs, hrx, htx, hor, hf, hs', i2, hset, rfl⟩ := a4 hn
  obtain ⟨o1, o2, o3, o4, o5⟩ := fromUser_spec (i1.ok i c hc) hf
  obtain ⟨r1, r2, r3, r4, r5, r6, r7, r8, r9, r10, r11⟩ := register_spec i2 (i := i) (c := c') hset
  rw [hs'] at r7 r8 r10
  rw [o3, modeOf_out] at r7 r10
  have hr : decide (p.role ≠ .consumer) = true := by simpa using hrole
  have hsend : sending (register { st1 with confs := st1.confs.set i c' } i) s = some (toUser c') := by
    unfold sending
    cases hx : st.tx s with
    | none => rw [r7 hr (by rw [← hx, ← htx])]; simp only [r3, Option.map_some]
    | some g =>
      have hg : g.hold = false := by
        cases hh : g.hold with
        | false => rfl
        | true => exact absurd (show (st.tx s).map (·.hold) = some true by rw [hx, ← hh]; rfl) hold
      have hx' : ({ st1 with confs := st1.confs.set i c' } : St).tx s = some g := by rw [← hx, ← htx]
      rw [r8 g hx']
      simp only [r10 hr g hx' hg, Option.map_some]
  rw [hsend, o5]
  suffices hfin : changed (toUser c) p = changed (if (st.rx s).isSome then get st s else fresh ttl p.role) p by rw [hfin]
  rw [confGet_rx _ _ _ flag_def_in] at hor
  unfold Mx.get
  rw [confGet_rx _ _ _ flag_def_in]
  rcases hor with ⟨e, e2⟩ | ⟨e, e2⟩
  · cases hx : st.rx s with
    | none => rw [hx] at e; simp at e
    | some g =>
      rw [hx] at e; simp at e
      simp only [Option.isSome_some, if_true, Option.map_some, Option.bind_some]
      rw [e, ← e2, hc]
  · cases hx : st.rx s with
    | some g => rw [hx] at e; simp at e
    | none =>
      simp only [Option.isSome_none, Bool.false_eq_true, if_false]
      rw [e2, show DEFAULT_MODE = modeOf .prosumer from rfl, toUser_newConf]
      exact changed_fresh ttl _ _ p

example : ((set 7 init Dhkey.zero (sample .provider 5)).bind fun r => (sending r.1 Dhkey.zero).map (·.cacheSize)) = some 5 := by decide +kernel

/-- C42 fails for a channel that only sends: nothing is read back. -/
theorem C42_provider_refuted :
    ∃ p : Props, (run 7 init [.set Dhkey.zero p]).map (fun st => get st Dhkey.zero) = some noProps ∧ p.cacheSize = 5 :=
  ⟨sample .provider 5, by decide +kernel⟩

/-- C42 fails for a channel that only sends: a number that is zero goes back to the default. -/
theorem C42_former_refuted :
    ∃ p q : Props, p.cacheSize = 5 ∧ q.cacheSize = 0 ∧
      ((run 7 init [.set Dhkey.zero p, .set Dhkey.zero q]).bind fun st => (sending st Dhkey.zero).map (·.cacheSize)) = some 16 :=
  ⟨sample .provider 5, sample .provider 0, by decide +kernel⟩

/-- C42 fails: `np_send` puts back settings that were replaced. -/
theorem C42_revert_refuted :
    ∃ p q : Props, p.cacheSize = 5 ∧ q.cacheSize = 6 ∧
      (run 7 init [.send Dhkey.zero, .set Dhkey.zero p, .set Dhkey.zero q]).map (fun st => (get st Dhkey.zero).cacheSize) = some 6 ∧
      (run 7 init [.send Dhkey.zero, .set Dhkey.zero p, .set Dhkey.zero q, .send Dhkey.zero]).map (fun st => (get st Dhkey.zero).cacheSize) = some 5 :=
  ⟨sample .prosumer 5, sample .consumer 6, by decide +kernel⟩

/-- C42 fails: an `intentUpdate` of zero does not keep the former value. -/
theorem C42_update_refuted :
    ∃ p q : Props, p.intentUpdate = 10 * second ∧ q.intentUpdate = 0 ∧
      (run 7 init [.set Dhkey.zero p, .set Dhkey.zero q]).map (fun st => (get st Dhkey.zero).intentUpdate) = some (3 * second) :=
  ⟨sample .prosumer 5, { sample .prosumer 5 with intentUpdate := 0 }, by decide +kernel⟩

/-- C42 fails: an `intentTtl` of half a second is read back as zero. -/
theorem C42_fraction_refuted :
    ∃ p : Props, 2 * p.intentTtl = second ∧ (run 7 init [.set Dhkey.zero p]).map (fun st => (get st Dhkey.zero).intentTtl) = some 0 :=
  ⟨{ sample .prosumer 5 with intentTtl := second / 2 }, by decide +kernel⟩

/-- C42 fails: reply id and audience are not read back. -/
theorem C42_audience_refuted :
    ∃ p : Props, p.audience = .prot ∧ p.reply = List.replicate 32 1 ∧
      (run 7 init [.set Dhkey.zero p]).map (fun st => ((get st Dhkey.zero).audience, (get st Dhkey.zero).reply)) = some (.pub, zeros) :=
  ⟨{ sample .prosumer 5 with audience := .prot, audienceId := Dhkey.max, reply := List.replicate 32 1 }, by decide +kernel⟩

/-- C42 fails: settings given while the channel is on hold are not in effect for sending, also not after it was enabled again. -/
theorem C42_hold_refuted :
    ∃ p : Props, p.cacheSize = 5 ∧ p.role = .prosumer ∧
      ((run 7 init [.send Dhkey.zero, .disable Dhkey.zero, .set Dhkey.zero p, .enable Dhkey.zero]).bind
        fun st => (sending st Dhkey.zero).map (·.cacheSize)) = some 16 :=
  ⟨sample .prosumer 5, by decide +kernel⟩

/-- C74: after every history, if the channel has a sending half, disabling it stops sending, whatever else is called, until it is enabled again.
Missing: receiving, and a channel that has no sending half yet. -/
theorem C74_sending_partial (ttl : Int) (past : List Op) (st : St) (h : run ttl init past = some st) (s : Dhkey) (hs : (st.tx s).isSome = true)
    (later : List Op) (hl : ∀ o ∈ later, o ≠ .enable s) (st1 : St) (h1 : run ttl (setHold true st s) later = some st1) :
    (∀ st2 b, send ttl st1 s = some (st2, b) → b = false) ∧
    (∀ st2 b, send ttl (setHold false st1 s) s = some (st2, b) → b = true) := by
  have hi := run_inv ttl inv_init h
  obtain ⟨g, hg⟩ := Option.isSome_iff_exists.mp hs
  have i1 := (setHold_spec true hi s).1
  have o1 : OnHold (setHold true st s) s := by unfold OnHold; rw [upd_hold hg]; rfl
  have i2 := run_inv ttl i1 h1
  have o2 := run_hold ttl i1 h1 hl o1
  unfold OnHold at o2
  rw [Option.map_eq_some_iff] at o2
  obtain ⟨g1, hg1, hh1⟩ := o2
  constructor
  · intro st2 b hb
    obtain ⟨_, _, e, k⟩ := send_spec ttl i2 s hb
    rw [e, k g1 hg1]
    simp [hh1]
  · intro st2 b hb
    obtain ⟨_, _, e, k⟩ := send_spec ttl (setHold_spec false i2 s).1 s hb
    rw [e, k _ (upd_hold hg1 false)]
    rfl

example : ((run 7 init [.set Dhkey.zero (sample .prosumer 5)]).map fun st => (st.tx Dhkey.zero).isSome) = some true := by decide +kernel

/-- C74 fails for receiving: messages on a disabled channel are still handled. -/
theorem C74_receiving_refuted :
    (run 7 init [.listen Dhkey.zero, .disable Dhkey.zero]).map (fun st => arrives st Dhkey.zero) = some true := by decide +kernel

/-- C74 fails for a channel that was not used for sending yet: the first message is sent although the channel is disabled. -/
theorem C74_early_refuted :
    ((run 7 init [.listen Dhkey.zero, .disable Dhkey.zero]).bind fun st => (send 7 st Dhkey.zero).map (·.2)) = some true := by decide +kernel

end Np.Mx
