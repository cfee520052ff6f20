import Verif.Mx.Spec
import Verif.Dhkey.Lemmas

/-! # Lemmas about the settings of channels -/
set_option linter.unusedSimpArgs false
set_option linter.unusedVariables false

namespace Np.Mx
open Np (Dhkey)
open Np.Channel (flagCmp Policy policyFlags FIFO OVERFLOW_REJECT)
open _root_.Np.Mx.Spec

theorem flag_in_in : flagCmp INBOUND INBOUND = true := by decide
theorem flag_in_out : flagCmp INBOUND OUTBOUND = false := by decide
theorem flag_out_in : flagCmp OUTBOUND INBOUND = false := by decide
theorem flag_out_out : flagCmp OUTBOUND OUTBOUND = true := by decide
theorem flag_def_in : flagCmp DEFAULT_MODE INBOUND = true := by decide
theorem flag_def_out : flagCmp DEFAULT_MODE OUTBOUND = true := by decide

theorem modeOf_in (r : Role) : flagCmp (modeOf r) INBOUND = decide (r ≠ .provider) := by cases r <;> decide
theorem modeOf_out (r : Role) : flagCmp (modeOf r) OUTBOUND = decide (r ≠ .consumer) := by cases r <;> decide

theorem second_pos : 0 < second := by unfold second; exact Int.pow_pos (by decide)

attribute [local irreducible] second

theorem refused_iff (p : Props) : refused p = true ↔ Incomplete p := by
  unfold refused Incomplete
  simp [Dhkey.equal_iff]

theorem toU32_some {d : Int} {b : BitVec 32} (hd : d > 0) (h : toU32 d = some b) : (b.toNat : Int) * second = whole d := by
  unfold toU32 at h
  split at h
  · rename_i hlt
    simp only [Option.some.injEq] at h
    subst h
    have h0 : 0 ≤ d / second := Int.ediv_nonneg (by omega) (by have := second_pos; omega)
    have h1 : (BitVec.ofNat 32 (d / second).toNat).toNat = (d / second).toNat := by
      rw [BitVec.toNat_ofNat]
      apply Nat.mod_eq_of_lt
      omega
    rw [h1]
    unfold whole
    rw [Int.toNat_of_nonneg h0]
  · simp at h

/-- Settings as the library stores them are well formed: what is stored for `parallel` fits eight bits. -/
structure ConfOk (c : Conf) : Prop where
  small : c.maxThreshold.toNat < 256
  noReply : c.replyKey = zeros
  role : ∃ r, c.mode = modeOf r

theorem newConf_ok (ttl : Int) (r : Role) (s : Dhkey) : ConfOk (newConf ttl (modeOf r) s) :=
  ⟨by simp [newConf], rfl, r, rfl⟩

theorem role_modeOf (r : Role) :
    (if flagCmp (modeOf r) DEFAULT_MODE then Role.prosumer else if flagCmp (modeOf r) OUTBOUND then .provider
      else if flagCmp (modeOf r) INBOUND then .consumer else .provider) = r := by cases r <;> decide

theorem policy_flags (q : Policy) :
    (if flagCmp (policyFlags q) FIFO then if flagCmp (policyFlags q) OVERFLOW_REJECT then Policy.fifoReject else .fifoPurge
      else if flagCmp (policyFlags q) OVERFLOW_REJECT then .lifoReject else .lifoPurge) = q := by cases q <;> decide

theorem ack_ackOf (a : Ack) : (if ackOf a = ACK_DESTINATION then Ack.destination else if ackOf a = ACK_CLIENT then .client else .none) = a := by
  cases a <;> decide

theorem toUser_newConf (ttl : Int) (r : Role) (s : Dhkey) : toUser (newConf ttl (modeOf r) s) = fresh ttl r := by
  have h1 := role_modeOf r
  have h2 := policy_flags .fifoPurge
  have h3 := ack_ackOf .none
  simp only [policyFlags, ackOf] at h2 h3
  unfold toUser fresh newConf
  simp only [h1, Props.mk.injEq]
  exact ⟨trivial, h3, rfl, trivial, trivial, h2, trivial, rfl, trivial, rfl, rfl, trivial⟩

theorem fromUser_spec {c c' : Conf} {p : Props} (hc : ConfOk c) (h : fromUser c p = some c') :
    ConfOk c' ∧ c'.subject = c.subject ∧ c'.mode = modeOf p.role ∧ c'.audience = p.audience ∧ toUser c' = changed (toUser c) p := by
  unfold fromUser at h
  simp only [] at h
  split at h
  · simp at h
  rename_i maxTtl hmax
  split at h
  · simp at h
  rename_i minTtl hmin
  simp only [Option.some.injEq] at h
  subst h
  have h8 : (p.parallel.setWidth 32).toNat = p.parallel.toNat := by
    simp; have := p.parallel.isLt; omega
  refine ⟨⟨?_, ?_, p.role, ?_⟩, ?_, ?_, ?_, ?_⟩
  · dsimp only
    split
    · rw [h8]; exact p.parallel.isLt
    · exact hc.small
  · exact hc.noReply
  · rfl
  · rfl
  · rfl
  · rfl
  · unfold toUser changed
    simp only [Props.mk.injEq, role_modeOf, ack_ackOf, policy_flags]
    refine ⟨trivial, trivial, ?_, trivial, trivial, trivial, ?_, ?_, ?_, ?_, ?_, ?_⟩
    · simp only [hc.noReply, ite_self]
    · by_cases h : p.cacheSize = 0
      · simp [h]
      · have : p.cacheSize.toNat > 0 := by
          apply Nat.pos_of_ne_zero; intro hz; exact h (BitVec.eq_of_toNat_eq (by simpa using hz))
        rw [if_pos this, if_neg h]
    · by_cases h : p.parallel = 0
      · simp [h]
      · have : p.parallel.toNat > 0 := by
          apply Nat.pos_of_ne_zero; intro hz; exact h (BitVec.eq_of_toNat_eq (by simpa using hz))
        rw [if_pos this, if_neg h]
        apply BitVec.eq_of_toNat_eq
        simp
    · by_cases h : p.retry = 0
      · simp [h]
      · have : p.retry.toNat > 0 := by
          apply Nat.pos_of_ne_zero; intro hz; exact h (BitVec.eq_of_toNat_eq (by simpa using hz))
        rw [if_pos this, if_neg h]
    · by_cases h : p.intentTtl > 0
      · rw [if_pos h] at hmax
        rw [if_neg (by omega)]
        exact toU32_some h hmax
      · rw [if_neg h] at hmax
        rw [if_pos (by omega)]
        simp only [Option.some.injEq] at hmax
        rw [hmax]
    · by_cases h : p.intentUpdate > 0
      · rw [if_pos h] at hmin
        rw [if_neg (by omega)]
        exact toU32_some h hmin
      · rw [if_neg h] at hmin
        rw [if_pos (by omega)]
        simp only [Option.some.injEq] at hmin
        rw [← hmin]
        rfl
    · by_cases h : p.messageTtl > 0
      · rw [if_pos h, if_neg (by omega)]
      · rw [if_neg h, if_pos (by omega)]

/-- Every half refers to settings of its own subject. -/
structure Inv (st : St) : Prop where
  ok : ∀ (i : Nat) (c : Conf), st.confs[i]? = some c → ConfOk c
  rx : ∀ s h, st.rx s = some h → ∃ c, st.confs[h.conf]? = some c ∧ c.subject = s
  tx : ∀ s h, st.tx s = some h → ∃ c, st.confs[h.conf]? = some c ∧ c.subject = s

theorem inv_init : Inv init := ⟨by simp [init], by simp [init], by simp [init]⟩

/-- What happens to the other channels: nothing. -/
structure Frame (s : Dhkey) (a b : St) : Prop where
  rx : ∀ t, t ≠ s → b.rx t = a.rx t
  tx : ∀ t, t ≠ s → b.tx t = a.tx t
  confs : ∀ (i : Nat) (c : Conf), a.confs[i]? = some c → c.subject ≠ s → b.confs[i]? = some c

theorem Frame.refl (s : Dhkey) (a : St) : Frame s a a := ⟨fun _ _ => rfl, fun _ _ => rfl, fun _ _ h _ => h⟩

theorem Frame.trans {s : Dhkey} {a b c : St} (h : Frame s a b) (g : Frame s b c) : Frame s a c :=
  ⟨fun t ht => (g.rx t ht).trans (h.rx t ht), fun t ht => (g.tx t ht).trans (h.tx t ht), fun i d hd hs => g.confs i d (h.confs i d hd hs) hs⟩

/-- Settings `i` are overwritten with settings of the same subject. -/
theorem set_inv {st : St} (hi : Inv st) {i : Nat} {c d : Conf} (hc : st.confs[i]? = some c) (hd : ConfOk d) (hs : d.subject = c.subject) :
    Inv { st with confs := st.confs.set i d } ∧ Frame c.subject st { st with confs := st.confs.set i d } := by
  have key : ∀ (j : Nat) (e : Conf), st.confs[j]? = some e → ∃ e', (st.confs.set i d)[j]? = some e' ∧ e'.subject = e.subject := by
    intro j e he
    by_cases hij : i = j
    · subst hij
      refine ⟨d, ?_, ?_⟩
      · have : i < st.confs.length := (List.getElem?_eq_some_iff.mp he).1
        rw [List.getElem?_set_self this]
      · rw [hs]; rw [hc] at he; simp at he; rw [he]
    · exact ⟨e, by rw [List.getElem?_set_ne hij]; exact he, rfl⟩
  refine ⟨⟨?_, ?_, ?_⟩, ?_⟩
  · intro j e he
    by_cases hij : i = j
    · subst hij
      have : i < st.confs.length := (List.getElem?_eq_some_iff.mp hc).1
      simp only [List.getElem?_set_self this, Option.some.injEq] at he
      subst he; exact hd
    · simp only [List.getElem?_set_ne hij] at he
      exact hi.ok j e he
  · intro s h hh
    obtain ⟨e, he, hes⟩ := hi.rx s h hh
    obtain ⟨e', he', hes'⟩ := key _ _ he
    exact ⟨e', he', hes'.trans hes⟩
  · intro s h hh
    obtain ⟨e, he, hes⟩ := hi.tx s h hh
    obtain ⟨e', he', hes'⟩ := key _ _ he
    exact ⟨e', he', hes'.trans hes⟩
  · refine ⟨fun _ _ => rfl, fun _ _ => rfl, ?_⟩
    intro j e he hne
    by_cases hij : i = j
    · subst hij; rw [hc] at he; simp at he; subst he; exact absurd rfl hne
    · simp only [List.getElem?_set_ne hij]; exact he

theorem upd_self {β : Type} (f : Dhkey → β) (s : Dhkey) (b : β) : upd f s b s = b := by simp [upd]
theorem upd_ne {β : Type} (f : Dhkey → β) {s t : Dhkey} (b : β) (h : t ≠ s) : upd f s b t = f t := by simp [upd, h]

/-- The receiving half handles settings. -/
theorem handle_rx {st : St} (hi : Inv st) {i : Nat} {c : Conf} (hc : st.confs[i]? = some c) :
    let r := handle st.confs (st.rx c.subject) i
    let st' : St := { st with confs := r.1, rx := upd st.rx c.subject (some r.2) }
    Inv st' ∧ Frame c.subject st st' ∧ st'.tx = st.tx ∧ st'.confs[i]? = some c ∧
    (st.rx c.subject = none → st'.rx c.subject = some ⟨i, false⟩ ∧ st'.confs = st.confs) ∧
    (∀ h, st.rx c.subject = some h → st'.rx c.subject = some h ∧
      (h.hold = true → st'.confs = st.confs) ∧ (h.hold = false → st'.confs = st.confs.set h.conf c)) := by
  simp only []
  cases hr : st.rx c.subject with
  | none =>
    refine ⟨⟨hi.ok, ?_, hi.tx⟩, ⟨fun t ht => upd_ne _ _ ht, fun _ _ => rfl, fun _ _ h _ => h⟩, by trivial, hc, fun _ => ⟨upd_self _ _ _, rfl⟩, by simp⟩
    intro s h hh
    by_cases hs : s = c.subject
    · subst hs
      simp only [upd_self, handle, Option.some.injEq] at hh
      subst hh
      exact ⟨c, hc, rfl⟩
    · simp only [upd_ne _ _ hs] at hh
      exact hi.rx s h hh
  | some h0 =>
    obtain ⟨d, hd, hds⟩ := hi.rx _ _ hr
    have hupd : upd st.rx c.subject (some h0) = st.rx := by
      funext t; by_cases ht : t = c.subject
      · subst ht; rw [upd_self, hr]
      · rw [upd_ne _ _ ht]
    unfold handle
    simp only []
    cases hh : h0.hold with
    | true =>
      simp only [if_true]
      refine ⟨⟨hi.ok, by simp only [hupd]; exact hi.rx, hi.tx⟩, ⟨fun t ht => upd_ne _ _ ht, fun _ _ => rfl, fun _ _ h _ => h⟩, by trivial, hc, by simp, ?_⟩
      intro h e; simp at e; subst e
      exact ⟨upd_self _ _ _, fun _ => by trivial, by rw [hh]; simp⟩
    | false =>
      simp only [Bool.false_eq_true, if_false, hc, hupd]
      obtain ⟨i1, f1⟩ := set_inv hi hd (hi.ok i c hc) hds.symm
      refine ⟨i1, hds ▸ f1, by trivial, ?_, by simp, ?_⟩
      · by_cases hij : h0.conf = i
        · rw [hij, List.getElem?_set_self (List.getElem?_eq_some_iff.mp hc).1]
        · rw [List.getElem?_set_ne hij]; exact hc
      · intro h e; simp at e; subst e
        exact ⟨hr, by rw [hh]; simp, fun _ => rfl⟩

/-- The sending half handles settings. -/
theorem handle_tx {st : St} (hi : Inv st) {i : Nat} {c : Conf} (hc : st.confs[i]? = some c) :
    let r := handle st.confs (st.tx c.subject) i
    let st' : St := { st with confs := r.1, tx := upd st.tx c.subject (some r.2) }
    Inv st' ∧ Frame c.subject st st' ∧ st'.rx = st.rx ∧ st'.confs[i]? = some c ∧
    (st.tx c.subject = none → st'.tx c.subject = some ⟨i, false⟩ ∧ st'.confs = st.confs) ∧
    (∀ h, st.tx c.subject = some h → st'.tx c.subject = some h ∧
      (h.hold = true → st'.confs = st.confs) ∧ (h.hold = false → st'.confs = st.confs.set h.conf c)) := by
  simp only []
  cases hr : st.tx c.subject with
  | none =>
    refine ⟨⟨hi.ok, hi.rx, ?_⟩, ⟨fun _ _ => rfl, fun t ht => upd_ne _ _ ht, fun _ _ h _ => h⟩, by trivial, hc, fun _ => ⟨upd_self _ _ _, rfl⟩, by simp⟩
    intro s h hh
    by_cases hs : s = c.subject
    · subst hs
      simp only [upd_self, handle, Option.some.injEq] at hh
      subst hh
      exact ⟨c, hc, rfl⟩
    · simp only [upd_ne _ _ hs] at hh
      exact hi.tx s h hh
  | some h0 =>
    obtain ⟨d, hd, hds⟩ := hi.tx _ _ hr
    have hupd : upd st.tx c.subject (some h0) = st.tx := by
      funext t; by_cases ht : t = c.subject
      · subst ht; rw [upd_self, hr]
      · rw [upd_ne _ _ ht]
    unfold handle
    simp only []
    cases hh : h0.hold with
    | true =>
      simp only [if_true]
      refine ⟨⟨hi.ok, hi.rx, by simp only [hupd]; exact hi.tx⟩, ⟨fun _ _ => rfl, fun t ht => upd_ne _ _ ht, fun _ _ h _ => h⟩, by trivial, hc, by simp, ?_⟩
      intro h e; simp at e; subst e
      exact ⟨upd_self _ _ _, fun _ => by trivial, by rw [hh]; simp⟩
    | false =>
      simp only [Bool.false_eq_true, if_false, hc, hupd]
      obtain ⟨i1, f1⟩ := set_inv hi hd (hi.ok i c hc) hds.symm
      refine ⟨i1, hds ▸ f1, by trivial, ?_, by simp, ?_⟩
      · by_cases hij : h0.conf = i
        · rw [hij, List.getElem?_set_self (List.getElem?_eq_some_iff.mp hc).1]
        · rw [List.getElem?_set_ne hij]; exact hc
      · intro h e; simp at e; subst e
        exact ⟨hr, by rw [hh]; simp, fun _ => rfl⟩

end Np.Mx
