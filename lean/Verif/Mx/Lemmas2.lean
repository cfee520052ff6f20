import Verif.Mx.Lemmas

/-! # The operations, one by one -/
set_option linter.unusedSimpArgs false
set_option linter.unusedVariables false

namespace Np.Mx
open Np (Dhkey)
open Np.Channel (flagCmp Policy policyFlags FIFO OVERFLOW_REJECT)
open _root_.Np.Mx.Spec

theorem set_same {l : List Conf} {i : Nat} {c : Conf} (h : l[i]? = some c) : l.set i c = l := by
  apply List.ext_getElem?
  intro j
  by_cases hij : i = j
  · subst hij; rw [List.getElem?_set_self (List.getElem?_eq_some_iff.mp h).1, h]
  · rw [List.getElem?_set_ne hij]

/-- What registering settings does. -/
theorem register_spec {st : St} (hi : Inv st) {i : Nat} {c : Conf} (hc : st.confs[i]? = some c) :
    Inv (register st i) ∧ Frame c.subject st (register st i) ∧ (register st i).confs[i]? = some c ∧
    (flagCmp c.mode INBOUND = true → st.rx c.subject = none → (register st i).rx c.subject = some ⟨i, false⟩) ∧
    (∀ h, st.rx c.subject = some h → (register st i).rx c.subject = some h) ∧
    (flagCmp c.mode INBOUND = false → (register st i).rx = st.rx) ∧
    (flagCmp c.mode OUTBOUND = true → st.tx c.subject = none → (register st i).tx c.subject = some ⟨i, false⟩) ∧
    (∀ h, st.tx c.subject = some h → (register st i).tx c.subject = some h) ∧
    (flagCmp c.mode OUTBOUND = false → (register st i).tx = st.tx) ∧
    (flagCmp c.mode OUTBOUND = true → ∀ h, st.tx c.subject = some h → h.hold = false → (register st i).confs[h.conf]? = some c) ∧
    ((∀ h, st.rx c.subject = some h → h.conf = i) → (∀ h, st.tx c.subject = some h → h.conf = i) → (register st i).confs = st.confs) := by
  unfold register
  rw [hc]
  simp only []
  obtain ⟨a1, a2, a3, a4, a5, a6⟩ := handle_rx hi hc
  -- the state after the receiving half
  by_cases hin : flagCmp c.mode INBOUND = true
  · rw [if_pos hin]
    simp only [] at a1 a2 a3 a4 a5 a6
    have hrx : ∀ h, st.rx c.subject = some h → upd st.rx c.subject (some (handle st.confs (st.rx c.subject) i).2) c.subject = some h :=
      fun h hh => (a6 h hh).1
    have hsame : (∀ h, st.rx c.subject = some h → h.conf = i) → (handle st.confs (st.rx c.subject) i).1 = st.confs := by
      intro hr
      cases hx : st.rx c.subject with
      | none => rw [← hx]; exact (a5 hx).2
      | some h =>
        rw [← hx]
        cases hh : h.hold with
        | true => exact (a6 h hx).2.1 hh
        | false => rw [(a6 h hx).2.2 hh, hr h hx]; exact set_same hc
    obtain ⟨b1, b2, b3, b4, b5, b6⟩ := handle_tx a1 a4
    by_cases hout : flagCmp c.mode OUTBOUND = true
    · rw [if_pos hout]
      refine ⟨b1, a2.trans b2, b4, ?_, ?_, ?_, ?_, ?_, ?_, ?_, ?_⟩
      · intro _ hn; exact (a5 hn).1
      · exact hrx
      · rw [hin]; simp
      · intro _ hn; exact (b5 hn).1
      · intro h hh; exact (b6 h hh).1
      · rw [hout]; simp
      · intro _ h hh hf
        have := (b6 h hh).2.2 hf
        simp only [] at this ⊢
        rw [this]
        obtain ⟨d, hd, _⟩ := a1.tx _ _ hh
        rw [List.getElem?_set_self (List.getElem?_eq_some_iff.mp hd).1]
      · intro hr ht
        simp only []
        cases hx : st.tx c.subject with
        | none => rw [show (handle (handle st.confs (st.rx c.subject) i).1 none i).1 = (handle st.confs (st.rx c.subject) i).1 from rfl]; exact hsame hr
        | some h =>
          rw [← hx]
          cases hh : h.hold with
          | true =>
            have := (b6 h hx).2.1 hh
            simp only [] at this
            rw [this]; exact hsame hr
          | false =>
            have := (b6 h hx).2.2 hh
            simp only [] at this
            rw [this, ht h hx]
            rw [set_same a4]; exact hsame hr
    · rw [if_neg hout]
      have hout' : flagCmp c.mode OUTBOUND = false := by simpa using hout
      refine ⟨a1, a2, a4, ?_, ?_, ?_, ?_, ?_, ?_, ?_, ?_⟩
      · intro _ hn; exact (a5 hn).1
      · exact hrx
      · rw [hin]; simp
      · rw [hout']; simp
      · intro h hh; exact hh
      · intro _; rfl
      · rw [hout']; simp
      · intro hr _; exact hsame hr
  · rw [if_neg hin]
    have hin' : flagCmp c.mode INBOUND = false := by simpa using hin
    obtain ⟨b1, b2, b3, b4, b5, b6⟩ := handle_tx hi hc
    by_cases hout : flagCmp c.mode OUTBOUND = true
    · rw [if_pos hout]
      refine ⟨b1, b2, b4, ?_, ?_, ?_, ?_, ?_, ?_, ?_, ?_⟩
      · rw [hin']; simp
      · intro h hh; exact hh
      · intro _; rfl
      · intro _ hn; exact (b5 hn).1
      · intro h hh; exact (b6 h hh).1
      · rw [hout]; simp
      · intro _ h hh hf
        have := (b6 h hh).2.2 hf
        simp only [] at this ⊢
        rw [this]
        obtain ⟨d, hd, _⟩ := hi.tx _ _ hh
        rw [List.getElem?_set_self (List.getElem?_eq_some_iff.mp hd).1]
      · intro hr ht
        simp only []
        cases hx : st.tx c.subject with
        | none => rfl
        | some h =>
          rw [← hx]
          cases hh : h.hold with
          | true => exact (b6 h hx).2.1 hh
          | false =>
            have := (b6 h hx).2.2 hh
            simp only [] at this
            rw [this, ht h hx]
            exact set_same hc
    · rw [if_neg hout]
      have hout' : flagCmp c.mode OUTBOUND = false := by simpa using hout
      refine ⟨hi, Frame.refl _ _, hc, ?_, ?_, ?_, ?_, ?_, ?_, ?_, ?_⟩
      · rw [hin']; simp
      · intro h hh; exact hh
      · intro _; rfl
      · rw [hout']; simp
      · intro h hh; exact hh
      · intro _; rfl
      · rw [hout']; simp
      · intro _ _; rfl

theorem confGet_rx (st : St) (m : BitVec 8) (s : Dhkey) (h : flagCmp m INBOUND = true) : confGet st m s = (st.rx s).map (·.conf) := by
  unfold confGet; rw [if_pos h]

theorem confGet_out (st : St) (s : Dhkey) : confGet st OUTBOUND s = (st.tx s).map (·.conf) := by
  unfold confGet; rw [flag_out_in, flag_out_out]; simp

/-- A new object is appended. -/
theorem push_inv {st : St} (hi : Inv st) {d : Conf} (hd : ConfOk d) (s : Dhkey) :
    Inv { st with confs := st.confs ++ [d] } ∧ Frame s st { st with confs := st.confs ++ [d] } ∧
    (st.confs ++ [d])[st.confs.length]? = some d := by
  have key : ∀ (j : Nat) (e : Conf), st.confs[j]? = some e → (st.confs ++ [d])[j]? = some e := by
    intro j e he
    rw [List.getElem?_append_left (List.getElem?_eq_some_iff.mp he).1]; exact he
  refine ⟨⟨?_, ?_, ?_⟩, ⟨fun _ _ => rfl, fun _ _ => rfl, fun i c h _ => key i c h⟩, by simp⟩
  · intro j e he
    simp only [] at he
    rw [List.getElem?_append] at he
    split at he
    · exact hi.ok j e he
    · have := List.mem_of_getElem? he
      simp at this
      subst this; exact hd
  · intro t h hh; obtain ⟨e, he, hs⟩ := hi.rx t h hh; exact ⟨e, key _ _ he, hs⟩
  · intro t h hh; obtain ⟨e, he, hs⟩ := hi.tx t h hh; exact ⟨e, key _ _ he, hs⟩

/-- What `getOrCreate` returns: the settings of the half, or new ones. -/
theorem getOrCreate_spec (ttl : Int) {st : St} (hi : Inv st) (r : Role) (s : Dhkey) :
    ∃ st' i c, getOrCreate ttl st (modeOf r) s = (st', i) ∧ Inv st' ∧ Frame s st st' ∧ st'.confs[i]? = some c ∧ c.subject = s ∧
      st'.rx = st.rx ∧ st'.tx = st.tx ∧
      (confGet st (modeOf r) s = some i ∧ st' = st ∨ confGet st (modeOf r) s = none ∧ c = newConf ttl (modeOf r) s) := by
  unfold getOrCreate
  cases hg : confGet st (modeOf r) s with
  | some i =>
    have : ∃ c, st.confs[i]? = some c ∧ c.subject = s := by
      by_cases hin : flagCmp (modeOf r) INBOUND = true
      · rw [confGet_rx _ _ _ hin] at hg
        cases hx : st.rx s with
        | none => rw [hx] at hg; simp at hg
        | some h => rw [hx] at hg; simp at hg; subst hg; exact hi.rx s h hx
      · have : r = .provider := by cases r <;> simp_all [modeOf, flag_in_in, flag_def_in]
        subst this
        rw [show modeOf .provider = OUTBOUND from rfl, confGet_out] at hg
        cases hx : st.tx s with
        | none => rw [hx] at hg; simp at hg
        | some h => rw [hx] at hg; simp at hg; subst hg; exact hi.tx s h hx
    obtain ⟨c, hc, hs⟩ := this
    exact ⟨st, i, c, rfl, hi, Frame.refl _ _, hc, hs, rfl, rfl, Or.inl ⟨rfl, rfl⟩⟩
  | none =>
    obtain ⟨i1, f1, e1⟩ := push_inv hi (newConf_ok ttl r s) s
    exact ⟨_, _, _, rfl, i1, f1, e1, rfl, rfl, rfl, Or.inr ⟨rfl, rfl⟩⟩

/-- What `np_set_mx_properties` does, in general. -/
theorem set_spec (ttl : Int) {st : St} (hi : Inv st) (s : Dhkey) (p : Props) {st' : St} {ok : Bool} (h : set ttl st s p = some (st', ok)) :
    Inv st' ∧ Frame s st st' ∧ (Incomplete p → st' = st ∧ ok = false) ∧
    (¬ Incomplete p → ok = true ∧ ∃ st1 i c c',
      getOrCreate ttl st DEFAULT_MODE s = (st1, i) ∧ Inv st1 ∧ st1.confs[i]? = some c ∧ c.subject = s ∧ st1.rx = st.rx ∧ st1.tx = st.tx ∧
      (confGet st DEFAULT_MODE s = some i ∧ st1 = st ∨ confGet st DEFAULT_MODE s = none ∧ c = newConf ttl DEFAULT_MODE s) ∧
      fromUser c p = some c' ∧ c'.subject = s ∧ Inv { st1 with confs := st1.confs.set i c' } ∧
      (st1.confs.set i c')[i]? = some c' ∧ st' = register { st1 with confs := st1.confs.set i c' } i) := by
  unfold set at h
  by_cases hr : refused p = true
  · rw [if_pos hr] at h
    simp only [Option.some.injEq, Prod.mk.injEq] at h
    obtain ⟨rfl, rfl⟩ := h
    exact ⟨hi, Frame.refl _ _, fun _ => ⟨rfl, rfl⟩, fun hn => absurd ((refused_iff p).mp hr) hn⟩
  · rw [if_neg hr] at h
    obtain ⟨st1, i, c, e1, i1, f1, hc, hs, hrx, htx, hor⟩ := getOrCreate_spec ttl hi .prosumer s
    rw [show modeOf .prosumer = DEFAULT_MODE from rfl] at e1 hor
    rw [e1] at h
    simp only [hc] at h
    cases hf : fromUser c p with
    | none => rw [hf] at h; simp at h
    | some c' =>
      rw [hf] at h
      simp only [Option.some.injEq, Prod.mk.injEq] at h
      obtain ⟨rfl, rfl⟩ := h
      obtain ⟨o1, o2, o3, o4, o5⟩ := fromUser_spec (i1.ok i c hc) hf
      obtain ⟨i2, f2⟩ := set_inv i1 hc o1 o2
      have hset : (st1.confs.set i c')[i]? = some c' := by rw [List.getElem?_set_self (List.getElem?_eq_some_iff.mp hc).1]
      obtain ⟨r1, r2, _⟩ := register_spec i2 (i := i) (c := c') hset
      rw [hs] at f2
      rw [o2, hs] at r2
      exact ⟨r1, (f1.trans f2).trans r2, fun hn => absurd ((refused_iff p).mpr hn) hr,
        fun _ => ⟨rfl, st1, i, c, c', e1, i1, hc, hs, hrx, htx, hor, hf, o2.trans hs, i2, hset, rfl⟩⟩

theorem listen_spec (ttl : Int) {st : St} (hi : Inv st) (s : Dhkey) :
    Inv (listen ttl st s) ∧ Frame s st (listen ttl st s) := by
  obtain ⟨st1, i, c, e1, i1, f1, hc, hs, hrx, htx, hor⟩ := getOrCreate_spec ttl hi .consumer s
  unfold listen
  rw [show INBOUND = modeOf .consumer from rfl, e1]
  obtain ⟨r1, r2, _⟩ := register_spec i1 hc
  exact ⟨r1, f1.trans (hs ▸ r2)⟩

theorem send_spec (ttl : Int) {st : St} (hi : Inv st) (s : Dhkey) {st' : St} {b : Bool} (h : send ttl st s = some (st', b)) :
    Inv st' ∧ Frame s st st' ∧ b = (match st'.tx s with | some h => !h.hold | none => false) ∧
    ∀ g, st.tx s = some g → st'.tx s = some g := by
  obtain ⟨st1, i, c, e1, i1, f1, hc, hs, hrx, htx, hor⟩ := getOrCreate_spec ttl hi .provider s
  unfold send at h
  rw [show OUTBOUND = modeOf .provider from rfl, e1] at h
  simp only [hc] at h
  split at h
  · simp at h
  · simp only [Option.some.injEq, Prod.mk.injEq] at h
    obtain ⟨rfl, rfl⟩ := h
    obtain ⟨r1, r2, r3, r4, r5, r6, r7, r8, r9, r10, r11⟩ := register_spec i1 hc
    rw [hs] at r8
    exact ⟨r1, f1.trans (hs ▸ r2), rfl, fun g hg => r8 g (by rw [htx]; exact hg)⟩

theorem setHold_spec (b : Bool) {st : St} (hi : Inv st) (s : Dhkey) :
    Inv (setHold b st s) ∧ Frame s st (setHold b st s) := by
  refine ⟨⟨hi.ok, hi.rx, ?_⟩, ⟨fun _ _ => rfl, fun t ht => upd_ne _ _ ht, fun _ _ h _ => h⟩⟩
  intro t h hh
  simp only [setHold] at hh
  by_cases ht : t = s
  · subst ht
    rw [upd_self] at hh
    unfold putHold at hh
    cases hx : st.tx t with
    | none => rw [hx] at hh; simp at hh
    | some g => rw [hx] at hh; simp at hh; subst hh; exact hi.tx t g hx
  · rw [upd_ne _ _ ht] at hh; exact hi.tx t h hh

theorem step_inv (ttl : Int) {st st' : St} (hi : Inv st) {o : Op} (h : step ttl st o = some st') : Inv st' := by
  cases o with
  | set s p =>
    simp only [step, Option.map_eq_some_iff] at h
    obtain ⟨⟨a, b⟩, hab, rfl⟩ := h
    exact (set_spec ttl hi s p hab).1
  | listen s => simp only [step, Option.some.injEq] at h; subst h; exact (listen_spec ttl hi s).1
  | send s =>
    simp only [step, Option.some.injEq] at h; subst h
    cases hx : send ttl st s with
    | none => exact hi
    | some r => obtain ⟨a, b⟩ := r; exact (send_spec ttl hi s hx).1
  | disable s => simp only [step, Option.some.injEq] at h; subst h; exact (setHold_spec true hi s).1
  | enable s => simp only [step, Option.some.injEq] at h; subst h; exact (setHold_spec false hi s).1

theorem run_append (ttl : Int) (st : St) (a b : List Op) : run ttl st (a ++ b) = (run ttl st a).bind fun st => run ttl st b := by
  induction a generalizing st with
  | nil => rfl
  | cons o a ih =>
    simp only [List.cons_append, run]
    cases step ttl st o with
    | none => rfl
    | some st' => exact ih st'

theorem run_inv (ttl : Int) {st st' : St} (hi : Inv st) {ops : List Op} (h : run ttl st ops = some st') : Inv st' := by
  induction ops generalizing st with
  | nil => simp only [run, Option.some.injEq] at h; subst h; exact hi
  | cons o ops ih =>
    simp only [run] at h
    cases hs : step ttl st o with
    | none => rw [hs] at h; simp at h
    | some s1 => rw [hs] at h; exact ih (step_inv ttl hi hs) h

/-- A receiving half is never on hold. -/
def RxOn (st : St) : Prop := ∀ s h, st.rx s = some h → h.hold = false

/-- The channel `s` agrees with what is expected of it. -/
def Good (ttl : Int) (s : Dhkey) (past : List Op) (st : St) : Prop :=
  (st.rx s = none ∧ st.tx s = none ∧ expected ttl s past = none ∧ ¬ Opened s past ∧ ¬ MaySend s past) ∨
  ∃ h c, st.rx s = some h ∧ st.confs[h.conf]? = some c ∧ expected ttl s past = some (toUser c) ∧
    (∀ g, st.tx s = some g → g.conf = h.conf) ∧ (MaySend s past → (st.tx s).isSome = true)

theorem Good.get {ttl : Int} {s : Dhkey} {past : List Op} {st : St} (h : Good ttl s past st) :
    get st s = (expected ttl s past).getD noProps := by
  unfold Mx.get
  rw [confGet_rx _ _ _ flag_def_in]
  rcases h with ⟨h1, _, h3, _⟩ | ⟨h, c, h1, h2, h3, _⟩
  · rw [h1, h3]; rfl
  · rw [h1, h3]
    simp only [Option.map_some, Option.bind_some, h2, Option.getD_some]

theorem good_frame {ttl : Int} {s t : Dhkey} (hne : s ≠ t) {past past' : List Op} {st st' : St} (hi : Inv st) (g : Good ttl s past st) (f : Frame t st st')
    (he : expected ttl s past' = expected ttl s past) (ho : Opened s past' ↔ Opened s past) (hm : MaySend s past' ↔ MaySend s past) :
    Good ttl s past' st' := by
  rcases g with ⟨h1, h2, h3, h4, h5⟩ | ⟨h, c, h1, h2, h3, h4, h5⟩
  · exact Or.inl ⟨by rw [f.rx s hne]; exact h1, by rw [f.tx s hne]; exact h2, by rw [he]; exact h3, by rw [ho]; exact h4, by rw [hm]; exact h5⟩
  · refine Or.inr ⟨h, c, by rw [f.rx s hne]; exact h1, ?_, by rw [he]; exact h3, ?_, ?_⟩
    · obtain ⟨d, hd, hds⟩ := hi.rx s h h1
      rw [h2] at hd; simp at hd; subst hd
      exact f.confs _ _ h2 (by rw [hds]; exact hne)
    · rw [f.tx s hne]; exact h4
    · rw [hm, f.tx s hne]; exact h5

end Np.Mx
