import Verif.Mx.Lemmas2

/-! # The channel does what is expected -/
set_option linter.unusedSimpArgs false
set_option linter.unusedVariables false

namespace Np.Mx
open Np (Dhkey)
open Np.Channel (flagCmp Policy policyFlags FIFO OVERFLOW_REJECT)
open _root_.Np.Mx.Spec

theorem changed_fresh (ttl : Int) (r1 r2 : Role) (p : Props) : changed (fresh ttl r1) p = changed (fresh ttl r2) p := rfl

theorem good_set (ttl : Int) {s : Dhkey} {past : List Op} {st st' : St} (hi : Inv st) (g : Good ttl s past st) (t : Dhkey) (p : Props) {ok : Bool}
    (ho : Orderly s (.set t p :: past)) (h0 : set ttl st t p = some (st', ok)) : Good ttl s (.set t p :: past) st' := by
  obtain ⟨a1, a2, a3, a4⟩ := set_spec ttl hi t p h0
  clear h0
  by_cases ht : t = s
  · subst ht
    by_cases hn : Incomplete p
    · obtain ⟨rfl, _⟩ := a3 hn
      rcases g with ⟨h1, h2, h3, h4, h5⟩ | ⟨h, c, h1, h2, h3, h4, h5⟩
      · exact Or.inl ⟨h1, h2, by simp [expected, hn, h3], by simp [Opened, hn, h4], by simp [MaySend, hn, h5]⟩
      · exact Or.inr ⟨h, c, h1, h2, by simp [expected, hn, h3], h4, by simpa [MaySend, hn] using h5⟩
    · obtain ⟨_, st1, i, c, c', e1, i1, hc, hs, hrx, htx, hor, hf, hs', i2, hset, rfl⟩ := a4 hn
      obtain ⟨o1, o2, o3, o4, o5⟩ := fromUser_spec (i1.ok i c hc) hf
      obtain ⟨r1, r2, r3, r4, r5, r6, r7, r8, r9, r10, r11⟩ := register_spec i2 (i := i) (c := c') hset
      rw [hs'] at r2 r4 r5 r7 r8 r10 r11
      rw [o3, modeOf_in] at r4
      rw [o3, modeOf_out] at r7
      simp only [hrx, htx] at r3 r4 r5 r7 r8 r11 r9 ⊢
      rw [confGet_rx _ _ _ flag_def_in] at hor
      have hexp : expected ttl t (.set t p :: past) = some (changed ((expected ttl t past).getD (fresh ttl p.role)) p) := by
        simp [expected, hn]
      rcases g with ⟨h1, h2, h3, h4, h5⟩ | ⟨h, d, h1, h2, h3, h4, h5⟩
      · have hp : p.role ≠ .provider := fun e => h4 (ho.1 rfl hn e)
        refine Or.inr ⟨⟨i, false⟩, c', r4 (by simpa using hp) h1, r3, ?_, ?_, ?_⟩
        · rw [hexp, o5, h3]
          rcases hor with ⟨e, _⟩ | ⟨_, e⟩
          · rw [h1] at e; simp at e
          · rw [e, show DEFAULT_MODE = modeOf .prosumer from rfl, toUser_newConf]; rfl
        · intro g hg
          by_cases hc' : p.role = .consumer
          · rw [r9 (by rw [o3, modeOf_out]; simp [hc']), h2] at hg; simp at hg
          · rw [r7 (by simpa using hc') h2] at hg; simp at hg; subst hg; rfl
        · intro hm
          by_cases hc' : p.role = .consumer
          · exfalso
            simp [MaySend, hn, hc', h5] at hm
          · rw [r7 (by simpa using hc') h2]; rfl
      · rcases hor with ⟨e, e2⟩ | ⟨e, _⟩
        · rw [h1] at e; simp at e; subst e; subst e2
          rw [h2] at hc; simp at hc; subst hc
          refine Or.inr ⟨h, c', r5 h h1, r3, ?_, ?_, ?_⟩
          · rw [hexp, o5, h3]; rfl
          · intro g hg
            cases hx : st1.tx t with
            | some g' =>
              rw [r8 g' hx] at hg; simp at hg; subst hg; exact h4 _ hx
            | none =>
              by_cases hc' : p.role = .consumer
              · rw [r9 (by rw [o3, modeOf_out]; simp [hc']), hx] at hg; simp at hg
              · rw [r7 (by simpa using hc') hx] at hg; simp at hg; subst hg; rfl
          · intro hm
            cases hx : st1.tx t with
            | some g' => rw [r8 g' hx]; rfl
            | none =>
              by_cases hc' : p.role = .consumer
              · simp only [MaySend, hc', ne_eq, not_true, and_false, false_or] at hm
                have := h5 hm; rw [hx] at this; simp at this
              · rw [r7 (by simpa using hc') hx]; rfl
        · rw [h1] at e; simp at e
  · exact good_frame (fun e => ht e.symm) hi g a2 (by simp [expected, ht]) (by simp [Opened, ht]) (by simp [MaySend, ht])

theorem good_listen (ttl : Int) {s : Dhkey} {past : List Op} {st : St} (hi : Inv st) (g : Good ttl s past st) (t : Dhkey) :
    Good ttl s (.listen t :: past) (listen ttl st t) := by
  by_cases ht : t = s
  · subst ht
    obtain ⟨st1, i, c, e1, i1, f1, hc, hs, hrx, htx, hor⟩ := getOrCreate_spec ttl hi .consumer t
    unfold listen
    rw [show INBOUND = modeOf .consumer from rfl, e1]
    simp only []
    obtain ⟨r1, r2, r3, r4, r5, r6, r7, r8, r9, r10, r11⟩ := register_spec i1 hc
    rw [hs] at r2 r4 r5 r7 r8 r10 r11
    rw [hrx] at r4 r5 r11
    rw [htx] at r7 r8 r9 r11
    rw [confGet_rx _ _ _ (show flagCmp (modeOf .consumer) INBOUND = true from flag_in_in)] at hor
    have hexp : expected ttl t (.listen t :: past) = some ((expected ttl t past).getD (fresh ttl .consumer)) := by simp [expected]
    rcases g with ⟨h1, h2, h3, h4, h5⟩ | ⟨h, d, h1, h2, h3, h4, h5⟩
    · rcases hor with ⟨e, _⟩ | ⟨_, e⟩
      · rw [h1] at e; simp at e
      · have hm : c.mode = INBOUND := by rw [e]; rfl
        refine Or.inr ⟨⟨i, false⟩, c, r4 (by rw [hm]; exact flag_in_in) h1, r3, ?_, ?_, ?_⟩
        · rw [hexp, h3, e, toUser_newConf]; rfl
        · intro g hg
          rw [r9 (by rw [hm]; exact flag_in_out), h2] at hg; simp at hg
        · intro hm; exact absurd hm h5
    · rcases hor with ⟨e, e2⟩ | ⟨e, _⟩
      · rw [h1] at e; simp at e; subst e; subst e2
        rw [h2] at hc; simp at hc; subst hc
        refine Or.inr ⟨h, d, r5 h h1, r3, by rw [hexp, h3]; rfl, ?_, ?_⟩
        · intro g hg
          cases hx : st1.tx t with
          | some g' => rw [r8 g' hx] at hg; simp at hg; subst hg; exact h4 _ hx
          | none =>
            by_cases hout : flagCmp d.mode OUTBOUND = true
            · rw [r7 hout hx] at hg; simp at hg; subst hg; rfl
            · rw [r9 (by simpa using hout), hx] at hg; simp at hg
        · intro hm
          have := h5 hm
          cases hx : st1.tx t with
          | some g' => rw [r8 g' hx]; rfl
          | none => rw [hx] at this; simp at this
      · rw [h1] at e; simp at e
  · exact good_frame (fun e => ht e.symm) hi g (listen_spec ttl hi t).2 (by simp [expected, ht]) (by simp [Opened, ht]) (by simp [MaySend])

theorem good_send (ttl : Int) {s : Dhkey} {past : List Op} {st : St} (hi : Inv st) (g : Good ttl s past st) (t : Dhkey)
    (ho : Orderly s (.send t :: past)) :
    Good ttl s (.send t :: past) (match send ttl st t with | some r => r.1 | none => st) := by
  by_cases ht : t = s
  · subst ht
    have hm : MaySend t past := ho.1 rfl
    rcases g with ⟨h1, h2, h3, h4, h5⟩ | ⟨h, d, h1, h2, h3, h4, h5⟩
    · exact absurd hm h5
    · obtain ⟨g, hg⟩ := Option.isSome_iff_exists.mp (h5 hm)
      have hgc := h4 g hg
      obtain ⟨st1, i, c, e1, i1, f1, hc, hs, hrx, htx, hor⟩ := getOrCreate_spec ttl hi .provider t
      rw [show modeOf .provider = OUTBOUND from rfl, confGet_out, hg] at hor
      rcases hor with ⟨e, e2⟩ | ⟨e, _⟩
      · simp at e; subst e; subst e2
        rw [hgc, h2] at hc; simp at hc; subst hc
        cases hx : send ttl st1 t with
        | none => exact Or.inr ⟨h, d, h1, h2, by simpa [expected] using h3, h4, by simpa [MaySend] using h5⟩
        | some r =>
          obtain ⟨st', b⟩ := r
          have hx' := hx
          unfold send at hx
          rw [show OUTBOUND = modeOf .provider from rfl, e1] at hx
          rw [hgc] at hx
          simp only [h2] at hx
          split at hx
          · simp at hx
          · simp only [Option.some.injEq, Prod.mk.injEq] at hx
            obtain ⟨rfl, _⟩ := hx
            obtain ⟨r1, r2, r3, r4, r5, r6, r7, r8, r9, r10, r11⟩ := register_spec i1 h2
            rw [hs] at r5 r8
            refine Or.inr ⟨h, d, r5 h h1, r3, by simpa [expected] using h3, ?_, ?_⟩
            · intro g' hg'
              simp only [] at hg'
              rw [r8 g hg] at hg'; simp at hg'; subst hg'; exact hgc
            · intro _; simp only []; rw [r8 g hg]; rfl
      · simp at e
  · have f : Frame t st (match send ttl st t with | some r => r.1 | none => st) := by
      cases hx : send ttl st t with
      | none => exact Frame.refl _ _
      | some r => obtain ⟨a, b⟩ := r; exact (send_spec ttl hi t hx).2.1
    exact good_frame (fun e => ht e.symm) hi g f (by simp [expected]) (by simp [Opened]) (by simp [MaySend])

theorem good_hold (ttl : Int) (b : Bool) {s : Dhkey} {past past' : List Op} {st : St} (hi : Inv st) (g : Good ttl s past st) (t : Dhkey)
    (he : expected ttl s past' = expected ttl s past) (ho : Opened s past' ↔ Opened s past) (hm : MaySend s past' ↔ MaySend s past) :
    Good ttl s past' (setHold b st t) := by
  by_cases ht : t = s
  · subst ht
    rcases g with ⟨h1, h2, h3, h4, h5⟩ | ⟨h, d, h1, h2, h3, h4, h5⟩
    · refine Or.inl ⟨h1, ?_, by rw [he]; exact h3, by rw [ho]; exact h4, by rw [hm]; exact h5⟩
      simp only [setHold, upd_self, h2, putHold, Option.map_none]
    · refine Or.inr ⟨h, d, h1, h2, by rw [he]; exact h3, ?_, ?_⟩
      · intro g hg
        simp only [setHold, upd_self, putHold, Option.map_eq_some_iff] at hg
        obtain ⟨g', hg', rfl⟩ := hg
        exact h4 g' hg'
      · rw [hm]; intro hm
        simp only [setHold, upd_self, putHold, Option.isSome_map]
        exact h5 hm
  · exact good_frame (fun e => ht e.symm) hi g (setHold_spec b hi t).2 he ho hm

theorem good_run (ttl : Int) (s : Dhkey) (past : List Op) {st : St} (h : run ttl init past.reverse = some st) (ho : Orderly s past) :
    Good ttl s past st := by
  induction past generalizing st with
  | nil =>
    simp only [List.reverse_nil, run, Option.some.injEq] at h
    subst h
    exact Or.inl ⟨rfl, rfl, rfl, fun h => h, fun h => h⟩
  | cons o past ih =>
    rw [List.reverse_cons, run_append] at h
    cases h1 : run ttl init past.reverse with
    | none => rw [h1] at h; simp at h
    | some s1 =>
      rw [h1] at h
      simp only [Option.bind_some, run] at h
      have i1 := run_inv ttl inv_init h1
      cases h2 : step ttl s1 o with
      | none => rw [h2] at h; simp at h
      | some s2 =>
        rw [h2] at h
        simp only [Option.some.injEq] at h
        subst h
        have ho' : Orderly s past := by cases o <;> simp_all [Orderly]
        have g := ih h1 ho'
        cases o with
        | set t p =>
          simp only [step, Option.map_eq_some_iff] at h2
          obtain ⟨⟨a, b⟩, hab, rfl⟩ := h2
          exact good_set ttl i1 g t p ho hab
        | listen t => simp only [step, Option.some.injEq] at h2; subst h2; exact good_listen ttl i1 g t
        | send t => simp only [step, Option.some.injEq] at h2; subst h2; exact good_send ttl i1 g t ho
        | disable t =>
          simp only [step, Option.some.injEq] at h2; subst h2
          exact good_hold ttl true i1 g t (by simp [expected]) (by simp [Opened]) (by simp [MaySend])
        | enable t =>
          simp only [step, Option.some.injEq] at h2; subst h2
          exact good_hold ttl false i1 g t (by simp [expected]) (by simp [Opened]) (by simp [MaySend])

theorem upd_hold {st : St} {s : Dhkey} {g : Half} (h : st.tx s = some g) (b : Bool) : (setHold b st s).tx s = some ⟨g.conf, b⟩ := by
  simp only [setHold, upd_self, h, putHold, Option.map_some]

theorem step_hold (ttl : Int) {st st' : St} (hi : Inv st) {o : Op} (h : step ttl st o = some st') {s : Dhkey} (hne : o ≠ .enable s) (hh : OnHold st s) :
    OnHold st' s := by
  unfold OnHold at hh ⊢
  rw [Option.map_eq_some_iff] at hh
  obtain ⟨g, hg, hgh⟩ := hh
  have keep : st'.tx s = some g → (st'.tx s).map (·.hold) = some true := fun e => by rw [e, ← hgh]; rfl
  cases o with
  | set t p =>
    apply keep
    simp only [step, Option.map_eq_some_iff] at h
    obtain ⟨⟨a, b⟩, hab, rfl⟩ := h
    obtain ⟨_, a2, a3, a4⟩ := set_spec ttl hi t p hab
    by_cases ht : t = s
    · subst ht
      by_cases hn : Incomplete p
      · rw [(a3 hn).1]; exact hg
      · obtain ⟨_, st1, i, c, c', e1, i1, hc, hs, hrx, htx, hor, hf, hs', i2, hset, rfl⟩ := a4 hn
        obtain ⟨r1, r2, r3, r4, r5, r6, r7, r8, _⟩ := register_spec i2 (i := i) (c := c') hset
        rw [hs'] at r8
        exact r8 g (by rw [← hg, ← htx])
    · rw [a2.tx s (fun e => ht e.symm)]; exact hg
  | listen t =>
    apply keep
    simp only [step, Option.some.injEq] at h; subst h
    by_cases ht : t = s
    · subst ht
      obtain ⟨st1, i, c, e1, i1, f1, hc, hs, hrx, htx, hor⟩ := getOrCreate_spec ttl hi .consumer t
      unfold listen
      rw [show INBOUND = modeOf .consumer from rfl, e1]
      obtain ⟨r1, r2, r3, r4, r5, r6, r7, r8, _⟩ := register_spec i1 hc
      rw [hs] at r8
      exact r8 g (by rw [htx, hg])
    · rw [(listen_spec ttl hi t).2.tx s (fun e => ht e.symm)]; exact hg
  | send t =>
    apply keep
    simp only [step, Option.some.injEq] at h; subst h
    cases hx : send ttl st t with
    | none => exact hg
    | some r =>
      obtain ⟨a, b⟩ := r
      obtain ⟨_, f, _, k⟩ := send_spec ttl hi t hx
      by_cases ht : t = s
      · subst ht; exact k g hg
      · simp only []; rw [f.tx s (fun e => ht e.symm)]; exact hg
  | disable t =>
    simp only [step, Option.some.injEq] at h; subst h
    by_cases ht : t = s
    · subst ht; rw [upd_hold hg]; rfl
    · exact keep ((setHold_spec true hi t).2.tx s (fun e => ht e.symm) ▸ hg)
  | enable t =>
    simp only [step, Option.some.injEq] at h; subst h
    by_cases ht : t = s
    · subst ht; exact absurd rfl hne
    · exact keep ((setHold_spec false hi t).2.tx s (fun e => ht e.symm) ▸ hg)

theorem run_hold (ttl : Int) {st st' : St} (hi : Inv st) {ops : List Op} (h : run ttl st ops = some st') {s : Dhkey} (hne : ∀ o ∈ ops, o ≠ .enable s)
    (hh : OnHold st s) : OnHold st' s := by
  induction ops generalizing st with
  | nil => simp only [run, Option.some.injEq] at h; subst h; exact hh
  | cons o ops ih =>
    simp only [run] at h
    cases hs : step ttl st o with
    | none => rw [hs] at h; simp at h
    | some s1 =>
      rw [hs] at h
      exact ih (step_inv ttl hi hs) h (fun o' ho' => hne o' (List.mem_cons_of_mem _ ho')) (step_hold ttl hi hs (hne o List.mem_cons_self) hh)

end Np.Mx
