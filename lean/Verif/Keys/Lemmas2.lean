import Verif.Keys.Lemmas

set_option linter.unusedSimpArgs false

namespace Np.Keys

open Np (Dhkey)
open _root_.Np.Keys.Spec

section
variable {env : Env} {o : Oracle} {k : Dhkey} {key : Key} {ev : Event} {ex : Dhkey → Bool}

theorem inHandshake_effects {m : Msg} {conn : Dhkey} : (inHandshake o key conn m).effects = [] := by
  unfold inHandshake
  split
  · split
    · split
      · simp only; split <;> rfl
      · rfl
    · rfl
  · rfl

/-- Which effects a transition of the table can have. -/
inductive EffectOf (o : Oracle) (k : Dhkey) (ev : Event) : Cond → Effect → Prop
  | authn (t : Tok) (h : ev.payload = .tok t) (ok : Bool) (h2 : ok = o.authn) :
      EffectOf o k ev isAuthnRequest (.authn t ev.target ok)
  | delivered (m : Msg) (h : ev.payload = .msg m) : EffectOf o k ev isSenderAvail (.delivered k m)
  | processed (m : Msg) (h : ev.payload = .msg m) : EffectOf o k ev isSenderAvail (.processed k m)
  | forwarded (c : Cond) (p : Part) : EffectOf o k ev c (.forwarded p)
  | discovered (p : Part) : EffectOf o k ev isDiscovery (.discovered p)
  | sent : EffectOf o k ev isReceiverAvail (.sent k)
  | peerLeft : EffectOf o k ev isShutdown (.peerLeft k)
  | peerGone : EffectOf o k ev isNodeInvalid (.peerLeft k)

theorem aForward_effect {e : Effect} (h : e ∈ (aForward env o ex k key ev).effects) : ∃ p, e = .forwarded p := by
  unfold aForward at h
  split at h
  · rename_i p _
    simp only [List.mem_singleton] at h
    exact ⟨p, h⟩
  · exact absurd h (by simp)

theorem aHandleUsr_effect {e : Effect} (h : e ∈ (aHandleUsr env o ex k key ev).effects) : ∃ p, e = .forwarded p := by
  unfold aHandleUsr at h
  split at h
  · exact aForward_effect h
  · exact absurd h (by simp)

theorem aDiscovery_effect {e : Effect} (h : e ∈ (aDiscovery env o ex k key ev).effects) : ∃ p, e = .discovered p := by
  unfold aDiscovery at h
  split at h
  · rename_i p _
    simp only [List.mem_singleton] at h
    exact ⟨p, h⟩
  · exact absurd h (by simp)

theorem aHandleAuthn_effect {e : Effect} (h : e ∈ (aHandleAuthn env o ex k key ev).effects) :
    ∃ t, ev.payload = .tok t ∧ e = .authn t ev.target o.authn := by
  unfold aHandleAuthn at h
  split at h
  · rename_i t ht
    split at h
    · exact absurd h (by simp)
    · simp only [List.mem_singleton] at h
      exact ⟨t, ht, h⟩
  · exact absurd h (by simp)

theorem aHandleIn_effect {e : Effect} (h : e ∈ (aHandleIn env o ex k key ev).effects) :
    ∃ m, ev.payload = .msg m ∧ (e = .processed k m ∨ e = .delivered k m) := by
  unfold aHandleIn at h
  split at h
  · rename_i m c hm hc
    split at h
    · simp only [List.mem_singleton] at h
      exact ⟨m, hm, Or.inl h⟩
    · simp only at h
      split at h
      · simp only [List.mem_singleton] at h
        exact ⟨m, hm, Or.inr h⟩
      · exact absurd h (by simp)
  · exact absurd h (by simp)

theorem noEffects_decrypt : (aDecrypt env o ex k key ev).effects = [] := by unfold aDecrypt; split <;> rfl
theorem noEffects_extract : (aExtractHandshake env o ex k key ev).effects = [] := by
  unfold aExtractHandshake; split
  · simp only; split <;> rfl
  · rfl
theorem noEffects_pheromone : (aPheromone env o ex k key ev).effects = [] := by unfold aPheromone; split <;> rfl
theorem noEffects_split : (aSplit env o ex k key ev).effects = [] := by unfold aSplit; split <;> rfl
theorem noEffects_check : (aPropertyCheck env o ex k key ev).effects = [] := by
  unfold aPropertyCheck; split
  · split <;> rfl
  · rfl
theorem noEffects_cache : (aAddToCache env o ex k key ev).effects = [] := by unfold aAddToCache; split <;> rfl
theorem noEffects_aliasSet : (aAliasSet env o ex k key ev).effects = [] := by unfold aAliasSet; split <;> rfl
theorem noEffects_nodeSet : (aNodeSet env o ex k key ev).effects = [] := by unfold aNodeSet; split <;> rfl
theorem noEffects_update : (aUpdateToken env o ex k key ev).effects = [] := by unfold aUpdateToken; split <;> rfl
theorem noEffects_upgrade : (aUpgrade env o ex k key ev).effects = [] := by unfold aUpgrade; split <;> rfl
theorem noEffects_setProp : (aSetProperty env o ex k key ev).effects = [] := by unfold aSetProperty; split <;> rfl
theorem noEffects_propUpd : (aPropertyUpdate env o ex k key ev).effects = [] := by
  unfold aPropertyUpdate; split <;> rfl
theorem noEffects_ident : (aSetIdentity env o ex k key ev).effects = [] := by
  unfold aSetIdentity; split
  · split
    · rfl
    · split <;> rfl
  · rfl

theorem transition_effect {ci : Dhkey → Option Conf} {s : KState} {t : Transition} {e : Effect}
    (ht : t ∈ transitions ci s) (he : e ∈ (t.act env o ex k key ev).effects) : EffectOf o k ev t.cond e := by
  cases s <;> simp only [transitions, List.mem_cons, List.not_mem_nil, or_false] at ht
  · rcases ht with rfl | rfl | rfl | rfl | rfl | rfl | rfl | rfl | rfl <;>
      simp [aNoop, aWildcardSet, aNodeSetNode, aAliasSetNode, noEffects_aliasSet, noEffects_nodeSet, noEffects_ident,
        noEffects_setProp] at he
  · rcases ht with rfl | rfl | rfl | rfl | rfl | rfl | rfl | rfl | rfl | rfl | rfl <;>
      simp [aNoop, noEffects_split, noEffects_update, noEffects_upgrade, aDestroy] at he
  · rcases ht with rfl | rfl | rfl | rfl | rfl <;>
      simp [noEffects_decrypt, aHandleNp, noEffects_update, noEffects_upgrade, aDestroy] at he
  · rcases ht with rfl | rfl | rfl | rfl <;> simp [aNoop, aWildcardDestroy] at he
  · subst ht; simp [aDestroy] at he
  · rcases ht with rfl | rfl | rfl | rfl | rfl | rfl
    · simp [noEffects_extract] at he
    · obtain ⟨t, h1, rfl⟩ := aHandleAuthn_effect (env := env) (o := o) (ex := ex) (k := k) (key := key) he
      exact .authn t h1 _ rfl
    all_goals simp [aNoop] at he
  · rcases ht with rfl | rfl | rfl | rfl | rfl | rfl | rfl
    · simp [aNoop] at he
    · simp [noEffects_split] at he
    · simp [aNoop] at he
    · simp only [aSendShutdown, List.mem_singleton] at he
      subst he; exact .peerLeft
    · simp [aShutdownEvent] at he
    · simp only [aSendShutdown, List.mem_singleton] at he
      subst he; exact .peerGone
    · simp [aNoop] at he
  · rcases ht with rfl | rfl | rfl | rfl | rfl | rfl | rfl | rfl | rfl | rfl
    · simp [noEffects_decrypt] at he
    · obtain ⟨p, rfl⟩ := aHandleUsr_effect (env := env) (o := o) (ex := ex) (k := k) (key := key) he; exact .forwarded _ p
    · simp [aHandleNp] at he
    · simp [noEffects_pheromone] at he
    · obtain ⟨p, rfl⟩ := aDiscovery_effect (env := env) (o := o) (ex := ex) (k := k) (key := key) he; exact .discovered p
    · obtain ⟨p, rfl⟩ := aForward_effect (env := env) (o := o) (ex := ex) (k := k) (key := key) he; exact .forwarded _ p
    all_goals simp [aNoop, aDestroy, aAliasShutdown] at he
  · rcases ht with rfl | rfl | rfl | rfl | rfl | rfl | rfl | rfl | rfl
    · simp [aNoop] at he
    · simp [aNoop] at he
    · simp [aNoop] at he
    · obtain ⟨m, h1, rfl | rfl⟩ := aHandleIn_effect (env := env) (o := o) (ex := ex) (k := k) (key := key) he
      · exact .processed m h1
      · exact .delivered m h1
    · simp only [aHandleOut, List.mem_singleton] at he
      subst he; exact .sent
    · simp [aNoop] at he
    · simp [noEffects_cache] at he
    · simp [noEffects_propUpd] at he
    · simp [noEffects_check] at he
  · subst ht; simp [aNoop] at he

end

/-! ## Trace of `handle` -/

/-- The effects of handling one event. -/
def handleEffects (env : Env) (o : Oracle) (w : World) (k : Dhkey) (ev : Event) : List Effect :=
  match w.find k with
  | none => []
  | some key =>
    match firstTransition env o k key ev (transitions (w.confIn env) key.state) with
    | none => []
    | some t => (t.act env o w.has k key ev).effects

theorem foldl_create_rest (l : List Dhkey) : ∀ (w : World),
    (l.foldl World.findOrCreate w).pending = w.pending ∧ (l.foldl World.findOrCreate w).trace = w.trace := by
  induction l with
  | nil => intro w; exact ⟨rfl, rfl⟩
  | cons a r ih =>
    intro w
    rw [List.foldl_cons, (ih _).1, (ih _).2]
    exact findOrCreate_rest w a

theorem foldl_reparent_rest (l : List (Dhkey × Dhkey)) : ∀ (w : World),
    (l.foldl World.reparent w).pending = w.pending ∧ (l.foldl World.reparent w).trace = w.trace := by
  induction l with
  | nil => intro w; exact ⟨rfl, rfl⟩
  | cons a r ih =>
    intro w
    rw [List.foldl_cons, (ih _).1, (ih _).2]
    exact reparent_rest w a

theorem apply_trace (w : World) (o : Oracle) (k : Dhkey) (old target : KState) (out : Out) :
    (w.apply o k old target out).trace = w.trace ++ out.effects := by
  unfold World.apply
  simp only
  rw [(foldl_reparent_rest _ _).2, (foldl_create_rest _ _).2]
  split <;> rfl

theorem handle_trace (env : Env) (o : Oracle) (w : World) (k : Dhkey) (ev : Event) :
    (handle env o w k ev).trace = w.trace ++ handleEffects env o w k ev := by
  unfold handle handleEffects
  cases hf : w.find k with
  | none => simp
  | some key =>
    simp only
    cases ht : firstTransition env o k key ev (transitions (w.confIn env) key.state) with
    | none => simp
    | some t => simp only; rw [apply_trace]

theorem handleEffects_of {env : Env} {o : Oracle} {w : World} {k : Dhkey} {ev : Event} {e : Effect}
    (h : e ∈ handleEffects env o w k ev) : ∃ key t, w.find k = some key ∧ t ∈ transitions (w.confIn env) key.state ∧
      firstTransition env o k key ev (transitions (w.confIn env) key.state) = some t ∧
      t.cond env o k key ev = true ∧ EffectOf o k ev t.cond e := by
  unfold handleEffects at h
  split at h
  · exact absurd h (by simp)
  · rename_i key hkey
    split at h
    · exact absurd h (by simp)
    · rename_i t ht
      obtain ⟨h1, h2⟩ := firstTransition_some ht
      exact ⟨key, t, hkey, h1, ht, h2, transition_effect h1 h⟩

/-! ## A key on hold -/

def StateOf (w : World) (k : Dhkey) (s : KState) : Prop := ∃ key, w.find k = some key ∧ key.state = s

theorem lookup_setKey_ne {k j : Dhkey} {key : Key} (h : j ≠ k) : ∀ l : List (Dhkey × Key),
    (setKey k key l).lookup j = l.lookup j
  | [] => rfl
  | (i, x) :: r => by
    simp only [setKey]
    split
    · rename_i hi
      have : (j == i) = false := by
        rw [eq_of_beq hi]
        simpa using h
      simp only [List.lookup_cons, this]
    · simp only [List.lookup_cons]
      split
      · rfl
      · exact lookup_setKey_ne h r

theorem lookup_setKey_eq {k : Dhkey} {key : Key} : ∀ l : List (Dhkey × Key), (l.lookup k).isSome →
    (setKey k key l).lookup k = some key
  | [], h => by simp at h
  | (i, x) :: r, h => by
    simp only [setKey]
    split
    · rename_i hi
      rw [eq_of_beq hi]
      simp [List.lookup_cons]
    · rename_i hi
      have hi' : (k == i) = false := by
        simp only [beq_iff_eq] at hi
        simpa using fun e => hi e.symm
      simp only [List.lookup_cons, hi'] at h ⊢
      exact lookup_setKey_eq r h

theorem lookup_filter_ne {k j : Dhkey} (h : j ≠ k) : ∀ l : List (Dhkey × Key),
    (l.filter fun e => e.1 != k).lookup j = l.lookup j
  | [] => rfl
  | (i, x) :: r => by
    simp only [List.filter_cons]
    split
    · simp only [List.lookup_cons]
      split
      · rfl
      · exact lookup_filter_ne h r
    · rename_i hi
      simp only [bne_iff_ne, ne_eq, Decidable.not_not] at hi
      have : (j == i) = false := by
        rw [hi]; simpa using h
      simp only [List.lookup_cons, this]
      exact lookup_filter_ne h r

theorem lookup_append_some {j : Dhkey} {key : Key} {y : List (Dhkey × Key)} : ∀ l : List (Dhkey × Key),
    l.lookup j = some key → (l ++ y).lookup j = some key
  | [], h => by simp at h
  | (i, x) :: r, h => by
    simp only [List.cons_append, List.lookup_cons] at h ⊢
    split
    · rename_i hi; simp only [hi] at h; exact h
    · rename_i hi; simp only [hi] at h; exact lookup_append_some r h

theorem findOrCreate_state {w : World} {j k : Dhkey} {s : KState} (h : StateOf w j s) :
    StateOf (w.findOrCreate k) j s := by
  obtain ⟨key, h1, h2⟩ := h
  refine ⟨key, ?_, h2⟩
  unfold World.findOrCreate
  split
  · exact h1
  · exact lookup_append_some _ h1

theorem reparent_state {w : World} {j : Dhkey} {x : Dhkey × Dhkey} {s : KState} (h : StateOf w j s) :
    StateOf (w.reparent x) j s := by
  obtain ⟨key, h1, h2⟩ := h
  unfold World.reparent
  split
  · rename_i key' hk'
    by_cases hj : j = x.1
    · subst hj
      rw [h1] at hk'
      cases hk'
      exact ⟨_, lookup_setKey_eq _ (by unfold World.find at h1; rw [h1]; rfl), h2⟩
    · exact ⟨key, by unfold World.find; rw [lookup_setKey_ne hj]; exact h1, h2⟩
  · exact ⟨key, h1, h2⟩

theorem foldl_create_state (l : List Dhkey) : ∀ {w : World} {j : Dhkey} {s : KState}, StateOf w j s →
    StateOf (l.foldl World.findOrCreate w) j s := by
  induction l with
  | nil => intro w j s h; exact h
  | cons a r ih => intro w j s h; exact ih (findOrCreate_state h)

theorem foldl_reparent_state (l : List (Dhkey × Dhkey)) : ∀ {w : World} {j : Dhkey} {s : KState}, StateOf w j s →
    StateOf (l.foldl World.reparent w) j s := by
  induction l with
  | nil => intro w j s h; exact h
  | cons a r ih => intro w j s h; exact ih (reparent_state h)

theorem apply_state_ne {w : World} {o : Oracle} {k j : Dhkey} {old target s : KState} {out : Out} (hj : j ≠ k)
    (h : StateOf w j s) : StateOf (w.apply o k old target out) j s := by
  unfold World.apply
  simp only
  have h1 : StateOf (if (target == KState.destroy) = true then w.remove k else
      { w with keys := setKey k (afterTransition o old target out.key) w.keys } : World) j s := by
    obtain ⟨key, h1, h2⟩ := h
    refine ⟨key, ?_, h2⟩
    split
    · simp only [World.find, World.remove]
      rw [lookup_filter_ne hj]; exact h1
    · simp only [World.find]
      rw [lookup_setKey_ne hj]; exact h1
  obtain ⟨key, h1, h2⟩ := foldl_reparent_state out.reparent (foldl_create_state out.create h1)
  exact ⟨key, h1, h2⟩

theorem apply_state_eq {w : World} {o : Oracle} {k : Dhkey} {old target : KState} {out : Out}
    (ht : target ≠ .destroy) (ho : out.key.state = old) (h : w.has k = true) :
    StateOf (w.apply o k old target out) k target := by
  unfold World.apply
  simp only
  have h1 : StateOf (if (target == KState.destroy) = true then w.remove k else
      { w with keys := setKey k (afterTransition o old target out.key) w.keys } : World) k target := by
    rw [if_neg (by simpa using ht)]
    exact ⟨_, lookup_setKey_eq _ h, (afterTransition_keep o old target out.key ho).2⟩
  obtain ⟨key, h1, h2⟩ := foldl_reparent_state out.reparent (foldl_create_state out.create h1)
  exact ⟨key, h1, h2⟩

/-- Handling an event at another key, or at the key itself if it does not enable it, keeps it on hold. -/
theorem handle_hold {env : Env} {o : Oracle} {w : World} {j k : Dhkey} {ev : Event} (h : StateOf w j .holdProperty)
    (hr : k ≠ j ∨ isEnable env o k {} ev = false) : StateOf (handle env o w k ev) j .holdProperty := by
  unfold handle
  split
  · exact h
  · rename_i key hkey
    split
    · exact h
    · rename_i t ht
      by_cases hk : j = k
      · subst hk
        obtain ⟨key', h1, h2⟩ := h
        rw [hkey] at h1
        cases h1
        rw [h2] at ht
        obtain ⟨hm, hc⟩ := firstTransition_some ht
        simp only [transitions, List.mem_singleton] at hm
        subst hm
        rcases hr with hr | hr
        · exact absurd rfl hr
        · have : isEnable env o j {} ev = true := hc
          rw [hr] at this
          exact absurd this (by simp)
      · exact apply_state_ne hk h

theorem hold_sends_nothing {env : Env} {o : Oracle} {w : World} {j k : Dhkey} {ev : Event}
    (h : StateOf w j .holdProperty) : Effect.sent j ∉ handleEffects env o w k ev := by
  intro he
  obtain ⟨key, t, h1, h2, _, h4, h5⟩ := handleEffects_of he
  generalize hc : t.cond = c at h5
  cases h5 with
  | sent =>
    obtain ⟨key', h6, h7⟩ := h
    rw [h1] at h6
    cases h6
    rw [h7] at h2
    simp only [transitions, List.mem_singleton] at h2
    subst h2
    have h8 : isEnable env o j key ev = true := h4
    have h9 : isReceiverAvail env o j key ev = true := by rw [← hc]; exact h4
    unfold isEnable at h8
    unfold isReceiverAvail isIntMsg at h9
    cases hp : ev.payload <;> simp [hp, Payload.isMsg, Payload.isPart, Payload.msg?, Payload.part?] at h8 h9

theorem post_hold {w : World} {j k : Dhkey} {e : Event} {s : KState} (h : StateOf w j s) : StateOf (w.post k e) j s := h

theorem enable_needs_run {env : Env} {o : Oracle} {k : Dhkey} {ev : Event} (h : ev.payload ≠ .run) :
    isEnable env o k {} ev = false := by
  unfold isEnable
  cases hp : ev.payload <;> simp [hp] at h ⊢

theorem enable_needs_flag {env : Env} {o : Oracle} {k : Dhkey} {ev : Event} (h : flagCmp ev.type evtEnable = false) :
    isEnable env o k {} ev = false := by
  unfold isEnable
  simp [h]

/-- What a part of the history leaves unchanged: the key stays on hold and its channel sends nothing. -/
def Quiet (j : Dhkey) (w w' : World) : Prop :=
  StateOf w' j .holdProperty ∧ ∃ l, w'.trace = w.trace ++ l ∧ Effect.sent j ∉ l

theorem Quiet.trans {j : Dhkey} {w w' w'' : World} (h1 : Quiet j w w') (h2 : Quiet j w' w'') : Quiet j w w'' := by
  obtain ⟨_, l1, e1, n1⟩ := h1
  obtain ⟨hs, l2, e2, n2⟩ := h2
  refine ⟨hs, l1 ++ l2, by rw [e2, e1, List.append_assoc], ?_⟩
  intro h
  rcases List.mem_append.1 h with h | h
  · exact n1 h
  · exact n2 h

theorem Quiet.refl {j : Dhkey} {w w' : World} (h : StateOf w' j .holdProperty) (ht : w'.trace = w.trace) :
    Quiet j w w' := ⟨h, [], by simp [ht], by simp⟩

theorem handle_quiet {env : Env} {o : Oracle} {w : World} {j k : Dhkey} {ev : Event} (h : StateOf w j .holdProperty)
    (hr : k ≠ j ∨ isEnable env o k {} ev = false) : Quiet j w (handle env o w k ev) :=
  ⟨handle_hold h hr, _, handle_trace .., hold_sends_nothing h⟩

theorem onLifecycle_quiet {env : Env} {o : Oracle} {w : World} {j s : Dhkey} {f : Flags}
    (h : StateOf w j .holdProperty) (hf : flagCmp (f ||| evtInternal ||| evtProperty) evtEnable = false ∨
      (s ≠ j ∧ env.outKey s ≠ j)) : Quiet j w (onLifecycle env o w f s) := by
  have hh : ∀ w : World, StateOf w j .holdProperty → ∀ k, (k = s ∨ k = env.outKey s) →
      Quiet j w (handle env o w k { type := f ||| evtInternal ||| evtProperty, payload := .run, target := s }) := by
    intro w hw k hk
    refine handle_quiet hw ?_
    rcases hf with hf | hf
    · exact Or.inr (enable_needs_flag hf)
    · rcases hk with rfl | rfl
      · exact Or.inl hf.1
      · exact Or.inl hf.2
  unfold onLifecycle
  simp only
  split
  · have h1 := hh w h s (Or.inl rfl)
    split
    · exact h1.trans (hh _ h1.1 _ (Or.inr rfl))
    · exact h1
  · split
    · exact hh w h _ (Or.inr rfl)
    · exact Quiet.refl h rfl

theorem outKey_inj {env : Env} {s t : Dhkey} (h : env.outKey s = env.outKey t) : s = t := by
  unfold Env.outKey Dhkey.add Dhkey.map2 at h
  cases s; cases t
  simp only [Dhkey.mk.injEq, BitVec.add_right_inj] at h
  simpa using h

theorem step_quiet {env : Env} {w : World} {i : Oracle × Input} {s : Dhkey} (hi : Inv env w)
    (h : StateOf w (env.outKey s) .holdProperty)
    (hn : i.2 ≠ .enable s ∧ i.2 ≠ .enable (env.outKey s)) : Quiet (env.outKey s) w (step env w i) := by
  obtain ⟨o, i⟩ := i
  cases i with
  | exec n =>
    simp only [step]
    split
    · rename_i k e hn
      have hg := hi.evs _ (List.mem_of_getElem? hn)
      exact (handle_quiet (w := { w with pending := w.pending.eraseIdx n }) h
        (Or.inr (enable_needs_run hg.noRun)))
    · exact Quiet.refl h rfl
  | packet a b n =>
    simp only [step, onPacket]
    split
    · split <;> exact Quiet.refl h rfl
    · exact Quiet.refl (post_hold (post_hold (findOrCreate_state h))) (findOrCreate_rest _ _).2
  | tick k =>
    exact handle_quiet h (Or.inr (enable_needs_run (by simp)))
  | register c =>
    simp only [step, onRegister]
    have hh : ∀ w : World, StateOf w (env.outKey s) .holdProperty → ∀ k c', 
        Quiet (env.outKey s) w (handle env o (w.findOrCreate k) k
          { type := evtProperty ||| evtInternal, payload := .conf c', target := k }) := by
      intro w hw k c'
      have := handle_quiet (env := env) (o := o) (ev := { type := evtProperty ||| evtInternal, payload := .conf c', target := k })
        (k := k) (findOrCreate_state (k := k) hw) (Or.inr (enable_needs_run (by simp)))
      obtain ⟨h1, l, h2, h3⟩ := this
      rw [(findOrCreate_rest _ _).2] at h2
      exact ⟨h1, l, h2, h3⟩
    split
    · split
      · have h1 := hh w h (env.inKey c.subject) { c with inKey := env.inKey c.subject, outKey := env.outKey c.subject }
        exact h1.trans (hh _ h1.1 _ _)
      · exact hh w h _ _
    · split
      · exact hh w h _ _
      · exact Quiet.refl h rfl
  | enable t =>
    refine onLifecycle_quiet h (Or.inr ⟨?_, ?_⟩)
    · intro e; subst e; exact hn.2 rfl
    · intro e; exact hn.1 (by rw [outKey_inj e])
  | disable t => exact onLifecycle_quiet h (Or.inl (by decide))
  | send t m => exact Quiet.refl h rfl
  | other k e => exact Quiet.refl h rfl

theorem run_quiet {env : Env} {s : Dhkey} {is : List (Oracle × Input)} : ∀ {w : World}, Inv env w →
    StateOf w (env.outKey s) .holdProperty → (∀ i ∈ is, Allowed i.2) →
    (∀ i ∈ is, i.2 ≠ .enable s ∧ i.2 ≠ .enable (env.outKey s)) → Quiet (env.outKey s) w (run env w is) := by
  induction is with
  | nil => intro w _ h _ _; exact Quiet.refl h rfl
  | cons i r ih =>
    intro w hi h ha hn
    have h1 := step_quiet hi h (hn i List.mem_cons_self)
    have h2 := ih (step_inv hi (ha i List.mem_cons_self)) h1.1 (fun j hj => ha j (List.mem_cons_of_mem _ hj))
      (fun j hj => hn j (List.mem_cons_of_mem _ hj))
    exact h1.trans h2

/-! ## The call to `np_mx_properties_disable` itself -/

theorem run_event_sends_nothing {env : Env} {o : Oracle} {w : World} {j k : Dhkey} {ev : Event}
    (h : ev.payload = .run) : Effect.sent j ∉ handleEffects env o w k ev := by
  intro he
  obtain ⟨key, t, h1, h2, _, h4, h5⟩ := handleEffects_of he
  generalize hc : t.cond = c at h5
  cases h5 with
  | sent =>
    have h9 : isReceiverAvail env o j key ev = true := by rw [← hc]; exact h4
    unfold isReceiverAvail isIntMsg at h9
    simp [h, Payload.isMsg, Payload.isPart, Payload.msg?, Payload.part?] at h9

theorem has_of_state {w : World} {k : Dhkey} {s : KState} (h : StateOf w k s) : w.has k = true := by
  obtain ⟨key, h1, _⟩ := h
  simp [World.has, h1]

theorem handle_disable {env : Env} {o : Oracle} {w : World} {k t : Dhkey}
    (h : StateOf w k .useProperty ∨ StateOf w k .holdProperty) :
    StateOf (handle env o w k { type := evtDisable ||| evtInternal ||| evtProperty, payload := .run, target := t }) k
      .holdProperty := by
  rcases h with h | h
  · have hh := has_of_state h
    obtain ⟨key, h1, h2⟩ := h
    unfold handle
    rw [h1]
    simp only [h2]
    have : firstTransition env o k key
        { type := evtDisable ||| evtInternal ||| evtProperty, payload := .run, target := t }
        (transitions (w.confIn env) .useProperty) = some ⟨.holdProperty, isDisable, aNoop⟩ := by
      simp only [transitions, firstTransition]
      rw [if_pos (by simp only [isDisable]; decide)]
    rw [this]
    exact apply_state_eq (by simp) h2 hh
  · exact handle_hold h (Or.inr (enable_needs_flag (by simp only; decide)))

theorem handle_run_state {env : Env} {o : Oracle} {w : World} {k j : Dhkey} {ev : Event} {s : KState}
    (hj : j ≠ k) (h : StateOf w j s) : StateOf (handle env o w k ev) j s := by
  unfold handle
  split
  · exact h
  · split
    · exact h
    · exact apply_state_ne hj h

theorem disable_holds {env : Env} {o : Oracle} {w : World} {s : Dhkey} (h : StateOf w (env.outKey s) .useProperty) :
    Quiet (env.outKey s) w (step env w (o, .disable s)) := by
  simp only [step, onLifecycle]
  have h1 : ∀ w : World, (StateOf w (env.outKey s) .useProperty ∨ StateOf w (env.outKey s) .holdProperty) →
      Quiet (env.outKey s) w (if (w.has (env.outKey s)) = true then handle env o w (env.outKey s)
        { type := evtDisable ||| evtInternal ||| evtProperty, payload := .run, target := s } else w) := by
    intro w hw
    have hhas : w.has (env.outKey s) = true := hw.elim has_of_state has_of_state
    rw [if_pos hhas]
    exact ⟨handle_disable hw, _, handle_trace .., run_event_sends_nothing rfl⟩
  split
  · have h2 : StateOf (handle env o w s { type := evtDisable ||| evtInternal ||| evtProperty, payload := .run, target := s })
        (env.outKey s) .useProperty ∨
      StateOf (handle env o w s { type := evtDisable ||| evtInternal ||| evtProperty, payload := .run, target := s })
        (env.outKey s) .holdProperty := by
      by_cases he : env.outKey s = s
      · right
        rw [he] at h ⊢
        exact handle_disable (Or.inl h)
      · exact Or.inl (handle_run_state he h)
    obtain ⟨a, l, b, c⟩ := h1 _ h2
    refine ⟨a, handleEffects env o w s _ ++ l, by rw [b, handle_trace, List.append_assoc], ?_⟩
    intro hm
    rcases List.mem_append.1 hm with hm | hm
    · exact run_event_sends_nothing rfl hm
    · exact c hm
  · exact h1 w (Or.inl h)

/-- No action changes the state by itself. -/
theorem action_state {env : Env} {o : Oracle} {k : Dhkey} {key : Key} {ev : Event} {ex : Dhkey → Bool}
    {ci : Dhkey → Option Conf} {s : KState} {t : Transition} (ht : t ∈ transitions ci s) :
    (t.act env o ex k key ev).key.state = key.state := by
  have hin : (aHandleIn env o ex k key ev).key.state = key.state := by
    unfold aHandleIn
    split
    · rename_i m c hm hc
      split
      · simp only
        split
        · cases c.handler <;> simp only <;> first | rfl | rw [(inHandshake_good (env := env) (tr := [])).2]
        · rfl
      · exact releaseCache_state
    · rfl
  have husr : (aHandleUsr env o ex k key ev).key.state = key.state := by
    unfold aHandleUsr
    split
    · simp only [aForward]
      split <;> rfl
    · rfl
  cases s <;> simp only [transitions, List.mem_cons, List.not_mem_nil, or_false] at ht
  · rcases ht with rfl | rfl | rfl | rfl | rfl | rfl | rfl | rfl | rfl
    · rfl
    · rfl
    · simp only [aAliasSet]; split <;> rfl
    · simp only [aAliasSetNode]; split <;> rfl
    · simp only [aNodeSet]; split <;> rfl
    · simp only [aNodeSet]; split <;> rfl
    · simp only [aSetIdentity]
      split
      · split
        · rfl
        · split <;> rfl
      · rfl
    · simp only [aSetProperty]; split <;> rfl
    · rfl
  · rcases ht with rfl | rfl | rfl | rfl | rfl | rfl | rfl | rfl | rfl | rfl | rfl <;>
      first
      | rfl
      | (simp only [aSplit]; split <;> rfl)
      | (simp only [aUpdateToken]; split <;> rfl)
      | (simp only [aUpgrade]; split <;> rfl)
  · rcases ht with rfl | rfl | rfl | rfl | rfl <;>
      first
      | rfl
      | (simp only [aDecrypt]; split <;> rfl)
      | (simp only [aUpdateToken]; split <;> rfl)
      | (simp only [aUpgrade]; split <;> rfl)
  · rcases ht with rfl | rfl | rfl | rfl <;> rfl
  · subst ht; rfl
  · rcases ht with rfl | rfl | rfl | rfl | rfl | rfl
    · simp only [aExtractHandshake]
      split
      · split <;> rfl
      · rfl
    · simp only [aHandleAuthn]
      split
      · split <;> rfl
      · rfl
    all_goals rfl
  · rcases ht with rfl | rfl | rfl | rfl | rfl | rfl | rfl <;>
      first
      | rfl
      | (simp only [aSplit]; split <;> rfl)
  · rcases ht with rfl | rfl | rfl | rfl | rfl | rfl | rfl | rfl | rfl | rfl <;>
      first
      | rfl
      | exact husr
      | (simp only [aDecrypt]; split <;> rfl)
      | (simp only [aPheromone]; split <;> rfl)
      | (simp only [aDiscovery]; split <;> rfl)
      | (simp only [aForward]; split <;> rfl)
  · rcases ht with rfl | rfl | rfl | rfl | rfl | rfl | rfl | rfl | rfl <;>
      first
      | rfl
      | exact hin
      | (simp only [aAddToCache]; split <;> rfl)
      | (simp only [aPropertyUpdate]; split <;> rfl)
      | (simp only [aPropertyCheck]
         split
         · split
           · rfl
           · exact releaseCache_state
         · rfl)
  · subst ht; rfl

theorem lookup_none_of_not_mem {k : Dhkey} : ∀ l : List (Dhkey × Key), (∀ x ∈ l, x.1 ≠ k) → l.lookup k = none
  | [], _ => rfl
  | (i, x) :: r, h => by
    have hi : (k == i) = false := by
      have := h (i, x) List.mem_cons_self
      simpa using fun e => this e.symm
    simp only [List.lookup_cons, hi]
    exact lookup_none_of_not_mem r fun y hy => h y (List.mem_cons_of_mem _ hy)

/-- The key is absent, or it was created anew. -/
def NewOrGone (w : World) (k : Dhkey) : Prop := ∀ key, w.find k = some key → key.state = .unused

theorem findOrCreate_newOrGone {w : World} {j k : Dhkey} (h : NewOrGone w k) : NewOrGone (w.findOrCreate j) k := by
  unfold World.findOrCreate
  split
  · exact h
  · intro key hkey
    unfold World.find at hkey
    simp only at hkey
    cases hl : w.keys.lookup k with
    | some key' =>
      rw [lookup_append_some _ hl] at hkey
      cases hkey
      exact h _ hl
    | none =>
      rw [List.lookup_append, hl, Option.none_or] at hkey
      simp only [List.lookup_cons, List.lookup_nil] at hkey
      split at hkey
      · cases hkey; rfl
      · exact absurd hkey (by simp)

theorem reparent_newOrGone {w : World} {k : Dhkey} {x : Dhkey × Dhkey} (h : NewOrGone w k) :
    NewOrGone (w.reparent x) k := by
  unfold World.reparent
  split
  · rename_i key' hk'
    intro key hkey
    unfold World.find at hkey
    simp only at hkey
    by_cases hj : k = x.1
    · subst hj
      rw [lookup_setKey_eq _ (by unfold World.find at hk'; rw [hk']; rfl)] at hkey
      cases hkey
      exact (h key' hk' : key'.state = _)
    · rw [lookup_setKey_ne hj] at hkey
      exact h key hkey
  · exact h

theorem apply_destroyed {w : World} {o : Oracle} {k : Dhkey} {old target : KState} {out : Out} {key : Key}
    (ht : target = .destroy) (h : (w.apply o k old target out).find k = some key) : key.state ≠ .useAlias := by
  subst ht
  have h0 : NewOrGone (w.remove k) k := by
    intro key hkey
    unfold World.find World.remove at hkey
    simp only at hkey
    rw [lookup_none_of_not_mem] at hkey
    · exact absurd hkey (by simp)
    · intro x hx
      have := (List.mem_filter.1 hx).2
      simpa using this
  have h1 : ∀ (l : List Dhkey) (w : World), NewOrGone w k → NewOrGone (l.foldl World.findOrCreate w) k := by
    intro l
    induction l with
    | nil => intro w hw; exact hw
    | cons a r ih => intro w hw; exact ih _ (findOrCreate_newOrGone hw)
  have h2 : ∀ (l : List (Dhkey × Dhkey)) (w : World), NewOrGone w k → NewOrGone (l.foldl World.reparent w) k := by
    intro l
    induction l with
    | nil => intro w hw; exact hw
    | cons a r ih => intro w hw; exact ih _ (reparent_newOrGone hw)
  have h3 := h2 out.reparent _ (h1 out.create _ h0)
  unfold World.apply at h
  simp only [beq_self_eq_true, if_true] at h
  rw [h3 key h]
  simp

end Np.Keys
