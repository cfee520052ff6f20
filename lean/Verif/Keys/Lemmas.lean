import Verif.Keys.Spec
import Verif.Dhkey.Lemmas

set_option linter.unusedSimpArgs false

namespace Np.Keys

open Np (Dhkey)
open _root_.Np.Keys.Spec

theorem flagCmp_iff {n : Nat} (a f : BitVec n) : flagCmp a f = true ↔ a &&& f = f := by
  simp [flagCmp]

theorem equal_eq (a b : Dhkey) : Dhkey.equal a b = true ↔ a = b := Dhkey.equal_iff a b

/-! ## Invariant -/

theorem Spec.Authenticated.mono {tr : List Effect} {a : Dhkey} (h : Authenticated tr a) (x : List Effect) :
    Authenticated (tr ++ x) a := by
  obtain ⟨t, c, h1, h2⟩ := h
  exact ⟨t, c, List.mem_append_left _ h1, h2⟩

structure GoodIn (env : Env) (tr : List Effect) (x : Dhkey × Event) : Prop where
  authn : ∀ t, x.2.payload = .tok t → x.2.type &&& 0x121 = 0x121 → Authenticated tr x.1
  part : ∀ p a, x.2.payload = .part p → p.via = some a →
    (x.1 = a ∧ flagCmp x.2.type evtInternal = false) ∨ flagCmp x.2.type evtExternal = false ∨ Authenticated tr a
  msg : ∀ m a, x.2.payload = .msg m → m.via = some a →
    (Admission env m.subject ∧ (flagCmp x.2.type evtInternal && flagCmp x.2.type evtExternal) = false) ∨
      Authenticated tr a

structure GoodEv (env : Env) (tr : List Effect) (x : Dhkey × Event) : Prop extends GoodIn env tr x where
  noRun : x.2.payload ≠ .run

structure GoodKey (env : Env) (tr : List Effect) (x : Dhkey × Key) : Prop where
  inUse : x.2.state = .useAlias → Authenticated tr x.1
  cache : ∀ m a, m ∈ x.2.cache → m.via = some a → Admission env m.subject ∨ Authenticated tr a

def TraceOk (env : Env) (tr : List Effect) : Prop :=
  ∀ pre e post a, tr = pre ++ e :: post → Uses env a e → Authenticated pre a

structure Inv (env : Env) (w : World) : Prop where
  evs : ∀ x ∈ w.pending, GoodEv env w.trace x
  keys : ∀ x ∈ w.keys, GoodKey env w.trace x
  trace : TraceOk env w.trace

theorem GoodEv.mono {env : Env} {tr : List Effect} {x : Dhkey × Event} (h : GoodEv env tr x) (y : List Effect) :
    GoodEv env (tr ++ y) x :=
  ⟨⟨fun t h1 h2 => (h.authn t h1 h2).mono y, fun p a h1 h2 => (h.part p a h1 h2).imp_right (·.imp_right (·.mono y)),
   fun m a h1 h2 => (h.msg m a h1 h2).imp_right (·.mono y)⟩, h.noRun⟩

theorem GoodKey.mono {env : Env} {tr : List Effect} {x : Dhkey × Key} (h : GoodKey env tr x) (y : List Effect) :
    GoodKey env (tr ++ y) x :=
  ⟨fun h1 => (h.inUse h1).mono y, fun m a h1 h2 => (h.cache m a h1 h2).imp_right (·.mono y)⟩

theorem TraceOk.append {env : Env} {tr : List Effect} (h : TraceOk env tr) (y : List Effect)
    (hy : ∀ e ∈ y, ∀ a, Uses env a e → Authenticated tr a) : TraceOk env (tr ++ y) := by
  intro pre e post a heq hu
  rcases List.append_eq_append_iff.1 heq.symm with ⟨l, hl1, hl2⟩ | ⟨l, hl1, hl2⟩
  · cases l with
    | nil =>
      simp only [List.append_nil, List.nil_append] at hl1 hl2
      subst hl1
      exact hy e (by rw [← hl2]; exact List.mem_cons_self) a hu
    | cons b l =>
      simp only [List.cons_append, List.cons.injEq] at hl2
      obtain ⟨rfl, hl2⟩ := hl2
      exact h pre e l a hl1 hu
  · subst hl1
    exact (hy e (by rw [hl2]; simp) a hu).mono l

/-! ## What actions guarantee -/

structure OutOk (env : Env) (tr : List Effect) (key : Key) (out : Out) : Prop where
  raised : ∀ x ∈ out.raised, GoodEv env (tr ++ out.effects) x
  effects : ∀ e ∈ out.effects, ∀ a, Uses env a e → Authenticated tr a
  cache : ∀ m a, m ∈ out.key.cache → m.via = some a → Admission env m.subject ∨ Authenticated (tr ++ out.effects) a
  state : out.key.state = key.state

section
variable {env : Env} {o : Oracle} {tr : List Effect} {k : Dhkey} {key : Key} {ev : Event} {ex : Dhkey → Bool}

/-- An action that raises nothing, has no effect and keeps state and cache. -/
theorem outOk_quiet {out : Out} (hk : GoodKey env tr (k, key)) (h1 : out.raised = []) (h2 : out.effects = [])
    (h3 : out.key.cache = key.cache) (h4 : out.key.state = key.state) : OutOk env tr key out := by
  refine ⟨by simp [h1], by simp [h2], ?_, h4⟩
  intro m a hm hv
  rw [h3] at hm
  rw [h2, List.append_nil]
  exact hk.cache m a hm hv

/-- An action that has no effect, keeps state and cache and raises good events. -/
theorem outOk_raise {out : Out} (hk : GoodKey env tr (k, key)) (h1 : ∀ x ∈ out.raised, GoodEv env tr x)
    (h2 : out.effects = []) (h3 : out.key.cache = key.cache) (h4 : out.key.state = key.state) :
    OutOk env tr key out := by
  refine ⟨by simpa [h2] using h1, by simp [h2], ?_, h4⟩
  intro m a hm hv
  rw [h3] at hm
  rw [h2, List.append_nil]
  exact hk.cache m a hm hv

theorem goodEv_tok {j : Dhkey} {e : Event} {t : Tok} (hp : e.payload = .tok t) (hn : ¬ (e.type &&& 0x121 = 0x121)) :
    GoodEv env tr (j, e) := by
  refine ⟨⟨fun _ _ h => absurd h hn, ?_, ?_⟩, ?_⟩
  · intro p a h; rw [hp] at h; exact absurd h (by simp)
  · intro p a h; rw [hp] at h; exact absurd h (by simp)
  · rw [hp]; simp

theorem goodEv_none {j : Dhkey} {e : Event} (hp : e.payload = .none) : GoodEv env tr (j, e) := by
  refine ⟨⟨?_, ?_, ?_⟩, ?_⟩
  · intro p h; rw [hp] at h; exact absurd h (by simp)
  · intro p a h; rw [hp] at h; exact absurd h (by simp)
  · intro p a h; rw [hp] at h; exact absurd h (by simp)
  · rw [hp]; simp

theorem goodEv_blob {j : Dhkey} {e : Event} {n : Nat} (hp : e.payload = .blob n) : GoodEv env tr (j, e) := by
  refine ⟨⟨?_, ?_, ?_⟩, ?_⟩
  · intro p h; rw [hp] at h; exact absurd h (by simp)
  · intro p a h; rw [hp] at h; exact absurd h (by simp)
  · intro p a h; rw [hp] at h; exact absurd h (by simp)
  · rw [hp]; simp

theorem goodEv_node {j : Dhkey} {e : Event} {b c : Bool} (hp : e.payload = .node b c) : GoodEv env tr (j, e) := by
  refine ⟨⟨?_, ?_, ?_⟩, ?_⟩
  · intro p h; rw [hp] at h; exact absurd h (by simp)
  · intro p a h; rw [hp] at h; exact absurd h (by simp)
  · intro p a h; rw [hp] at h; exact absurd h (by simp)
  · rw [hp]; simp

theorem goodEv_part {j : Dhkey} {e : Event} {p : Part} (hp : e.payload = .part p)
    (h : ∀ a, p.via = some a → (j = a ∧ flagCmp e.type evtInternal = false) ∨ flagCmp e.type evtExternal = false ∨
      Authenticated tr a) : GoodEv env tr (j, e) := by
  refine ⟨⟨?_, ?_, ?_⟩, ?_⟩
  · intro q h; rw [hp] at h; exact absurd h (by simp)
  · intro q a hq hv; rw [hp] at hq; cases hq; exact h a hv
  · intro q a h; rw [hp] at h; exact absurd h (by simp)
  · rw [hp]; simp

theorem goodEv_msg {j : Dhkey} {e : Event} {m : Msg} (hp : e.payload = .msg m)
    (h : ∀ a, m.via = some a →
      (Admission env m.subject ∧ (flagCmp e.type evtInternal && flagCmp e.type evtExternal) = false) ∨
      Authenticated tr a) : GoodEv env tr (j, e) := by
  refine ⟨⟨?_, ?_, ?_⟩, ?_⟩
  · intro q h; rw [hp] at h; exact absurd h (by simp)
  · intro q a h; rw [hp] at h; exact absurd h (by simp)
  · intro q a hq hv; rw [hp] at hq; cases hq; exact h a hv
  · rw [hp]; simp

theorem goodEv_conf {j : Dhkey} {e : Event} {c : Conf} (hp : e.payload = .conf c) : GoodEv env tr (j, e) := by
  refine ⟨⟨?_, ?_, ?_⟩, ?_⟩
  · intro p h; rw [hp] at h; exact absurd h (by simp)
  · intro p a h; rw [hp] at h; exact absurd h (by simp)
  · intro p a h; rw [hp] at h; exact absurd h (by simp)
  · rw [hp]; simp

/-- `__np_handle` raises a message whose subject is one of the admission or whose connection is authenticated. -/
theorem handleRaised_good (h : ∀ p a, ev.payload = .part p → p.via = some a →
    (Admission env p.subject ∧ (flagCmp ev.type evtInternal && flagCmp ev.type evtExternal) = false) ∨
      Authenticated tr a) : ∀ x ∈ handleRaised env o ev, GoodEv env tr x := by
  intro x hx
  unfold handleRaised at hx
  split at hx
  · rename_i p b hp hb
    simp only [List.mem_singleton] at hx
    subst hx
    exact goodEv_msg rfl (fun a hv => h p a hp hv)
  · exact absurd hx (by simp)

theorem handleRaised_target (t : Dhkey) (h : ∀ p a, ev.payload = .part p → p.via = some a →
    (Admission env p.subject ∧ (flagCmp ev.type evtInternal && flagCmp ev.type evtExternal) = false) ∨
      Authenticated tr a) :
    ∀ x ∈ handleRaised env o { ev with target := t }, GoodEv env tr x :=
  handleRaised_good (ev := { ev with target := t }) h

theorem isJoinIn_subject (h : isJoinIn env o k key ev = true) : ∃ p, ev.payload = .part p ∧ Admission env p.subject := by
  unfold isJoinIn partIn at h
  split at h
  · rename_i p hp
    split at hp
    · simp only [Bool.or_eq_true, equal_eq] at h
      refine ⟨p, ?_, Or.inr h⟩
      cases hpay : ev.payload <;> simp [Payload.part?, hpay] at hp
      rw [hp]
    · exact absurd hp (by simp)
  · exact absurd h (by simp)

/-- In a key in use every chunk it holds belongs to an authenticated connection. -/
theorem part_authenticated (he : GoodIn env tr (k, ev)) (hk : GoodKey env tr (k, key)) (hs : key.state = .useAlias)
    (hx : flagCmp ev.type evtExternal = true) : ∀ p a, ev.payload = .part p → p.via = some a → Authenticated tr a := by
  intro p a hp hv
  rcases he.part p a hp hv with ⟨h, _⟩ | h | h
  · have := hk.inUse hs
    simp only at h this
    rw [← h]; exact this
  · simp only [hx] at h; exact absurd h (by simp)
  · exact h

theorem releaseCache_state : (releaseCache o k key).1.state = key.state := by
  unfold releaseCache
  split
  · split
    · rfl
    · split <;> rfl
  · rfl

theorem releaseCache_cache : ∀ m ∈ (releaseCache o k key).1.cache, m ∈ key.cache := by
  unfold releaseCache
  intro m hm
  split at hm
  · split at hm
    · exact List.mem_of_mem_drop hm
    · split at hm
      · exact List.mem_of_mem_drop hm
      · exact hm
  · exact hm

theorem releaseCache_raised (hk : GoodKey env tr (k, key)) : ∀ x ∈ (releaseCache o k key).2, GoodEv env tr x := by
  unfold releaseCache
  intro x hx
  split at hx
  · split at hx
    · simp only [List.mem_map] at hx
      obtain ⟨m, hm, rfl⟩ := hx
      exact goodEv_msg rfl fun a hv =>
        (hk.cache m a (List.mem_of_mem_take hm) hv).imp_left fun h => ⟨h, by simp only; decide⟩
    · split at hx
      · simp only [List.mem_map] at hx
        obtain ⟨m, hm, rfl⟩ := hx
        exact goodEv_msg rfl fun a hv =>
        (hk.cache m a (List.mem_of_mem_take hm) hv).imp_left fun h => ⟨h, by simp only; decide⟩
      · exact absurd hx (by simp)
  · exact absurd hx (by simp)

theorem inJoin_good {b : Body} {conn : Dhkey} : ∀ x ∈ inJoin env o ex conn b, GoodEv env tr x := by
  intro x hx
  unfold inJoin at hx
  split at hx
  · exact absurd hx (by simp)
  · split at hx
    · exact absurd hx (by simp)
    · simp only at hx
      split at hx
      · split at hx
        · simp only [List.mem_cons, List.not_mem_nil, or_false] at hx
          rcases hx with rfl | rfl | rfl <;> exact goodEv_tok rfl (by simp only [evtAuthn, evtExternal, evtToken, evtShutdown]; decide)
        · exact absurd hx (by simp)
      · split at hx
        · exact absurd hx (by simp)
        · split at hx
          · exact absurd hx (by simp)
          · split at hx
            · exact absurd hx (by simp)
            · split at hx
              · simp only [List.mem_cons, List.not_mem_nil, or_false] at hx
                rcases hx with rfl | rfl | rfl <;> exact goodEv_tok rfl (by simp only [evtAuthn, evtExternal, evtToken, evtShutdown]; decide)
              · exact absurd hx (by simp)

theorem inLeave_good {b : Body} {conn : Dhkey} : ∀ x ∈ inLeave conn b, GoodEv env tr x := by
  intro x hx
  unfold inLeave at hx
  split at hx
  · exact absurd hx (by simp)
  · simp only [List.mem_cons, List.not_mem_nil, or_false] at hx
    rcases hx with rfl | rfl <;> exact goodEv_tok rfl (by simp only [evtAuthn, evtExternal, evtToken, evtShutdown]; decide)

theorem inHandshake_good {m : Msg} {conn : Dhkey} :
    (∀ x ∈ (inHandshake o key conn m).raised, GoodEv env tr x) ∧ (inHandshake o key conn m).key = key := by
  unfold inHandshake
  split
  · split
    · split
      · simp only
        split
        · refine ⟨?_, rfl⟩
          intro x hx
          simp only [List.mem_cons, List.not_mem_nil, or_false] at hx
          rcases hx with rfl | rfl <;> exact goodEv_tok rfl (by simp only [evtAuthn, evtExternal, evtToken, evtShutdown]; decide)
        · refine ⟨?_, rfl⟩
          intro x hx
          simp only [List.mem_singleton] at hx
          subst hx
          exact goodEv_tok rfl (by simp only [evtAuthn, evtExternal, evtToken, evtShutdown]; decide)
      · exact ⟨by simp, rfl⟩
    · exact ⟨by simp, rfl⟩
  · exact ⟨by simp, rfl⟩

/-! ### Every action -/

theorem aNoop_ok (hk : GoodKey env tr (k, key)) : OutOk env tr key (aNoop env o ex k key ev) :=
  outOk_quiet hk rfl rfl rfl rfl
theorem aWildcardSet_ok (hk : GoodKey env tr (k, key)) : OutOk env tr key (aWildcardSet env o ex k key ev) :=
  outOk_quiet hk rfl rfl rfl rfl
theorem aNodeSetNode_ok (hk : GoodKey env tr (k, key)) : OutOk env tr key (aNodeSetNode env o ex k key ev) :=
  outOk_quiet hk rfl rfl rfl rfl
theorem aAliasSetNode_ok (hk : GoodKey env tr (k, key)) : OutOk env tr key (aAliasSetNode env o ex k key ev) := by
  unfold aAliasSetNode
  refine outOk_quiet hk rfl rfl ?_ ?_ <;> simp only <;> split <;> rfl
theorem aAliasSet_ok (hk : GoodKey env tr (k, key)) : OutOk env tr key (aAliasSet env o ex k key ev) := by
  unfold aAliasSet
  split <;> exact outOk_quiet hk rfl rfl rfl rfl
theorem aNodeSet_ok (hk : GoodKey env tr (k, key)) : OutOk env tr key (aNodeSet env o ex k key ev) := by
  unfold aNodeSet
  split <;> exact outOk_quiet hk rfl rfl rfl rfl
theorem aSetIdentity_ok (hk : GoodKey env tr (k, key)) : OutOk env tr key (aSetIdentity env o ex k key ev) := by
  unfold aSetIdentity
  split
  · split
    · exact outOk_quiet hk rfl rfl rfl rfl
    · split <;> exact outOk_quiet hk rfl rfl rfl rfl
  · exact outOk_quiet hk rfl rfl rfl rfl
theorem aSetProperty_ok (hk : GoodKey env tr (k, key)) : OutOk env tr key (aSetProperty env o ex k key ev) := by
  unfold aSetProperty
  split <;> exact outOk_quiet hk rfl rfl rfl rfl
theorem aPropertyUpdate_ok (hk : GoodKey env tr (k, key)) : OutOk env tr key (aPropertyUpdate env o ex k key ev) := by
  unfold aPropertyUpdate
  split <;> exact outOk_quiet hk rfl rfl rfl rfl
theorem aUpdateToken_ok (hk : GoodKey env tr (k, key)) : OutOk env tr key (aUpdateToken env o ex k key ev) := by
  unfold aUpdateToken
  split <;> exact outOk_quiet hk rfl rfl rfl rfl
theorem aUpgrade_ok (hk : GoodKey env tr (k, key)) : OutOk env tr key (aUpgrade env o ex k key ev) := by
  unfold aUpgrade
  split <;> exact outOk_quiet hk rfl rfl rfl rfl
theorem aAliasShutdown_ok (hk : GoodKey env tr (k, key)) : OutOk env tr key (aAliasShutdown env o ex k key ev) :=
  outOk_quiet hk rfl rfl rfl rfl
theorem aDestroy_ok (hk : GoodKey env tr (k, key)) : OutOk env tr key (aDestroy env o ex k key ev) :=
  outOk_quiet hk rfl rfl rfl rfl
theorem aWildcardDestroy_ok (hk : GoodKey env tr (k, key)) : OutOk env tr key (aWildcardDestroy env o ex k key ev) :=
  outOk_quiet hk rfl rfl rfl rfl

theorem aDecrypt_ok (hk : GoodKey env tr (k, key)) : OutOk env tr key (aDecrypt env o ex k key ev) := by
  unfold aDecrypt
  split
  · refine outOk_raise hk ?_ rfl rfl rfl
    intro x hx
    simp only [List.mem_singleton] at hx
    subst hx
    refine goodEv_part rfl ?_
    intro a hv
    simp only [Option.some.injEq] at hv
    exact Or.inl ⟨hv, by simp only; decide⟩
  · exact outOk_quiet hk rfl rfl rfl rfl

theorem aHandleNp_ok (hk : GoodKey env tr (k, key))
    (h : ∀ p a, ev.payload = .part p → p.via = some a →
      (Admission env p.subject ∧ (flagCmp ev.type evtInternal && flagCmp ev.type evtExternal) = false) ∨
        Authenticated tr a) :
    OutOk env tr key (aHandleNp env o ex k key ev) :=
  outOk_raise hk (handleRaised_good h) rfl rfl rfl

theorem aPheromone_ok (hk : GoodKey env tr (k, key))
    (h : ∀ p a, ev.payload = .part p → p.via = some a → Authenticated tr a) :
    OutOk env tr key (aPheromone env o ex k key ev) := by
  unfold aPheromone
  split
  · exact outOk_raise hk (handleRaised_target _ fun p a h1 h2 => Or.inr (h p a h1 h2)) rfl rfl rfl
  · exact outOk_quiet hk rfl rfl rfl rfl

theorem aForward_ok (hk : GoodKey env tr (k, key))
    (h : ∀ p a, ev.payload = .part p → p.via = some a → Authenticated tr a) :
    OutOk env tr key (aForward env o ex k key ev) := by
  unfold aForward
  split
  · rename_i p hp
    refine ⟨?_, ?_, ?_, rfl⟩
    · intro x hx
      simp only [List.mem_singleton] at hx
      subst hx
      exact goodEv_part (p := p) (by simpa using hp) (fun a hv => Or.inr (Or.inr ((h p a hp hv).mono _)))
    · intro e he a hu
      simp only [List.mem_singleton] at he
      subst he
      exact h p a hp hu
    · intro m a hm hv
      exact (hk.cache m a hm hv).imp_right (·.mono _)
  · exact outOk_quiet hk rfl rfl rfl rfl

theorem aHandleUsr_ok (hk : GoodKey env tr (k, key))
    (h : ∀ p a, ev.payload = .part p → p.via = some a → Authenticated tr a) :
    OutOk env tr key (aHandleUsr env o ex k key ev) := by
  unfold aHandleUsr
  split
  · rename_i p hp
    have hf := aForward_ok (o := o) (ex := ex) (ev := { ev with target := p.audience }) hk h
    refine ⟨?_, hf.effects, hf.cache, hf.state⟩
    intro x hx
    rcases List.mem_append.1 hx with hx | hx
    · exact hf.raised x hx
    · exact (handleRaised_target (tr := tr) _ (fun p a h1 h2 => Or.inr (h p a h1 h2)) x hx).mono _
  · exact outOk_quiet hk rfl rfl rfl rfl

theorem mem_ite_nil {α : Type} {c : Bool} {l : List α} {x : α} (h : x ∈ if c = true then l else []) : x ∈ l := by
  split at h
  · exact h
  · exact absurd h (by simp)

theorem aDiscovery_ok (hk : GoodKey env tr (k, key))
    (h : ∀ p a, ev.payload = .part p → p.via = some a → Authenticated tr a) :
    OutOk env tr key (aDiscovery env o ex k key ev) := by
  unfold aDiscovery
  split
  · rename_i p hp
    refine ⟨?_, ?_, ?_, rfl⟩
    · intro x hx
      rcases List.mem_append.1 hx with hx | hx
      · split at hx
        · simp only [List.mem_singleton] at hx
          subst hx
          exact goodEv_part (p := p) (by simpa using hp) (fun a hv => Or.inr (Or.inr ((h p a hp hv).mono _)))
        · exact absurd hx (by simp)
      · exact (handleRaised_target (tr := tr) _ (fun p a h1 h2 => Or.inr (h p a h1 h2)) x (mem_ite_nil hx)).mono _
    · intro e he a hu
      simp only [List.mem_singleton] at he
      subst he
      exact h p a hp hu
    · intro m a hm hv
      exact (hk.cache m a hm hv).imp_right (·.mono _)
  · exact outOk_quiet hk rfl rfl rfl rfl

theorem aSplit_ok (hk : GoodKey env tr (k, key)) (he : GoodIn env tr (k, ev))
    (hi : flagCmp ev.type evtInternal = true) : OutOk env tr key (aSplit env o ex k key ev) := by
  unfold aSplit
  split
  · rename_i m hm
    refine outOk_raise hk ?_ rfl rfl rfl
    intro x hx
    simp only [List.mem_singleton] at hx
    subst hx
    refine goodEv_part rfl ?_
    intro a hv
    rcases he.msg m a hm hv with ⟨_, h⟩ | h
    · simp only [hi, Bool.true_and] at h
      exact Or.inr (Or.inl h)
    · exact Or.inr (Or.inr h)
  · exact outOk_quiet hk rfl rfl rfl rfl

theorem aSendShutdown_ok (hk : GoodKey env tr (k, key)) : OutOk env tr key (aSendShutdown env o ex k key ev) := by
  refine ⟨by simp [aSendShutdown], ?_, ?_, rfl⟩
  · intro e he a hu
    simp only [aSendShutdown, List.mem_singleton] at he
    subst he
    exact absurd hu (by simp [Uses])
  · intro m a hm hv
    exact (hk.cache m a hm hv).imp_right (·.mono _)

theorem aShutdownEvent_ok (hk : GoodKey env tr (k, key)) : OutOk env tr key (aShutdownEvent env o ex k key ev) := by
  refine outOk_raise hk ?_ rfl rfl rfl
  intro x hx
  simp only [aShutdownEvent, List.mem_singleton] at hx
  subst hx
  exact goodEv_none rfl

theorem aExtractHandshake_ok (hk : GoodKey env tr (k, key)) :
    OutOk env tr key (aExtractHandshake env o ex k key ev) := by
  unfold aExtractHandshake
  split
  · rename_i u s a b hp
    simp only
    split
    · rename_i hs
      refine outOk_raise hk ?_ rfl rfl rfl
      intro x hx
      simp only [List.mem_singleton] at hx
      subst hx
      refine goodEv_msg rfl ?_
      intro c hv
      rw [equal_eq] at hs
      exact Or.inl ⟨Or.inl hs.symm, by simp only; decide⟩
    · exact outOk_quiet hk rfl rfl rfl rfl
  · exact outOk_quiet hk rfl rfl rfl rfl

theorem goodEv_authn {j : Dhkey} {e : Event} {t : Tok} (hp : e.payload = .tok t) (h : Authenticated tr j) :
    GoodEv env tr (j, e) := by
  refine ⟨⟨fun _ _ _ => h, ?_, ?_⟩, ?_⟩
  · intro p a h; rw [hp] at h; exact absurd h (by simp)
  · intro p a h; rw [hp] at h; exact absurd h (by simp)
  · rw [hp]; simp

theorem flagCmp_node (t : Tok) : flagCmp t.ttype tNode = true ↔ t.ttype &&& 2 = 2 := flagCmp_iff _ _

theorem aHandleAuthn_ok (hk : GoodKey env tr (k, key)) : OutOk env tr key (aHandleAuthn env o ex k key ev) := by
  unfold aHandleAuthn
  split
  · rename_i t ht
    split
    · exact outOk_quiet hk rfl rfl rfl rfl
    · refine ⟨?_, ?_, ?_, rfl⟩
      · intro x hx
        simp only at hx ⊢
        split at hx
        · rename_i hok
          simp only [Bool.and_eq_true] at hok
          rw [hok.1]
          simp only [List.mem_cons, List.not_mem_nil, or_false] at hx
          rcases hx with rfl | rfl
          · refine goodEv_authn rfl ⟨t, ev.target, by simp, Or.inr ?_⟩
            simp only [flagCmp_node]
          · exact goodEv_authn rfl ⟨t, ev.target, by simp, Or.inl rfl⟩
        · split at hx
          · simp only [List.mem_singleton] at hx
            subst hx
            exact goodEv_none rfl
          · exact absurd hx (by simp)
      · intro e he a hu
        simp only [List.mem_singleton] at he
        subst he
        exact absurd hu (by simp [Uses])
      · intro m a hm hv
        exact (hk.cache m a hm hv).imp_right (·.mono _)
  · exact outOk_quiet hk rfl rfl rfl rfl

/-- Good events stay good when an effect is appended. -/
theorem good_append {l : List (Dhkey × Event)} (h : ∀ x ∈ l, GoodEv env tr x) (y : List Effect) :
    ∀ x ∈ l, GoodEv env (tr ++ y) x := fun x hx => (h x hx).mono y

theorem aHandleIn_ok (hk : GoodKey env tr (k, key)) (he : GoodIn env tr (k, ev)) :
    OutOk env tr key (aHandleIn env o ex k key ev) := by
  unfold aHandleIn
  split
  · rename_i m c hm hc
    have huse : ∀ a, Uses env a (.processed k m) → Authenticated tr a := by
      intro a ⟨hv, hn⟩
      exact (he.msg m a hm hv).resolve_left fun h => hn h.1
    have hcache : ∀ y, ∀ m' a, m' ∈ key.cache → m'.via = some a →
        Admission env m'.subject ∨ Authenticated (tr ++ y) a :=
      fun y m' a h1 h2 => (hk.cache m' a h1 h2).imp_right (·.mono y)
    split
    · have heff : ∀ e ∈ [Effect.processed k m], ∀ a, Uses env a e → Authenticated tr a := by
        intro e h1 a hu
        simp only [List.mem_singleton] at h1
        subst h1
        exact huse a hu
      split
      · cases c.handler with
        | join => exact ⟨good_append inJoin_good _, heff, hcache _, rfl⟩
        | leave => exact ⟨good_append inLeave_good _, heff, hcache _, rfl⟩
        | handshake =>
          have h := inHandshake_good (env := env) (tr := tr) (o := o) (key := key) (m := m) (conn := ev.target)
          refine ⟨good_append h.1 _, heff, ?_, ?_⟩
          · simp only [h.2]; exact hcache _
          · simp only [h.2]
        | other => exact ⟨by simp, heff, hcache _, rfl⟩
        | user => exact ⟨by simp, heff, hcache _, rfl⟩
      · exact ⟨by simp, heff, hcache _, rfl⟩
    · simp only
      refine ⟨good_append (releaseCache_raised hk) _, ?_, ?_, releaseCache_state⟩
      · intro e h1 a hu
        simp only at h1
        split at h1
        · simp only [List.mem_singleton] at h1
          subst h1
          exact huse a hu
        · exact absurd h1 (by simp)
      · intro m' a h1 h2
        exact hcache _ m' a (releaseCache_cache m' h1) h2
  · exact outOk_quiet hk rfl rfl rfl rfl

theorem aHandleOut_ok (hk : GoodKey env tr (k, key)) : OutOk env tr key (aHandleOut env o ex k key ev) := by
  refine ⟨by simp [aHandleOut], ?_, ?_, rfl⟩
  · intro e he a hu
    simp only [aHandleOut, List.mem_singleton] at he
    subst he
    exact absurd hu (by simp [Uses])
  · intro m a hm hv
    exact (hk.cache m a hm hv).imp_right (·.mono _)

theorem aAddToCache_ok (hk : GoodKey env tr (k, key)) (he : GoodIn env tr (k, ev)) :
    OutOk env tr key (aAddToCache env o ex k key ev) := by
  unfold aAddToCache
  split
  · rename_i m hm
    refine ⟨by simp, by simp, ?_, rfl⟩
    intro m' a h1 h2
    rw [List.append_nil]
    rcases List.mem_append.1 h1 with h1 | h1
    · exact hk.cache m' a h1 h2
    · simp only [List.mem_singleton] at h1
      subst h1
      exact (he.msg m' a hm h2).imp_left (·.1)
  · exact outOk_quiet hk rfl rfl rfl rfl

theorem aPropertyCheck_ok (hk : GoodKey env tr (k, key)) : OutOk env tr key (aPropertyCheck env o ex k key ev) := by
  unfold aPropertyCheck
  split
  · split
    · exact outOk_quiet hk rfl rfl rfl rfl
    · refine ⟨good_append (releaseCache_raised hk) _, by simp, ?_, releaseCache_state⟩
      intro m' a h1 h2
      rw [List.append_nil]
      exact hk.cache m' a (releaseCache_cache m' h1) h2
  · exact outOk_quiet hk rfl rfl rfl rfl

/-! ## The transition table -/

theorem firstTransition_some {l : List Transition} {t : Transition}
    (h : firstTransition env o k key ev l = some t) : t ∈ l ∧ t.cond env o k key ev = true := by
  induction l with
  | nil => simp [firstTransition] at h
  | cons x r ih =>
    simp only [firstTransition] at h
    split at h
    · rename_i hc
      simp only [Option.some.injEq] at h
      subst h
      exact ⟨List.mem_cons_self, hc⟩
    · exact ⟨List.mem_cons_of_mem _ (ih h).1, (ih h).2⟩

theorem partIn_external {p : Part} (h : partIn key ev = some p) : flagCmp ev.type evtExternal = true := by
  unfold partIn at h
  split at h
  · rename_i hc
    simp only [Bool.and_eq_true] at hc
    exact hc.2
  · exact absurd h (by simp)

theorem isForward_external (h : isForward env o k key ev = true) : flagCmp ev.type evtExternal = true := by
  unfold isForward at h
  split at h
  · rename_i p hp; exact partIn_external hp
  · exact absurd h (by simp)
theorem isDiscovery_external (h : isDiscovery env o k key ev = true) : flagCmp ev.type evtExternal = true := by
  unfold isDiscovery at h
  simp only [Bool.and_eq_true] at h
  exact isForward_external h.1
theorem isPheromone_external (h : isPheromone env o k key ev = true) : flagCmp ev.type evtExternal = true := by
  unfold isPheromone at h
  split at h
  · rename_i p hp; exact partIn_external hp
  · exact absurd h (by simp)
theorem isDht_external (h : isDht env o k key ev = true) : flagCmp ev.type evtExternal = true := by
  unfold isDht at h
  split at h
  · rename_i p hp; exact partIn_external hp
  · exact absurd h (by simp)
theorem isUsrIn_external {ci : Dhkey → Option Conf} (h : isUsrIn ci env o k key ev = true) :
    flagCmp ev.type evtExternal = true := by
  unfold isUsrIn at h
  split at h
  · rename_i p hp; exact partIn_external hp
  · exact absurd h (by simp)
theorem isJoinIn_external (h : isJoinIn env o k key ev = true) : flagCmp ev.type evtExternal = true := by
  unfold isJoinIn at h
  split at h
  · rename_i p hp; exact partIn_external hp
  · exact absurd h (by simp)
theorem isNpMessage_internal (h : isNpMessage env o k key ev = true) : flagCmp ev.type evtInternal = true := by
  unfold isNpMessage at h
  simp only [Bool.and_eq_true] at h
  exact h.1.1.1

theorem isNodeAuthn_flags (h : isNodeAuthn env o k key ev = true) :
    ∃ t, ev.payload = .tok t ∧ ev.type &&& 0x121 = 0x121 := by
  unfold isNodeAuthn at h
  simp only [Bool.and_eq_true, flagCmp_iff, evtInternal, evtToken, evtAuthn] at h
  obtain ⟨⟨⟨h1, h2⟩, h3⟩, h4⟩ := h
  split at h4
  · rename_i t ht
    refine ⟨t, ht, ?_⟩
    generalize ev.type = f at *
    revert f
    intro f h1 h2 h3
    have e : (0x121 : BitVec 16) = (1 ||| 0x20) ||| 0x100 := by decide
    rw [e, BitVec.and_or_distrib_left, BitVec.and_or_distrib_left, h1, h2, h3]
  · exact absurd h4 (by simp)

/-- Every transition of the table is fine. -/
theorem transition_ok {ci : Dhkey → Option Conf} {t : Transition} (hk : GoodKey env tr (k, key))
    (he : GoodIn env tr (k, ev)) (ht : t ∈ transitions ci key.state) (hc : t.cond env o k key ev = true) :
    OutOk env tr key (t.act env o ex k key ev) ∧
      (t.target = .useAlias → Authenticated tr k) := by
  cases hs : key.state <;> rw [hs] at ht <;>
    simp only [transitions, List.mem_cons, List.not_mem_nil, or_false] at ht
  · rcases ht with rfl | rfl | rfl | rfl | rfl | rfl | rfl | rfl | rfl <;> refine ⟨?_, by simp⟩
    · exact aWildcardSet_ok (o := o) (ex := ex) (ev := ev) hk
    · exact aNodeSetNode_ok (o := o) (ex := ex) (ev := ev) hk
    · exact aAliasSet_ok (o := o) (ex := ex) (ev := ev) hk
    · exact aAliasSetNode_ok (o := o) (ex := ex) (ev := ev) hk
    · exact aNodeSet_ok (o := o) (ex := ex) (ev := ev) hk
    · exact aNodeSet_ok (o := o) (ex := ex) (ev := ev) hk
    · exact aSetIdentity_ok (o := o) (ex := ex) (ev := ev) hk
    · exact aSetProperty_ok (o := o) (ex := ex) (ev := ev) hk
    · exact aNoop_ok (o := o) (ex := ex) (ev := ev) hk
  · rcases ht with rfl | rfl | rfl | rfl | rfl | rfl | rfl | rfl | rfl | rfl | rfl <;> refine ⟨?_, by simp⟩
    · exact aNoop_ok (o := o) (ex := ex) (ev := ev) hk
    · exact aNoop_ok (o := o) (ex := ex) (ev := ev) hk
    · exact aNoop_ok (o := o) (ex := ex) (ev := ev) hk
    · exact aSplit_ok (o := o) (ex := ex) (ev := ev) hk he (isNpMessage_internal (env := env) (o := o) (k := k) hc)
    · exact aUpdateToken_ok (o := o) (ex := ex) (ev := ev) hk
    · exact aUpdateToken_ok (o := o) (ex := ex) (ev := ev) hk
    · exact aNoop_ok (o := o) (ex := ex) (ev := ev) hk
    · exact aUpgrade_ok (o := o) (ex := ex) (ev := ev) hk
    · exact aDestroy_ok (o := o) (ex := ex) (ev := ev) hk
    · exact aDestroy_ok (o := o) (ex := ex) (ev := ev) hk
    · exact aNoop_ok (o := o) (ex := ex) (ev := ev) hk
  · rcases ht with rfl | rfl | rfl | rfl | rfl
    · exact ⟨aDecrypt_ok (o := o) (ex := ex) (ev := ev) hk, by simp⟩
    · refine ⟨aHandleNp_ok (o := o) (ex := ex) (ev := ev) hk ?_, by simp⟩
      intro p a hp hv
      obtain ⟨q, hq, hsub⟩ := isJoinIn_subject (env := env) (o := o) (k := k) hc
      rw [hp] at hq
      cases hq
      have hx := isJoinIn_external (env := env) (o := o) (k := k) hc
      rcases he.part p a hp hv with ⟨_, h⟩ | h | h
      · simp only at h
        exact Or.inl ⟨hsub, by rw [h]; rfl⟩
      · simp only [hx] at h; exact absurd h (by simp)
      · exact Or.inr h
    · exact ⟨aUpdateToken_ok (o := o) (ex := ex) (ev := ev) hk, by simp⟩
    · refine ⟨aUpgrade_ok (o := o) (ex := ex) (ev := ev) hk, fun _ => ?_⟩
      obtain ⟨t, h1, h2⟩ := isNodeAuthn_flags (env := env) (o := o) (k := k) (key := key) hc
      exact he.authn t h1 h2
    · exact ⟨aDestroy_ok (o := o) (ex := ex) (ev := ev) hk, by simp⟩
  · rcases ht with rfl | rfl | rfl | rfl <;> refine ⟨?_, by simp⟩
    · exact aNoop_ok (o := o) (ex := ex) (ev := ev) hk
    · exact aWildcardDestroy_ok (o := o) (ex := ex) (ev := ev) hk
    · exact aWildcardDestroy_ok (o := o) (ex := ex) (ev := ev) hk
    · exact aNoop_ok (o := o) (ex := ex) (ev := ev) hk
  · subst ht
    exact ⟨aDestroy_ok (o := o) (ex := ex) (ev := ev) hk, by simp⟩
  · rcases ht with rfl | rfl | rfl | rfl | rfl | rfl <;> refine ⟨?_, by simp⟩
    · exact aExtractHandshake_ok (o := o) (ex := ex) (ev := ev) hk
    · exact aHandleAuthn_ok (o := o) (ex := ex) (ev := ev) hk
    · exact aNoop_ok (o := o) (ex := ex) (ev := ev) hk
    · exact aNoop_ok (o := o) (ex := ex) (ev := ev) hk
    · exact aNoop_ok (o := o) (ex := ex) (ev := ev) hk
    · exact aNoop_ok (o := o) (ex := ex) (ev := ev) hk
  · rcases ht with rfl | rfl | rfl | rfl | rfl | rfl | rfl <;> refine ⟨?_, by simp⟩
    · exact aNoop_ok (o := o) (ex := ex) (ev := ev) hk
    · exact aSplit_ok (o := o) (ex := ex) (ev := ev) hk he (isNpMessage_internal (env := env) (o := o) (k := k) hc)
    · exact aNoop_ok (o := o) (ex := ex) (ev := ev) hk
    · exact aSendShutdown_ok (o := o) (ex := ex) (ev := ev) hk
    · exact aShutdownEvent_ok (o := o) (ex := ex) (ev := ev) hk
    · exact aSendShutdown_ok (o := o) (ex := ex) (ev := ev) hk
    · exact aNoop_ok (o := o) (ex := ex) (ev := ev) hk
  · have ha : ∀ _ : flagCmp ev.type evtExternal = true, ∀ p a, ev.payload = .part p → p.via = some a →
        Authenticated tr a := fun hx => part_authenticated he hk hs hx
    rcases ht with rfl | rfl | rfl | rfl | rfl | rfl | rfl | rfl | rfl | rfl <;> refine ⟨?_, fun _ => hk.inUse hs⟩
    · exact aDecrypt_ok (o := o) (ex := ex) (ev := ev) hk
    · exact aHandleUsr_ok (o := o) (ex := ex) (ev := ev) hk (ha (isUsrIn_external (env := env) (o := o) (k := k) hc))
    · exact aHandleNp_ok (o := o) (ex := ex) (ev := ev) hk fun p a h1 h2 => Or.inr (ha (isDht_external (env := env) (o := o) (k := k) hc) p a h1 h2)
    · exact aPheromone_ok (o := o) (ex := ex) (ev := ev) hk (ha (isPheromone_external (env := env) (o := o) (k := k) hc))
    · exact aDiscovery_ok (o := o) (ex := ex) (ev := ev) hk (ha (isDiscovery_external (env := env) (o := o) (k := k) hc))
    · exact aForward_ok (o := o) (ex := ex) (ev := ev) hk (ha (isForward_external (env := env) (o := o) (k := k) hc))
    · exact aDestroy_ok (o := o) (ex := ex) (ev := ev) hk
    · exact aAliasShutdown_ok (o := o) (ex := ex) (ev := ev) hk
    · exact aNoop_ok (o := o) (ex := ex) (ev := ev) hk
    · exact aNoop_ok (o := o) (ex := ex) (ev := ev) hk
  · rcases ht with rfl | rfl | rfl | rfl | rfl | rfl | rfl | rfl | rfl <;> refine ⟨?_, by simp⟩
    · exact aNoop_ok (o := o) (ex := ex) (ev := ev) hk
    · exact aNoop_ok (o := o) (ex := ex) (ev := ev) hk
    · exact aNoop_ok (o := o) (ex := ex) (ev := ev) hk
    · exact aHandleIn_ok (o := o) (ex := ex) (ev := ev) hk he
    · exact aHandleOut_ok (o := o) (ex := ex) (ev := ev) hk
    · exact aNoop_ok (o := o) (ex := ex) (ev := ev) hk
    · exact aAddToCache_ok (o := o) (ex := ex) (ev := ev) hk he
    · exact aPropertyUpdate_ok (o := o) (ex := ex) (ev := ev) hk
    · exact aPropertyCheck_ok (o := o) (ex := ex) (ev := ev) hk
  · subst ht
    exact ⟨aNoop_ok (o := o) (ex := ex) (ev := ev) hk, by simp⟩

end

/-! ## The world -/

theorem mem_setKey {k : Dhkey} {key : Key} {l : List (Dhkey × Key)} {x : Dhkey × Key} (h : x ∈ setKey k key l) :
    x ∈ l ∨ x = (k, key) := by
  induction l with
  | nil => simp [setKey] at h
  | cons y r ih =>
    obtain ⟨j, z⟩ := y
    simp only [setKey] at h
    split at h
    · rename_i hj
      rcases List.mem_cons.1 h with h | h
      · right; rw [h, eq_of_beq hj]
      · left; exact List.mem_cons_of_mem _ h
    · rcases List.mem_cons.1 h with h | h
      · left; rw [h]; exact List.mem_cons_self
      · rcases ih h with h | h
        · left; exact List.mem_cons_of_mem _ h
        · right; exact h

theorem lookup_mem {k : Dhkey} {key : Key} {l : List (Dhkey × Key)} (h : l.lookup k = some key) : (k, key) ∈ l := by
  induction l with
  | nil => simp at h
  | cons y r ih =>
    obtain ⟨j, z⟩ := y
    simp only [List.lookup_cons] at h
    split at h
    · rename_i hj
      simp only [Option.some.injEq] at h
      rw [eq_of_beq hj, h]
      exact List.mem_cons_self
    · exact List.mem_cons_of_mem _ (ih h)

theorem goodKey_new {env : Env} {tr : List Effect} {k : Dhkey} : GoodKey env tr (k, {}) :=
  ⟨fun h => by simp at h, fun m a h => by simp at h⟩

theorem findOrCreate_good {env : Env} {tr : List Effect} {w : World} {k : Dhkey}
    (h : ∀ x ∈ w.keys, GoodKey env tr x) : ∀ x ∈ (w.findOrCreate k).keys, GoodKey env tr x := by
  unfold World.findOrCreate
  split
  · exact h
  · intro x hx
    rcases List.mem_append.1 hx with hx | hx
    · exact h x hx
    · simp only [List.mem_singleton] at hx
      subst hx
      exact goodKey_new

theorem findOrCreate_rest (w : World) (k : Dhkey) :
    (w.findOrCreate k).pending = w.pending ∧ (w.findOrCreate k).trace = w.trace := by
  unfold World.findOrCreate
  split <;> exact ⟨rfl, rfl⟩

theorem reparent_good {env : Env} {tr : List Effect} {w : World} {x : Dhkey × Dhkey}
    (h : ∀ x ∈ w.keys, GoodKey env tr x) : ∀ y ∈ (w.reparent x).keys, GoodKey env tr y := by
  unfold World.reparent
  split
  · rename_i key hkey
    intro y hy
    rcases mem_setKey hy with hy | hy
    · exact h y hy
    · subst hy
      have := h _ (lookup_mem hkey)
      exact ⟨this.inUse, this.cache⟩
  · exact h

theorem reparent_rest (w : World) (x : Dhkey × Dhkey) :
    (w.reparent x).pending = w.pending ∧ (w.reparent x).trace = w.trace := by
  unfold World.reparent
  split <;> exact ⟨rfl, rfl⟩

theorem foldl_create_good {env : Env} {tr : List Effect} (l : List Dhkey) : ∀ {w : World},
    (∀ x ∈ w.keys, GoodKey env tr x) →
    (∀ x ∈ (l.foldl World.findOrCreate w).keys, GoodKey env tr x) ∧
      (l.foldl World.findOrCreate w).pending = w.pending ∧ (l.foldl World.findOrCreate w).trace = w.trace := by
  induction l with
  | nil => intro w h; exact ⟨h, rfl, rfl⟩
  | cons a r ih =>
    intro w h
    have := ih (findOrCreate_good (k := a) h)
    rw [List.foldl_cons]
    rw [(findOrCreate_rest w a).1, (findOrCreate_rest w a).2] at this
    exact this

theorem foldl_reparent_good {env : Env} {tr : List Effect} (l : List (Dhkey × Dhkey)) : ∀ {w : World},
    (∀ x ∈ w.keys, GoodKey env tr x) →
    (∀ x ∈ (l.foldl World.reparent w).keys, GoodKey env tr x) ∧
      (l.foldl World.reparent w).pending = w.pending ∧ (l.foldl World.reparent w).trace = w.trace := by
  induction l with
  | nil => intro w h; exact ⟨h, rfl, rfl⟩
  | cons a r ih =>
    intro w h
    have := ih (reparent_good (x := a) h)
    rw [List.foldl_cons]
    rw [(reparent_rest w a).1, (reparent_rest w a).2] at this
    exact this

theorem onExit_keep (s : KState) (key : Key) : (onExit s key).cache = key.cache ∧ (onExit s key).state = key.state := by
  cases s <;> exact ⟨rfl, rfl⟩

theorem onEnter_keep (o : Oracle) (s : KState) (key : Key) :
    (onEnter o s key).cache = key.cache ∧ (onEnter o s key).state = key.state := by
  cases s <;> first | exact ⟨rfl, rfl⟩ | (simp only [onEnter]; split <;> exact ⟨rfl, rfl⟩)

theorem afterTransition_keep (o : Oracle) (old target : KState) (key : Key) (h : key.state = old) :
    (afterTransition o old target key).cache = key.cache ∧ (afterTransition o old target key).state = target := by
  unfold afterTransition
  split
  · rename_i he
    exact ⟨rfl, by rw [h, eq_of_beq he]⟩
  · rw [(onEnter_keep ..).1, (onEnter_keep ..).2]
    exact ⟨(onExit_keep ..).1, rfl⟩

theorem handle_inv {env : Env} {o : Oracle} {w : World} {k : Dhkey} {ev : Event} (h : Inv env w)
    (he : GoodIn env w.trace (k, ev)) : Inv env (handle env o w k ev) := by
  unfold handle
  split
  · exact h
  · rename_i key hkey
    have hk := h.keys _ (lookup_mem hkey)
    split
    · exact h
    · rename_i t ht
      obtain ⟨hm, hc⟩ := firstTransition_some ht
      obtain ⟨hout, huse⟩ := transition_ok (ex := w.has) hk he hm hc
      generalize hgo : t.act env o w.has k key ev = out at hout
      unfold World.apply
      simp only
      have hkeys : ∀ x ∈ (if (t.target == KState.destroy) = true then w.remove k else
          { w with keys := setKey k (afterTransition o key.state t.target out.key) w.keys } : World).keys,
          GoodKey env (w.trace ++ out.effects) x := by
        intro x hx
        split at hx
        · simp only [World.remove] at hx
          exact (h.keys x (List.mem_filter.1 hx).1).mono _
        · rcases mem_setKey hx with hx | hx
          · exact (h.keys x hx).mono _
          · subst hx
            have hkeep := afterTransition_keep o key.state t.target out.key hout.state
            refine ⟨?_, ?_⟩
            · simp only [hkeep.2]
              intro hu
              exact (huse hu).mono _
            · simp only [hkeep.1]
              exact hout.cache
      have hrest : (if (t.target == KState.destroy) = true then w.remove k else
          { w with keys := setKey k (afterTransition o key.state t.target out.key) w.keys } : World).pending = w.pending ∧
        (if (t.target == KState.destroy) = true then w.remove k else
          { w with keys := setKey k (afterTransition o key.state t.target out.key) w.keys } : World).trace = w.trace := by
        split <;> exact ⟨rfl, rfl⟩
      generalize (if (t.target == KState.destroy) = true then w.remove k else
          { w with keys := setKey k (afterTransition o key.state t.target out.key) w.keys } : World) = w1 at hkeys hrest
      obtain ⟨a1, a2, a3⟩ := foldl_create_good out.create hkeys
      obtain ⟨b1, b2, b3⟩ := foldl_reparent_good out.reparent a1
      rw [a2] at b2
      rw [a3] at b3
      refine ⟨?_, ?_, ?_⟩
      · simp only [b2, b3, hrest.1, hrest.2]
        intro x hx
        rcases List.mem_append.1 hx with hx | hx
        · exact (h.evs x hx).mono _
        · exact hout.raised x hx
      · simp only [b3, hrest.2]
        exact b1
      · simp only [b3, hrest.2]
        exact h.trace.append _ hout.effects

theorem findOrCreate_inv {env : Env} {w : World} {k : Dhkey} (h : Inv env w) : Inv env (w.findOrCreate k) := by
  refine ⟨?_, ?_, ?_⟩
  · rw [(findOrCreate_rest w k).1, (findOrCreate_rest w k).2]; exact h.evs
  · rw [(findOrCreate_rest w k).2]; exact findOrCreate_good h.keys
  · rw [(findOrCreate_rest w k).2]; exact h.trace

theorem post_inv {env : Env} {w : World} {k : Dhkey} {e : Event} (h : Inv env w) (he : GoodEv env w.trace (k, e)) :
    Inv env (w.post k e) := by
  refine ⟨?_, h.keys, h.trace⟩
  intro x hx
  rcases List.mem_append.1 hx with hx | hx
  · exact h.evs x hx
  · simp only [List.mem_singleton] at hx
    subst hx
    exact he

theorem goodIn_run {env : Env} {tr : List Effect} {k : Dhkey} {e : Event} (hp : e.payload = .run) :
    GoodIn env tr (k, e) := by
  refine ⟨?_, ?_, ?_⟩
  · intro p h; rw [hp] at h; exact absurd h (by simp)
  · intro p a h; rw [hp] at h; exact absurd h (by simp)
  · intro p a h; rw [hp] at h; exact absurd h (by simp)

theorem goodEv_foreign {env : Env} {tr : List Effect} {k : Dhkey} {e : Event} (h : Foreign e) :
    GoodEv env tr (k, e) := by
  refine ⟨⟨?_, ?_, ?_⟩, h.2.2.2⟩
  · intro t h1 h2; exact absurd h2 (h.2.2.1 t h1)
  · intro p a h1 h2; rw [h.1 p h1] at h2; exact absurd h2 (by simp)
  · intro p a h1 h2; rw [h.2.1 p h1] at h2; exact absurd h2 (by simp)

theorem erase_inv {env : Env} {w : World} {n : Nat} (h : Inv env w) :
    Inv env { w with pending := w.pending.eraseIdx n } :=
  ⟨fun x hx => h.evs x (List.mem_of_mem_eraseIdx hx), h.keys, h.trace⟩

theorem onPacket_inv {env : Env} {o : Oracle} {w : World} {owner conn : Dhkey} {n : Nat} (h : Inv env w) :
    Inv env (onPacket o w owner conn n) := by
  unfold onPacket
  simp only
  split
  · split <;> exact post_inv h (goodEv_blob rfl)
  · exact post_inv (post_inv (findOrCreate_inv h) (goodEv_node rfl)) (goodEv_blob rfl)

theorem onRegister_inv {env : Env} {o : Oracle} {w : World} {c : Conf} (h : Inv env w) :
    Inv env (onRegister env o w c) := by
  unfold onRegister
  simp only
  have h1 : ∀ w' : World, Inv env w' → ∀ k e, e.payload = .conf { c with inKey := env.inKey c.subject, outKey := env.outKey c.subject } →
      Inv env (handle env o (w'.findOrCreate k) k e) :=
    fun w' hw k e he => handle_inv (findOrCreate_inv hw) (goodEv_conf he).toGoodIn
  split
  · split
    · exact h1 _ (h1 _ h _ _ rfl) _ _ rfl
    · exact h1 _ h _ _ rfl
  · split
    · exact h1 _ h _ _ rfl
    · exact h

theorem onLifecycle_inv {env : Env} {o : Oracle} {w : World} {f : Flags} {s : Dhkey} (h : Inv env w) :
    Inv env (onLifecycle env o w f s) := by
  unfold onLifecycle
  simp only
  split
  · split
    · exact handle_inv (handle_inv h (goodIn_run rfl)) (goodIn_run rfl)
    · exact handle_inv h (goodIn_run rfl)
  · split
    · exact handle_inv h (goodIn_run rfl)
    · exact h

theorem step_inv {env : Env} {w : World} {i : Oracle × Input} (h : Inv env w) (ha : Allowed i.2) :
    Inv env (step env w i) := by
  obtain ⟨o, i⟩ := i
  cases i with
  | exec n =>
    simp only [step]
    split
    · rename_i k e hn
      exact handle_inv (erase_inv h) (h.evs _ (List.mem_of_getElem? hn)).toGoodIn
    · exact h
  | packet a b n => exact onPacket_inv h
  | tick k => exact handle_inv h (goodEv_none rfl).toGoodIn
  | register c => exact onRegister_inv h
  | enable s => exact onLifecycle_inv h
  | disable s => exact onLifecycle_inv h
  | send s m =>
    refine post_inv h (goodEv_msg rfl ?_)
    intro a hv
    exact absurd hv (by simp)
  | other k e => exact post_inv h (goodEv_foreign ha)

theorem run_inv {env : Env} {is : List (Oracle × Input)} : ∀ {w : World}, Inv env w → (∀ i ∈ is, Allowed i.2) →
    Inv env (run env w is) := by
  induction is with
  | nil => intro w h _; exact h
  | cons i r ih =>
    intro w h ha
    exact ih (step_inv h (ha i List.mem_cons_self)) (fun j hj => ha j (List.mem_cons_of_mem _ hj))

theorem fresh_inv {env : Env} {w : World} (h : Fresh w) : Inv env w := by
  obtain ⟨h1, h2, h3⟩ := h
  refine ⟨by rw [h2]; simp, ?_, ?_⟩
  · rintro ⟨k, key⟩ hx
    obtain ⟨a, b⟩ := h3 k key hx
    exact ⟨fun h => absurd h a, fun m c hm => by simp only [b] at hm; exact absurd hm (by simp)⟩
  · intro pre e post a heq
    rw [h1] at heq
    exact absurd heq (by simp)

end Np.Keys
