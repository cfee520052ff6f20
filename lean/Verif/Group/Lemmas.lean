import Verif.Group.Spec
/-! # Lemmas about the keys of a channel -/
namespace Np.Group
open _root_.Np.Group.Spec

section maps
variable {Id V : Type} [DecidableEq Id]

theorem lookup_append (t : List (Id × V)) (i : Id) (v : V) (j : Id) : lookup (t ++ [(i, v)]) j = match lookup t j with
    | some w => some w
    | none => if i = j then some v else none := by
  induction t with
  | nil => rfl
  | cons e t ih =>
    obtain ⟨a, w⟩ := e
    simp only [List.cons_append, lookup]
    by_cases h : a = j
    · simp [h]
    · simp only [if_neg h]; exact ih

theorem lookup_insert_other (t : List (Id × V)) (i : Id) (v : V) (j : Id) (h : j ≠ i) : lookup (insert t i v) j = lookup t j := by
  rw [insert]
  split
  · rw [lookup_append]
    cases lookup t j with
    | none => simp [Ne.symm h]
    | some w => rfl
  · rfl

theorem lookup_insert_new (t : List (Id × V)) (i : Id) (v : V) (h : lookup t i = none) : lookup (insert t i v) i = some v := by
  rw [insert, h]
  simp only
  rw [lookup_append, h]
  simp

theorem lookup_insert_keep (t : List (Id × V)) (i : Id) (v : V) (j : Id) (w : V) (h : lookup t j = some w) : lookup (insert t i v) j = some w := by
  by_cases e : j = i
  · subst e; rw [insert, h]; exact h
  · rw [lookup_insert_other _ _ _ _ e, h]

theorem lookup_replace (t : List (Id × V)) (i : Id) (v : V) (j : Id) : lookup (replace t i v) j = if j = i then some v else lookup t j := by
  induction t with
  | nil => simp only [replace, lookup]; simp [eq_comm]
  | cons e t ih =>
    obtain ⟨a, w⟩ := e
    simp only [replace]
    by_cases h : a = i
    · subst h
      simp only [if_true, lookup]
      by_cases h2 : a = j
      · simp [h2]
      · simp [h2, Ne.symm h2]
    · simp only [if_neg h, lookup]
      by_cases h2 : a = j
      · subst h2; simp [h]
      · simp only [if_neg h2]; exact ih

theorem lookup_erase (t : List (Id × V)) (i j : Id) : lookup (erase t i) j = if j = i then none else lookup t j := by
  induction t with
  | nil => simp [erase, lookup]
  | cons e t ih =>
    obtain ⟨a, w⟩ := e
    simp only [erase] at ih ⊢
    by_cases h : a = i
    · subst h
      rw [List.filter_cons_of_neg (by simp), ih]
      simp only [lookup]
      by_cases h2 : j = a
      · simp [h2]
      · simp [h2, Ne.symm h2]
    · rw [List.filter_cons_of_pos (by simpa using h)]
      simp only [lookup]
      by_cases h2 : a = j
      · subst h2; simp [h]
      · simp only [if_neg h2]; exact ih

theorem mem_of_lookup (t : List (Id × V)) (i : Id) (v : V) (h : lookup t i = some v) : (i, v) ∈ t := by
  induction t with
  | nil => cases h
  | cons e t ih =>
    obtain ⟨a, w⟩ := e
    simp only [lookup] at h
    split at h
    · next e => subst e; cases h; exact List.mem_cons_self ..
    · exact List.mem_cons_of_mem _ (ih h)

theorem lookup_of_mem (t : List (Id × V)) (i : Id) (v : V) (h : (i, v) ∈ t) : lookup t i ≠ none := by
  induction t with
  | nil => cases h
  | cons e t ih =>
    obtain ⟨a, w⟩ := e
    simp only [lookup]
    split
    · simp
    · next ne =>
      rcases List.mem_cons.1 h with r | r
      · cases r; exact absurd rfl ne
      · exact ih r

theorem mem_replace (t : List (Id × V)) (i : Id) (v : V) (e : Id × V) (h : e ∈ replace t i v) : e = (i, v) ∨ e ∈ t := by
  induction t with
  | nil => exact Or.inl (by simpa [replace] using h)
  | cons a t ih =>
    obtain ⟨a, w⟩ := a
    simp only [replace] at h
    split at h
    · rcases List.mem_cons.1 h with r | r
      · exact Or.inl r
      · exact Or.inr (List.mem_cons_of_mem _ r)
    · rcases List.mem_cons.1 h with r | r
      · exact Or.inr (r ▸ List.mem_cons_self ..)
      · exact (ih r).imp id (List.mem_cons_of_mem _)

theorem mem_insert (t : List (Id × V)) (i : Id) (v : V) (e : Id × V) (h : e ∈ insert t i v) : e = (i, v) ∨ e ∈ t := by
  rw [insert] at h
  split at h
  · rcases List.mem_append.1 h with r | r
    · exact Or.inr r
    · exact Or.inl (by simpa using r)
  · exact Or.inr h

end maps

variable {Fp Id K : Type} [DecidableEq Fp] [DecidableEq Id]

theorem run_append (ids : Ids Fp Id) (a b : List (Op Fp K)) : ∀ s, run ids s (a ++ b) = (run ids s a).bind fun s => run ids s b := by
  induction a with
  | nil => intro s; rfl
  | cons o a ih =>
    intro s
    simp only [List.cons_append, run]
    cases step ids s o with
    | none => rfl
    | some s => exact ih s

/-- `out` only grows. -/
theorem step_out (ids : Ids Fp Id) (s s' : Chan Fp Id K) (o : Op Fp K) (h : step ids s o = some s') : ∃ l, s'.out = s.out ++ l := by
  cases o with
  | refresh f k => simp only [step, Option.some.injEq] at h; subst h; exact ⟨_, rfl⟩
  | announce =>
    simp only [step, Option.some.injEq] at h; subst h
    refine ⟨[], ?_⟩
    rw [announce]; split <;> simp
  | add r ok =>
    simp only [step, add] at h
    split at h
    · cases h
    · split at h
      · cases h; exact ⟨[], by simp⟩
      · split at h
        · cases h; exact ⟨_, rfl⟩
        · cases h; exact ⟨[], by simp⟩
  | remove r =>
    simp only [step, remove] at h
    split at h
    · cases h
    · split at h
      · cases h; exact ⟨[], by simp⟩
      · cases h; exact ⟨[], by simp⟩

theorem told_step (ids : Ids Fp Id) (s s' : Chan Fp Id K) (o : Op Fp K) (h : step ids s o = some s') (O : List Fp) (r f : Fp) (k : K) (ht : Told ids s O r f k) :
    Told ids s' O r f k := by
  obtain ⟨l, e⟩ := step_out ids s s' o h
  obtain ⟨c, hc, hm⟩ := ht
  exact ⟨c, hc, by rw [e]; exact List.mem_append_left _ hm⟩

/-- What holds in every state of a channel after its start. -/
structure Inv (ids : Ids Fp Id) (O R : List Fp) (done : List Fp) (s : Chan Fp Id K) : Prop where
  curO : s.cur ∈ O
  curK : ∃ k, lookup s.tree (ids.own s.cur) = some (.shared k)
  ownO : ∃ o ∈ O, s.own = some o ∧ ∃ k, lookup s.tree (ids.own o) = some (.shared k)
  pair : ∀ c ∈ O, ∀ r ∈ R, (lookup s.tree (ids.priv c r) = none ↔ lookup s.tree (ids.init c r) = none) ∧
    (lookup s.tree (ids.init c r) = none ∨ lookup s.tree (ids.init c r) = some .initial)
  told : ∀ c ∈ O, ∀ r ∈ R, lookup s.tree (ids.init c r) ≠ none → ∃ k, lookup s.tree (ids.own c) = some (.shared k) ∧ Told ids s O r c k
  done : ∀ f ∈ O, lookup s.tree (ids.own f) ≠ none → f ∈ done

/-- What one event within `O` and `R` does to the tree. -/
theorem tree_refresh_other (ids : Ids Fp Id) (s : Chan Fp Id K) (f : Fp) (k : K) (j : Id) (h : j ≠ ids.own f) : lookup (refresh ids s f k).tree j = lookup s.tree j :=
  lookup_insert_other _ _ _ _ h

theorem add_cases (ids : Ids Fp Id) (s s' : Chan Fp Id K) (r : Fp) (ok : Bool) (h : add ids s r ok = some s') :
    s' = s ∨ (r ≠ s.cur ∧ (lookup s.tree (ids.priv s.cur r) = none ∨ lookup s.tree (ids.init s.cur r) = none) ∧ ok = true ∧ s'.own = s.own ∧ s'.cur = s.cur ∧
      s'.tree = replace (replace s.tree (ids.priv s.cur r) (if (lookup s.tree (ids.priv s.cur r)).isNone then .priv else .blank)) (ids.init s.cur r)
        (if (lookup s.tree (ids.init s.cur r)).isNone then .initial else .blank) ∧
      s'.out = s.out ++ (match lookup s'.tree (ids.own s.cur) with
          | none => []
          | some x => [⟨ids.init s.cur r, s.cur, x.key⟩])) := by
  rw [add] at h
  split at h
  · cases h
  · split at h
    · cases h; exact Or.inl rfl
    · next hne =>
      dsimp only at h
      split at h
      · next hc =>
        cases h
        refine Or.inr ⟨hne, ?_, hc.2, rfl, rfl, rfl, rfl⟩
        simpa [Option.isNone_iff_eq_none] using hc.1
      · cases h; exact Or.inl rfl

theorem remove_cases (ids : Ids Fp Id) (s s' : Chan Fp Id K) (r : Fp) (h : remove ids s r = some s') :
    (s' = s ∧ r = s.cur) ∨ (r ≠ s.cur ∧ s' = { s with tree := erase (erase s.tree (ids.priv s.cur r)) (ids.init s.cur r) }) := by
  rw [remove] at h
  split at h
  · cases h
  · split at h
    · next e => cases h; exact Or.inl ⟨rfl, e⟩
    · next e => cases h; exact Or.inr ⟨e, rfl⟩

theorem refresh_told (ids : Ids Fp Id) (O R : List Fp) (hf : Free ids O R) (s : Chan Fp Id K) (f : Fp) (k : K) (fO : f ∈ O) (c : Fp) (cO : c ∈ O) (r : Fp) (rR : r ∈ R)
    (h : lookup s.tree (ids.init c r) = some .initial) : (⟨ids.init c r, f, some k⟩ : Rekey Fp Id K) ∈ (refresh ids s f k).out := by
  have h1 : lookup (insert s.tree (ids.own f) (.shared k)) (ids.init c r) = some .initial := lookup_insert_keep _ _ _ _ _ h
  refine List.mem_append_right _ (List.mem_map.2 ⟨(ids.init c r, .initial), ?_, rfl⟩)
  refine List.mem_filter.2 ⟨mem_of_lookup _ _ _ h1, ?_⟩
  simp only [decide_eq_true_eq]
  exact ⟨Ne.symm (hf.ownInit f fO c cO r rR), rfl⟩

theorem announce_eq (s : Chan Fp Id K) (o : Fp) (e : s.own = some o) : announce s = ⟨s.own, o, s.tree, s.out⟩ := by
  simp only [announce]
  split
  · next x => rw [x] at e; cases e
  · next f x => rw [x] at e; cases e; rfl

theorem inv_step (ids : Ids Fp Id) (O R : List Fp) (hf : Free ids O R) (done : List Fp) (s s' : Chan Fp Id K) (o : Op Fp K) (hI : Inv ids O R done s) (hw : Within O R [o])
    (hn : ∀ f ∈ fps [o], f ∉ done) (h : step ids s o = some s') : Inv ids O R (fps [o] ++ done) s' := by
  have ht := told_step ids s s' o h
  have hw := hw o (List.mem_cons_self ..)
  cases o with
  | refresh f k =>
    simp only [step, Option.some.injEq] at h
    simp only [fps] at hn ⊢
    have hnew : lookup s.tree (ids.own f) = none := by
      cases hh : lookup s.tree (ids.own f) with
      | none => rfl
      | some w => exact absurd (hI.done f hw (by rw [hh]; simp)) (hn f (List.mem_cons_self ..))
    have keep : ∀ j v, lookup s.tree j = some v → lookup s'.tree j = some v := by
      intro j v hv; rw [← h]; exact lookup_insert_keep _ _ _ _ _ hv
    have other : ∀ j, j ≠ ids.own f → lookup s'.tree j = lookup s.tree j := by
      intro j hj; rw [← h]; exact tree_refresh_other ids s f k j hj
    have ecur : s'.cur = s.cur := by rw [← h]; rfl
    refine ⟨ecur ▸ hI.curO, ?_, ⟨f, hw, by rw [← h]; rfl, k, ?_⟩, ?_, ?_, ?_⟩
    · obtain ⟨k', hk⟩ := hI.curK
      exact ⟨k', by rw [ecur]; exact keep _ _ hk⟩
    · rw [← h]; exact lookup_insert_new _ _ _ hnew
    · intro c hc r hr
      rw [other _ (Ne.symm (hf.ownPriv f hw c hc r hr)), other _ (Ne.symm (hf.ownInit f hw c hc r hr))]
      exact hI.pair c hc r hr
    · intro c hc r hr hx
      rw [other _ (Ne.symm (hf.ownInit f hw c hc r hr))] at hx
      obtain ⟨k', h1, h2⟩ := hI.told c hc r hr hx
      exact ⟨k', keep _ _ h1, ht O r c k' h2⟩
    · intro g hg hx
      by_cases e : g = f
      · rw [e]; exact List.mem_append_left _ (List.mem_cons_self ..)
      · rw [other _ (fun e2 => e (hf.own g hg f hw e2))] at hx
        exact List.mem_append_right _ (hI.done g hg hx)
  | announce =>
    simp only [step, Option.some.injEq] at h
    obtain ⟨o, ho, e, hk⟩ := hI.ownO
    rw [announce_eq s o e] at h
    subst h
    exact ⟨ho, hk, ⟨o, ho, e, hk⟩, hI.pair, hI.told, hI.done⟩
  | add r ok =>
    simp only [step] at h
    rcases add_cases ids s s' r ok h with e | ⟨hne, hmiss, _, eo, ec, et, eout⟩
    · subst e; exact hI
    · have hrR : r ∈ R := hw
      have hcO := hI.curO
      obtain ⟨k, hk⟩ := hI.curK
      have both : lookup s.tree (ids.priv s.cur r) = none ∧ lookup s.tree (ids.init s.cur r) = none := by
        have := (hI.pair s.cur hcO r hrR).1
        rcases hmiss with g | g
        · exact ⟨g, this.1 g⟩
        · exact ⟨this.2 g, g⟩
      rw [both.1, both.2] at et
      have lk : ∀ j, lookup s'.tree j = if j = ids.init s.cur r then some .initial else if j = ids.priv s.cur r then some .priv else lookup s.tree j := by
        intro j; rw [et, lookup_replace, lookup_replace]; rfl
      have lown : ∀ c ∈ O, lookup s'.tree (ids.own c) = lookup s.tree (ids.own c) := by
        intro c hc
        rw [lk, if_neg (hf.ownInit c hc _ hcO r hrR), if_neg (hf.ownPriv c hc _ hcO r hrR)]
      have eout' : s'.out = s.out ++ [⟨ids.init s.cur r, s.cur, some k⟩] := by
        rw [eout, lown _ hcO, hk]; rfl
      refine ⟨ec ▸ hcO, ⟨k, by rw [ec, lown _ hcO]; exact hk⟩, ?_, ?_, ?_, ?_⟩
      · obtain ⟨o, ho, e, k', hk'⟩ := hI.ownO
        exact ⟨o, ho, eo.trans e, k', by rw [lown o ho]; exact hk'⟩
      · intro c hc q hq
        by_cases e : c = s.cur ∧ q = r
        · obtain ⟨e1, e2⟩ := e
          rw [lk, lk, e1, e2, if_pos rfl, if_neg (hf.privInit _ hcO r hrR _ hcO r hrR), if_pos rfl]
          simp
        · rw [lk, lk, if_neg (hf.privInit c hc q hq _ hcO r hrR), if_neg (fun x => e (hf.priv c hc q hq _ hcO r hrR x)), if_neg (fun x => e (hf.init c hc q hq _ hcO r hrR x)),
            if_neg (Ne.symm (hf.privInit _ hcO r hrR c hc q hq))]
          exact hI.pair c hc q hq
      · intro c hc q hq hx
        by_cases e : c = s.cur ∧ q = r
        · obtain ⟨e1, e2⟩ := e
          refine ⟨k, by rw [e1, lown _ hcO]; exact hk, s.cur, hcO, ?_⟩
          rw [eout', e1, e2]; simp
        · rw [lk, if_neg (fun x => e (hf.init c hc q hq _ hcO r hrR x)), if_neg (Ne.symm (hf.privInit _ hcO r hrR c hc q hq))] at hx
          obtain ⟨k', h1, h2⟩ := hI.told c hc q hq hx
          exact ⟨k', by rw [lown c hc]; exact h1, ht O q c k' h2⟩
      · intro g hg hx
        rw [lown g hg] at hx
        exact hI.done g hg hx
  | remove r =>
    simp only [step] at h
    rcases remove_cases ids s s' r h with ⟨e, _⟩ | ⟨hne, e⟩
    · subst e; exact hI
    · have hrR : r ∈ R := hw
      have hcO := hI.curO
      have lk : ∀ j, lookup s'.tree j = if j = ids.init s.cur r then none else if j = ids.priv s.cur r then none else lookup s.tree j := by
        intro j; rw [e]; simp only; rw [lookup_erase, lookup_erase]
      have lown : ∀ c ∈ O, lookup s'.tree (ids.own c) = lookup s.tree (ids.own c) := by
        intro c hc
        rw [lk, if_neg (hf.ownInit c hc _ hcO r hrR), if_neg (hf.ownPriv c hc _ hcO r hrR)]
      have ec : s'.cur = s.cur := by rw [e]
      have eo : s'.own = s.own := by rw [e]
      refine ⟨ec ▸ hcO, ?_, ?_, ?_, ?_, ?_⟩
      · obtain ⟨k, hk⟩ := hI.curK
        exact ⟨k, by rw [ec, lown _ hcO]; exact hk⟩
      · obtain ⟨o, ho, e, k', hk'⟩ := hI.ownO
        exact ⟨o, ho, eo.trans e, k', by rw [lown o ho]; exact hk'⟩
      · intro c hc q hq
        by_cases e : c = s.cur ∧ q = r
        · obtain ⟨e1, e2⟩ := e
          rw [lk, lk, e1, e2, if_pos rfl, if_neg (hf.privInit _ hcO r hrR _ hcO r hrR), if_pos rfl]
          simp
        · rw [lk, lk, if_neg (hf.privInit c hc q hq _ hcO r hrR), if_neg (fun x => e (hf.priv c hc q hq _ hcO r hrR x)), if_neg (fun x => e (hf.init c hc q hq _ hcO r hrR x)),
            if_neg (Ne.symm (hf.privInit _ hcO r hrR c hc q hq))]
          exact hI.pair c hc q hq
      · intro c hc q hq hx
        by_cases e : c = s.cur ∧ q = r
        · obtain ⟨e1, e2⟩ := e
          rw [lk, e1, e2, if_pos rfl] at hx
          exact absurd rfl hx
        · rw [lk, if_neg (fun x => e (hf.init c hc q hq _ hcO r hrR x)), if_neg (Ne.symm (hf.privInit _ hcO r hrR c hc q hq))] at hx
          obtain ⟨k', h1, h2⟩ := hI.told c hc q hq hx
          exact ⟨k', by rw [lown c hc]; exact h1, ht O q c k' h2⟩
      · intro g hg hx
        rw [lown g hg] at hx
        exact hI.done g hg hx

theorem Inv.mono {ids : Ids Fp Id} {O R done done' : List Fp} {s : Chan Fp Id K} (h : Inv ids O R done s) (hd : ∀ f ∈ done, f ∈ done') : Inv ids O R done' s :=
  ⟨h.curO, h.curK, h.ownO, h.pair, h.told, fun f hf hx => hd f (h.done f hf hx)⟩

theorem step_some (ids : Ids Fp Id) (O R done : List Fp) (s : Chan Fp Id K) (hI : Inv ids O R done s) (o : Op Fp K) : ∃ s', step ids s o = some s' := by
  obtain ⟨w, _, e, _⟩ := hI.ownO
  cases o with
  | refresh f k => exact ⟨_, rfl⟩
  | announce => exact ⟨_, rfl⟩
  | add r ok =>
    simp only [step, add]
    split
    · next x => rw [x] at e; cases e
    · split
      · exact ⟨_, rfl⟩
      · split <;> exact ⟨_, rfl⟩
  | remove r =>
    simp only [step, remove]
    split
    · next x => rw [x] at e; cases e
    · split <;> exact ⟨_, rfl⟩

theorem fps_cons (o : Op Fp K) (l : List (Op Fp K)) : fps (o :: l) = fps [o] ++ fps l := by cases o <;> rfl

theorem fps_append (a b : List (Op Fp K)) : fps (a ++ b) = fps a ++ fps b := by
  induction a with
  | nil => rfl
  | cons o a ih => rw [List.cons_append, fps_cons, ih, fps_cons o a, List.append_assoc]

theorem inv_run (ids : Ids Fp Id) (O R : List Fp) (hf : Free ids O R) : ∀ (l : List (Op Fp K)) (done : List Fp) (s : Chan Fp Id K), Inv ids O R done s → Within O R l →
    (fps l).Nodup → (∀ f ∈ fps l, f ∉ done) → ∃ s', run ids s l = some s' ∧ Inv ids O R (fps l ++ done) s' := by
  intro l
  induction l with
  | nil => intro done s hI _ _ _; exact ⟨s, rfl, hI⟩
  | cons o l ih =>
    intro done s hI hw hn hd
    rw [fps_cons] at hn hd
    obtain ⟨s1, h1⟩ := step_some ids O R done s hI o
    have I1 := inv_step ids O R hf done s s1 o hI (fun x hx => hw x (by simp at hx; simp [hx])) (fun f hf => hd f (List.mem_append_left _ hf)) h1
    rw [List.nodup_append] at hn
    obtain ⟨s2, h2, I2⟩ := ih (fps [o] ++ done) s1 I1 (fun x hx => hw x (List.mem_cons_of_mem _ hx)) hn.2.1 (by
      intro f hf hx
      rcases List.mem_append.1 hx with r | r
      · exact hn.2.2 f r f hf rfl
      · exact hd f (List.mem_append_right _ hf) r)
    refine ⟨s2, by rw [run, h1]; exact h2, I2.mono ?_⟩
    intro f hf
    rw [fps_cons]
    simp only [List.mem_append] at hf ⊢
    rcases hf with r | r | r
    · exact Or.inl (Or.inr r)
    · exact Or.inl (Or.inl r)
    · exact Or.inr r

theorem started_eq (ids : Ids Fp Id) (zero f : Fp) (k : K) : started ids zero f k = ⟨some f, f, [(ids.own f, .shared k)], []⟩ := by
  simp [started, refresh, Chan.new, announce, insert, lookup]

theorem inv_started (ids : Ids Fp Id) (O R : List Fp) (hf : Free ids O R) (zero f : Fp) (k : K) (h : f ∈ O) : Inv ids O R [f] (started ids zero f k) := by
  rw [started_eq]
  have l1 : lookup [(ids.own f, (Sess.shared k : Sess K))] (ids.own f) = some (.shared k) := by simp [lookup]
  have l2 : ∀ c ∈ O, ∀ r ∈ R, lookup [(ids.own f, (Sess.shared k : Sess K))] (ids.init c r) = none := by
    intro c hc r hr; simp [lookup, hf.ownInit f h c hc r hr]
  have l3 : ∀ c ∈ O, ∀ r ∈ R, lookup [(ids.own f, (Sess.shared k : Sess K))] (ids.priv c r) = none := by
    intro c hc r hr; simp [lookup, hf.ownPriv f h c hc r hr]
  refine ⟨h, ⟨k, l1⟩, ⟨f, h, rfl, k, l1⟩, ?_, ?_, ?_⟩
  · intro c hc r hr; simp [l2 c hc r hr, l3 c hc r hr]
  · intro c hc r hr hx; exact absurd (l2 c hc r hr) hx
  · intro g hg hx
    simp only [lookup] at hx
    by_cases e : ids.own f = ids.own g
    · simp [hf.own f h g hg e]
    · simp [e] at hx

theorem keep_own (ids : Ids Fp Id) (O R : List Fp) (hf : Free ids O R) (done : List Fp) (s s' : Chan Fp Id K) (o : Op Fp K) (hI : Inv ids O R done s) (hw : Within O R [o])
    (h : step ids s o = some s') (c : Fp) (hc : c ∈ O) (v : Sess K) (hv : lookup s.tree (ids.own c) = some v) : lookup s'.tree (ids.own c) = some v := by
  have hw := hw o (List.mem_cons_self ..)
  have hcO := hI.curO
  cases o with
  | refresh f k =>
    simp only [step, Option.some.injEq] at h
    rw [← h]; exact lookup_insert_keep _ _ _ _ _ hv
  | announce =>
    simp only [step, Option.some.injEq] at h
    obtain ⟨o, ho, e, hk⟩ := hI.ownO
    rw [announce_eq s o e] at h
    rw [← h]; exact hv
  | add r ok =>
    rcases add_cases ids s s' r ok h with e | ⟨_, _, _, _, _, et, _⟩
    · rw [e]; exact hv
    · rw [et, lookup_replace, if_neg (hf.ownInit c hc _ hcO r hw), lookup_replace, if_neg (hf.ownPriv c hc _ hcO r hw)]; exact hv
  | remove r =>
    rcases remove_cases ids s s' r h with ⟨e, _⟩ | ⟨_, e⟩
    · rw [e]; exact hv
    · rw [e]; simp only
      rw [lookup_erase, if_neg (hf.ownInit c hc _ hcO r hw), lookup_erase, if_neg (hf.ownPriv c hc _ hcO r hw)]; exact hv

/-- An initial session stays, unless its receiver is removed while its fingerprint is the announced one. -/
theorem keep_init (ids : Ids Fp Id) (O R : List Fp) (hf : Free ids O R) (done : List Fp) (s s' : Chan Fp Id K) (o : Op Fp K) (hI : Inv ids O R done s) (hw : Within O R [o])
    (h : step ids s o = some s') (c : Fp) (hc : c ∈ O) (r : Fp) (hr : r ∈ R) (hv : lookup s.tree (ids.init c r) = some .initial) (ho : o = .remove r → c ≠ s.cur) :
    lookup s'.tree (ids.init c r) = some .initial := by
  have hw := hw o (List.mem_cons_self ..)
  have hcO := hI.curO
  cases o with
  | refresh f k =>
    simp only [step, Option.some.injEq] at h
    rw [← h]; exact lookup_insert_keep _ _ _ _ _ hv
  | announce =>
    simp only [step, Option.some.injEq] at h
    obtain ⟨o, ho, e, hk⟩ := hI.ownO
    rw [announce_eq s o e] at h
    rw [← h]; exact hv
  | add q ok =>
    rcases add_cases ids s s' q ok h with e | ⟨_, hm, _, _, _, et, _⟩
    · rw [e]; exact hv
    · have hne : ids.init c r ≠ ids.init s.cur q := by
        intro e
        obtain ⟨e1, e2⟩ := hf.init c hc r hr _ hcO q hw e
        rw [← e1, ← e2] at hm
        have := (hI.pair c hc r hr).1
        rcases hm with g | g
        · rw [this.1 g] at hv; cases hv
        · rw [g] at hv; cases hv
      rw [et, lookup_replace, if_neg hne, lookup_replace, if_neg (Ne.symm (hf.privInit _ hcO q hw c hc r hr))]; exact hv
  | remove q =>
    rcases remove_cases ids s s' q h with ⟨e, _⟩ | ⟨_, e⟩
    · rw [e]; exact hv
    · have hne : ids.init c r ≠ ids.init s.cur q := by
        intro e
        obtain ⟨e1, e2⟩ := hf.init c hc r hr _ hcO q hw e
        exact ho (by rw [e2]) e1
      rw [e]; simp only
      rw [lookup_erase, if_neg hne, lookup_erase, if_neg (Ne.symm (hf.privInit _ hcO q hw c hc r hr))]; exact hv

/-- A receiver has been told the announced and the newest key, and has a session for the next ones. -/
structure Served (ids : Ids Fp Id) (O : List Fp) (r : Fp) (s : Chan Fp Id K) : Prop where
  sess : ∃ c ∈ O, lookup s.tree (ids.init c r) = some .initial
  cur : ∃ k, lookup s.tree (ids.own s.cur) = some (.shared k) ∧ Told ids s O r s.cur k
  own : ∃ o ∈ O, s.own = some o ∧ ∃ k, lookup s.tree (ids.own o) = some (.shared k) ∧ Told ids s O r o k

theorem served_step (ids : Ids Fp Id) (O R : List Fp) (hf : Free ids O R) (done : List Fp) (s s' : Chan Fp Id K) (o : Op Fp K) (hI : Inv ids O R done s) (hw : Within O R [o])
    (hn : ∀ f ∈ fps [o], f ∉ done) (h : step ids s o = some s') (r : Fp) (hr : r ∈ R) (ho : o ≠ .remove r) (hs : Served ids O r s) : Served ids O r s' := by
  have ht := told_step ids s s' o h
  obtain ⟨c, hc, hv⟩ := hs.sess
  have hv' := keep_init ids O R hf done s s' o hI hw h c hc r hr hv (fun e => absurd e ho)
  have ko := fun c hc v hv => keep_own ids O R hf done s s' o hI hw h c hc v hv
  obtain ⟨k1, a1, a2⟩ := hs.cur
  obtain ⟨w, wO, b0, k2, b1, b2⟩ := hs.own
  have b1' := ko w wO _ b1
  have b2' := ht O r w k2 b2
  have a1' := ko s.cur hI.curO _ a1
  have a2' := ht O r s.cur k1 a2
  have hw' := hw o (List.mem_cons_self ..)
  cases o with
  | refresh f k =>
    have hx := h
    simp only [step, Option.some.injEq] at h
    have hnew : lookup s.tree (ids.own f) = none := by
      cases hh : lookup s.tree (ids.own f) with
      | none => rfl
      | some w => exact absurd (hI.done f hw' (by rw [hh]; simp)) (hn f (List.mem_cons_self ..))
    have ecur : s'.cur = s.cur := by rw [← h]; rfl
    refine ⟨⟨c, hc, hv'⟩, ⟨k1, ecur ▸ a1', ecur ▸ a2'⟩, f, hw', by rw [← h]; rfl, k, ?_, c, hc, ?_⟩
    · rw [← h]; exact lookup_insert_new _ _ _ hnew
    · rw [← h]; exact refresh_told ids O R hf s f k hw' c hc r hr hv
  | announce =>
    simp only [step, Option.some.injEq] at h
    rw [announce_eq s w b0] at h
    have ecur : s'.cur = w := by rw [← h]
    have eown : s'.own = some w := by rw [← h]; exact b0
    exact ⟨⟨c, hc, hv'⟩, ⟨k2, ecur ▸ b1', ecur ▸ b2'⟩, w, wO, eown, k2, b1', b2'⟩
  | add q ok =>
    have e : s'.own = s.own ∧ s'.cur = s.cur := by
      rcases add_cases ids s s' q ok h with e | ⟨_, _, _, e1, e2, _, _⟩
      · rw [e]; exact ⟨rfl, rfl⟩
      · exact ⟨e1, e2⟩
    exact ⟨⟨c, hc, hv'⟩, ⟨k1, e.2 ▸ a1', e.2 ▸ a2'⟩, w, wO, e.1.trans b0, k2, b1', b2'⟩
  | remove q =>
    have e : s'.own = s.own ∧ s'.cur = s.cur := by
      rcases remove_cases ids s s' q h with ⟨e, _⟩ | ⟨_, e⟩ <;> rw [e] <;> exact ⟨rfl, rfl⟩
    exact ⟨⟨c, hc, hv'⟩, ⟨k1, e.2 ▸ a1', e.2 ▸ a2'⟩, w, wO, e.1.trans b0, k2, b1', b2'⟩

theorem served_run (ids : Ids Fp Id) (O R : List Fp) (hf : Free ids O R) (r : Fp) (hr : r ∈ R) : ∀ (l : List (Op Fp K)) (done : List Fp) (s s' : Chan Fp Id K), Inv ids O R done s →
    Within O R l → (fps l).Nodup → (∀ f ∈ fps l, f ∉ done) → (Op.remove r : Op Fp K) ∉ l → Served ids O r s → run ids s l = some s' → Served ids O r s' := by
  intro l
  induction l with
  | nil => intro done s s' _ _ _ _ _ hs h; cases h; exact hs
  | cons o l ih =>
    intro done s s' hI hw hn hd hno hs h
    rw [fps_cons] at hn hd
    rw [List.nodup_append] at hn
    rw [run] at h
    split at h
    · cases h
    · next s1 h1 =>
      have hw1 : Within O R [o] := fun x hx => hw x (by simp at hx; simp [hx])
      have hd1 : ∀ f ∈ fps [o], f ∉ done := fun f hf => hd f (List.mem_append_left _ hf)
      have I1 := inv_step ids O R hf done s s1 o hI hw1 hd1 h1
      refine ih (fps [o] ++ done) s1 s' I1 (fun x hx => hw x (List.mem_cons_of_mem _ hx)) hn.2.1 ?_ (fun hx => hno (List.mem_cons_of_mem _ hx))
        (served_step ids O R hf done s s1 o hI hw1 hd1 h1 r hr (fun e => hno (e ▸ List.mem_cons_self ..)) hs) h
      intro f hf hx
      rcases List.mem_append.1 hx with r | r
      · exact hn.2.2 f r f hf rfl
      · exact hd f (List.mem_append_right _ hf) r

theorem init_add (ids : Ids Fp Id) (O R : List Fp) (hf : Free ids O R) (done : List Fp) (s s' : Chan Fp Id K) (hI : Inv ids O R done s) (r : Fp) (hr : r ∈ R)
    (ho : s.own = some s.cur) (h : step ids s (.add r true) = some s') : lookup s'.tree (ids.init s.cur r) = some .initial := by
  have hcO := hI.curO
  have I' := inv_step ids O R hf done s s' _ hI (by intro o hx; simp at hx; rw [hx]; exact hr) (by intro f hx; cases hx) h
  have hne : r ≠ s.cur := fun e => hf.apart s.cur hcO (e ▸ hr)
  have hin : lookup s'.tree (ids.init s.cur r) ≠ none := by
    rcases add_cases ids s s' r true h with e | ⟨_, _, _, _, _, et, _⟩
    · subst e
      intro hx
      have : step ids s' (.add r true) ≠ some s' := by
        simp only [step, add, ho]
        rw [if_neg hne]
        rw [if_pos ⟨Or.inr (by rw [hx]; rfl), trivial⟩]
        intro hy
        have hz := congrArg (fun x => x.map fun y => lookup y.tree (ids.init s'.cur r)) hy
        simp only [Option.map_some, lookup_replace, if_true, hx] at hz
        cases hz
      exact this h
    · rw [et, lookup_replace, if_pos rfl]; simp
  exact ((I'.pair s.cur hcO r hr).2).resolve_left hin

theorem served_add (ids : Ids Fp Id) (O R : List Fp) (hf : Free ids O R) (done : List Fp) (s s' : Chan Fp Id K) (hI : Inv ids O R done s) (r : Fp) (hr : r ∈ R)
    (ho : s.own = some s.cur) (h : step ids s (.add r true) = some s') : Served ids O r s' := by
  have hcO := hI.curO
  have I' := inv_step ids O R hf done s s' _ hI (by intro o hx; simp at hx; rw [hx]; exact hr) (by intro f hx; cases hx) h
  have e : s'.own = s.own ∧ s'.cur = s.cur := by
    rcases add_cases ids s s' r true h with e | ⟨_, _, _, e1, e2, _, _⟩
    · rw [e]; exact ⟨rfl, rfl⟩
    · exact ⟨e1, e2⟩
  have hin' := init_add ids O R hf done s s' hI r hr ho h
  obtain ⟨k, h1, h2⟩ := I'.told s.cur hcO r hr (by rw [hin']; simp)
  exact ⟨⟨s.cur, hcO, hin'⟩, ⟨k, e.2 ▸ h1, e.2 ▸ h2⟩, s.cur, hcO, e.1.trans ho, k, h1, h2⟩

/-- A session with a receiver appears only when the receiver's intent comes in, under the announced fingerprint. -/
theorem new_init (ids : Ids Fp Id) (O R : List Fp) (hf : Free ids O R) (done : List Fp) (s s' : Chan Fp Id K) (o : Op Fp K) (hI : Inv ids O R done s) (hw : Within O R [o])
    (h : step ids s o = some s') (c : Fp) (hc : c ∈ O) (r : Fp) (hr : r ∈ R) (hv : lookup s'.tree (ids.init c r) ≠ none) :
    lookup s.tree (ids.init c r) ≠ none ∨ (c = s.cur ∧ ∃ ok, o = .add r ok) := by
  have hw := hw o (List.mem_cons_self ..)
  have hcO := hI.curO
  cases o with
  | refresh f k =>
    simp only [step, Option.some.injEq] at h
    rw [← h, tree_refresh_other _ _ _ _ _ (Ne.symm (hf.ownInit f hw c hc r hr))] at hv
    exact Or.inl hv
  | announce =>
    simp only [step, Option.some.injEq] at h
    obtain ⟨o, ho, e, hk⟩ := hI.ownO
    rw [announce_eq s o e] at h
    rw [← h] at hv; exact Or.inl hv
  | add q ok =>
    rcases add_cases ids s s' q ok h with e | ⟨_, _, _, _, _, et, _⟩
    · rw [e] at hv; exact Or.inl hv
    · by_cases hne : ids.init c r = ids.init s.cur q
      · obtain ⟨e1, e2⟩ := hf.init c hc r hr _ hcO q hw hne
        exact Or.inr ⟨e1, ok, by rw [e2]⟩
      · rw [et, lookup_replace, if_neg hne, lookup_replace, if_neg (Ne.symm (hf.privInit _ hcO q hw c hc r hr))] at hv
        exact Or.inl hv
  | remove q =>
    rcases remove_cases ids s s' q h with ⟨e, _⟩ | ⟨_, e⟩
    · rw [e] at hv; exact Or.inl hv
    · rw [e] at hv; simp only at hv
      rw [lookup_erase] at hv
      split at hv
      · exact absurd rfl hv
      · rw [lookup_erase] at hv
        split at hv
        · exact absurd rfl hv
        · exact Or.inl hv

/-- A receiver without sessions is sent nothing. -/
theorem quiet_step (ids : Ids Fp Id) (O R : List Fp) (hf : Free ids O R) (done : List Fp) (s s' : Chan Fp Id K) (o : Op Fp K) (hI : Inv ids O R done s) (hw : Within O R [o])
    (h : step ids s o = some s') (r : Fp) (hr : r ∈ R) (ho : ∀ ok, o ≠ .add r ok) (hq : ∀ c ∈ O, lookup s.tree (ids.init c r) = none) :
    ∀ m ∈ s'.out, m ∈ s.out ∨ ∀ c ∈ O, m.to ≠ ids.init c r := by
  have hw := hw o (List.mem_cons_self ..)
  have hcO := hI.curO
  intro m hm
  cases o with
  | refresh f k =>
    simp only [step, Option.some.injEq] at h
    rw [← h] at hm
    rcases List.mem_append.1 hm with g | g
    · exact Or.inl g
    · right
      obtain ⟨e, he, em⟩ := List.mem_map.1 g
      intro c hc hx
      rw [← em] at hx
      simp only at hx
      have h1 := lookup_of_mem _ e.1 e.2 (List.mem_filter.1 he).1
      rw [hx, lookup_insert_other _ _ _ _ (Ne.symm (hf.ownInit f hw c hc r hr))] at h1
      exact h1 (hq c hc)
  | announce =>
    simp only [step, Option.some.injEq] at h
    obtain ⟨o, ho, e, hk⟩ := hI.ownO
    rw [announce_eq s o e] at h
    rw [← h] at hm; exact Or.inl hm
  | add q ok =>
    rcases add_cases ids s s' q ok h with e | ⟨_, _, _, _, _, _, eo⟩
    · rw [e] at hm; exact Or.inl hm
    · rw [eo] at hm
      rcases List.mem_append.1 hm with g | g
      · exact Or.inl g
      · right
        intro c hc hx
        split at g
        · cases g
        · rw [List.mem_singleton] at g
          rw [g] at hx
          exact ho ok (by rw [(hf.init _ hcO q hw c hc r hr hx).2])
  | remove q =>
    rcases remove_cases ids s s' q h with ⟨e, _⟩ | ⟨_, e⟩
    · rw [e] at hm; exact Or.inl hm
    · rw [e] at hm; exact Or.inl hm

theorem run_cons (ids : Ids Fp Id) (s s' : Chan Fp Id K) (o : Op Fp K) (l : List (Op Fp K)) (h : run ids s (o :: l) = some s') :
    ∃ s1, step ids s o = some s1 ∧ run ids s1 l = some s' := by
  rw [run] at h
  split at h
  · cases h
  · next s1 h1 => exact ⟨s1, h1, h⟩

/-- An invariant of a step that may use `Inv` is one of a history. -/
theorem run_ind (ids : Ids Fp Id) (O R : List Fp) (hf : Free ids O R) (P : Chan Fp Id K → Prop) (G : Op Fp K → Prop)
    (hp : ∀ done s s' o, Inv ids O R done s → Within O R [o] → (∀ f ∈ fps [o], f ∉ done) → G o → step ids s o = some s' → P s → P s') :
    ∀ (l : List (Op Fp K)) (done : List Fp) (s s' : Chan Fp Id K), Inv ids O R done s → Within O R l → (fps l).Nodup → (∀ f ∈ fps l, f ∉ done) → (∀ o ∈ l, G o) → P s →
      run ids s l = some s' → P s' := by
  intro l
  induction l with
  | nil => intro done s s' _ _ _ _ _ hs h; cases h; exact hs
  | cons o l ih =>
    intro done s s' hI hw hn hd hg hs h
    rw [fps_cons] at hn hd
    rw [List.nodup_append] at hn
    obtain ⟨s1, h1, h⟩ := run_cons ids s s' o l h
    have hw1 : Within O R [o] := fun x hx => hw x (by simp at hx; simp [hx])
    have hd1 : ∀ f ∈ fps [o], f ∉ done := fun f hf => hd f (List.mem_append_left _ hf)
    refine ih (fps [o] ++ done) s1 s' (inv_step ids O R hf done s s1 o hI hw1 hd1 h1) (fun x hx => hw x (List.mem_cons_of_mem _ hx)) hn.2.1 ?_
      (fun x hx => hg x (List.mem_cons_of_mem _ hx)) (hp done s s1 o hI hw1 hd1 (hg o (List.mem_cons_self ..)) h1 hs) h
    intro f hf hx
    rcases List.mem_append.1 hx with r | r
    · exact hn.2.2 f r f hf rfl
    · exact hd f (List.mem_append_right _ hf) r

theorem cur_step (ids : Ids Fp Id) (s s' : Chan Fp Id K) (o : Op Fp K) (h : step ids s o = some s') (ho : o ≠ .announce) : s'.cur = s.cur := by
  cases o with
  | refresh f k => simp only [step, Option.some.injEq] at h; rw [← h]; rfl
  | announce => exact absurd rfl ho
  | add q ok =>
    rcases add_cases ids s s' q ok h with e | ⟨_, _, _, _, e, _, _⟩
    · rw [e]
    · exact e
  | remove q =>
    rcases remove_cases ids s s' q h with ⟨e, _⟩ | ⟨_, e⟩ <;> rw [e]

/-! Without the assumption that ids do not clash -/

theorem mem_erase (t : List (Id × Sess K)) (i : Id) (e : Id × Sess K) (h : e ∈ erase t i) : e ∈ t := (List.mem_filter.1 h).1

/-- All initial sessions and all messages belong to receivers of `A`. -/
def Ours (ids : Ids Fp Id) (A : Fp → Prop) (s : Chan Fp Id K) : Prop :=
  (∀ e ∈ s.tree, e.2.isInitial = true → ∃ c r, A r ∧ e.1 = ids.init c r) ∧ ∀ m ∈ s.out, ∃ c r, A r ∧ m.to = ids.init c r

theorem ours_step (ids : Ids Fp Id) (A : Fp → Prop) (s s' : Chan Fp Id K) (o : Op Fp K) (ha : ∀ r, o = .add r true → A r) (h : step ids s o = some s') (hs : Ours ids A s) :
    Ours ids A s' := by
  cases o with
  | refresh f k =>
    simp only [step, Option.some.injEq] at h
    have ht : ∀ e ∈ insert s.tree (ids.own f) (Sess.shared k), e.2.isInitial = true → ∃ c r, A r ∧ e.1 = ids.init c r := by
      intro e he hi
      rcases mem_insert _ _ _ _ he with g | g
      · rw [g] at hi; cases hi
      · exact hs.1 e g hi
    rw [← h]
    refine ⟨ht, fun m hm => ?_⟩
    rcases List.mem_append.1 hm with g | g
    · exact hs.2 m g
    · obtain ⟨e, he, em⟩ := List.mem_map.1 g
      have h2 := List.mem_filter.1 he
      simp only [decide_eq_true_eq] at h2
      rw [← em]
      exact ht e h2.1 h2.2.2
  | announce =>
    simp only [step, Option.some.injEq, announce] at h
    split at h <;> rw [← h] <;> exact hs
  | add q ok =>
    rcases add_cases ids s s' q ok h with e | ⟨_, _, hok, _, _, et, eo⟩
    · rw [e]; exact hs
    · subst hok
      refine ⟨fun e he hi => ?_, fun m hm => ?_⟩
      · rw [et] at he
        rcases mem_replace _ _ _ _ he with g | g
        · exact ⟨s.cur, q, ha q rfl, by rw [g]⟩
        · rcases mem_replace _ _ _ _ g with g | g
          · rw [g] at hi
            simp only at hi
            split at hi <;> cases hi
          · exact hs.1 e g hi
      · rw [eo] at hm
        rcases List.mem_append.1 hm with g | g
        · exact hs.2 m g
        · split at g
          · cases g
          · rw [List.mem_singleton] at g
            exact ⟨s.cur, q, ha q rfl, by rw [g]⟩
  | remove q =>
    rcases remove_cases ids s s' q h with ⟨e, _⟩ | ⟨_, e⟩
    · rw [e]; exact hs
    · rw [e]; exact ⟨fun e he hi => hs.1 e (mem_erase _ _ _ (mem_erase _ _ _ he)) hi, hs.2⟩

theorem ours_run (ids : Ids Fp Id) (A : Fp → Prop) : ∀ (l : List (Op Fp K)) (s s' : Chan Fp Id K), (∀ r, (Op.add r true : Op Fp K) ∈ l → A r) → Ours ids A s →
    run ids s l = some s' → Ours ids A s' := by
  intro l
  induction l with
  | nil => intro s s' _ hs h; cases h; exact hs
  | cons o l ih =>
    intro s s' ha hs h
    obtain ⟨s1, h1, h⟩ := run_cons ids s s' o l h
    exact ih s1 s' (fun r hr => ha r (List.mem_cons_of_mem _ hr)) (ours_step ids A s s1 o (fun r e => ha r (e ▸ List.mem_cons_self ..)) h1 hs) h

/-- The number of initial sessions. -/
def initials (t : List (Id × Sess K)) : Nat := t.countP fun e => e.2.isInitial

theorem initials_replace (t : List (Id × Sess K)) (i : Id) (v : Sess K) : initials (replace t i v) ≤ initials t + (if v.isInitial then 1 else 0) := by
  induction t with
  | nil => simp only [replace, initials, List.countP_cons, List.countP_nil]; omega
  | cons e t ih =>
    obtain ⟨a, w⟩ := e
    simp only [initials] at ih ⊢
    simp only [replace]
    split <;> simp only [List.countP_cons] <;> omega

theorem initials_insert (t : List (Id × Sess K)) (i : Id) (k : K) : initials (insert t i (.shared k)) = initials t := by
  rw [insert]
  split
  · simp [initials, List.countP_append, Sess.isInitial]
  · rfl

theorem initials_erase (t : List (Id × Sess K)) (i : Id) : initials (erase t i) ≤ initials t := by
  rw [initials, erase]
  exact List.Sublist.countP_le List.filter_sublist

theorem initials_step (ids : Ids Fp Id) (s s' : Chan Fp Id K) (o : Op Fp K) (h : step ids s o = some s') : initials s'.tree ≤ initials s.tree + adds [o] := by
  cases o with
  | refresh f k =>
    simp only [step, Option.some.injEq] at h
    rw [← h, refresh]; simp only
    rw [initials_insert]; omega
  | announce =>
    simp only [step, Option.some.injEq, announce] at h
    split at h <;> rw [← h] <;> simp
  | add q ok =>
    have e1 : adds [(Op.add q ok : Op Fp K)] = 1 := rfl
    rcases add_cases ids s s' q ok h with e | ⟨_, _, hok, _, _, et, _⟩
    · rw [e]; omega
    · rw [et]
      refine Nat.le_trans (initials_replace _ _ _) ?_
      have h1 := initials_replace s.tree (ids.priv s.cur q) (if (lookup s.tree (ids.priv s.cur q)).isNone then .priv else .blank)
      have h2 : (if (lookup s.tree (ids.priv s.cur q)).isNone then (.priv : Sess K) else .blank).isInitial = false := by split <;> rfl
      rw [h2] at h1
      rw [e1]
      have h3 : ∀ b : Bool, (if b then 1 else 0) ≤ 1 := by intro b; cases b <;> decide
      have := h3 (Sess.isInitial (if (lookup s.tree (ids.init s.cur q)).isNone then (.initial : Sess K) else .blank))
      simp only [Bool.false_eq_true, if_false] at h1
      omega
  | remove q =>
    rcases remove_cases ids s s' q h with ⟨e, _⟩ | ⟨_, e⟩
    · rw [e]; omega
    · rw [e]; simp only
      exact Nat.le_trans (initials_erase _ _) (Nat.le_trans (initials_erase _ _) (by omega))

theorem initials_run (ids : Ids Fp Id) : ∀ (l : List (Op Fp K)) (s s' : Chan Fp Id K), run ids s l = some s' → initials s'.tree ≤ initials s.tree + adds l := by
  intro l
  induction l with
  | nil => intro s s' h; cases h; simp
  | cons o l ih =>
    intro s s' h
    obtain ⟨s1, h1, h⟩ := run_cons ids s s' o l h
    have := initials_step ids s s1 o h1
    have := ih s1 s' h
    have e : adds (o :: l) = adds [o] + adds l := by simp only [adds, List.countP_cons, List.countP_nil]; omega
    omega

theorem renewal_eq (ids : Ids Fp Id) (s : Chan Fp Id K) (f : Fp) (k : K) :
    renewal ids s f k = ((insert s.tree (ids.own f) (.shared k)).filter fun e => e.1 ≠ ids.own f ∧ e.2.isInitial).map fun e => ⟨e.1, f, some k⟩ := by
  simp [renewal, refresh]

theorem renewal_le (ids : Ids Fp Id) (s : Chan Fp Id K) (f : Fp) (k : K) : (renewal ids s f k).length ≤ initials s.tree := by
  rw [renewal_eq, List.length_map, ← initials_insert s.tree (ids.own f) k, initials, List.countP_eq_length_filter]
  rw [← List.countP_eq_length_filter, ← List.countP_eq_length_filter]
  exact List.countP_mono_left (by intro e _ h; simp only [decide_eq_true_eq] at h; exact h.2)

theorem renewal_told (ids : Ids Fp Id) (O R : List Fp) (hf : Free ids O R) (s : Chan Fp Id K) (f : Fp) (k : K) (fO : f ∈ O) (c : Fp) (cO : c ∈ O) (r : Fp) (rR : r ∈ R)
    (h : lookup s.tree (ids.init c r) = some .initial) : (⟨ids.init c r, f, some k⟩ : Rekey Fp Id K) ∈ renewal ids s f k := by
  have h1 : lookup (insert s.tree (ids.own f) (.shared k)) (ids.init c r) = some .initial := lookup_insert_keep _ _ _ _ _ h
  rw [renewal_eq]
  refine List.mem_map.2 ⟨(ids.init c r, .initial), ?_, rfl⟩
  refine List.mem_filter.2 ⟨mem_of_lookup _ _ _ h1, ?_⟩
  simp only [decide_eq_true_eq]
  exact ⟨Ne.symm (hf.ownInit f fO c cO r rR), rfl⟩

theorem within_renewals (O R : List Fp) (r : Fp) (hr : r ∈ R) (fs : List (Fp × K)) (h : ∀ f ∈ fs, f.1 ∈ O) : Within O R (renewals r fs) := by
  intro o ho
  rw [renewals] at ho
  obtain ⟨f, hf, ho⟩ := List.mem_flatMap.1 ho
  simp at ho
  rcases ho with e | e | e <;> rw [e]
  · exact h f hf
  · trivial
  · exact hr

theorem fps_renewals (r : Fp) (fs : List (Fp × K)) : fps (renewals r fs) = fs.map (·.1) := by
  induction fs with
  | nil => rfl
  | cons f fs ih => rw [renewals, List.flatMap_cons, fps_append, List.map_cons, ← ih]; rfl

theorem renewals_init (ids : Ids Fp Id) (O R : List Fp) (hf : Free ids O R) (r : Fp) (hr : r ∈ R) : ∀ (fs : List (Fp × K)) (done : List Fp) (s s' : Chan Fp Id K),
    Inv ids O R done s → (∀ f ∈ fs, f.1 ∈ O) → (fs.map (·.1)).Nodup → (∀ f ∈ fs.map (·.1), f ∉ done) → run ids s (renewals r fs) = some s' →
      ∀ f ∈ fs, lookup s'.tree (ids.init f.1 r) = some .initial := by
  intro fs
  induction fs with
  | nil => intro _ _ _ _ _ _ _ _ f hf; cases hf
  | cons g fs ih =>
    intro done s s' hI hO hn hd h
    have e : renewals r (g :: fs) = [.refresh g.1 g.2, .announce, .add r true] ++ renewals r fs := rfl
    rw [e, run_append] at h
    cases h3 : run ids s [.refresh g.1 g.2, .announce, .add r true] with
    | none => rw [h3] at h; cases h
    | some s3 =>
      rw [h3] at h
      simp only [Option.bind_some] at h
      have hgO := hO g (List.mem_cons_self ..)
      have hgd := hd g.1 (by simp)
      rw [List.map_cons, List.nodup_cons] at hn
      obtain ⟨s1, t1, h3⟩ := run_cons _ _ _ _ _ h3
      obtain ⟨s2, t2, h3⟩ := run_cons _ _ _ _ _ h3
      obtain ⟨s2', t3, h3⟩ := run_cons _ _ _ _ _ h3
      cases h3
      have I1 := inv_step ids O R hf done s s1 _ hI (by intro o hx; simp at hx; rw [hx]; exact hgO) (by intro f hx; simp [fps] at hx; rw [hx]; exact hgd) t1
      have I2 := inv_step ids O R hf _ s1 s2 _ I1 (by intro o hx; simp at hx; rw [hx]; trivial) (by intro f hx; cases hx) t2
      have I3 := inv_step ids O R hf _ s2 s3 _ I2 (by intro o hx; simp at hx; rw [hx]; exact hr) (by intro f hx; cases hx) t3
      simp only [fps, List.nil_append, List.singleton_append] at I1 I2 I3
      have o1 : s1.own = some g.1 := by simp only [step, Option.some.injEq] at t1; rw [← t1]; rfl
      have e2 : s2.own = some g.1 ∧ s2.cur = g.1 := by
        simp only [step, Option.some.injEq] at t2
        rw [announce_eq s1 g.1 o1] at t2
        rw [← t2]; exact ⟨o1, rfl⟩
      have hd' : ∀ f ∈ fs.map (·.1), f ∉ g.1 :: done := by
        intro f hf hx
        rcases List.mem_cons.1 hx with r | r
        · exact hn.1 (r ▸ hf)
        · exact hd f (List.mem_cons_of_mem _ hf) r
      have hO' : ∀ f ∈ fs, f.1 ∈ O := fun f hf => hO f (List.mem_cons_of_mem _ hf)
      intro f hfm
      rcases List.mem_cons.1 hfm with e | e
      · subst e
        have g3 : lookup s3.tree (ids.init f.1 r) = some .initial := e2.2 ▸ init_add ids O R hf _ s2 s3 I2 r hr (by rw [e2.1, e2.2]) t3
        refine run_ind ids O R hf (fun s => lookup s.tree (ids.init f.1 r) = some .initial) (fun o => o ≠ .remove r) ?_ _ _ s3 s' I3
          (within_renewals O R r hr fs hO') (by rw [fps_renewals]; exact hn.2) (by rw [fps_renewals]; exact hd') ?_ g3 h
        · intro done s s' o hI hw _ ho hst hp
          exact keep_init ids O R hf done s s' o hI hw hst f.1 hgO r hr hp (fun e => absurd e ho)
        · intro o ho e
          rw [renewals] at ho
          obtain ⟨f, _, ho⟩ := List.mem_flatMap.1 ho
          rw [e] at ho
          simp at ho
      · exact ih _ s3 s' I3 hO' hn.2 hd' h f e

end Np.Group
