import Verif.Sys.Lemmas
import Mathlib.Data.List.Perm.Subperm
/-! # C184-C190: the reports of the nodes -/
namespace Np.Sys
open _root_.Np.Sys.Spec
open Np.Http (Text)

variable {α : Type}

/-! ## C184: the newest report -/

/-- C184, for histories in which every report names its node and its time: what a server knows about a node is a newest one of the reports about it that
have not been too old at a later moment at which all were asked for; without such a report it knows nothing. -/
theorem C184_newest_partial (me : Text) (st0 st : St α) (h0 : Enabled me st0) (ops : List (Op α)) (hp : AllProper ops) (hr : run me st0 ops = .ok st) (now : Int)
    (own : α) (s : Text) (hs : s.take 64 ≠ me.take 64) : ∃ x, getInfo st me now own s = .ok (st, x) ∧ Newest ops s x := by
  obtain ⟨c, hi⟩ := inv_run me ops [] st0 st [] (inv_enabled h0) hp hr
  refine ⟨find c s, ?_, hi.newest s⟩
  rw [getInfo_some hi.cache, if_neg hs]

/-- A node "a" with reports of the seconds 5, 3 and 7 and one "b". -/
def rep (s : Nat) (t : Int) : Report Nat := { source := some [s], stamp := some (t * 1000000), rest := 0 }
def story : List (Op Nat) := [.report [] (rep 97 5), .report [] (rep 97 3), .report [] (rep 98 4), .report [] (rep 97 7), .all 95000000 0]

example : AllProper story ∧ (run [109] (enable { cache := none, hooks := some [] } [109]) story).map (·.cache) =
    .ok (some [([97], rep 97 7)]) := by
  refine ⟨?_, rfl⟩
  intro f r h
  simp only [story, List.mem_cons, List.not_mem_nil, or_false, Op.report.injEq, reduceCtorEq] at h
  rcases h with ⟨_, rfl⟩ | ⟨_, rfl⟩ | ⟨_, rfl⟩ | ⟨_, rfl⟩ <;> exact ⟨⟨_, rfl, by decide⟩, rfl⟩

/-- C184 fails after a report without a time: all later ones about that node are ignored. -/
theorem C184_no_time_refuted (me : Text) (st0 : St α) (h0 : Enabled me st0) (f s : Text) (hs : s.length ≤ 255) (x : α) (later : List (Text × Report α))
    (hl : ∀ e ∈ later, e.2.source = some s) :
    ∃ st, run me st0 (.report f ⟨some s, none, x⟩ :: later.map fun e => .report e.1 e.2) = .ok st ∧ st.cache = some [(s, ⟨some s, none, x⟩)] := by
  have h1 : step me st0 (.report f ⟨some s, none, x⟩) =
      .ok { cache := some [(s, ⟨some s, none, x⟩)], hooks := some (Http.register (st0.hooks.getD []) 0 (pathOf s) .hash) } := by
    simp only [step, receive, enabled_cache h0]
    have : find ([] : Cache α) s = none := rfl
    simp only [this, replace, put_eq _ hs this, Except.map]
    rfl
  simp only [run, h1]
  induction later with
  | nil => exact ⟨_, rfl, rfl⟩
  | cons e es ih =>
    have q : find [(s, (⟨some s, none, x⟩ : Report α))] s = some ⟨some s, none, x⟩ := by simp [find]
    have h2 : ∀ h, step me { cache := some [(s, (⟨some s, none, x⟩ : Report α))], hooks := h } (.report e.1 e.2) =
        .ok { cache := some [(s, ⟨some s, none, x⟩)], hooks := h } := by
      intro h
      simp only [step, receive, hl e (List.mem_cons_self ..), q]
      rw [if_neg]
      · rfl
      · unfold newer; cases e.2.stamp <;> simp
    simp only [List.map_cons, run, h2]
    exact ih fun e' he' => hl e' (List.mem_cons_of_mem _ he')

example : ∃ st, run [109] (enable { cache := none, hooks := none } [109]) ([.report [1] ⟨some [97], none, 0⟩, .report [97] (rep 97 7)]) = .ok st ∧
    st.cache = some [([97], ⟨some [97], none, 0⟩)] :=
  C184_no_time_refuted (α := Nat) [109] _ (.inl rfl) [1] [97] (by decide) 0 [([97], rep 97 7)] (by simp [rep])

/-! ## C185: who reports -/

/-- C185, for the server itself: whatever it has received, it tells about itself what it finds itself. -/
theorem C185_own_partial (me : Text) (st0 st : St α) (h0 : Enabled me st0) (ops : List (Op α)) (hp : AllProper ops) (hr : run me st0 ops = .ok st) (now : Int)
    (own : α) : getInfo st me now own me = .ok (st, some ⟨none, some now, own⟩) := by
  obtain ⟨c, hi⟩ := inv_run me ops [] st0 st [] (inv_enabled h0) hp hr
  rw [getInfo_some hi.cache, if_pos rfl]

example : ∃ st, run [109] (enable { cache := none, hooks := none } [109]) [.report [1] (rep 109 9)] = .ok st ∧
    getInfo st [109] 5 3 [109] = .ok (st, some ⟨none, some 5, 3⟩) := ⟨_, rfl, rfl⟩

/-- C185 fails for every other node: whoever sends it, a report is taken as one of the node it names. -/
theorem C185_sender_refuted (me : Text) (st0 : St α) (h0 : Enabled me st0) (sender s : Text) (hs : s.length ≤ 255) (hm : s.take 64 ≠ me.take 64) (t : Int)
    (x : α) (now : Int) (own : α) :
    ∃ st, receive st0 sender ⟨some s, some t, x⟩ = .ok (st, true) ∧ getInfo st me now own s = .ok (st, some ⟨some s, some t, x⟩) := by
  have q : find ([] : Cache α) s = none := rfl
  refine ⟨{ cache := some (replace [] s ⟨some s, some t, x⟩), hooks := some (Http.register (st0.hooks.getD []) 0 (pathOf s) .hash) }, ?_, ?_⟩
  · simp only [receive, enabled_cache h0, q]
  · rw [getInfo_some rfl, if_neg hm, find_replace _ _ _ _ hs, if_pos rfl]

/-- C185 fails for long: after a report with a time in the future, what the node itself reports until then is ignored. -/
theorem C185_shut_out_refuted (st : St α) (c : List (Text × Report α)) (hc : st.cache = some c) (s : Text) (old : Report α) (hf : find c s = some old) (t : Int)
    (ho : old.stamp = some t) (r : Report α) (hr : r.source = some s) (t' : Int) (ht : r.stamp = some t') (hle : t' ≤ t) (sender : Text) :
    receive st sender r = .ok (st, true) := by
  simp only [receive, hr, hc, hf]
  rw [if_neg]
  unfold newer
  rw [ht, ho]
  simp; omega

example : receive ⟨some [([97], rep 97 1000)], none⟩ [97] (rep 97 999) = .ok (⟨some [([97], rep 97 1000)], none⟩, true) :=
  C185_shut_out_refuted _ _ rfl [97] (rep 97 1000) (by decide) _ rfl _ rfl _ rfl (by decide) _

/-- C185 fails for the list of all: it has a second report about the server itself, which somebody else has sent. -/
theorem C185_list_refuted : ∃ st, run [109] (enable { cache := none, hooks := none } [109]) [.report [1] (rep 109 9)] = .ok st ∧
    (getAll st 10000000 0).map (·.2) = .ok [⟨none, some 10000000, 0⟩, rep 109 9] := ⟨_, rfl, rfl⟩

/-! ## C186: the list of all reports -/

/-- C186, for histories in which every report names its node and its time, with no more than 32767 nodes: the list of all can be had, it begins with the
server itself, and for every other name it has one report if and only if the one that is known is not too old. -/
theorem C186_list_partial (me : Text) (st0 st : St α) (h0 : Enabled me st0) (ops : List (Op α)) (hp : AllProper ops) (hr : run me st0 ops = .ok st)
    (names : List Text) (hn : ∀ f r s, Op.report f r ∈ ops → r.source = some s → s ∈ names) (hl : names.length ≤ 32767) (now : Int) (own : α) :
    ∃ st' l, getAll st now own = .ok (st', ⟨none, some now, own⟩ :: l) ∧ (l.map (·.source)).Nodup ∧
      ∀ r, r ∈ l ↔ ¬ Old r now ∧ ∃ s, r.source = some s ∧ (∃ c, st.cache = some c ∧ find c s = some r) := by
  obtain ⟨c, hi⟩ := inv_run me ops [] st0 st [] (inv_enabled h0) hp hr
  have hlen : (c.filter (live now)).length ≤ 32767 := by
    have h1 : c.length ≤ names.length := by
      have : (c.map (·.1)) ⊆ names := by
        intro s hs
        obtain ⟨e, he, rfl⟩ := List.mem_map.1 hs
        have hf := find_of_mem hi.keys (show (e.1, e.2) ∈ c from he)
        have hw := hi.newest e.1
        rw [hf] at hw
        obtain ⟨a, b, f, ho, hsrc, _⟩ := hw.1
        exact hn f e.2 e.1 (by simp at ho; rw [ho]; simp) hsrc
      have := (hi.keys.subperm this).length_le
      simpa using this
    have := List.length_filter_le (live now) c
    omega
  rw [getAll_stamped hi.cache hi.stamped, if_neg (by omega)]
  have hk := keys_filter hi.keys (live now)
  refine ⟨_, _, rfl, ?_, ?_⟩
  · have : ((c.filter (live now)).map (·.2)).map (·.source) = ((c.filter (live now)).map (·.1)).map some := by
      rw [List.map_map, List.map_map]
      refine List.map_congr_left fun e he => ?_
      exact hi.named e (List.mem_filter.1 he).1
    rw [this]
    exact hk.map fun _ _ h => Option.some.inj h
  · intro r
    constructor
    · intro h
      obtain ⟨e, he, rfl⟩ := List.mem_map.1 h
      obtain ⟨h1, h2⟩ := List.mem_filter.1 he
      refine ⟨?_, e.1, hi.named e h1, c, hi.cache, find_of_mem hi.keys (show (e.1, e.2) ∈ c from h1)⟩
      unfold live lifetime at h2
      unfold Old
      simp at h2
      omega
    · rintro ⟨h1, s, _, c', h2, h3⟩
      rw [hi.cache] at h2
      injection h2 with h2
      subst h2
      refine List.mem_map.2 ⟨(s, r), List.mem_filter.2 ⟨find_mem h3, ?_⟩, rfl⟩
      unfold live lifetime
      unfold Old at h1
      simp
      omega

example : ∃ st, run [109] (enable { cache := none, hooks := none } [109]) story = .ok st ∧
    (getAll st 96000000 0).map (·.2) = .ok [⟨none, some 96000000, 0⟩, rep 97 7] := ⟨_, rfl, rfl⟩

/-- C186 fails after a single report without a time, whatever else arrives: the server that is asked for the list stops. -/
theorem C186_no_time_refuted (me : Text) (st0 : St α) (h0 : Enabled me st0) (f s : Text) (hs : s.length ≤ 255) (x : α) (later : List (Text × Report α))
    (hl : ∀ e ∈ later, Proper e.2) (now : Int) (own : α) :
    ∃ st, run me st0 (.report f ⟨some s, none, x⟩ :: later.map fun e => .report e.1 e.2) = .ok st ∧ getAll st now own = .error .noStamp := by
  have key : ∀ (later : List (Text × Report α)), (∀ e ∈ later, Proper e.2) → ∀ (st : St α) (c : List (Text × Report α)), st.cache = some c →
      find c s = some ⟨some s, none, x⟩ → ∃ st', run me st (later.map fun e => .report e.1 e.2) = .ok st' ∧
        ∃ c', st'.cache = some c' ∧ find c' s = some ⟨some s, none, x⟩ := by
    intro later
    induction later with
    | nil => intro _ st c hc hf; exact ⟨st, rfl, c, hc, hf⟩
    | cons e es ih =>
      intro hl st c hc hf
      have hes : ∀ e ∈ es, Proper e.2 := fun e' he' => hl e' (List.mem_cons_of_mem _ he')
      obtain ⟨⟨s', hs', hl'⟩, _⟩ := hl e (List.mem_cons_self ..)
      simp only [List.map_cons, run, step, receive, hs', hc]
      by_cases q : s = s'
      · subst q
        rw [hf]
        simp only []
        rw [if_neg (by unfold newer; cases e.2.stamp <;> simp)]
        exact ih hes st c hc hf
      · have hf' : find (replace c s' e.2) s = some ⟨some s, none, x⟩ := by rw [find_replace c s' s e.2 hl', if_neg q, hf]
        cases k : find c s' with
        | none => exact ih hes _ _ rfl hf'
        | some old =>
          simp only []
          by_cases w : newer e.2 old = true
          · rw [if_pos w]
            exact ih hes _ _ rfl hf'
          · rw [if_neg w]
            exact ih hes st c hc hf
  have h1 : step me st0 (.report f ⟨some s, none, x⟩) =
      .ok { cache := some [(s, ⟨some s, none, x⟩)], hooks := some (Http.register (st0.hooks.getD []) 0 (pathOf s) .hash) } := by
    simp only [step, receive, enabled_cache h0]
    have : find ([] : Cache α) s = none := rfl
    simp only [this, replace, put_eq _ hs this, Except.map]
    rfl
  obtain ⟨st, hr, c, hc, hf⟩ := key later hl { cache := some [(s, ⟨some s, none, x⟩)], hooks := some (Http.register (st0.hooks.getD []) 0 (pathOf s) .hash) } _ rfl
    (by simp [find])
  refine ⟨st, by simp only [run, h1]; exact hr, ?_⟩
  unfold getAll
  rw [myInfo_some hc]
  simp only [hc, Option.getD_some, interval_unstamped now c ⟨_, find_mem hf, rfl⟩]

example : ∃ st, run [109] (enable { cache := none, hooks := none } [109]) [.report [1] ⟨some [97], none, 0⟩, .report [98] (rep 98 7)] = .ok st ∧
    getAll st 8000000 0 = .error .noStamp :=
  C186_no_time_refuted (α := Nat) [109] _ (.inl rfl) [1] [97] (by decide) 0 [([98], rep 98 7)] (by
    intro e he
    simp at he
    subst he
    exact ⟨⟨_, rfl, by decide⟩, rfl⟩) _ _

/-! ## C187: no report that is too old -/

/-- C187, for the list of all: no report in it is more than ninety seconds old, and the one of the server itself is of this moment. -/
theorem C187_list_partial (st st' : St α) (now : Int) (own : α) (l : List (Report α)) (h : getAll st now own = .ok (st', l)) :
    ∀ r ∈ l, ∃ t, r.stamp = some t ∧ now ≤ t + 90000000 := by
  have hc : ∃ c, st.cache = some c := by
    cases k : st.cache with
    | none => simp [getAll, myInfo, k] at h
    | some c => exact ⟨c, rfl⟩
  obtain ⟨c, hc⟩ := hc
  have hs : Stamped c := by
    apply Classical.byContradiction
    intro q
    have : ∃ e ∈ c, e.2.stamp = none := by
      apply Classical.byContradiction
      intro w
      refine q fun e he => ?_
      cases k : e.2.stamp with
      | none => exact absurd ⟨e, he, k⟩ w
      | some t => rfl
    unfold getAll at h
    rw [myInfo_some hc] at h
    simp [hc, interval_unstamped now c this] at h
  rw [getAll_stamped hc hs] at h
  split at h
  · simp at h
  · simp only [Except.ok.injEq, Prod.mk.injEq] at h
    obtain ⟨_, rfl⟩ := h
    intro r hr
    rcases List.mem_cons.1 hr with rfl | hr
    · exact ⟨now, rfl, by omega⟩
    · obtain ⟨e, he, rfl⟩ := List.mem_map.1 hr
      obtain ⟨h1, h2⟩ := List.mem_filter.1 he
      obtain ⟨t, ht⟩ := Option.isSome_iff_exists.1 (hs e h1)
      refine ⟨t, ht, ?_⟩
      unfold live time lifetime at h2
      rw [ht] at h2
      simp at h2
      omega

example : ∃ st' l, getAll ⟨some [([97], rep 97 7), ([98], rep 98 4)], none⟩ 95000000 0 = .ok (st', l) ∧ l.length = 2 := ⟨_, _, rfl, rfl⟩

/-- C187 fails for the report on one node: it is given however old it is. -/
theorem C187_one_refuted (me : Text) (st0 : St α) (h0 : Enabled me st0) (sender s : Text) (hs : s.length ≤ 255) (hm : s.take 64 ≠ me.take 64) (t : Int)
    (x : α) (own : α) :
    ∃ st, receive st0 sender ⟨some s, some t, x⟩ = .ok (st, true) ∧ ∀ now, getInfo st me now own s = .ok (st, some ⟨some s, some t, x⟩) := by
  have q : find ([] : Cache α) s = none := rfl
  refine ⟨{ cache := some (replace [] s ⟨some s, some t, x⟩), hooks := some (Http.register (st0.hooks.getD []) 0 (pathOf s) .hash) }, ?_, ?_⟩
  · simp only [receive, enabled_cache h0, q]
  · intro now
    rw [getInfo_some rfl, if_neg hm, find_replace _ _ _ _ hs, if_pos rfl]

/-! ## C188: the page of a node -/

/-- C188, for names of 64 bytes without a slash: after every history of proper reports, the page of a node about which a report is known answers with that
report, or with the server's own if it is about the server. -/
theorem C188_page_partial (me : Text) (st0 st : St α) (h0 : Enabled me st0) (ops : List (Op α)) (hp : AllProper ops) (hr : run me st0 ops = .ok st) (now : Int)
    (own : α) (s : Text) (hs : s.length = 64) (hn : 47 ∉ s) (r : Report α) (hx : ∃ c, st.cache = some c ∧ find c s = some r) :
    serve st me now own (get (pagePath s)) = .ok (st, .one (if s = me.take 64 then ⟨none, some now, own⟩ else r), none) := by
  obtain ⟨c, hi⟩ := inv_run me ops [] st0 st [] (inv_enabled h0) hp hr
  have hg := pages_run me ops [] st0 st [] (inv_enabled h0) (pages_enabled h0) hp hr
  obtain ⟨c', hc, hf⟩ := hx
  have hk := hg.hooked c' s r hc hf
  have hd := dispatch_page hs hk
  unfold serve
  rw [hd]
  show (hashPage st me now own (pagePath s)).map _ = _
  unfold hashPage
  rw [List.take_of_length_le (by simp [pagePath, hs]), split_page s hn]
  simp only [List.getElem?_cons_succ, List.getElem?_cons_zero]
  have ht : s.take 64 = s := List.take_of_length_le (by omega)
  rw [if_pos (by rw [List.take_of_length_le (by omega)]; exact hs), getInfo_some hc]
  rw [ht, hf]
  by_cases q : s = me.take 64
  · simp [if_pos q, Except.map]
  · simp [if_neg q, Except.map]

/-- C188, for the server itself, when the http interface was started first: its page always answers with what it finds itself. -/
theorem C188_own_partial (me : Text) (st : St α) (hm : me.length = 64) (hn : 47 ∉ me) (ops : List (Op α)) (hp : AllProper ops)
    (hr : run me (enable { cache := none, hooks := some [] } me) ops = .ok st) (now : Int) (own : α) :
    serve st me now own (get (pagePath me)) = .ok (st, .one ⟨none, some now, own⟩, none) := by
  obtain ⟨c, hi⟩ := inv_run me ops [] _ st [] (inv_enabled (.inr rfl)) hp hr
  have hall : OnlyAll (Http.register [] 0 word Page.all) := by
    intro e he _
    simp [Http.register] at he
    rw [he]
  have hk := hooked_run me me ops (enable { cache := none, hooks := some [] } me) st (hooked_register hall me) hr
  unfold serve
  rw [dispatch_page hm hk]
  show (hashPage st me now own (pagePath me)).map _ = _
  unfold hashPage
  rw [List.take_of_length_le (by simp [pagePath, hm]), split_page me hn]
  simp only [List.getElem?_cons_succ, List.getElem?_cons_zero]
  rw [if_pos (by rw [List.take_of_length_le (by omega)]; exact hm), getInfo_some hi.cache, if_pos rfl]
  rfl

/-- A node with a name of 64 times "a". -/
def long : Text := List.replicate 64 97

example : ∃ st, run [109] (enable { cache := none, hooks := some [] } [109]) [.report [1] ⟨some long, some 3, 8⟩] = .ok st ∧
    (serve st [109] 5 0 (get (pagePath long))).map (·.2.1) = .ok (.one ⟨some long, some 3, 8⟩) := by
  refine ⟨_, rfl, ?_⟩
  decide +kernel

example : run long (enable { cache := none, hooks := some [] } long) ([.report [1] ⟨some long, some 3, 8⟩] : List (Op Nat)) ≠ .error .noModule ∧
    long.length = 64 ∧ 47 ∉ long := by decide +kernel

/-- C188 fails for every other length: the page refuses a name of another length, although reports about it are accepted and listed. -/
theorem C188_length_refuted (st : St α) (me : Text) (now : Int) (own : α) (s : Text) (hs : s.length ≠ 64) (hn : 47 ∉ s) :
    hashPage st me now own (pagePath s) = .ok (st, .badRequest) := by
  have h : (pagePath s).take 74 = pagePath (s.take 65) := by
    unfold pagePath
    rw [List.take_append]
    rfl
  unfold hashPage
  rw [h, split_page _ (fun q => hn (List.mem_of_mem_take q))]
  simp only [List.getElem?_cons_succ, List.getElem?_cons_zero]
  rw [if_neg]
  intro q
  simp at q
  omega

example : ∃ st, run [109] (enable { cache := none, hooks := some [] } [109]) [.report [97] (rep 97 3)] = .ok st ∧
    (serve st [109] 5 0 (get (pagePath [97]))).map (·.2.1) = .ok .badRequest ∧
    (serve st [109] 5 0 (get (pagePath []).dropLast)).map (·.2.1) = .ok (.all [⟨none, some 5, 0⟩, rep 97 3]) := by
  exact ⟨_, rfl, by decide +kernel, by decide +kernel⟩

/-- C188 fails when the http interface is started after the reports were enabled: there is no page at all. -/
theorem C188_late_refuted (me : Text) (now : Int) (own : α) (r : Http.Req) :
    serve (enable { cache := none, hooks := none } me) me now own r = .ok (enable { cache := none, hooks := none } me, .other, none) := by
  unfold serve
  have : (enable ({ cache := none, hooks := none } : St α) me).hooks.getD [] = [] := rfl
  rw [this]
  cases r with
  | mk path _ m _ _ _ _ =>
    unfold Http.dispatch
    cases path with
    | none => rfl
    | some p =>
      cases p with
      | nil => rfl
      | cons c p =>
        simp only [List.find?_nil]
        by_cases q : m = 0
        · rw [if_pos q]
        · rw [if_neg q]

/-! ## C189: the order of the calls -/

/-- C189, once the reports are enabled: neither a report, with or without a name or a time, nor a question about a node stops the process. -/
theorem C189_enabled_partial (st : St α) (c : List (Text × Report α)) (hc : st.cache = some c) (me sender : Text) (r : Report α) (now : Int) (own : α) (s : Text) :
    (∃ st', receive st sender r = .ok (st', r.source.isSome) ∧ st'.cache.isSome) ∧ (∃ x, getInfo st me now own s = .ok (st, x)) := by
  refine ⟨?_, ⟨_, getInfo_some hc me now own s⟩⟩
  unfold receive
  cases k : r.source with
  | none => exact ⟨st, rfl, by rw [hc]; rfl⟩
  | some s =>
    simp only [hc]
    cases find c s with
    | none => exact ⟨_, rfl, rfl⟩
    | some old =>
      simp only []
      split
      · exact ⟨_, rfl, rfl⟩
      · exact ⟨st, rfl, by rw [hc]; rfl⟩

example : (enable { cache := none, hooks := none } [109] : St Nat).cache = some [] := rfl

/-- C189 fails before: asking for the report on the node itself, or for all, stops the process; asking about another node does not. -/
theorem C189_before_refuted (me : Text) (now : Int) (own : α) (h : Option (List (Text × Page))) :
    getInfo ⟨none, h⟩ me now own me = .error .noModule ∧ getAll ⟨none, h⟩ now own = .error .noModule ∧
    ∀ s, s.take 64 ≠ me.take 64 → getInfo ⟨none, h⟩ me now own s = .ok (⟨some [], h⟩, none) := by
  refine ⟨?_, rfl, fun s hs => ?_⟩
  · unfold getInfo
    rw [if_pos rfl]; rfl
  · unfold getInfo
    rw [if_neg hs]; rfl

/-! ## C190: reading a page -/

/-- C190, for a connection on which no request had arguments: no page lets the node join anything. -/
theorem C190_no_arguments_partial (st : St α) (me : Text) (now : Int) (own : α) (r : Http.Req) (hr : r.args = none) (x : St α × Answer α × Option Text)
    (h : serve st me now own r = .ok x) : x.2.2 = none := by
  have hj : joins r = none := by unfold joins; rw [hr]; rfl
  unfold serve at h
  split at h
  · rename_i p _ _
    cases k : hashPage st me now own p with
    | error f => rw [k] at h; simp [Except.map] at h
    | ok y => rw [k] at h; simp only [Except.map, Except.ok.injEq] at h; rw [← h]
  · rename_i p _ _
    cases k : allPage st now own p with
    | error f => rw [k] at h; simp [Except.map] at h
    | ok y => rw [k] at h; simp only [Except.map, Except.ok.injEq] at h; rw [← h]; exact hj
  · simp only [Except.ok.injEq] at h; rw [← h]

/-- "GET /sysinfo?connect_string=x" and "GET /sysinfo". -/
def joinMsg : Http.Msg := { method := 0, path := 47 :: word, query := some (connect ++ [61, 120]), headers := [], parts := [], length := 0 }
def listMsg : Http.Msg := { joinMsg with query := none }

/-- C190 fails: whoever reads the page chooses an address that the node joins. -/
theorem C190_join_refuted : (Http.serve Http.fresh [joinMsg]).map (fun r => (serve (enable { cache := none, hooks := some [] } [109]) [109] 5 0 r).map (·.2)) =
    some (.ok (.all [⟨none, some 5, 0⟩], some [120])) := by decide +kernel

/-- C190 fails again with each further request of that connection, which has no arguments. -/
theorem C190_again_refuted : (Http.serve Http.fresh [joinMsg, listMsg]).map (fun r => (serve (enable { cache := none, hooks := some [] } [109]) [109] 5 0 r).map (·.2)) =
    some (.ok (.all [⟨none, some 5, 0⟩], some [120])) := by decide +kernel

end Np.Sys
