import Verif.Ack.Spec
import Verif.Tree.Lemmas2

set_option linter.unusedVariables false
set_option linter.unusedSimpArgs false

namespace Np.Ack

open _root_.Np.Ack.Spec
open _root_.Np.Tree (Tree Name Elem Fault Keeps Good elems find insert del setVal sought against)
open _root_.Np.Tree.Spec (Kind)
open _root_.Np.Rb (toList locate)

/-- What was found gets another value. -/
theorem setVal_found {V : Type} {t : Tree V} {n : Name} {e : Elem V} (hf : find t n = some e) (v : V) :
    ∃ a b, toList t.root = a ++ e :: b ∧ toList (setVal (sought n) v t.root) = a ++ ⟨e.key, v⟩ :: b := by
  unfold find at hf
  rw [Rb.find_locate t.root []] at hf
  unfold setVal
  cases hl : locate (against (sought n)) t.root [] with
  | none => rw [hl] at hf; simp at hf
  | some g =>
    rcases g with ⟨c, l, e', r, p⟩
    rw [hl] at hf
    simp only [Option.map_some, Option.some.injEq] at hf
    subst hf
    have h := Rb.locate_zip t.root [] hl
    simp only [Rb.zip] at h
    refine ⟨Rb.before p ++ toList l, toList r ++ Rb.after p, ?_, ?_⟩
    · rw [← h.1, Rb.toList_zip]; simp [toList]
    · simp only []
      rw [Rb.toList_zip]; simp [toList]

/-- Whether there is something. -/
def one {α : Type} : Option α → Nat
  | none => 0
  | some _ => 1

/-- The state after a history: two maps, one for the messages that wait for an acknowledgement and one for those that will be sent again. -/
structure Inv (s : St) (f : BitVec 128 → Nat) (mh : Name → Option Container) (mp : Name → Option Pending) : Prop where
  kh : Keeps .uuids s.handlers mh
  ih : s.handlers.immutable = false
  kp : Keeps .uuids s.pending mp
  ip : s.pending.immutable = false
  same : ∀ u, (mh (.uuid u)).isSome = (mp (.uuid u)).isSome
  nh : ∀ u c, mh (.uuid u) = some c → c.uuid = u
  np : ∀ u p, mp (.uuid u) = some p → p.uuid = u
  cnt : ∀ u, reports u s.log + one (mh (.uuid u)) ≤ f u

theorem admits (u : BitVec 128) : Kind.Admits .uuids (.uuid u) := trivial

theorem admits_uuid {n : Name} (h : Kind.Admits .uuids n) : ∃ u, n = .uuid u := by
  cases n <;> simp [Kind.Admits] at h
  exact ⟨_, rfl⟩

theorem inv_init : Inv init (fun _ => 0) (fun _ => none) (fun _ => none) := by
  refine ⟨Tree.keeps_empty _ false, rfl, Tree.keeps_empty _ false, rfl, ?_, ?_, ?_, ?_⟩
  · intro u; rfl
  · intro u c h; simp at h
  · intro u c h; simp at h
  · intro u; simp [reports, init, one]

/-- The elements and the map. -/
theorem Inv.mem_handlers {s : St} {f mh mp} (h : Inv s f mh mp) {e : Elem Container} (he : e ∈ elems s.handlers) :
    mh (.uuid e.val.uuid) = some e.val ∧ e.key.name = .uuid e.val.uuid := by
  have h1 := (h.kh.same e.key.name e.val).1 ⟨e, he, rfl, rfl⟩
  rcases admits_uuid (h.kh.good.key he).1 with ⟨u, hu⟩
  rw [hu] at h1
  have := h.nh u _ h1
  rw [this, hu]
  exact ⟨h1, rfl⟩

theorem Inv.mem_pending {s : St} {f mh mp} (h : Inv s f mh mp) {e : Elem Pending} (he : e ∈ elems s.pending) :
    mp (.uuid e.val.uuid) = some e.val ∧ e.key.name = .uuid e.val.uuid := by
  have h1 := (h.kp.same e.key.name e.val).1 ⟨e, he, rfl, rfl⟩
  rcases admits_uuid (h.kp.good.key he).1 with ⟨u, hu⟩
  rw [hu] at h1
  have := h.np u _ h1
  rw [this, hu]
  exact ⟨h1, rfl⟩

theorem Inv.waiting_iff {s : St} {f mh mp} (h : Inv s f mh mp) (u : BitVec 128) : u ∈ waiting s ↔ (mh (.uuid u)).isSome := by
  unfold waiting
  constructor
  · intro hu
    rcases List.mem_map.1 hu with ⟨e, he, e1⟩
    rw [← e1, (h.mem_handlers he).1]
    rfl
  · intro hs
    cases hm : mh (.uuid u) with
    | none => rw [hm] at hs; simp at hs
    | some c =>
      rcases (h.kh.same _ _).2 hm with ⟨e, he, h1, h2⟩
      exact List.mem_map.2 ⟨e, he, by rw [h2]; exact h.nh u c hm⟩

theorem Inv.redelivered_iff {s : St} {f mh mp} (h : Inv s f mh mp) (u : BitVec 128) : u ∈ redelivered s ↔ (mp (.uuid u)).isSome := by
  unfold redelivered
  constructor
  · intro hu
    rcases List.mem_map.1 hu with ⟨e, he, e1⟩
    rw [← e1, (h.mem_pending he).1]
    rfl
  · intro hs
    cases hm : mp (.uuid u) with
    | none => rw [hm] at hs; simp at hs
    | some c =>
      rcases (h.kp.same _ _).2 hm with ⟨e, he, h1, h2⟩
      exact List.mem_map.2 ⟨e, he, by rw [h2]; exact h.np u c hm⟩

theorem reports_append (u : BitVec 128) (a b : List Seen) : reports u (a ++ b) = reports u a + reports u b := by
  unfold reports; exact List.countP_append

theorem transmissions_append (u : BitVec 128) (a b : List Seen) : transmissions u (a ++ b) = transmissions u a + transmissions u b := by
  unfold transmissions; exact List.countP_append

theorem find_isSome {V : Type} {t : Tree V} {m} (h : Keeps .uuids t m) (u : BitVec 128) : (find t (.uuid u)).isSome = (m (.uuid u)).isSome := by
  rw [← h.lookup (admits u)]
  cases find t (.uuid u) <;> rfl

/-- Sending, for a message that does not wait yet. -/
theorem send_new {cfg : Cfg} {s : St} {f mh mp} (h : Inv s f mh mp) {u : BitVec 128} (hu : mh (.uuid u) = none) (a b : Nat) :
    ∃ s', send cfg u a b s = .ok s' ∧ ∃ mh' mp', Inv s' (fun v => f v + if v = u then 1 else 0) mh' mp' ∧ s'.log = s.log ++ [.sent u] ∧
      (∀ v, v ≠ u → mh' (.uuid v) = mh (.uuid v)) := by
  have hp : mp (.uuid u) = none := by
    have := h.same u
    rw [hu] at this
    cases hm : mp (.uuid u) with
    | none => rfl
    | some x => rw [hm] at this; simp at this
  have f1 : find s.handlers (.uuid u) = none := by
    have := find_isSome h.kh u
    rw [hu] at this
    cases hf : find s.handlers (.uuid u) with
    | none => rfl
    | some e => rw [hf] at this; simp at this
  have f2 : find s.pending (.uuid u) = none := by
    have := find_isSome h.kp u
    rw [hp] at this
    cases hf : find s.pending (.uuid u) with
    | none => rfl
    | some e => rw [hf] at this; simp at this
  rcases Tree.good_insert h.kh (admits u) h.ih { uuid := u, sendAt := b, expiresAt := b + cfg.ttl, receivedAt := 0 } with ⟨th, i1, i2, i3, _⟩
  rcases Tree.good_insert h.kp (admits u) h.ip { uuid := u, redeliveryAt := a + cfg.interval } with ⟨tp, j1, j2, j3, _⟩
  refine ⟨{ handlers := th, pending := tp, log := s.log ++ [.sent u] }, ?_, _, _, ⟨i2, i3, j2, j3, ?_, ?_, ?_, ?_⟩, rfl, ?_⟩
  · unfold send addHandler addPending
    rw [f1, f2]
    simp only [i1, j1]
  · intro v
    simp only [Tree.Spec.apply]
    by_cases hv : (Name.uuid v) = .uuid u
    · rw [if_pos hv, if_pos hv]; rfl
    · rw [if_neg hv, if_neg hv]; exact h.same v
  · intro v c
    simp only [Tree.Spec.apply]
    by_cases hv : (Name.uuid v) = .uuid u
    · rw [if_pos hv, hu]
      intro hc
      simp only [Option.getD_none, Option.some.injEq] at hc
      rw [← hc]
      simp only [Name.uuid.injEq] at hv
      exact hv.symm
    · rw [if_neg hv]; exact h.nh v c
  · intro v c
    simp only [Tree.Spec.apply]
    by_cases hv : (Name.uuid v) = .uuid u
    · rw [if_pos hv, hp]
      intro hc
      simp only [Option.getD_none, Option.some.injEq] at hc
      rw [← hc]
      simp only [Name.uuid.injEq] at hv
      exact hv.symm
    · rw [if_neg hv]; exact h.np v c
  · intro v
    rw [reports_append]
    have hr : reports v [Seen.sent u] = 0 := by simp [reports, Reports]
    have hc := h.cnt v
    simp only [Tree.Spec.apply]
    by_cases hv : v = u
    · subst hv
      rw [hu] at hc
      simp only [if_true, one] at hc ⊢
      omega
    · have hv' : ¬ (Name.uuid v) = .uuid u := by simpa using hv
      rw [if_neg hv', if_neg hv]
      omega
  · intro v hv
    simp only [Tree.Spec.apply]
    rw [if_neg (by simpa using hv)]

/-- Sending, for a message that waits already. -/
theorem send_known {cfg : Cfg} {s : St} {f mh mp} (h : Inv s f mh mp) {u : BitVec 128} (hu : (mh (.uuid u)).isSome) (a b : Nat) :
    send cfg u a b s = .ok { s with log := s.log ++ [.sent u] } ∧ Inv { s with log := s.log ++ [.sent u] } f mh mp := by
  constructor
  · have f1 := find_isSome h.kh u
    have f2 := find_isSome h.kp u
    rw [hu] at f1
    rw [← h.same, hu] at f2
    unfold send addHandler addPending
    cases e1 : find s.handlers (.uuid u) with
    | none => rw [e1] at f1; simp at f1
    | some x =>
      cases e2 : find s.pending (.uuid u) with
      | none => rw [e2] at f2; simp at f2
      | some y => rfl
  · refine ⟨h.kh, h.ih, h.kp, h.ip, h.same, h.nh, h.np, ?_⟩
    intro v
    rw [reports_append]
    have hr : reports v [Seen.sent u] = 0 := by simp [reports, Reports]
    have := h.cnt v
    omega

theorem Inv.mono {s : St} {f g mh mp} (h : Inv s f mh mp) (hfg : ∀ u, f u ≤ g u) : Inv s g mh mp :=
  ⟨h.kh, h.ih, h.kp, h.ip, h.same, h.nh, h.np, fun u => Nat.le_trans (h.cnt u) (hfg u)⟩

/-- An acknowledgement marks a container, or does nothing. -/
theorem ack_inv {s : St} {f mh mp} (h : Inv s f mh mp) (u : BitVec 128) (now : Nat) :
    ∃ mh', Inv (ack u now s) f mh' mp ∧ (ack u now s).log = s.log ∧ ∀ v, (mh' (.uuid v)).isSome = (mh (.uuid v)).isSome := by
  unfold ack
  cases hf : find s.handlers (.str ((bytes u).takeWhile (· ≠ 0))) with
  | none => exact ⟨mh, h, rfl, fun _ => rfl⟩
  | some e =>
    rcases setVal_found hf { e.val with receivedAt := now } with ⟨a, b, h1, h2⟩
    have he : e ∈ elems s.handlers := by unfold elems; rw [h1]; simp
    rcases h.mem_handlers he with ⟨hm, hn⟩
    have hk := Tree.keeps_update h.kh h1 h2 (Tree.setVal_valid h.kh.good.valid)
    refine ⟨_, ⟨hk, h.ih, h.kp, h.ip, ?_, ?_, h.np, ?_⟩, rfl, ?_⟩
    · intro v
      by_cases hv : Name.uuid v = e.key.name
      · rw [if_pos hv, ← h.same v, hv, hn, hm]; rfl
      · rw [if_neg hv]; exact h.same v
    · intro v c
      by_cases hv : Name.uuid v = e.key.name
      · rw [if_pos hv]
        intro hc
        rw [hn, Name.uuid.injEq] at hv
        simp only [Option.some.injEq] at hc
        rw [← hc, hv]
      · rw [if_neg hv]; exact h.nh v c
    · intro v
      have := h.cnt v
      by_cases hv : Name.uuid v = e.key.name
      · rw [hv, hn, hm] at this
        rw [if_pos hv]
        exact this
      · rw [if_neg hv]; exact this
    · intro v
      by_cases hv : Name.uuid v = e.key.name
      · rw [if_pos hv, hv, hn, hm]; rfl
      · rw [if_neg hv]

theorem delAll_keeps {V : Type} : ∀ (us : List (BitVec 128)) {t : Tree V} {m}, Keeps .uuids t m → t.immutable = false →
    ∃ t', delAll us t = .ok t' ∧ t'.immutable = false ∧ ∃ m', Keeps .uuids t' m' ∧ ∀ v, m' (.uuid v) = if v ∈ us then none else m (.uuid v) := by
  intro us
  induction us with
  | nil => intro t m h hi; exact ⟨t, rfl, hi, m, h, fun v => by simp⟩
  | cons u us ih =>
    intro t m h hi
    rcases Tree.good_del h (admits u) hi with ⟨t1, e1, e2, e3, _⟩
    rcases ih e2 e3 with ⟨t2, f1, f2, m', f3, f4⟩
    refine ⟨t2, ?_, f2, m', f3, ?_⟩
    · rw [delAll, e1]; exact f1
    · intro v
      rw [f4 v]
      simp only [Tree.Spec.apply, Name.uuid.injEq, List.mem_cons]
      by_cases h1 : v ∈ us
      · simp [h1]
      · by_cases h2 : v = u
        · simp [h2]
        · simp [h1, h2]

theorem due_uuid {now : Nat} {c : Container} {x : Seen} (h : due now c = some x) : (∀ u, Reports u x = decide (c.uuid = u)) ∧ ∀ u, x ≠ .sent u := by
  unfold due at h
  split at h
  · cases h; exact ⟨fun u => rfl, by simp⟩
  · split at h
    · cases h; exact ⟨fun u => rfl, by simp⟩
    · simp at h

/-- The uuids of the handlers differ. -/
theorem Inv.nodup {s : St} {f mh mp} (h : Inv s f mh mp) : (elems s.handlers).Pairwise fun a b => a.val.uuid ≠ b.val.uuid := by
  have h2 : (elems s.handlers).Pairwise (fun a b => a ∈ elems s.handlers ∧ b ∈ elems s.handlers) := by
    rw [List.pairwise_iff_forall_sublist]
    intro a b hab
    exact ⟨hab.subset (by simp), hab.subset (by simp)⟩
  refine List.Pairwise.imp ?_ (h.kh.good.sorted.and h2)
  intro a b ⟨h1, ha, hb⟩ e
  rw [(h.mem_handlers ha).2, (h.mem_handlers hb).2, e] at h1
  exact Tree.less_irrefl _ h1

theorem reports_due (now : Nat) (u : BitVec 128) : ∀ (l : List (Elem Container)), l.Pairwise (fun a b => a.val.uuid ≠ b.val.uuid) →
    reports u (l.filterMap fun e => due now e.val) ≤ if u ∈ (l.filter fun e => (due now e.val).isSome).map (fun e => e.val.uuid) then 1 else 0 := by
  intro l
  have zero : ∀ l : List (Elem Container), (∀ e ∈ l, e.val.uuid ≠ u) → reports u (l.filterMap fun e => due now e.val) = 0 := by
    intro l hl
    unfold reports
    rw [List.countP_eq_zero]
    intro x hx
    rcases List.mem_filterMap.1 hx with ⟨e, he, h1⟩
    rw [(due_uuid h1).1 u]
    simpa using hl e he
  induction l with
  | nil => intro _; simp [reports]
  | cons a l ih =>
    intro hp
    rw [List.pairwise_cons] at hp
    have i := ih hp.2
    cases hd : due now a.val with
    | none =>
      rw [List.filterMap_cons_none (f := fun e : Elem Container => due now e.val) hd, List.filter_cons_of_neg (by simp [hd])]
      exact i
    | some x =>
      rw [List.filterMap_cons_some (f := fun e : Elem Container => due now e.val) hd, List.filter_cons_of_pos (by simp [hd])]
      by_cases hu : a.val.uuid = u
      · rw [if_pos (by simp [hu])]
        have := zero l (fun e he e1 => hp.1 e he (by rw [hu, e1]))
        unfold reports at this ⊢
        rw [List.countP_cons, this]
        split <;> omega
      · have hx : Reports u x = false := by rw [(due_uuid hd).1 u]; simpa using hu
        unfold reports at i ⊢
        rw [List.countP_cons, hx]
        simp only [Bool.false_eq_true, if_false, Nat.add_zero, List.map_cons, List.mem_cons]
        have hu' : ¬ u = a.val.uuid := fun e => hu e.symm
        simp only [hu', false_or]
        exact i

/-- Looking for containers that are due. -/
theorem cleanup_inv {s : St} {f mh mp} (h : Inv s f mh mp) (now : Nat) :
    ∃ s', cleanup now s = .ok s' ∧ ∃ mh' mp', Inv s' f mh' mp' ∧
      s'.log = s.log ++ ((visited s.handlers).filterMap fun e => due now e.val) ∧
      (∀ v, mh' (.uuid v) = if v ∈ ((visited s.handlers).filter fun e => (due now e.val).isSome).map (fun e => e.val.uuid) then none else mh (.uuid v)) := by
  rcases delAll_keeps (((visited s.handlers).filter fun e => (due now e.val).isSome).map (fun e => e.val.uuid)) h.kh h.ih with ⟨th, a1, a2, mh', a3, a4⟩
  rcases delAll_keeps (((visited s.handlers).filter fun e => (due now e.val).isSome).map (fun e => e.val.uuid)) h.kp h.ip with ⟨tp, b1, b2, mp', b3, b4⟩
  have hfm : ((visited s.handlers).filter fun e => (due now e.val).isSome).filterMap (fun e => due now e.val) = (visited s.handlers).filterMap fun e => due now e.val := by
    rw [List.filterMap_filter]
    congr 1
    funext e
    cases due now e.val <;> rfl
  refine ⟨{ handlers := th, pending := tp, log := s.log ++ ((visited s.handlers).filterMap fun e => due now e.val) }, ?_, mh', mp', ⟨a3, a2, b3, b2, ?_, ?_, ?_, ?_⟩, rfl, a4⟩
  · unfold cleanup
    simp only [a1, b1, hfm]
  · intro u
    rw [a4, b4]
    split
    · rfl
    · exact h.same u
  · intro u c hc
    rw [a4] at hc
    split at hc
    · simp at hc
    · exact h.nh u c hc
  · intro u c hc
    rw [b4] at hc
    split at hc
    · simp at hc
    · exact h.np u c hc
  · intro u
    rw [reports_append, a4]
    have hp : (visited s.handlers).Pairwise (fun a b => a.val.uuid ≠ b.val.uuid) := h.nodup.sublist (List.take_sublist _ _)
    have := reports_due now u _ hp
    have hc := h.cnt u
    by_cases hm : u ∈ ((visited s.handlers).filter fun e => (due now e.val).isSome).map (fun e => e.val.uuid)
    · rw [if_pos hm] at this ⊢
      rcases List.mem_map.1 hm with ⟨e, he, e1⟩
      have he' : e ∈ elems s.handlers := List.mem_of_mem_take (List.mem_filter.1 he).1
      rw [← e1] at hc this ⊢
      rw [(h.mem_handlers he').1] at hc
      simp only [one] at hc ⊢
      omega
    · rw [if_neg hm] at this ⊢
      omega

/-- Sending again. -/
theorem redeliver_inv (cfg : Cfg) (now : Nat) : ∀ (es : List (Elem Pending)) {s : St} {f mh mp}, Inv s f mh mp → (∀ e ∈ es, (mp (.uuid e.val.uuid)).isSome) →
    ∃ s', redeliverLoop cfg now es s = .ok s' ∧ ∃ mp', Inv s' f mh mp' ∧ (∀ u, mh (.uuid u) = none → transmissions u s'.log = transmissions u s.log) ∧ ∀ u, reports u s'.log = reports u s.log := by
  intro es
  induction es with
  | nil => intro s f mh mp h _; exact ⟨s, rfl, mp, h, fun _ _ => rfl, fun _ => rfl⟩
  | cons e es ih =>
    intro s f mh mp h hes
    unfold redeliverLoop
    split
    · have hsome := hes e (by simp)
      have hfs := find_isSome h.kp e.val.uuid
      rw [hsome] at hfs
      cases hf : find s.pending (.uuid e.val.uuid) with
      | none => rw [hf] at hfs; simp at hfs
      | some x =>
        rcases setVal_found hf { e.val with redeliveryAt := e.val.redeliveryAt + cfg.interval } with ⟨a, b, h1, h2⟩
        have hk := Tree.keeps_update h.kp h1 h2 (Tree.setVal_valid h.kp.good.valid)
        have hxn : x.key.name = .uuid e.val.uuid := ((h.kp.good.find_some (admits _)).1 hf).2
        have hinv : Inv { s with pending := { s.pending with root := setVal (sought (.uuid e.val.uuid)) { e.val with redeliveryAt := e.val.redeliveryAt + cfg.interval } s.pending.root } } f mh
            (fun k => if k = x.key.name then some { e.val with redeliveryAt := e.val.redeliveryAt + cfg.interval } else mp k) := by
          refine ⟨h.kh, h.ih, hk, h.ip, ?_, h.nh, ?_, h.cnt⟩
          · intro u
            by_cases hu : Name.uuid u = x.key.name
            · rw [if_pos hu, h.same u, hu, hxn, hsome]; rfl
            · rw [if_neg hu]; exact h.same u
          · intro u p
            by_cases hu : Name.uuid u = x.key.name
            · rw [if_pos hu]
              intro hp
              rw [hxn, Name.uuid.injEq] at hu
              simp only [Option.some.injEq] at hp
              rw [← hp, hu]
            · rw [if_neg hu]; exact h.np u p
        have hw : (mh (.uuid e.val.uuid)).isSome := by rw [h.same]; exact hsome
        rcases send_known hinv hw (e.val.redeliveryAt - cfg.interval) e.val.redeliveryAt (cfg := cfg) with ⟨e1, e2⟩
        rw [e1]
        simp only []
        rcases ih e2 (by
          intro y hy
          by_cases hu : Name.uuid y.val.uuid = x.key.name
          · rw [if_pos hu]; rfl
          · rw [if_neg hu]; exact hes y (by simp [hy])) with ⟨s', g1, mp', g2, g3, g4⟩
        refine ⟨s', g1, mp', g2, ?_, ?_⟩
        · intro u hu
          rw [g3 u hu]
          show transmissions u (s.log ++ [Seen.sent e.val.uuid]) = _
          rw [transmissions_append]
          have : e.val.uuid ≠ u := by
            intro e3
            rw [e3, hu] at hw
            simp at hw
          simp [transmissions, this]
        · intro u
          rw [g4 u]
          show reports u (s.log ++ [Seen.sent e.val.uuid]) = _
          rw [reports_append]
          simp [reports, Reports]
    · exact ih h (fun y hy => hes y (by simp [hy]))

/-- One step. -/
theorem step_inv (cfg : Cfg) {s : St} {f mh mp} (h : Inv s f mh mp) (o : Op) :
    ∃ s', step cfg s o = .ok s' ∧ ∃ mh' mp', Inv s' (fun u => f u + sends u [o]) mh' mp' ∧
      ∀ u, sends u [o] = 0 → mh (.uuid u) = none → mh' (.uuid u) = none ∧ transmissions u s'.log = transmissions u s.log := by
  cases o with
  | send u now =>
    by_cases hu : (mh (.uuid u)).isSome
    · rcases send_known h hu now now (cfg := cfg) with ⟨e1, e2⟩
      refine ⟨_, e1, mh, mp, e2.mono (fun v => by omega), ?_⟩
      intro v hv hn
      refine ⟨hn, ?_⟩
      have hne : u ≠ v := by
        intro e; subst e; rw [hn] at hu; simp at hu
      show transmissions v (s.log ++ [Seen.sent u]) = _
      rw [transmissions_append]
      simp [transmissions, hne]
    · have hn : mh (.uuid u) = none := by
        cases hm : mh (.uuid u) with
        | none => rfl
        | some x => rw [hm] at hu; simp at hu
      rcases send_new h hn now now (cfg := cfg) with ⟨s', e1, mh', mp', e2, e3, e4⟩
      refine ⟨s', e1, mh', mp', e2.mono (fun v => ?_), ?_⟩
      · simp only [sends]
        by_cases hv : v = u
        · rw [if_pos hv, if_pos hv.symm]; omega
        · rw [if_neg hv]; omega
      · intro v hv hnv
        have hne : v ≠ u := by
          intro e; subst e
          simp [sends] at hv
        refine ⟨by rw [e4 v hne]; exact hnv, ?_⟩
        rw [e3, transmissions_append]
        simp [transmissions, Ne.symm hne]
  | ack u now =>
    rcases ack_inv h u now with ⟨mh', e1, e2, e3⟩
    refine ⟨_, rfl, mh', mp, e1.mono (fun v => by omega), ?_⟩
    intro v _ hn
    refine ⟨?_, by rw [e2]⟩
    have := e3 v
    rw [hn] at this
    cases hm : mh' (.uuid v) with
    | none => rfl
    | some x => rw [hm] at this; simp at this
  | cleanup now =>
    rcases cleanup_inv h now with ⟨s', e1, mh', mp', e2, e3, e4⟩
    refine ⟨s', e1, mh', mp', e2.mono (fun v => by omega), ?_⟩
    intro v _ hn
    refine ⟨?_, ?_⟩
    · rw [e4 v, hn]; split <;> rfl
    · rw [e3, transmissions_append]
      have : transmissions v ((visited s.handlers).filterMap fun e => due now e.val) = 0 := by
        unfold transmissions
        rw [List.countP_eq_zero]
        intro x hx
        rcases List.mem_filterMap.1 hx with ⟨e, _, h1⟩
        simpa using (due_uuid h1).2 v
      omega
  | redeliver now =>
    rcases redeliver_inv cfg now (elems s.pending) h (fun e he => by rw [(h.mem_pending he).1]; rfl) with ⟨s', e1, mp', e2, e3, e4⟩
    refine ⟨s', e1, mh, mp', e2.mono (fun v => by omega), ?_⟩
    intro v _ hn
    exact ⟨hn, e3 v hn⟩

theorem sends_cons (u : BitVec 128) (o : Op) (os : List Op) : sends u (o :: os) = sends u [o] + sends u os := by
  cases o <;> simp [sends]

theorem run_inv (cfg : Cfg) : ∀ (ops : List Op) {s : St} {f mh mp}, Inv s f mh mp →
    ∃ s', run cfg s ops = .ok s' ∧ ∃ mh' mp', Inv s' (fun u => f u + sends u ops) mh' mp' ∧
      ∀ u, sends u ops = 0 → mh (.uuid u) = none → mh' (.uuid u) = none ∧ transmissions u s'.log = transmissions u s.log := by
  intro ops
  induction ops with
  | nil => intro s f mh mp h; exact ⟨s, rfl, mh, mp, h.mono (fun u => by simp [sends]), fun u _ hn => ⟨hn, rfl⟩⟩
  | cons o os ih =>
    intro s f mh mp h
    rcases step_inv cfg h o with ⟨s1, e1, mh1, mp1, e2, e3⟩
    rcases ih e2 with ⟨s2, g1, mh2, mp2, g2, g3⟩
    refine ⟨s2, ?_, mh2, mp2, g2.mono (fun u => by rw [sends_cons u o os]; omega), ?_⟩
    · rw [run, e1]; exact g1
    · intro u hu hn
      rw [sends_cons] at hu
      have i1 := e3 u (by omega) hn
      have i2 := g3 u (by omega) i1.1
      exact ⟨i2.1, i2.2.trans i1.2⟩

theorem reach_inv {cfg : Cfg} {ops : List Op} {s : St} (h : run cfg init ops = .ok s) : ∃ mh mp, Inv s (fun u => sends u ops) mh mp := by
  rcases run_inv cfg ops inv_init with ⟨s', e1, mh, mp, e2, _⟩
  rw [e1] at h
  cases h
  exact ⟨mh, mp, e2.mono (fun u => by simp)⟩

end Np.Ack
