import Verif.Dial.Spec
set_option linter.unusedSimpArgs false
set_option linter.unusedVariables false
namespace Np.Dial
open _root_.Np.Dial.Spec

theorem run_append (p : Peer) (a b : List Ev) : run p (a ++ b) = run (run p a) b := by
  induction a generalizing p with
  | nil => rfl
  | cons e r ih => exact ih (step p e)

/-- An invariant of the steps is one of the runs. -/
theorem run_inv (I : Peer → Prop) (ok : Ev → Prop) (hs : ∀ p e, ok e → I p → I (step p e)) :
    ∀ (evs : List Ev) (p : Peer), (∀ e ∈ evs, ok e) → I p → I (run p evs) := by
  intro evs
  induction evs with
  | nil => intro p _ h; exact h
  | cons e r ih =>
    intro p hok h
    exact ih _ (fun x hx => hok x (List.mem_cons_of_mem _ hx)) (hs p e (hok e List.mem_cons_self) h)

/-- The three results of a completion. -/
theorem complete_cases (p : Peer) (now : Nat) :
    (p.hs ≠ .connected ∧ p.hsAt + ttl < now ∧ complete p now =
      { p with hs := .initiated, hsAt := now, attempts := (p.attempts + 1) % 256, sent := ⟨now, .handshake⟩ :: p.sent }) ∨
    (p.session = true ∧ p.joined ≠ .connected ∧ p.joinAt + ttl < now ∧ complete p now =
      { p with joined := .initiated, joinAt := now, attempts := (p.attempts + 1) % 256, sent := ⟨now, .join⟩ :: p.sent }) ∨
    complete p now = p := by
  unfold complete
  by_cases h : p.hs ≠ .connected ∧ p.hsAt + ttl < now
  · exact Or.inl ⟨h.1, h.2, if_pos h⟩
  · rw [if_neg h]
    by_cases k : p.session = true ∧ p.joined ≠ .connected ∧ p.joinAt + ttl < now
    · exact Or.inr (Or.inl ⟨k.1, k.2.1, k.2.2, if_pos k⟩)
    · exact Or.inr (Or.inr (if_neg k))

/-- A property closed under the single changes is an invariant. -/
theorem step_ind (I : Peer → Prop) (p : Peer) (e : Ev)
    (h : I p)
    (gone : ∀ q ph, I q → I { q with phase := ph })
    (sess : e = .session → I p → I { p with session := true })
    (joined : ∀ q, I q → I { q with joined := .connected })
    (tok : ∀ now, time e = some now → noToken e = false → p.session = true → p.joined ≠ .connected → I p →
      I { p with joined := .connected, joinAt := now, sent := ⟨now, .join⟩ :: p.sent })
    (comp : ∀ now, time e = some now → p.phase = .setup → p.wildcard = true → wildcardInvalid p now = false → I (complete p now))
    (comp2 : ∀ now l b, e = .tick now l b → p.phase = .setup → p.wildcard = false → invalid p now l b = false → I (complete p now))
    (comp3 : ∀ now n, e = .authn now n → p.phase = .setup → p.wildcard = false → I (complete p now)) : I (step p e) := by
  unfold step
  cases hp : p.phase with
  | inUse => exact h
  | gone => exact h
  | setup =>
    have hw : ∀ now l b, p.wildcard = true → time e = some now → I (rest p now l b) := by
      intro now l b w ht
      unfold rest
      rw [if_pos w]
      cases hi : wildcardInvalid p now with
      | true => exact gone _ _ h
      | false => exact comp now ht hp w hi
    cases e with
    | tick now l b =>
      by_cases w : p.wildcard = true
      · exact hw now l b w rfl
      · have w' : p.wildcard = false := by simpa using w
        show I (rest p now l b)
        unfold rest
        rw [if_neg w]
        cases hi : invalid p now l b with
        | true => exact gone _ _ h
        | false => exact comp2 now l b rfl hp w' hi
    | token now hsk =>
      by_cases w : p.wildcard = true
      · show I (if p.wildcard = true then _ else _)
        rw [if_pos w]
        cases hsk with
        | true => exact gone p .gone h
        | false => exact hw now false false w rfl
      · show I (if p.wildcard = true then _ else _)
        rw [if_neg w]
        show I (updateToken p now)
        unfold updateToken
        by_cases k : p.session = true ∧ p.joined ≠ .connected
        · rw [if_pos k]; exact tok now rfl rfl k.1 k.2 h
        · rw [if_neg k]; exact h
    | session => exact gone _ .setup (sess rfl h)
    | authn now n =>
      by_cases w : p.wildcard = true
      · show I (if p.wildcard = true then _ else _)
        rw [if_pos w]; exact hw now false false w rfl
      · show I (if p.wildcard = true then _ else _)
        rw [if_neg w]
        have hc := comp3 now n rfl hp (by simpa using w)
        cases n with
        | true => exact gone _ _ (joined _ hc)
        | false => exact gone _ _ hc
    | shutdown now =>
      by_cases w : p.wildcard = true
      · show I (if p.wildcard = true then _ else _)
        rw [if_pos w]; exact hw now false false w rfl
      · show I (if p.wildcard = true then _ else _)
        rw [if_neg w]; exact gone p .gone h

theorem handshakes_hs (t : Nat) (l : List Sent) : handshakes (⟨t, .handshake⟩ :: l) = ⟨t, .handshake⟩ :: handshakes l := rfl
theorem handshakes_join (t : Nat) (l : List Sent) : handshakes (⟨t, .join⟩ :: l) = handshakes l := rfl
theorem joins_hs (t : Nat) (l : List Sent) : joins (⟨t, .handshake⟩ :: l) = joins l := rfl
theorem joins_join (t : Nat) (l : List Sent) : joins (⟨t, .join⟩ :: l) = ⟨t, .join⟩ :: joins l := rfl

/-- The handshakes are apart, `hsAt` is not before any, nothing changes the status to connected. -/
structure HsInv (b : Nat) (p : Peer) : Prop where
  apart : Apart (handshakes p.sent)
  last : ∀ s ∈ handshakes p.sent, s.time ≤ p.hsAt
  is : (handshakes p.sent = [] ∧ p.hsAt = b) ∨ ∃ s ∈ handshakes p.sent, s.time = p.hsAt
  hs : p.hs ≠ .connected

theorem complete_hs (b : Nat) (p : Peer) (now : Nat) (h : HsInv b p) : HsInv b (complete p now) := by
  rcases complete_cases p now with ⟨_, hd, e⟩ | ⟨_, _, _, e⟩ | e
  · rw [e]
    refine ⟨?_, ?_, ?_, by simp⟩
    · show Apart (handshakes (⟨now, .handshake⟩ :: p.sent))
      rw [handshakes_hs]
      refine List.pairwise_cons.mpr ⟨fun s hs => ?_, h.apart⟩
      have := h.last s hs
      simp only [ttl] at hd
      simp only [fiveSeconds]
      omega
    · intro s hs
      have hs : s ∈ handshakes (⟨now, .handshake⟩ :: p.sent) := hs
      rw [handshakes_hs] at hs
      rcases List.mem_cons.mp hs with e1 | hs
      · rw [e1]; exact Nat.le_refl _
      · have := h.last s hs
        show s.time ≤ now
        omega
    · refine Or.inr ⟨⟨now, .handshake⟩, ?_, rfl⟩
      show _ ∈ handshakes (⟨now, .handshake⟩ :: p.sent)
      rw [handshakes_hs]; exact List.mem_cons_self
  · rw [e]; exact ⟨h.apart, h.last, h.is, h.hs⟩
  · rw [e]; exact h

theorem step_hs (b : Nat) (p : Peer) (e : Ev) (h : HsInv b p) : HsInv b (step p e) :=
  step_ind (HsInv b) p e h (fun _ _ q => ⟨q.1, q.2, q.3, q.4⟩) (fun _ q => ⟨q.1, q.2, q.3, q.4⟩) (fun _ q => ⟨q.1, q.2, q.3, q.4⟩)
    (fun _ _ _ _ _ q => ⟨q.1, q.2, q.3, q.4⟩) (fun now _ _ _ _ => complete_hs b p now h) (fun now _ _ _ _ _ _ => complete_hs b p now h)
    (fun now _ _ _ _ => complete_hs b p now h)

theorem fresh_hs (w u s : Bool) (b : Option Nat) (c : Nat) : HsInv (b.getD 0) (fresh w u s b c) := by
  refine ⟨List.Pairwise.nil, fun s hs => (List.not_mem_nil hs).elim, Or.inl ⟨rfl, rfl⟩, ?_⟩
  cases b <;> simp [fresh]

theorem run_hs (w u s : Bool) (b : Option Nat) (c : Nat) (evs : List Ev) : HsInv (b.getD 0) (run (fresh w u s b c) evs) :=
  run_inv (HsInv (b.getD 0)) (fun _ => True) (fun p e _ h => step_hs _ p e h) evs _ (fun _ _ => trivial) (fresh_hs w u s b c)

/-- What never changes. -/
structure Same (w u : Bool) (c : Nat) (p : Peer) : Prop where
  wildcard : p.wildcard = w
  unknown : p.unknown = u
  created : p.created = c

theorem complete_same {w u c} (p : Peer) (now : Nat) (h : Same w u c p) : Same w u c (complete p now) := by
  rcases complete_cases p now with ⟨_, _, e⟩ | ⟨_, _, _, e⟩ | e <;> rw [e] <;> exact ⟨h.1, h.2, h.3⟩

theorem step_same {w u c} (p : Peer) (e : Ev) (h : Same w u c p) : Same w u c (step p e) :=
  step_ind (Same w u c) p e h (fun _ _ q => ⟨q.1, q.2, q.3⟩) (fun _ q => ⟨q.1, q.2, q.3⟩) (fun _ q => ⟨q.1, q.2, q.3⟩)
    (fun _ _ _ _ _ q => ⟨q.1, q.2, q.3⟩) (fun now _ _ _ _ => complete_same p now h) (fun now _ _ _ _ _ _ => complete_same p now h)
    (fun now _ _ _ _ => complete_same p now h)

theorem run_same (w u s : Bool) (b : Option Nat) (c : Nat) (evs : List Ev) : Same w u c (run (fresh w u s b c) evs) :=
  run_inv (Same w u c) (fun _ => True) (fun p e _ h => step_same p e h) evs _ (fun _ _ => trivial) ⟨rfl, rfl, rfl⟩

/-- Joins only with a session. -/
def JoinSess (p : Peer) : Prop := joins p.sent ≠ [] → p.session = true

theorem complete_js (p : Peer) (now : Nat) (h : JoinSess p) : JoinSess (complete p now) := by
  rcases complete_cases p now with ⟨_, _, e⟩ | ⟨s, _, _, e⟩ | e
  · rw [e]; exact h
  · rw [e]; exact fun _ => s
  · rw [e]; exact h

theorem step_js (p : Peer) (e : Ev) (h : JoinSess p) : JoinSess (step p e) :=
  step_ind JoinSess p e h (fun _ _ q => q) (fun _ _ _ => rfl) (fun _ q => q) (fun _ _ _ s _ _ _ => s)
    (fun now _ _ _ _ => complete_js p now h) (fun now _ _ _ _ _ _ => complete_js p now h) (fun now _ _ _ _ => complete_js p now h)

/-- The session of a peer is only set by the event for it. -/
theorem complete_session (p : Peer) (now : Nat) : (complete p now).session = p.session := by
  rcases complete_cases p now with ⟨_, _, e⟩ | ⟨_, _, _, e⟩ | e <;> rw [e]

theorem step_session (p : Peer) (e : Ev) (he : e ≠ .session) (h : p.session = false) : (step p e).session = false :=
  step_ind (fun q => q.session = false) p e h (fun _ _ q => q) (fun k => absurd k he) (fun _ q => q) (fun _ _ _ _ _ q => q)
    (fun now _ _ _ _ => (complete_session p now).trans h) (fun now _ _ _ _ _ _ => (complete_session p now).trans h)
    (fun now _ _ _ _ => (complete_session p now).trans h)

/-- Without a token the joins are apart, and the last one is remembered. -/
structure JInv (p : Peer) : Prop where
  apart : Apart (joins p.sent)
  last : ∀ s ∈ joins p.sent, s.time ≤ p.joinAt

theorem complete_j (p : Peer) (now : Nat) (h : JInv p) : JInv (complete p now) := by
  rcases complete_cases p now with ⟨_, _, e⟩ | ⟨_, _, hd, e⟩ | e
  · rw [e]; exact ⟨h.1, h.2⟩
  · rw [e]
    constructor
    · show Apart (joins (⟨now, .join⟩ :: p.sent))
      rw [joins_join]
      refine List.pairwise_cons.mpr ⟨fun s hs => ?_, h.apart⟩
      have := h.last s hs
      simp only [ttl] at hd
      simp only [fiveSeconds]
      omega
    · intro s hs
      have hs : s ∈ joins (⟨now, .join⟩ :: p.sent) := hs
      rw [joins_join] at hs
      rcases List.mem_cons.mp hs with e1 | hs
      · rw [e1]; exact Nat.le_refl _
      · have := h.last s hs
        show s.time ≤ now
        omega
  · rw [e]; exact h

theorem step_j (p : Peer) (e : Ev) (he : noToken e = true) (h : JInv p) : JInv (step p e) :=
  step_ind JInv p e h (fun _ _ q => ⟨q.1, q.2⟩) (fun _ q => ⟨q.1, q.2⟩) (fun _ q => ⟨q.1, q.2⟩)
    (fun _ _ k _ _ _ => by rw [he] at k; exact absurd k (by simp))
    (fun now _ _ _ _ => complete_j p now h) (fun now _ _ _ _ _ _ => complete_j p now h) (fun now _ _ _ _ => complete_j p now h)

/-- The handshakes of a silent peer lie in a window. -/
def Window (lo hi : Nat) (p : Peer) : Prop := ∀ s ∈ handshakes p.sent, lo ≤ s.time ∧ s.time < hi

theorem complete_w (lo hi : Nat) (p : Peer) (now : Nat) (h : Window lo hi p) (h1 : lo ≤ now) (h2 : now < hi) :
    Window lo hi (complete p now) := by
  rcases complete_cases p now with ⟨_, _, e⟩ | ⟨_, _, _, e⟩ | e
  · rw [e]
    intro s hs
    have hs : s ∈ handshakes (⟨now, .handshake⟩ :: p.sent) := hs
    rw [handshakes_hs] at hs
    rcases List.mem_cons.mp hs with e1 | hs
    · rw [e1]; exact ⟨h1, h2⟩
    · exact h s hs
  · rw [e]; exact h
  · rw [e]; exact h

theorem invalid_late (p : Peer) (now : Nat) (b : Bool) (h : p.created + grace ≤ now) : invalid p now false b = true := by
  have : decide (¬ now < p.created + grace) = true := by simpa using h
  unfold invalid
  rw [this]
  simp

theorem step_w_node (c : Nat) (u : Bool) (p : Peer) (e : Ev) (hs : silent e = true) (ht : ∀ now, time e = some now → c ≤ now)
    (k : Same false u c p) (h : Window c (c + grace) p) : Window c (c + grace) (step p e) := by
  refine step_ind (Window c (c + grace)) p e h (fun _ _ q => q) (fun _ q => q) (fun _ q => q) (fun _ _ _ _ _ q => q) ?_ ?_ ?_
  · intro now _ _ w; rw [k.wildcard] at w; exact absurd w (by simp)
  · intro now l b he _ _ hi
    subst he
    have hl : l = false := by simpa [silent] using hs
    subst hl
    refine complete_w _ _ p now h (ht now rfl) ?_
    apply Classical.byContradiction
    intro hn
    rw [invalid_late p now b (by rw [k.created]; omega)] at hi
    exact absurd hi (by simp)
  · intro now n he; subst he; exact absurd hs (by simp [silent])

theorem step_w_wild (c : Nat) (p : Peer) (e : Ev) (ht : ∀ now, time e = some now → c ≤ now)
    (k : Same true false c p) (h : Window c (c + wildcardLife + 1) p) : Window c (c + wildcardLife + 1) (step p e) := by
  refine step_ind (Window c (c + wildcardLife + 1)) p e h (fun _ _ q => q) (fun _ q => q) (fun _ q => q) (fun _ _ _ _ _ q => q) ?_ ?_ ?_
  · intro now he _ _ hi
    refine complete_w _ _ p now h (ht now he) ?_
    have hi : (!p.unknown && decide (p.created + wildcardLife < now)) = false := hi
    rw [k.unknown, k.created] at hi
    have : ¬ c + wildcardLife < now := by simpa using hi
    omega
  · intro now l b _ _ w; rw [k.wildcard] at w; exact absurd w (by simp)
  · intro now n _ _ w; rw [k.wildcard] at w; exact absurd w (by simp)

/-- So many fit into a window. -/
theorem apart_count (l : List Sent) (lo hi : Nat) (h : Apart l) (w : ∀ s ∈ l, lo ≤ s.time ∧ s.time < hi) :
    l = [] ∨ lo + (l.length - 1) * (fiveSeconds + 1) < hi := by
  have key : ∀ (l : List Sent), Apart l → (∀ s ∈ l, lo ≤ s.time) → ∀ x r, l = x :: r → lo + r.length * (fiveSeconds + 1) ≤ x.time := by
    intro l
    induction l with
    | nil => intro _ _ x r e; exact absurd e (by simp)
    | cons y t ih =>
      intro ha hw x r e
      cases e
      cases t with
      | nil => have := hw y List.mem_cons_self; simpa using this
      | cons z t =>
        have hp := List.pairwise_cons.mp ha
        have h1 := ih hp.2 (fun s hs => hw s (List.mem_cons_of_mem _ hs)) z t rfl
        have h2 := hp.1 z List.mem_cons_self
        rw [List.length_cons, Nat.add_mul]
        omega
  cases l with
  | nil => exact Or.inl rfl
  | cons x r =>
    have h1 := key _ h (fun s hs => (w s hs).1) x r rfl
    have h2 := (w x List.mem_cons_self).2
    refine Or.inr ?_
    rw [List.length_cons, Nat.add_sub_cancel]
    omega

/-- A join that was confirmed too early is not sent again. -/
structure Joined (l : List Sent) (p : Peer) : Prop where
  joined : p.joined = .connected
  same : joins p.sent = l

theorem complete_joined (l : List Sent) (p : Peer) (now : Nat) (h : Joined l p) : Joined l (complete p now) := by
  rcases complete_cases p now with ⟨_, _, e⟩ | ⟨_, k, _, _⟩ | e
  · rw [e]; exact ⟨h.1, h.2⟩
  · exact absurd h.joined k
  · rw [e]; exact h

theorem step_joined (l : List Sent) (p : Peer) (e : Ev) (h : Joined l p) : Joined l (step p e) :=
  step_ind (Joined l) p e h (fun _ _ q => ⟨q.1, q.2⟩) (fun _ q => ⟨q.1, q.2⟩) (fun _ q => ⟨rfl, q.2⟩)
    (fun _ _ _ _ k _ => absurd h.joined k)
    (fun now _ _ _ _ => complete_joined l p now h) (fun now _ _ _ _ _ _ => complete_joined l p now h)
    (fun now _ _ _ _ => complete_joined l p now h)

/-- A tick in the time of grace completes. -/
theorem tick_early (p : Peer) (now : Nat) (l b : Bool) (hp : p.phase = .setup) (hw : p.wildcard = false) (hu : p.unknown = false)
    (hg : now < p.created + grace) : step p (.tick now l b) = complete p now := by
  have hi : invalid p now l b = false := by simp [invalid, hu, hg]
  unfold step
  rw [hp]
  show rest p now l b = _
  unfold rest
  rw [if_neg (by rw [hw]; simp), if_neg (by rw [hi]; simp)]

/-- A tick after the time of grace ends the attempts. -/
theorem tick_late (p : Peer) (now : Nat) (b : Bool) (hp : p.phase = .setup) (hw : p.wildcard = false)
    (hg : p.created + grace ≤ now) : step p (.tick now false b) = { p with phase := .gone } := by
  unfold step
  rw [hp]
  show rest p now false b = _
  unfold rest
  rw [if_neg (by rw [hw]; simp), if_pos (invalid_late p now b hg)]

theorem complete_due (p : Peer) (now : Nat) (h : p.hs ≠ .connected) (hd : p.hsAt + ttl < now) : complete p now =
    { p with hs := .initiated, hsAt := now, attempts := (p.attempts + 1) % 256, sent := ⟨now, .handshake⟩ :: p.sent } :=
  if_pos ⟨h, hd⟩

theorem complete_join (p : Peer) (now : Nat) (hn : ¬ p.hsAt + ttl < now) (s : p.session = true) (j : p.joined ≠ .connected)
    (hd : p.joinAt + ttl < now) : complete p now =
    { p with joined := .initiated, joinAt := now, attempts := (p.attempts + 1) % 256, sent := ⟨now, .join⟩ :: p.sent } := by
  unfold complete
  rw [if_neg (fun k => hn k.2), if_pos ⟨s, j, hd⟩]

/-- A wildcard key without a network stays. -/
theorem tick_stuck (p : Peer) (now : Nat) (l b : Bool) (hp : p.phase = .setup) (hw : p.wildcard = true) (hu : p.unknown = true) :
    step p (.tick now l b) = complete p now := by
  have hi : wildcardInvalid p now = false := by simp [wildcardInvalid, hu]
  unfold step
  rw [hp]
  show rest p now l b = _
  unfold rest
  rw [if_pos hw, if_neg (by rw [hi]; simp)]

/-- The time of the last join is that of one that was sent. -/
def JoinAt (p : Peer) : Prop := p.joinAt = 0 ∨ ∃ s ∈ joins p.sent, s.time = p.joinAt

theorem complete_ja (p : Peer) (now : Nat) (h : JoinAt p) : JoinAt (complete p now) := by
  rcases complete_cases p now with ⟨_, _, e⟩ | ⟨_, _, _, e⟩ | e
  · rw [e]; exact h
  · rw [e]; exact Or.inr ⟨⟨now, .join⟩, List.mem_cons_self, rfl⟩
  · rw [e]; exact h

theorem step_ja (p : Peer) (e : Ev) (h : JoinAt p) : JoinAt (step p e) :=
  step_ind JoinAt p e h (fun _ _ q => q) (fun _ q => q) (fun _ q => q)
    (fun now _ _ _ _ _ => Or.inr ⟨⟨now, .join⟩, List.mem_cons_self, rfl⟩)
    (fun now _ _ _ _ => complete_ja p now h) (fun now _ _ _ _ _ _ => complete_ja p now h) (fun now _ _ _ _ => complete_ja p now h)

/-- Two checks in a row. -/
theorem join_two (p : Peer) (t1 t2 : Nat) (l1 b1 l2 b2 : Bool) (hp : p.phase = .setup) (hw : p.wildcard = false)
    (hu : p.unknown = false) (hs : p.session = true) (hj : p.joined ≠ .connected) (hh : p.hs ≠ .connected)
    (h12 : t1 ≤ t2) (hc : t2 ≤ t1 + ttl) (hg : t2 < p.created + grace) (hd : p.joinAt + ttl < t1) :
    ∃ t, (t = t1 ∨ t = t2) ∧ joins (step (step p (.tick t1 l1 b1)) (.tick t2 l2 b2)).sent = ⟨t, .join⟩ :: joins p.sent := by
  have hd2 : p.joinAt + ttl < t2 := Nat.lt_of_lt_of_le hd h12
  have hg1 : t1 < p.created + grace := Nat.lt_of_le_of_lt h12 hg
  rw [tick_early p t1 l1 b1 hp hw hu hg1]
  by_cases h : p.hsAt + ttl < t1
  · rw [complete_due p t1 hh h]
    generalize hq : ({ p with hs := .initiated, hsAt := t1, attempts := (p.attempts + 1) % 256, sent := ⟨t1, .handshake⟩ :: p.sent } : Peer) = q
    have e1 : q.phase = .setup := by rw [← hq]; exact hp
    have e2 : q.wildcard = false := by rw [← hq]; exact hw
    have e3 : q.unknown = false := by rw [← hq]; exact hu
    have e4 : t2 < q.created + grace := by rw [← hq]; exact hg
    have e5 : ¬ q.hsAt + ttl < t2 := by rw [← hq]; exact Nat.not_lt.mpr hc
    have e6 : q.joinAt + ttl < t2 := by rw [← hq]; exact hd2
    have e7 : q.session = true := by rw [← hq]; exact hs
    have e8 : q.joined ≠ .connected := by rw [← hq]; exact hj
    have e9 : joins q.sent = joins p.sent := by rw [← hq]; rfl
    rw [tick_early q t2 l2 b2 e1 e2 e3 e4, complete_join q t2 e5 e7 e8 e6]
    exact ⟨t2, Or.inr rfl, (joins_join t2 q.sent).trans (by rw [e9])⟩
  · rw [complete_join p t1 h hs hj hd]
    generalize hq : ({ p with joined := .initiated, joinAt := t1, attempts := (p.attempts + 1) % 256, sent := ⟨t1, .join⟩ :: p.sent } : Peer) = q
    have e1 : q.phase = .setup := by rw [← hq]; exact hp
    have e2 : q.wildcard = false := by rw [← hq]; exact hw
    have e3 : q.unknown = false := by rw [← hq]; exact hu
    have e4 : t2 < q.created + grace := by rw [← hq]; exact hg
    have e5 : ¬ q.joinAt + ttl < t2 := by rw [← hq]; exact Nat.not_lt.mpr hc
    have e9 : joins q.sent = ⟨t1, .join⟩ :: joins p.sent := by rw [← hq]; rfl
    rw [tick_early q t2 l2 b2 e1 e2 e3 e4]
    refine ⟨t1, Or.inl rfl, ?_⟩
    rw [← e9]
    rcases complete_cases q t2 with ⟨_, _, e⟩ | ⟨_, _, k, _⟩ | e
    · rw [e]; rfl
    · exact absurd k e5
    · rw [e]

end Np.Dial
