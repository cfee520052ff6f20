import Verif.Dial.Lemmas
/-!
# C162-C166: the connection attempts to a peer
-/
namespace Np.Dial
open _root_.Np.Dial.Spec

/-- The clock in the examples: 1000 s. -/
def t0 : Nat := 1000000000000
def s (n : Nat) : Nat := t0 + n * 1000000000

/-! ## C162: handshakes -/

/-- C162: whatever happens, two handshakes to a peer are more than five seconds apart. -/
theorem C162_handshakes_apart_partial (wildcard unknown session : Bool) (before : Option Nat) (created : Nat) (evs : List Ev) :
    Apart (handshakes (run (fresh wildcard unknown session before created) evs).sent) :=
  (run_hs wildcard unknown session before created evs).apart

example : (handshakes (run (fresh false false false none t0) [.tick (s 1) false false, .tick (s 3) false false, .session,
    .tick (s 7) false false]).sent).map Sent.time = [s 7, s 1] := by decide

/-- C162, the other half fails: the session with the peer is established, and still in every check more than five seconds after the last handshake
another one goes out, as long as the peer is not authenticated. -/
theorem C162_session_ends_handshakes_refuted (created now : Nat) (before : Option Nat) (evs : List Ev) (listed bad : Bool)
    (hp : (run (fresh false false true before created) evs).phase = .setup) (hg : now < created + grace)
    (hb : before.getD 0 + fiveSeconds < now)
    (hl : ∀ h ∈ handshakes (run (fresh false false true before created) evs).sent, h.time + fiveSeconds < now) :
    (run (fresh false false true before created) (evs ++ [.tick now listed bad])).sent =
      ⟨now, .handshake⟩ :: (run (fresh false false true before created) evs).sent := by
  have I := run_hs false false true before created evs
  have S := run_same false false true before created evs
  have hd : (run (fresh false false true before created) evs).hsAt + ttl < now := by
    simp only [ttl]
    simp only [fiveSeconds] at hb hl
    rcases I.is with ⟨_, h⟩ | ⟨x, hx, h⟩
    · omega
    · have := hl x hx; omega
  rw [run_append]
  show (step _ _).sent = _
  rw [tick_early _ now listed bad hp S.wildcard S.unknown (by rw [S.created]; exact hg), complete_due _ now I.hs hd]

example : (run (fresh false false true none t0) [.tick (s 1) false false, .tick (s 2) false false, .tick (s 7) false false]).sent =
    [⟨s 7, .handshake⟩, ⟨s 2, .join⟩, ⟨s 1, .handshake⟩] := by decide

/-! ## C163: joins -/

/-- C163: no join goes out before the session with the peer is established. -/
theorem C163_session_first (wildcard unknown : Bool) (before : Option Nat) (created : Nat) (evs : List Ev) (h : Ev.session ∉ evs) :
    joins (run (fresh wildcard unknown false before created) evs).sent = [] := by
  have hs : (run (fresh wildcard unknown false before created) evs).session = false :=
    run_inv (fun q => q.session = false) (fun e => e ≠ .session) (fun p e he k => step_session p e he k) evs _
      (fun e he k => h (k ▸ he)) rfl
  have hj : JoinSess (run (fresh wildcard unknown false before created) evs) :=
    run_inv JoinSess (fun _ => True) (fun p e _ k => step_js p e k) evs _ (fun _ _ => trivial) (fun k => absurd rfl k)
  apply Classical.byContradiction
  intro k
  have := hj k
  rw [hs] at this
  exact absurd this (by simp)

example : joins (run (fresh false false false none t0) [.tick (s 1) false false, .token (s 2) true, .tick (s 4) false false]).sent = [] ∧
    joins (run (fresh false false false none t0) [.tick (s 1) false false, .session, .token (s 2) true]).sent = [⟨s 2, .join⟩] := by decide

/-- C163: as long as no token of the peer arrives two joins are more than five seconds apart. -/
theorem C163_joins_apart_partial (wildcard unknown session : Bool) (before : Option Nat) (created : Nat) (evs : List Ev)
    (h : ∀ e ∈ evs, noToken e = true) :
    Apart (joins (run (fresh wildcard unknown session before created) evs).sent) :=
  (run_inv JInv (fun e => noToken e = true) (fun p e he k => step_j p e he k) evs
    (fresh wildcard unknown session before created) h
    ⟨List.Pairwise.nil, fun _ k => (List.not_mem_nil k).elim⟩).apart

example : (joins (run (fresh false false true none t0) [.tick (s 1) false false, .tick (s 2) false false, .tick (s 5) false false,
    .tick (s 7) false false, .tick (s 8) false false]).sent).map Sent.time = [s 8, s 2] := by decide

/-- C163 fails with a token: the second join follows at once. -/
theorem C163_joins_apart_refuted :
    ¬ Apart (joins (run (fresh false false true none t0) [.tick (s 1) false false, .tick (s 2) false false, .token (s 2) false]).sent) := by
  have e : joins (run (fresh false false true none t0) [.tick (s 1) false false, .tick (s 2) false false, .token (s 2) false]).sent =
      [⟨s 2, .join⟩, ⟨s 2, .join⟩] := by decide
  rw [e]
  intro h
  have := (List.pairwise_cons.mp h).1 _ List.mem_cons_self
  simp only [fiveSeconds] at this
  omega

/-! ## C164: a peer that does not answer -/

/-- C164: in the first 97.2 s every check more than five seconds after the last handshake sends another one, whatever happened before. -/
theorem C164_keeps_trying_partial (session : Bool) (before : Option Nat) (created now : Nat) (evs : List Ev) (listed bad : Bool)
    (hp : (run (fresh false false session before created) evs).phase = .setup) (hg : now < created + 97247779605)
    (hb : before.getD 0 + fiveSeconds < now)
    (hl : ∀ h ∈ handshakes (run (fresh false false session before created) evs).sent, h.time + fiveSeconds < now) :
    handshakes (run (fresh false false session before created) (evs ++ [.tick now listed bad])).sent =
      ⟨now, .handshake⟩ :: handshakes (run (fresh false false session before created) evs).sent := by
  have I := run_hs false false session before created evs
  have S := run_same false false session before created evs
  have hd : (run (fresh false false session before created) evs).hsAt + ttl < now := by
    simp only [ttl]
    simp only [fiveSeconds] at hb hl
    rcases I.is with ⟨_, h⟩ | ⟨x, hx, h⟩
    · omega
    · have := hl x hx; omega
  rw [run_append]
  show handshakes (step _ _).sent = _
  rw [tick_early _ now listed bad hp S.wildcard S.unknown (by rw [S.created]; exact hg), complete_due _ now I.hs hd]
  rfl

example : (run (fresh false false false none t0) [.tick (s 1) false false, .tick (s 7) false false]).phase = .setup ∧
    handshakes (run (fresh false false false none t0) ([.tick (s 1) false false, .tick (s 7) false false] ++ [.tick (s 13) false false])).sent =
      [⟨s 13, .handshake⟩, ⟨s 7, .handshake⟩, ⟨s 1, .handshake⟩] := by decide

/-- C164 fails afterwards: the first check of a peer that is in no table, 97.2 s after its key was created, gives it up. -/
theorem C164_given_up_refuted (unknown session : Bool) (before : Option Nat) (created now : Nat) (evs : List Ev) (bad : Bool)
    (hp : (run (fresh false unknown session before created) evs).phase = .setup) (hg : created + 97247779605 ≤ now) :
    (run (fresh false unknown session before created) (evs ++ [.tick now false bad])).phase = .gone := by
  have S := run_same false unknown session before created evs
  rw [run_append]
  show (step _ _).phase = _
  rw [tick_late _ now bad hp S.wildcard (by rw [S.created]; exact hg)]

/-- C164: a peer that never answers gets at most twenty handshakes. -/
theorem C164_at_most_twenty (unknown session : Bool) (before : Option Nat) (created : Nat) (evs : List Ev)
    (ha : After created evs) (hs : ∀ e ∈ evs, silent e = true) :
    (handshakes (run (fresh false unknown session before created) evs).sent).length ≤ 20 := by
  have W := (run_inv (fun p => Same false unknown created p ∧ Window created (created + grace) p)
    (fun e => silent e = true ∧ ∀ now, time e = some now → created ≤ now)
    (fun p e he h => ⟨step_same p e h.1, step_w_node created unknown p e he.1 he.2 h.1 h.2⟩) evs (fresh false unknown session before created)
    (fun e he => ⟨hs e he, ha e he⟩) ⟨⟨rfl, rfl, rfl⟩, fun _ k => (List.not_mem_nil k).elim⟩).2
  rcases apart_count _ _ _ (run_hs false unknown session before created evs).apart W with h | h
  · rw [h]; exact Nat.zero_le _
  · simp only [fiveSeconds, grace] at h
    omega

/-- Twenty are possible: one check every 5.1 s. -/
example : (handshakes (run (fresh false false false none t0)
    ((List.range 30).map fun i => .tick (t0 + i * 5100000000) false false)).sent).length = 20 := by decide +kernel

/-- C164: a peer whose network could not be created gets none: the first check drops the key. -/
theorem C164_no_network_refuted (session listed bad : Bool) (before : Option Nat) (created now : Nat) :
    run (fresh false true session before created) [.tick now listed bad] =
      { fresh false true session before created with phase := .gone } := by
  simp [run, step, rest, fresh, invalid]

/-! ## C165: joining without the name of the peer -/

/-- C165: an attempt to join a peer by its address alone sends at most two handshakes. -/
theorem C165_at_most_two_partial (session : Bool) (before : Option Nat) (created : Nat) (evs : List Ev) (ha : After created evs) :
    (handshakes (run (fresh true false session before created) evs).sent).length ≤ 2 := by
  have W := (run_inv (fun p => Same true false created p ∧ Window created (created + wildcardLife + 1) p)
    (fun e => ∀ now, time e = some now → created ≤ now)
    (fun p e he h => ⟨step_same p e h.1, step_w_wild created p e he h.1 h.2⟩) evs (fresh true false session before created)
    ha ⟨⟨rfl, rfl, rfl⟩, fun _ k => (List.not_mem_nil k).elim⟩).2
  rcases apart_count _ _ _ (run_hs true false session before created evs).apart W with h | h
  · rw [h]; exact Nat.zero_le _
  · simp only [fiveSeconds, wildcardLife] at h
    omega

example : (handshakes (run (fresh true false false none t0) [.tick (s 1) false false, .tick (s 7) false false, .tick (s 13) false false]).sent)
    = [⟨s 7, .handshake⟩, ⟨s 1, .handshake⟩] := by decide

/-- C165: the first check more than ten seconds after it began ends the attempt. -/
theorem C165_ends_partial (session : Bool) (before : Option Nat) (created now : Nat) (evs : List Ev) (listed bad : Bool)
    (hp : (run (fresh true false session before created) evs).phase = .setup) (hg : created + tenSeconds < now) :
    (run (fresh true false session before created) (evs ++ [.tick now listed bad])).phase = .gone := by
  have S := run_same true false session before created evs
  have hi : wildcardInvalid (run (fresh true false session before created) evs) now = true := by
    unfold wildcardInvalid
    rw [S.unknown, S.created]
    show (!false && decide (created + wildcardLife < now)) = true
    have : created + wildcardLife < now := hg
    simpa using this
  rw [run_append]
  show (step _ _).phase = _
  unfold step
  rw [hp]
  show (rest _ now listed bad).phase = _
  unfold rest
  rw [if_pos S.wildcard, if_pos hi]

example : (run (fresh true false false none t0) [.tick (s 1) false false, .tick (s 10) false false]).phase = .setup ∧
    (run (fresh true false false none t0) [.tick (s 1) false false, .tick (s 11) false false]).phase = .gone := by decide

/-- C165 fails if the network for the address could not be created: the attempt never ends, however many handshakes were sent. -/
theorem C165_never_ends_refuted (created n : Nat) :
    ∃ evs, After created evs ∧ (run (fresh true true false none created) evs).phase = .setup ∧
      n ≤ (handshakes (run (fresh true true false none created) evs).sent).length := by
  induction n with
  | zero => exact ⟨[], fun _ h => (List.not_mem_nil h).elim, rfl, Nat.zero_le _⟩
  | succ n ih =>
    obtain ⟨evs, ha, hp, hn⟩ := ih
    have I := run_hs true true false none created evs
    have S := run_same true true false none created evs
    let now := created + (run (fresh true true false none created) evs).hsAt + ttl + 1
    have hd : (run (fresh true true false none created) evs).hsAt + ttl < now := by
      show _ < created + (run (fresh true true false none created) evs).hsAt + ttl + 1
      omega
    have e : run (fresh true true false none created) (evs ++ [.tick now false false]) = _ :=
      (run_append _ _ _).trans ((tick_stuck _ now false false hp S.wildcard S.unknown).trans (complete_due _ now I.hs hd))
    refine ⟨evs ++ [.tick now false false], ?_, ?_, ?_⟩
    · intro x hx t ht
      rcases List.mem_append.mp hx with h | h
      · exact ha x h t ht
      · rw [List.mem_singleton.mp h] at ht
        have ht : now = t := Option.some.inj ht
        rw [← ht]
        show created ≤ created + (run (fresh true true false none created) evs).hsAt + ttl + 1
        omega
    · rw [e]; exact hp
    · rw [e]
      show n + 1 ≤ (handshakes (⟨now, .handshake⟩ :: (run (fresh true true false none created) evs).sent)).length
      rw [handshakes_hs, List.length_cons]
      omega

/-! ## C166: a lost join -/

/-- C166: while the peer is being set up in the first 97.2 s, with a session and not joined, of two checks within five seconds one sends a join if the
last is more than five seconds ago. -/
theorem C166_join_repeated_partial (session : Bool) (before : Option Nat) (created t1 t2 : Nat) (evs : List Ev) (l1 b1 l2 b2 : Bool)
    (hp : (run (fresh false false session before created) evs).phase = .setup)
    (hs : (run (fresh false false session before created) evs).session = true)
    (hj : (run (fresh false false session before created) evs).joined ≠ .connected)
    (h12 : t1 ≤ t2) (hc : t2 ≤ t1 + fiveSeconds) (hg : t2 < created + 97247779605) (h0 : fiveSeconds < t1)
    (hd : ∀ j ∈ joins (run (fresh false false session before created) evs).sent, j.time + fiveSeconds < t1) :
    ∃ t, (t = t1 ∨ t = t2) ∧
      joins (run (fresh false false session before created) (evs ++ [.tick t1 l1 b1, .tick t2 l2 b2])).sent =
        ⟨t, .join⟩ :: joins (run (fresh false false session before created) evs).sent := by
  have S := run_same false false session before created evs
  have J : JoinAt (run (fresh false false session before created) evs) :=
    run_inv JoinAt (fun _ => True) (fun p e _ h => step_ja p e h) evs _ (fun _ _ => trivial) (Or.inl rfl)
  rw [run_append]
  refine join_two _ t1 t2 l1 b1 l2 b2 hp S.wildcard S.unknown hs hj (run_hs false false session before created evs).hs h12 hc
    (by rw [S.created]; exact hg) ?_
  simp only [ttl]
  simp only [fiveSeconds] at hd h0
  rcases J with h | ⟨x, hx, h⟩
  · omega
  · have := hd x hx; omega

/-- The hypotheses hold after a first join that was lost. -/
example : let p := run (fresh false false true none t0) [.tick (s 1) false false, .tick (s 2) false false]
    p.phase = .setup ∧ p.session = true ∧ p.joined = .initiated ∧ joins p.sent = [⟨s 2, .join⟩] ∧
    (run p [.tick (s 8) false false, .tick (s 9) false false]).sent.map Sent.kind = [.join, .handshake, .join, .handshake] := by decide

/-- C166 fails for the join that answers a token of the peer: it counts as accepted at once and is never sent again, whatever happens next. -/
theorem C166_answer_lost_refuted (p : Peer) (now : Nat) (handshake : Bool) (evs : List Ev) (hp : p.phase = .setup) (hw : p.wildcard = false)
    (hs : p.session = true) (hj : p.joined ≠ .connected) :
    joins (run p (.token now handshake :: evs)).sent = ⟨now, .join⟩ :: joins p.sent := by
  have e : step p (.token now handshake) = { p with joined := .connected, joinAt := now, sent := ⟨now, .join⟩ :: p.sent } := by
    unfold step
    rw [hp]
    show (if p.wildcard = true then _ else updateToken p now) = _
    rw [if_neg (by rw [hw]; simp)]
    unfold updateToken
    rw [if_pos ⟨hs, hj⟩, hp]
  show joins (run (step p _) evs).sent = _
  rw [e]
  exact (run_inv (Joined ((⟨now, .join⟩ : Sent) :: joins p.sent)) (fun _ => True) (fun q x _ h => step_joined _ q x h) evs
    { p with joined := .connected, joinAt := now, sent := ⟨now, .join⟩ :: p.sent } (fun _ _ => trivial) ⟨rfl, rfl⟩).same

example : joins (run (fresh false false true none t0) (.token (s 1) true ::
    (List.range 15).map fun i => .tick (s (6 * i + 2)) false false)).sent = [⟨s 1, .join⟩] := by decide +kernel

end Np.Dial
