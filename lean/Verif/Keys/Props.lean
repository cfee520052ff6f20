import Verif.Keys.Lemmas2

/-! # Properties of connections and of switched-off channels -/
namespace Np.Keys

open Np (Dhkey)
open _root_.Np.Keys.Spec

/-! ## A concrete node and history used by the examples and counterexamples

The node has the id 1.  The peer `A` (id 0xa1) has the address 0xa0, the peer `B` (id 0xb1) the address 0xb0. -/

def idOf (n : BitVec 32) : Dhkey := ⟨n, 0, 0, 0, 0, 0, 0, 0⟩

def env0 : Env where
  rx := idOf 0x1000
  tx := idOf 0x2000
  joinS := idOf 0x10
  leaveS := idOf 0x11
  hsS := idOf 0x12
  availRecvS := idOf 0x13
  availSendS := idOf 0x14
  pheromoneS := idOf 0x15
  ackS := idOf 0x16
  pingS := idOf 0x17
  piggyS := idOf 0x18
  updateS := idOf 0x19
  forwardS := idOf 0x1a
  myNode := idOf 1
  myIdent := idOf 1

def tokOf (n : Nat) (ty : BitVec 8) (fp : Dhkey) (issuer : Option Dhkey) : Tok :=
  ⟨n, ty, n, fp, Dhkey.zero, issuer, false, false⟩

def confOf (s : Dhkey) (inb out int' : Bool) (h : Handler) : Conf := ⟨s, Dhkey.zero, Dhkey.zero, inb, out, int', false, h⟩

def noBody : Body := ⟨none, none, none, 0⟩

/-- Oracle defaults: every token is valid, nothing is overdue. -/
def o0 : Oracle := {}

/-- The key of the node itself has been created. -/
def w0 : World := { keys := [(idOf 1, {})] }

theorem fresh0 : Fresh w0 := by
  refine ⟨rfl, rfl, ?_⟩
  intro k key h
  simp only [w0, List.mem_singleton, Prod.mk.injEq] at h
  obtain ⟨_, rfl⟩ := h
  exact ⟨by simp, rfl⟩

abbrev History := List (Oracle × Input)

/-- The node starts: its own identity and the built-in subjects, and a channel with subject 0x50. -/
def boot : History := [
  (o0, .other (idOf 1) { type := evtInternal ||| evtToken, payload := .tok (tokOf 1 tNode (idOf 1) none), target := idOf 1 }),
  (o0, .exec 0),
  (o0, .register (confOf (idOf 0x10) true true true .join)),
  (o0, .register (confOf (idOf 0x11) true true true .leave)),
  (o0, .register (confOf (idOf 0x12) true true true .handshake)),
  (o0, .register (confOf (idOf 0x50) true true false .user))]

/-- A peer with id `fp` does the handshake from the address `addr`. -/
def shakeHands (n : Nat) (addr fp : Dhkey) : History := [
  (o0, .packet (idOf 1) addr 0), (o0, .exec 0),
  ({ o0 with plain := some (n, idOf 0x12, idOf 1, { noBody with hs := some (tokOf n tHandshake fp (some fp)) }) }, .exec 0),
  (o0, .exec 0), (o0, .exec 0), (o0, .exec 0)]

/-- An encrypted message with one chunk arrives from `addr`: packet, decryption, reassembly. -/
def receive (addr subject : Dhkey) (b : Body) : History := [
  (o0, .packet (idOf 1) addr 1),
  ({ o0 with decrypted := some (7, subject, idOf 1) }, .exec 0),
  ({ o0 with assembled := some b }, .exec 0)]

/-- The join message with the token `t` from `addr` is handled and the authentication callback accepts. -/
def joinAs (addr : Dhkey) (t : Tok) : History :=
  receive addr (idOf 0x10) { noBody with node := some t } ++
  [(o0, .exec 0), (o0, .exec 0), (o0, .exec 0), ({ o0 with authn := true }, .exec 0), (o0, .exec 0), (o0, .exec 0)]

def tokA : Tok := tokOf 0xa1 tNode (idOf 0xa1) none
def tokB : Tok := tokOf 0xb1 tNode (idOf 0xb1) none

/-- A message of the channel arrives from `addr` and is given to the receive callbacks. -/
def userMessage (addr : Dhkey) : History :=
  receive addr (idOf 0x50) { noBody with data := 5 } ++ [(o0, .exec 1)]

/-- `Foreign` as a computation, for the examples. -/
def foreignB (e : Event) : Bool :=
  match e.payload with
  | .part p => p.via.isNone
  | .msg m => m.via.isNone
  | .tok _ => !decide (e.type &&& 0x121 = 0x121)
  | .run => false
  | _ => true

instance (e : Event) : Decidable (Foreign e) :=
  decidable_of_iff (foreignB e = true) (by
    unfold Foreign foreignB
    cases h : e.payload <;> simp)

instance (i : Input) : Decidable (Allowed i) := by unfold Allowed; split <;> infer_instance

/-- A check of every effect of a trace, for the examples. -/
theorem all_effects {l : List Effect} {p : Effect → Bool} (h : l.all p = true) {e : Effect} (he : e ∈ l) : p e = true :=
  List.all_eq_true.1 h e he

def authnOf (f : Tok → Dhkey → Bool) : Effect → Bool | .authn t c _ => f t c | _ => true
def processedOf (f : Msg → Bool) : Effect → Bool | .processed _ m => f m | _ => true
def notDelivered : Effect → Bool | .delivered _ _ => false | _ => true

/-! ## C35 -/

/-- **C35.** In every history of a node that starts fresh, with every sequence of packets, timers, API calls and other
events, every schedule and every result of decryption, token checks and callbacks: whenever a message from a connection
is given to receive callbacks, forwarded or used for discovery, then before that the authentication callback accepted a
token for this connection (or for a peer with the same id).  The only messages used earlier are those of the admission:
handshake, join and leave. -/
theorem C35_nothing_is_used_before_authentication (env : Env) (w : World) (is : List (Oracle × Input)) (hw : Fresh w)
    (ha : ∀ i ∈ is, Allowed i.2) (a : Dhkey) (before after : List Effect) (e : Effect)
    (ht : (run env w is).trace = before ++ e :: after) (hu : Uses env a e) : Authenticated before a :=
  (run_inv (fresh_inv hw) ha).trace before e after a ht hu

/-- The hypotheses are met: A does the handshake, joins and sends a message, and it is delivered. -/
example : Fresh w0 ∧ (∀ i ∈ boot ++ shakeHands 0xa1 (idOf 0xa0) (idOf 0xa1) ++ joinAs (idOf 0xa0) tokA ++
      userMessage (idOf 0xa0), Allowed i.2) ∧
    (run env0 w0 (boot ++ shakeHands 0xa1 (idOf 0xa0) (idOf 0xa1) ++ joinAs (idOf 0xa0) tokA ++
      userMessage (idOf 0xa0))).trace.getLast? =
      some (.delivered (idOf 0x1050) ⟨7, idOf 0x50, idOf 1, { noBody with data := 5 }, some (idOf 0xa0)⟩) := by
  refine ⟨fresh0, ?_, ?_⟩ <;> decide +kernel

/-- The same without the join: nothing is delivered or forwarded. -/
example : (run env0 w0 (boot ++ shakeHands 0xa1 (idOf 0xa0) (idOf 0xa1) ++ userMessage (idOf 0xa0))).trace.length = 1 := by
  decide +kernel

/-- The other half of the admission: a connection is in use only if the authentication callback accepted a token for it. -/
theorem C35_connection_in_use_was_authenticated (env : Env) (w : World) (is : List (Oracle × Input)) (hw : Fresh w)
    (ha : ∀ i ∈ is, Allowed i.2) (a : Dhkey) (key : Key) (hk : (run env w is).find a = some key)
    (hs : key.state = .useAlias) : Authenticated (run env w is).trace a :=
  ((run_inv (fresh_inv hw) ha).keys _ (lookup_mem hk)).inUse hs

example : ((run env0 w0 (boot ++ shakeHands 0xa1 (idOf 0xa0) (idOf 0xa1) ++ joinAs (idOf 0xa0) tokA)).find
    (idOf 0xa0)).map (·.state) = some .useAlias := by decide +kernel

/-- The authentication callback is asked only about tokens that are valid at this moment, and its answer is what counts. -/
theorem C35_callback_sees_valid_tokens (env : Env) (o : Oracle) (w : World) (k : Dhkey) (ev : Event) (t : Tok)
    (c : Dhkey) (ok : Bool) (hn : Effect.authn t c ok ∉ w.trace) (h : Effect.authn t c ok ∈ (handle env o w k ev).trace) :
    o.valid t t.ttype = true ∧ (t.ttype &&& 1 = 1 ∨ t.ttype &&& 2 = 2) ∧ ok = o.authn := by
  rw [handle_trace] at h
  rcases List.mem_append.1 h with h | h
  · exact absurd h hn
  · obtain ⟨key, tr, h1, h2, _, h4, h5⟩ := handleEffects_of h
    generalize hc : tr.cond = cnd at h5
    cases h5 with
    | authn t' ht ok h6 =>
      rw [hc] at h4
      unfold isAuthnRequest at h4
      simp only [ht, Bool.and_eq_true, Bool.or_eq_true, flagCmp_iff] at h4
      exact ⟨h4.2.2, h4.2.1.2, h6⟩

/-! ## C59 -/

/-- A and B did the handshake, then A joins with the token of B. -/
def impersonation : History :=
  boot ++ shakeHands 0xa1 (idOf 0xa0) (idOf 0xa1) ++ shakeHands 0xb1 (idOf 0xb0) (idOf 0xb1) ++
    joinAs (idOf 0xa0) tokB ++ userMessage (idOf 0xa0)

/-- **C59 (refuted).** A connection can be brought into use with the token of another peer: A and B did the handshake, A
sends a join message with the token of B on its own connection, the authentication callback accepts the token of B, and
from then on messages of A are delivered, although A's own token was never shown to the callback. -/
theorem C59_join_is_bound_to_the_connection_refuted :
    ∃ (env : Env) (is : List (Oracle × Input)) (a : Dhkey) (key : Key) (hs : Tok), (∀ i ∈ is, Allowed i.2) ∧
      (run env w0 is).find a = some key ∧ key.state = .useAlias ∧ key.hsTok = some hs ∧
      hs.issuer = some (idOf 0xa1) ∧ key.parent = idOf 0xa1 ∧
      (∀ t c ok, Effect.authn t c ok ∈ (run env w0 is).trace → t.fp ≠ idOf 0xa1) ∧
      (∃ k m, Effect.delivered k m ∈ (run env w0 is).trace ∧ m.via = some a) := by
  refine ⟨env0, impersonation, idOf 0xa0,
    ⟨.useAlias, kAlias, idOf 0xa1, some (tokOf 0xa1 tHandshake (idOf 0xa1) (some (idOf 0xa1))), some tokB, true, false,
      none, []⟩, tokOf 0xa1 tHandshake (idOf 0xa1) (some (idOf 0xa1)), ?_, ?_, rfl, rfl, rfl, rfl, ?_,
    idOf 0x1050, ⟨7, idOf 0x50, idOf 1, { noBody with data := 5 }, some (idOf 0xa0)⟩, ?_, rfl⟩
  · decide +kernel
  · decide +kernel
  · intro t c ok hm
    have h : (run env0 w0 impersonation).trace.all (authnOf fun t _ => t.fp != idOf 0xa1) = true := by decide +kernel
    simpa [authnOf] using all_effects h hm
  · decide +kernel

/-- **C59, partial.** What holds: a connection comes into use by an event only if it was waiting for admission and the
event is the library's own notice that the callback accepted a token.  Missing: that this token belongs to the peer of
the connection. -/
theorem C59_join_is_bound_to_the_connection_partial (env : Env) (o : Oracle) (w : World) (k : Dhkey) (ev : Event)
    (key key' : Key) (hk : w.find k = some key) (hs : key.state ≠ .useAlias)
    (hk' : (handle env o w k ev).find k = some key') (hs' : key'.state = .useAlias) :
    key.state = .setupAlias ∧ ∃ t, ev.payload = .tok t ∧ ev.type &&& 0x121 = 0x121 := by
  unfold handle at hk'
  rw [hk] at hk'
  simp only at hk'
  split at hk'
  · rw [hk] at hk'
    cases hk'
    exact absurd hs' hs
  · rename_i t ht
    obtain ⟨hm, hc⟩ := firstTransition_some ht
    have hout : (t.act env o w.has k key ev).key.state = key.state := action_state hm
    have htarget : t.target = .useAlias := by
      by_cases hd : t.target = .destroy
      · exact absurd hs' (apply_destroyed hd hk')
      · obtain ⟨key2, h1, h2⟩ := apply_state_eq (o := o) (w := w) (k := k) (old := key.state) hd hout (by
          simp [World.has, hk])
        rw [hk'] at h1
        cases h1
        rw [← h2]; exact hs'
    cases hst : key.state <;> rw [hst] at hm <;>
      simp only [transitions, List.mem_cons, List.not_mem_nil, or_false] at hm
    · rcases hm with rfl | rfl | rfl | rfl | rfl | rfl | rfl | rfl | rfl <;> simp at htarget
    · rcases hm with rfl | rfl | rfl | rfl | rfl | rfl | rfl | rfl | rfl | rfl | rfl <;> simp at htarget
    · rcases hm with rfl | rfl | rfl | rfl | rfl
      · simp at htarget
      · simp at htarget
      · simp at htarget
      · exact ⟨rfl, isNodeAuthn_flags (env := env) (o := o) (k := k) (key := key) hc⟩
      · simp at htarget
    · rcases hm with rfl | rfl | rfl | rfl <;> simp at htarget
    · subst hm; simp at htarget
    · rcases hm with rfl | rfl | rfl | rfl | rfl | rfl <;> simp at htarget
    · rcases hm with rfl | rfl | rfl | rfl | rfl | rfl | rfl <;> simp at htarget
    · exact absurd hst hs
    · rcases hm with rfl | rfl | rfl | rfl | rfl | rfl | rfl | rfl | rfl <;> simp at htarget
    · subst hm; simp at htarget

/-! ## C60 -/

/-- B has joined, A did the handshake only and sends a leave message with the token of B. -/
def forgedLeave : History :=
  boot ++ shakeHands 0xb1 (idOf 0xb0) (idOf 0xb1) ++ joinAs (idOf 0xb0) tokB ++
    shakeHands 0xa1 (idOf 0xa0) (idOf 0xa1) ++ receive (idOf 0xa0) (idOf 0x11) { noBody with node := some tokB } ++
    [(o0, .exec 0), (o0, .exec 0)]

/-- **C60 (refuted).** A connection that is not authenticated can end the membership of another peer: B has joined, A
only did the handshake, A sends a leave message that contains B's (public) token, B is marked as having left, and the
next check removes it. -/
theorem C60_leave_ends_own_membership_refuted :
    ∃ (env : Env) (is : List (Oracle × Input)) (a b : Dhkey), (∀ i ∈ is, Allowed i.2) ∧ a ≠ b ∧
      (∀ k m, Effect.processed k m ∈ (run env w0 is).trace → m.subject = env.leaveS → m.via = some a) ∧
      (∀ t ok, Effect.authn t a ok ∉ (run env w0 is).trace) ∧
      Effect.authn tokB b true ∈ (run env w0 is).trace ∧
      ((run env w0 is).find tokB.fp).map (·.state) = some .useNode ∧
      Effect.peerLeft tokB.fp ∈ (run env w0 is).trace ∧
      (run env w0 (is ++ [({ o0 with graceOver := true }, .tick tokB.fp)])).find tokB.fp = none := by
  refine ⟨env0, forgedLeave, idOf 0xa0, idOf 0xb0, ?_, ?_, ?_, ?_, ?_, ?_, ?_, ?_⟩
  · decide +kernel
  · decide
  · intro k m hm hs
    have h : (run env0 w0 forgedLeave).trace.all (processedOf fun m => m.subject != env0.leaveS ||
      m.via == some (idOf 0xa0)) = true := by decide +kernel
    have := all_effects h hm
    simp only [processedOf, Bool.or_eq_true, bne_iff_ne, ne_eq, beq_iff_eq] at this
    rcases this with h | h
    · exact absurd hs h
    · exact h
  · intro t ok hm
    have h : (run env0 w0 forgedLeave).trace.all (authnOf fun _ c => c != idOf 0xa0) = true := by decide +kernel
    simpa [authnOf] using all_effects h hm
  all_goals decide +kernel

/-- **C60, partial.** What holds: an event from the network marks a connected peer as having left only if it carries a
valid node token with the same public key as the token this peer joined with.  Missing: that the event came from that
peer. -/
theorem C60_leave_ends_own_membership_partial (env : Env) (o : Oracle) (w : World) (k : Dhkey) (key : Key) (ev : Event)
    (hk : w.find k = some key) (htype : key.type = kNode) (hg : o.graceOver = false)
    (hx : ev.type &&& evtExternal = evtExternal)
    (hn : Effect.peerLeft k ∉ w.trace) (h : Effect.peerLeft k ∈ (handle env o w k ev).trace) :
    ∃ t, ev.payload = .tok t ∧ o.valid t tNode = true ∧ ∀ l, key.tok = some l → l.pk = t.pk := by
  rw [handle_trace] at h
  rcases List.mem_append.1 h with h | h
  · exact absurd h hn
  · obtain ⟨key', tr, h1, h2, _, h4, h5⟩ := handleEffects_of h
    rw [hk] at h1
    cases h1
    generalize hc : tr.cond = cnd at h5
    cases h5 with
    | peerLeft =>
      rw [hc] at h4
      unfold isShutdown at h4
      rw [← flagCmp_iff] at hx
      simp only [hx, if_true, Bool.and_eq_true] at h4
      obtain ⟨⟨_, h6⟩, _⟩ := h4
      split at h6
      · rename_i t ht
        simp only [Bool.and_eq_true] at h6
        refine ⟨t, ht, h6.1, ?_⟩
        intro l hl
        have := h6.2
        simp only [hl, beq_iff_eq] at this
        exact this
      · exact absurd h6 (by simp)
    | peerGone =>
      rw [hc] at h4
      unfold isNodeInvalid at h4
      rw [htype, hg] at h4
      exact absurd h4 (by simp [flagCmp, kNode, kUnknown])

/-- The hypotheses are met by B's own leave message. -/
example : Effect.peerLeft tokB.fp ∈ (run env0 w0 (boot ++ shakeHands 0xb1 (idOf 0xb0) (idOf 0xb1) ++
    joinAs (idOf 0xb0) tokB ++ receive (idOf 0xb0) (idOf 0x11) { noBody with node := some tokB } ++
    [(o0, .exec 0), (o0, .exec 0), (o0, .exec 0)])).trace := by
  decide +kernel

/-! ## C34 -/

/-- **C34, partial (sending).** In every history: once `np_mx_properties_disable` was called for a subject that this node
is registered to send on, and as long as `np_mx_properties_enable` is not called for it, no message of this subject is
handed to the network, whatever is sent, cached, re-sent or scheduled.  (Calls for another subject whose hash happens to
be the id of the sending key are excluded as well.)  Missing: the receiving direction, see below. -/
theorem C34_disabled_channel_sends_nothing_partial (env : Env) (w : World) (before after : List (Oracle × Input))
    (o : Oracle) (s : Dhkey) (key : Key) (hw : Fresh w)
    (hb : ∀ i ∈ before, Allowed i.2) (ha : ∀ i ∈ after, Allowed i.2)
    (hk : (run env w before).find (env.outKey s) = some key) (hs : key.state = .useProperty)
    (hn : ∀ i ∈ after, i.2 ≠ .enable s ∧ i.2 ≠ .enable (env.outKey s)) :
    ∃ l, (run env w (before ++ (o, .disable s) :: after)).trace = (run env w before).trace ++ l ∧
      Effect.sent (env.outKey s) ∉ l := by
  have hi := run_inv (env := env) (fresh_inv hw) hb
  have h1 := disable_holds (env := env) (o := o) (w := run env w before) (s := s) ⟨key, hk, hs⟩
  have h2 := run_quiet (env := env) (s := s) (is := after)
    (step_inv (i := (o, .disable s)) hi (by trivial)) h1.1 ha hn
  have h3 := (h1.trans h2).2
  have : run env w (before ++ (o, .disable s) :: after) = run env (step env (run env w before) (o, .disable s)) after := by
    simp [run, List.foldl_append]
  rw [this]
  exact h3

/-- The hypotheses are met, and without the call the message is sent. -/
example : ((run env0 w0 boot).find (env0.outKey (idOf 0x50))).map (·.state) = some .useProperty ∧
    (run env0 w0 (boot ++ [(o0, .send (idOf 0x50) ⟨9, idOf 0x50, idOf 1, noBody, none⟩), (o0, .exec 0)])).trace =
      [.sent (env0.outKey (idOf 0x50))] ∧
    (run env0 w0 (boot ++ [(o0, .disable (idOf 0x50)), (o0, .send (idOf 0x50) ⟨9, idOf 0x50, idOf 1, noBody, none⟩),
      (o0, .exec 0)])).trace = [] ∧
    (run env0 w0 (boot ++ [(o0, .disable (idOf 0x50)), (o0, .enable (idOf 0x50)),
      (o0, .send (idOf 0x50) ⟨9, idOf 0x50, idOf 1, noBody, none⟩), (o0, .exec 0)])).trace =
      [.sent (env0.outKey (idOf 0x50))] := by
  refine ⟨?_, ?_, ?_, ?_⟩ <;> decide +kernel

/-- **C34 (refuted for receiving).** After `np_mx_properties_disable` a message that arrives is still given to the receive
callbacks, because the event is started at the key of the subject itself and not at the receiving key. -/
theorem C34_disabled_channel_receives_nothing_refuted :
    ∃ (env : Env) (before after : List (Oracle × Input)) (s : Dhkey),
      (∀ i ∈ before, Allowed i.2) ∧ (∀ i ∈ after, Allowed i.2 ∧ i.2 ≠ .enable s) ∧
      ((run env w0 before).find (env.inKey s)).map (·.state) = some .useProperty ∧
      (∀ k m, Effect.delivered k m ∉ (run env w0 (before ++ [(o0, .disable s)])).trace) ∧
      ∃ m, Effect.delivered (env.inKey s) m ∈ (run env w0 (before ++ (o0, .disable s) :: after)).trace := by
  refine ⟨env0, boot ++ shakeHands 0xa1 (idOf 0xa0) (idOf 0xa1) ++ joinAs (idOf 0xa0) tokA, userMessage (idOf 0xa0),
    idOf 0x50, ?_, ?_, ?_, ?_, ⟨7, idOf 0x50, idOf 1, { noBody with data := 5 }, some (idOf 0xa0)⟩, ?_⟩
  · decide +kernel
  · intro i hi
    refine ⟨?_, ?_⟩
    · revert i
      decide +kernel
    · simp only [userMessage, receive, List.cons_append, List.nil_append, List.mem_cons, List.not_mem_nil, or_false] at hi
      rcases hi with rfl | rfl | rfl | rfl <;> simp
  · decide +kernel
  · intro k m hm
    have h : (run env0 w0 (boot ++ shakeHands 0xa1 (idOf 0xa0) (idOf 0xa1) ++ joinAs (idOf 0xa0) tokA ++
        [(o0, .disable (idOf 0x50))])).trace.all notDelivered = true := by
      decide +kernel
    exact absurd (all_effects h hm) (by simp [notDelivered])
  · decide +kernel

end Np.Keys
