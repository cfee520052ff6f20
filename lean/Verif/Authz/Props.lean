import Verif.Authz.Lemmas3
import Verif.Token.Props
/-!
# Properties of intents, authorization and sessions: C32, C33, C44, C56, C57, C58
-/
set_option linter.unusedSimpArgs false
namespace Np.Authz
open Np.Token
open _root_.Np.Token.Spec (SameContent)
open _root_.Np.Authz.Spec

/-! ## A toy world for the examples and counterexamples

All signatures verify. The attributes are three bytes: threshold, message exchange pattern, size of the partner
fingerprint (0: none). The hash is a polynomial of the bytes, so that tokens with different content differ. -/

def toyEnv : Env :=
  { toy with
    hash := fun m => List.replicate 31 0#8 ++ [m.foldl (fun s b => s * 31 + b) 0#8]
    verify := fun _ _ _ => true
    attrGet := fun a k =>
      if k = keyMax then some (.uint ((a.getD 0 0).zeroExtend 32))
      else if k = keyMsg then some (.uint 0)
      else if k = keyMep then some (.uint ((a.getD 1 0).zeroExtend 32))
      else if k = keyPartner ∧ a.getD 2 0 ≠ 0 then some (.bin (List.replicate (a.getD 2 0).toNat 7))
      else none }

def toyWorld : World where
  E := toyEnv
  kx pk := pk
  kxServer pk _ remote := some (pk ++ remote ++ [0], pk ++ remote ++ [1])
  kxClient pk _ remote := some (remote ++ pk ++ [1], remote ++ pk ++ [0])

theorem toy_exchange (a b c d : Bytes) : Exchange toyWorld a b c d := rfl

/-- An intent: uuid, issuer, public key, announced pattern, size of the partner fingerprint. -/
def mk (u i k : BitVec 8) (mep fp : BitVec 8) : Tok :=
  { sampleTok with
    type := typeIntent, scope := scopePublic, uuid := List.replicate 16 u, issuer := idText (List.replicate 32 i),
    subject := idText (List.replicate 32 9), publicKey := List.replicate 32 k, attributes := [5, mep, fp] }

/-- The channel of these intents. -/
def chan9 : Bytes := List.replicate 32 9

def yes : Answers := ⟨true, true, true⟩
def no : Answers := ⟨false, false, false⟩

/-- Was object `p` authorized at the end? -/
def authorizedAt (p : Nat) (n : Option Node) : Option Bool := n.bind fun n => (n.heap[p]?).map fun o => isAuthorized o.tok

/-! ## C32 who authorizes -/

/-- C32, what holds: in every reachable state, an intent of a peer becomes authorized by a step only if a callback was
asked about this very intent in this step and said yes, or if the intent took the place of a stored intent that was
authorized before. (Missing: the second case, see `C33`, and the claim about channel callbacks, refuted below.) -/
theorem C32_authorized_only_by_callback_partial (W : World) (ops : List Op) (rc : Bool) (n n' : Node) (op : Op)
    (hr : run W (start rc) ops = some n) (hs : step W n op = some n') (p : Nat) (o : Obj)
    (ho : n'.heap[p]? = some o) (hm : o.mine = false) (ha : Authorized o.tok)
    (hnew : ∀ o0 : Obj, n.heap[p]? = some o0 → ¬ Authorized o0.tok) :
    (∃ new c, n'.calls = n.calls ++ new ∧ c ∈ new ∧ c.ptr = p ∧ c.answer = true ∧ SameContent c.tok o.tok) ∨
    (∃ m sid now cp c q oq, op = .intent m sid p now cp ∧ n.chans m sid = some c ∧ q ∈ c.peers ∧
      n.heap[q]? = some oq ∧ Authorized oq.tok) := by
  have hn := run_alloc hr
  cases op with
  | receive t =>
    simp only [step, Option.some.injEq] at hs; subst hs
    rcases get_append ho with ho | ⟨_, rfl⟩
    · exact absurd ha (hnew o ho)
    · simp [Authorized] at ha
  | intent m sid p' now cp =>
    simp only [step] at hs
    split at hs
    · rename_i hp
      obtain ⟨o1, ho1, hmine⟩ := isPeers_get hp
      split at hs
      · cases hs; exact absurd ha (hnew o ho)
      · rename_i c hc
        rw [Option.map_eq_some_iff] at hs
        obtain ⟨⟨h', c', b⟩, hr', rfl⟩ := hs
        obtain ⟨t', h1, h2, h3, h4, h5, h6, h7⟩ := handleIntent_spec ho1 hr'
        have ho' : (setTok n.heap p' t')[p]? = some o := by rw [← h1]; exact ho
        rcases get_setTok_inv ho' with ⟨o0, rfl, e1, rfl⟩ | ⟨_, e1⟩
        · rw [ho1] at e1; cases e1
          right
          rcases h7 with ⟨_, h7⟩ | ⟨a, q, b, h7, _, h9, h10⟩ | ⟨a, b, _, _, h7, _⟩
          · exact absurd (h7 ha) (hnew o1 ho1)
          · rcases h9 with rfl | ⟨oq, g1, _, g3⟩
            · exact absurd (h10 rfl ha) (hnew o1 ho1)
            · exact ⟨m, sid, now, cp, c, q, oq, rfl, hc, by rw [h7]; simp, g1, g3 ha⟩
          · exact absurd (h7 ha) (hnew o1 ho1)
        · exact absurd ha (hnew o e1)
    · cases hs; exact absurd ha (hnew o ho)
  | authz p' now dup a =>
    simp only [step] at hs
    split at hs
    · rename_i hp
      obtain ⟨o1, ho1, hmine⟩ := isPeers_get hp
      obtain ⟨t', new, h1, h2, h3, h4⟩ := handleAuthz_spec (W := W) (now := now) (dup := dup) (a := a) ho1
      simp only [Option.some.injEq] at hs
      rw [h1] at hs
      subst hs
      rcases get_setTok_inv ho with ⟨o0, rfl, e1, rfl⟩ | ⟨_, e1⟩
      · rw [ho1] at e1; cases e1
        rcases h4 ha with h4 | ⟨c, hc, h4⟩
        · exact absurd h4 (hnew o1 ho1)
        · exact Or.inl ⟨new, c, rfl, hc, (h3 c hc).1, h4, (h3 c hc).2.trans (by
            obtain ⟨a1, a2, a3, a4, a5, a6, a7, a8, a9, a10, a11, a12, a13⟩ := h2
            exact ⟨a1.symm, a2.symm, a3.symm, a4.symm, a5.symm, a6.symm, a7.symm, a8.symm, a9.symm, a10.symm, a11.symm, a12.symm, a13.symm⟩)⟩
      · exact absurd ha (hnew o e1)
    · cases hs; exact absurd ha (hnew o ho)
  | register m sid mep =>
    simp only [step] at hs
    split at hs <;> cases hs <;> exact absurd ha (hnew o ho)
  | setAuthz m sid =>
    simp only [step] at hs
    split at hs <;> cases hs <;> exact absurd ha (hnew o ho)
  | upsert m sid t renew =>
    simp only [step] at hs
    split at hs
    · cases hs; exact absurd ha (hnew o ho)
    · rename_i c hc
      cases hs
      obtain ⟨_, h2⟩ := upsertOwn_spec n.heap c t renew
      have ho' : (upsertOwn n.heap c t renew).1[p]? = some o := ho
      rcases h2 with ⟨h2, _⟩ | ⟨h2, _⟩
      · rw [h2] at ho'; exact absurd ha (hnew o ho')
      · rw [h2] at ho'
        rcases get_append ho' with ho' | ⟨_, rfl⟩
        · exact absurd ha (hnew o ho')
        · simp at hm
  | announce m sid =>
    simp only [step] at hs
    split at hs
    · cases hs; exact absurd ha (hnew o ho)
    · split at hs <;> cases hs <;> exact absurd ha (hnew o ho)
  | check m sid now =>
    simp only [step] at hs
    split at hs
    · cases hs; exact absurd ha (hnew o ho)
    · rename_i c hc
      rw [Option.map_eq_some_iff] at hs
      obtain ⟨⟨h', c'⟩, hr', rfl⟩ := hs
      obtain ⟨h1, h2, _⟩ := checkPeers_spec (fun q hq => by
        obtain ⟨x, hx, _⟩ := hn.peers m sid c hc q hq; exact ⟨x, hx⟩) hr'
      have ho' : h'[p]? = some o := ho
      have hl : p < n.heap.length := by rw [← h2]; exact (List.getElem?_eq_some_iff.1 ho').1
      obtain ⟨o1, g1, g2, g3⟩ := h1 p n.heap[p] (by rw [List.getElem?_eq_getElem hl])
      rw [ho'] at g1; cases g1
      exact absurd ((isAuthorized_of g3.keeps).1 ha) (hnew n.heap[p] (by rw [List.getElem?_eq_getElem hl]))

theorem hasCallback_iff (n : Node) (m : Mode) (sid : Bytes) : hasCallback n m sid = true ↔ HasCallback n m sid := by
  unfold hasCallback HasCallback
  cases h : n.chans m sid with
  | none => simp
  | some c => simp

/-- C32, the decision: a valid, not yet authorized intent of a peer that is put before the identity for the first time
is authorized exactly if the global callback says yes, or the callback of the sending direction of its channel says
yes, or, when there is none, the callback of the receiving direction says yes. -/
theorem C32_decision (W : World) (n : Node) (p : Nat) (now : BitVec 64) (a : Answers) (o : Obj)
    (ho : n.heap[p]? = some o) (hm : o.mine = false) (hv : ValidNow W now o.tok) (ht : o.tok.type = typeIntent)
    (hna : ¬ Authorized o.tok) (hrc : n.realmClient = false) :
    ∃ n' o', step W n (.authz p now false a) = some n' ∧ n'.heap[p]? = some o' ∧
      (Authorized o'.tok ↔ a.global = true ∨
        (HasCallback n .outbound (fromHash o.tok.subject) ∧ a.chanOut = true) ∨
        (¬ HasCallback n .outbound (fromHash o.tok.subject) ∧ HasCallback n .inbound (fromHash o.tok.subject) ∧
          a.chanIn = true)) := by
  have hk := keeps_isValid W.E now o.tok o.tok.type
  have hp : isPeers n p = true := by simp [isPeers, ho, hm]
  simp only [step, hp, if_true]
  refine ⟨handleAuthz W n p now false a, ?_⟩
  have hv' : (isValid W.E now o.tok o.tok.type).2 = true := by rw [ht]; exact hv
  have hna' : isAuthorized o.tok = false := by
    cases h : isAuthorized o.tok
    · rfl
    · exact absurd ((isAuthorized_iff _).1 h) hna
  cases hi : isValid W.E now o.tok o.tok.type with
  | mk t1 b =>
    rw [hi] at hk hv'
    simp only at hk hv'
    subst hv'
    have hty : (flagCmp o.tok.type typeIdentity || flagCmp o.tok.type typeNode || flagCmp o.tok.type typeIntent) = true := by
      rw [ht]; decide
    have hcond : ((flagCmp o.tok.type typeIdentity || flagCmp o.tok.type typeNode || flagCmp o.tok.type typeIntent) && true &&
        t1.type == typeIntent && !isAuthorized t1) = true := by
      rw [hty, hk.content.1, ht, hk.auth, hna']; decide
    have hsub : t1.subject = o.tok.subject := hk.content.2.2.2.2.1
    have hheap : (handleAuthz W n p now false a).heap =
        if (decide3 (hasCallback n .inbound (fromHash t1.subject)) (hasCallback n .outbound (fromHash t1.subject)) a).1 then
          setTok (setTok n.heap p t1) p { t1 with state := t1.state ||| aaaAuthorized } else setTok n.heap p t1 := by
      unfold handleAuthz
      rw [ho]
      simp only [Bool.false_eq_true, if_false, hi]
      rw [if_pos hcond, hrc, Bool.not_false, Bool.and_true]
      split <;> rfl
    have h1 := hasCallback_iff n .outbound (fromHash o.tok.subject)
    have h2 := hasCallback_iff n .inbound (fromHash o.tok.subject)
    rw [hsub, decide3_result] at hheap
    have hres : ((if hasCallback n .outbound (fromHash o.tok.subject) = true then a.chanOut
          else hasCallback n .inbound (fromHash o.tok.subject) && a.chanIn) || a.global) = true ↔
        a.global = true ∨ (HasCallback n .outbound (fromHash o.tok.subject) ∧ a.chanOut = true) ∨
        (¬ HasCallback n .outbound (fromHash o.tok.subject) ∧ HasCallback n .inbound (fromHash o.tok.subject) ∧
          a.chanIn = true) := by
      rw [← h1, ← h2]
      cases hasCallback n .outbound (fromHash o.tok.subject) <;> cases hasCallback n .inbound (fromHash o.tok.subject) <;>
        cases a.chanOut <;> cases a.chanIn <;> cases a.global <;> simp
    rw [← hres]
    have hget : (setTok n.heap p t1)[p]? = some ⟨t1, o.mine⟩ := by rw [get_setTok]; simp [ho]
    by_cases hd : ((if hasCallback n .outbound (fromHash o.tok.subject) = true then a.chanOut
          else hasCallback n .inbound (fromHash o.tok.subject) && a.chanIn) || a.global) = true
    · refine ⟨⟨{ t1 with state := t1.state ||| aaaAuthorized }, o.mine⟩, rfl, ?_, ?_⟩
      · rw [hheap, if_pos hd, get_setTok, hget]; simp [hsub]
      · simp only [hd, iff_true]
        show (t1.state ||| aaaAuthorized) &&& 0x04#8 = 0x04#8
        have : aaaAuthorized = 0x04#8 := rfl
        rw [this]
        ext i hi
        simp only [BitVec.getElem_and, BitVec.getElem_or]
        cases (0x04#8)[i] <;> simp
    · refine ⟨⟨t1, o.mine⟩, rfl, ?_, ?_⟩
      · rw [hheap, if_neg hd]
        exact hget
      · exact ⟨fun h => absurd ((isAuthorized_of hk).1 h) hna, fun h => absurd h hd⟩

example : ∃ n, run toyWorld (start false) [.register .inbound chan9 0x44, .setAuthz .inbound chan9, .receive (mk 1 2 3 0x44 0)] = some n ∧
    (∃ o, n.heap[0]? = some o ∧ o.mine = false ∧ ValidNow toyWorld 0 o.tok ∧ o.tok.type = typeIntent ∧
      ¬ Authorized o.tok) ∧ n.realmClient = false ∧ HasCallback n .inbound (fromHash (mk 1 2 3 0x44 0).subject) := by
  refine ⟨_, rfl, ⟨_, rfl, rfl, ?_, rfl, ?_⟩, rfl, ⟨_, rfl, rfl⟩⟩
  · unfold ValidNow; decide +kernel
  · unfold Authorized; decide +kernel

/-- C32: a node that leaves authorization to a realm server never authorizes on its own, whatever the callbacks say. -/
theorem C32_realm_client (W : World) (n n' : Node) (p q : Nat) (now : BitVec 64) (dup : Bool) (a : Answers) (o o' : Obj)
    (hrc : n.realmClient = true) (hs : step W n (.authz p now dup a) = some n') (ho : n.heap[q]? = some o)
    (ho' : n'.heap[q]? = some o') (ha : Authorized o'.tok) : Authorized o.tok := by
  simp only [step] at hs
  split at hs
  · rename_i hp
    obtain ⟨o1, ho1, _⟩ := isPeers_get hp
    simp only [Option.some.injEq] at hs
    subst hs
    have hk := keeps_isValid W.E now o1.tok o1.tok.type
    unfold handleAuthz at ho'
    rw [ho1] at ho'
    have key : ∀ (h : (setTok n.heap p (isValid W.E now o1.tok o1.tok.type).1)[q]? = some o'), Authorized o.tok := by
      intro h
      rcases get_setTok_inv h with ⟨o0, rfl, e1, rfl⟩ | ⟨_, e1⟩
      · rw [ho1] at e1; cases e1
        rw [ho1] at ho; cases ho
        exact (isAuthorized_of hk).1 ha
      · rw [ho] at e1; cases e1; exact ha
    dsimp only at ho'
    split at ho'
    · rw [ho] at ho'; cases ho'; exact ha
    · simp only [hrc, Bool.not_true, Bool.and_false, Bool.false_eq_true, if_false] at ho'
      split at ho' <;> exact key ho'
  · cases hs; rw [ho] at ho'; cases ho'; exact ha

example : authorizedAt 0 (run toyWorld (start true) [.receive (mk 1 2 3 0x44 0), .authz 0 0 false yes]) = some false := by
  decide +kernel

/-- C32 refuted: the callback of the channel says no, the global callback says yes, and the intent is authorized. -/
theorem C32_channel_denial_overruled_refuted :
    authorizedAt 1 (run toyWorld (start false)
      [.register .inbound chan9 0x44, .setAuthz .inbound chan9, .upsert .inbound chan9 (mk 7 7 7 0x44 0) false,
       .receive (mk 1 2 3 0x44 0), .intent .inbound chan9 1 0 true, .authz 1 0 false ⟨false, false, true⟩]) = some true := by decide +kernel

/-- C32 refuted the other way: with callbacks for both directions, the yes of the receiving direction is lost. -/
theorem C32_inbound_grant_lost_refuted :
    authorizedAt 0 (run toyWorld (start false)
      [.register .inbound chan9 0x44, .register .outbound chan9 0x44, .setAuthz .inbound chan9, .setAuthz .outbound chan9,
       .receive (mk 1 2 3 0x44 0), .authz 0 0 false ⟨true, false, false⟩]) = some false := by decide +kernel

/-! ## C33 authorization is not inherited -/

/-- C33, what holds: in every history without single senders and receivers, an authorized intent of a peer (stored or
not) has the same key and the same uuid as an intent for which a callback said yes. (Missing: the issuer, and histories
with single senders or receivers; both refuted below.) -/
theorem C33_not_inherited_partial (W : World) (ops : List Op) (rc : Bool) (n : Node)
    (hm : ∀ op ∈ ops, MultiParty W op) (hr : run W (start rc) ops = some n) (p : Nat) (o : Obj)
    (ho : n.heap[p]? = some o) (hp : o.mine = false) (ha : Authorized o.tok) :
    ∃ c ∈ n.calls, c.answer = true ∧ SameKeyAndUuid W c.tok o.tok :=
  ((run_inv hm hr).objs p o ho hp).2.2 ha

/-- A history of two peers, one of them authorized, the other not; the former renews its intent. -/
def twoPeers : List Op :=
  [.register .inbound chan9 0x44, .upsert .inbound chan9 (mk 7 7 7 0x44 0) false,
   .receive (mk 1 2 3 0x44 0), .intent .inbound chan9 1 0 true, .authz 1 0 false yes,
   .receive (mk 4 5 6 0x44 0), .intent .inbound chan9 2 0 true, .authz 2 0 false no,
   .receive (mk 1 2 3 0x44 0), .intent .inbound chan9 3 0 true]

example : (∀ op ∈ twoPeers, MultiParty toyWorld op) ∧ authorizedAt 3 (run toyWorld (start false) twoPeers) = some true ∧
    authorizedAt 2 (run toyWorld (start false) twoPeers) = some false := by
  refine ⟨?_, by decide +kernel, by decide +kernel⟩
  intro op hop
  simp only [twoPeers, List.mem_cons, List.not_mem_nil, or_false] at hop
  rcases hop with rfl | rfl | rfl | rfl | rfl | rfl | rfl | rfl | rfl | rfl <;>
    first | exact trivial | (unfold MultiParty; decide +kernel)

/-- C33 refuted: an intent of another issuer with another key, which announces itself as single sender and copies the
uuid of an authorized intent, takes its place and its authorization. Nobody was asked about it. -/
theorem C33_single_sender_steals_refuted :
    authorizedAt 2 (run toyWorld (start false)
      [.register .inbound chan9 0x44, .upsert .inbound chan9 (mk 7 7 7 0x44 0) false,
       .receive (mk 1 2 3 0x44 0), .intent .inbound chan9 1 0 true, .authz 1 0 false yes,
       .receive (mk 1 5 6 0x10 0), .intent .inbound chan9 2 0 true]) = some true := by decide +kernel

/-- C33 refuted as well without single senders: the same key and uuid under another issuer. -/
theorem C33_other_issuer_refuted :
    authorizedAt 2 (run toyWorld (start false)
      [.register .inbound chan9 0x44, .upsert .inbound chan9 (mk 7 7 7 0x44 0) false,
       .receive (mk 1 2 3 0x44 0), .intent .inbound chan9 1 0 true, .authz 1 0 false yes,
       .receive (mk 1 5 3 0x44 0), .intent .inbound chan9 2 0 true]) = some true := by decide +kernel

/-! ## C44 sessions -/

/-- C44, channels: a sender and a receiver who hold each other's intents (`s'`, `r'` are the copies that went over the
network) and announced them, arrive at the same two session ids, and under each of them at sessions that fit. -/
theorem C44_partners_agree (W : World) (s r s' r' : Tok) (hs : SameContent s' s) (hr : SameContent r' r)
    (x1 : Exchange W s.publicKey s.issuerSecret r.publicKey r.issuerSecret)
    (x2 : Exchange W r.publicKey r.issuerSecret s.publicKey s.issuerSecret)
    (ok1 : W.kxServer s.publicKey s.issuerSecret r.publicKey ≠ none)
    (ok2 : W.kxServer r.publicKey r.issuerSecret s.publicKey ≠ none)
    (hd : tokFp W s ≠ tokFp W r)
    -- the sender
    (hS : Heap) (cS cS' : Chan) (oS pS : Nat) (osS : List Nat) (mS mS' : Bool) (eS : cS.own = oS :: osS)
    (gS : hS[oS]? = some ⟨s, mS⟩) (gS' : hS[pS]? = some ⟨r', mS'⟩) (fS : cS.currentFp = tokFp W s)
    (nS : ∀ id, cS.sessions id = none) (uS : updSession W .outbound hS cS pS false = some cS')
    -- the receiver
    (hR : Heap) (cR cR' : Chan) (oR pR : Nat) (osR : List Nat) (mR mR' : Bool) (eR : cR.own = oR :: osR) (ne : pR ≠ oR)
    (gR : hR[oR]? = some ⟨r, mR⟩) (gR' : hR[pR]? = some ⟨s', mR'⟩) (fR : cR.currentFp = tokFp W r)
    (nR : ∀ id, cR.sessions id = none) (uR : updSession W .inbound hR cR pR false = some cR') :
    privateId W .outbound cS.currentFp r' = privateId W .inbound cR.currentFp s' ∧
    initialId W .outbound cS.currentFp r' = initialId W .inbound cR.currentFp s' ∧
    ∀ id, id = privateId W .outbound cS.currentFp r' ∨ id = initialId W .outbound cS.currentFp r' →
      ∃ a b, cS'.sessions id = some a ∧ cR'.sessions id = some b ∧ Fit a b := by
  have fpc : ∀ {a b : Tok}, SameContent a b → tokFp W a = tokFp W b := by
    intro a b h; unfold tokFp getHash; rw [hashInput_congr h, h.2.2.2.2.2.2.2.2.2.2.1]
  have e1 : privateId W .outbound cS.currentFp r' = privateId W .inbound cR.currentFp s' := by
    simp only [privateId, fS, fR, fpc hs, fpc hr]
  have e2 : initialId W .outbound cS.currentFp r' = initialId W .inbound cR.currentFp s' := by
    simp only [initialId, fS, fR, fpc hs, fpc hr]
  refine ⟨e1, e2, ?_⟩
  have pkr : r'.publicKey = r.publicKey := hr.2.2.2.2.2.2.2.2.2.1
  have pks : s'.publicKey = s.publicKey := hs.2.2.2.2.2.2.2.2.2.1
  obtain ⟨y1, hy1⟩ := Option.ne_none_iff_exists'.1 ok1
  obtain ⟨y2, hy2⟩ := Option.ne_none_iff_exists'.1 ok2
  have hne : Dhkey.equal (tokFp W r') cS.currentFp = false := by
    cases h : Dhkey.equal (tokFp W r') cS.currentFp
    · rfl
    · have := (Dhkey.equal_iff _ _).1 h
      rw [fS, fpc hr] at this
      exact absurd this.symm hd
  have x1' := x1
  have x2' := x2
  unfold Exchange at x1' x2'
  -- what the sender computes
  unfold updSession at uS
  rw [eS] at uS
  simp only [gS, gS', hne, Bool.false_eq_true, if_false, nS, if_true, remoteIsClient, cryptoSession, pkr, hy1, x2', hy2,
    Option.map_some, or_self, Option.some.injEq] at uS
  -- what the receiver computes
  unfold updSession at uR
  rw [eR] at uR
  simp only [gR, gR', ne, decide_false, Bool.false_eq_true, if_false, nR, if_true, remoteIsClient, cryptoSession, pks, hy2, x1', hy1,
    Option.map_some, or_self, Option.some.injEq] at uR
  subst uS uR
  intro id hid
  by_cases hi : id = initialId W .outbound cS.currentFp r'
  · refine ⟨⟨.initial, .server, y1.1, y1.2⟩, ⟨.initial, .client, y1.2, y1.1⟩, ?_, ?_, by simp [Fit]⟩
    · simp only [hi, if_true]
    · simp only [hi, e2, if_true]
  · have hp := hid.resolve_right hi
    refine ⟨⟨.priv, .client, y2.2, y2.1⟩, ⟨.priv, .server, y2.1, y2.2⟩, ?_, ?_, by simp [Fit]⟩
    · simp only [hi, if_false, hp, if_true, ite_self]
      rw [if_neg]; rw [← hp]; exact hi
    · have hi' : ¬ id = initialId W .inbound cR.currentFp s' := by rw [← e2]; exact hi
      simp only [hi', if_false]
      rw [if_pos (by rw [hp, e1])]

example : (updSession toyWorld .outbound [⟨mk 1 2 3 0x44 0, true⟩, ⟨mk 4 5 6 0x44 0, false⟩]
      ⟨0x44, 0, false, tokFp toyWorld (mk 1 2 3 0x44 0), [0], [1], fun _ => none⟩ 1 false).isSome ∧
    (updSession toyWorld .inbound [⟨mk 4 5 6 0x44 0, true⟩, ⟨mk 1 2 3 0x44 0, false⟩]
      ⟨0x44, 0, false, tokFp toyWorld (mk 4 5 6 0x44 0), [0], [1], fun _ => none⟩ 1 false).isSome ∧
    tokFp toyWorld (mk 1 2 3 0x44 0) ≠ tokFp toyWorld (mk 4 5 6 0x44 0) := by
  refine ⟨by decide +kernel, by decide +kernel, ?_⟩
  intro h
  have := (Dhkey.equal_iff _ _).2 h
  revert this
  decide +kernel

/-- C44, handshake: two nodes whose handshake priorities differ choose opposite roles, and their session keys fit.
(Missing: equal priorities, refuted below.) -/
theorem C44_handshake_partial (W : World) (a b : Tok) (pa pb : BitVec 32) (hp : pa ≠ pb)
    (x1 : Exchange W a.publicKey a.issuerSecret b.publicKey b.issuerSecret)
    (x2 : Exchange W b.publicKey b.issuerSecret a.publicKey a.issuerSecret) :
    handshakeRole pa pb ≠ handshakeRole pb pa ∧
    (∀ sa sb, handshakeSession W a b pa pb = some sa → handshakeSession W b a pb pa = some sb → Fit sa sb) ∧
    (handshakeSession W a b pa pb = none ↔ handshakeSession W b a pb pa = none) := by
  have hne : pa.toNat ≠ pb.toNat := fun h => hp (BitVec.eq_of_toNat_eq h)
  unfold handshakeSession handshakeRole
  by_cases h : pb.toNat < pa.toNat
  · have h' : ¬ pa.toNat < pb.toNat := by omega
    simp only [h, h', if_true, if_false]
    refine ⟨by simp, ?_, ?_⟩
    · intro sa sb e1 e2
      simp [crypto_fit x2] at e1
      simp at e2
      rw [e2] at e1
      simp at e1
      subst e1
      unfold cryptoSession at e2
      simp at e2
      obtain ⟨u, v, _, rfl⟩ := e2
      simp [Fit]
    · simp [crypto_fit x2]
  · have h' : pa.toNat < pb.toNat := by omega
    simp only [h, h', if_true, if_false]
    refine ⟨by simp, ?_, ?_⟩
    · intro sa sb e1 e2
      simp [crypto_fit x1] at e2
      simp at e1
      rw [e1] at e2
      simp at e2
      subst e2
      unfold cryptoSession at e1
      simp at e1
      obtain ⟨u, v, _, rfl⟩ := e1
      simp [Fit]
    · simp [crypto_fit x1]

example : handshakeRole 3 9 = .server ∧ handshakeRole 9 3 = .client := by decide

/-- C44 refuted: with equal priorities (they are random, and 0 if the attribute is missing) both sides are server and
what one writes is not what the other reads. -/
theorem C44_equal_priority_refuted : ∃ a b sa sb, handshakeRole 5 5 = Role.server ∧
    handshakeSession toyWorld a b 5 5 = some sa ∧ handshakeSession toyWorld b a 5 5 = some sb ∧
    sa.role = sb.role ∧ sa.write ≠ sb.read := by
  refine ⟨mk 1 2 3 0x44 0, mk 4 5 6 0x44 0, _, _, rfl, rfl, rfl, rfl, ?_⟩
  decide +kernel

/-! ## C56 no crash -/

/-- C56, what holds: in every reachable state, the only steps that crash the node are an intent with a malformed
partner fingerprint that is otherwise acceptable, an acceptable intent for a channel which has no own intent yet, and
the periodic check of a channel which has no own intent yet. -/
theorem C56_only_known_crashes_partial (W : World) (ops : List Op) (rc : Bool) (n : Node) (op : Op)
    (hr : run W (start rc) ops = some n) (hs : step W n op = none) :
    (∃ m sid p now c o, op = .intent m sid p now true ∧ n.chans m sid = some c ∧ n.heap[p]? = some o ∧
      ValidNow W now o.tok ∧ (partnerFp W o.tok = none ∨ c.own = [])) ∨
    (∃ m sid now c, op = .check m sid now ∧ n.chans m sid = some c ∧ c.own = []) := by
  have hn := run_alloc hr
  have hown : ∀ m sid c, n.chans m sid = some c → ∀ q ∈ c.own, ∃ o : Obj, n.heap[q]? = some o := by
    intro m sid c hc q hq
    obtain ⟨o, ho, _⟩ := hn.own m sid c hc q hq
    exact ⟨o, ho⟩
  cases op with
  | intent m sid p now cp =>
    simp only [step] at hs
    split at hs
    · rename_i hp
      obtain ⟨o, ho, _⟩ := isPeers_get hp
      split at hs
      · simp at hs
      · rename_i c hc
        rw [Option.map_eq_none_iff] at hs
        obtain ⟨h1, h2, h3⟩ := handleIntent_none ho (hown m sid c hc) hs
        subst h2
        exact Or.inl ⟨m, sid, p, now, c, o, rfl, hc, ho, h1, h3⟩
    · simp at hs
  | check m sid now =>
    simp only [step] at hs
    split at hs
    · simp at hs
    · rename_i c hc
      rw [Option.map_eq_none_iff] at hs
      exact Or.inr ⟨m, sid, now, c, rfl, hc, checkPeers_none (fun q hq => by
        obtain ⟨o, ho, _⟩ := hn.peers m sid c hc q hq; exact ⟨o, ho⟩) (hown m sid c hc) hs⟩
  | receive t => simp [step] at hs
  | authz p now dup a => simp only [step] at hs; split at hs <;> simp at hs
  | register m sid mep => simp only [step] at hs; split at hs <;> simp at hs
  | setAuthz m sid => simp only [step] at hs; split at hs <;> simp at hs
  | upsert m sid t renew => simp only [step] at hs; split at hs <;> simp at hs
  | announce m sid =>
    simp only [step] at hs
    split at hs
    · simp at hs
    · split at hs <;> simp at hs

/-- C56: once a channel has an own intent it keeps one, whatever happens. -/
theorem C56_own_intent_stays (W : World) (ops : List Op) (rc : Bool) (n n' : Node) (ops' : List Op) (m : Mode) (sid : Bytes)
    (c : Chan) (hr : run W (start rc) ops = some n) (hc : n.chans m sid = some c) (ho : c.own ≠ [])
    (hs : run W n ops' = some n') : ∃ c', n'.chans m sid = some c' ∧ c'.own ≠ [] := by
  have hn := run_alloc hr
  refine (run_induct (W := W) (fun n => Alloc W n ∧ ∃ c, n.chans m sid = some c ∧ c.own ≠ []) ?_ ops' n n' ⟨hn, c, hc, ho⟩ hs).2
  clear hs ho hc hn hr
  intro n op n' ⟨hn, c, hc, ho⟩ hs
  refine ⟨(step_alloc op hn hs).1, ?_⟩
  have set_other : ∀ (h' : Heap) (m' : Mode) (sid' : Bytes) (c1 c2 : Chan), n.chans m' sid' = some c1 →
      (c1.own ≠ [] → c2.own ≠ []) → ∃ c', ({ n with heap := h' }.setChan m' sid' c2).chans m sid = some c' ∧ c'.own ≠ [] := by
    intro h' m' sid' c1 c2 h1 h2
    by_cases e : m = m' ∧ sid = sid'
    · obtain ⟨rfl, rfl⟩ := e
      rw [hc] at h1; cases h1
      exact ⟨c2, setChan_self _ _ _ _, h2 ho⟩
    · exact ⟨c, by simp only [Node.setChan, if_neg e]; exact hc, ho⟩
  cases op with
  | receive t => simp only [step, Option.some.injEq] at hs; subst hs; exact ⟨c, hc, ho⟩
  | intent m' sid' p now cp =>
    simp only [step] at hs
    split at hs
    · rename_i hp
      obtain ⟨o, ho', _⟩ := isPeers_get hp
      split at hs
      · cases hs; exact ⟨c, hc, ho⟩
      · rename_i c1 hc1
        rw [Option.map_eq_some_iff] at hs
        obtain ⟨⟨h', c', b⟩, hr, rfl⟩ := hs
        obtain ⟨t', h1, h2, h3, _⟩ := handleIntent_spec ho' hr
        exact set_other h' m' sid' c1 c' hc1 (fun x => by rw [h3]; exact x)
    · cases hs; exact ⟨c, hc, ho⟩
  | authz p now dup a =>
    simp only [step] at hs
    split at hs
    · rename_i hp
      obtain ⟨o, ho', _⟩ := isPeers_get hp
      obtain ⟨t', new, h1, _⟩ := handleAuthz_spec (W := W) (now := now) (dup := dup) (a := a) ho'
      simp only [Option.some.injEq] at hs
      rw [h1] at hs
      subst hs
      exact ⟨c, hc, ho⟩
    · cases hs; exact ⟨c, hc, ho⟩
  | register m' sid' mep =>
    simp only [step] at hs
    split at hs
    · cases hs; exact ⟨c, hc, ho⟩
    · rename_i hnone
      cases hs
      refine ⟨c, ?_, ho⟩
      have e : ¬ (m = m' ∧ sid = sid') := by rintro ⟨rfl, rfl⟩; rw [hc] at hnone; simp at hnone
      simp only [Node.setChan, if_neg e]; exact hc
  | setAuthz m' sid' =>
    simp only [step] at hs
    split at hs
    · cases hs; exact ⟨c, hc, ho⟩
    · rename_i c1 hc1
      cases hs
      exact set_other n.heap m' sid' c1 _ hc1 (fun x => x)
  | upsert m' sid' t renew =>
    simp only [step] at hs
    split at hs
    · cases hs; exact ⟨c, hc, ho⟩
    · rename_i c1 hc1
      cases hs
      refine set_other _ m' sid' c1 _ hc1 (fun x => ?_)
      rcases (upsertOwn_spec n.heap c1 t renew).2 with ⟨_, h2, h3⟩ | ⟨_, _, h3⟩
      · rw [h2]; exact h3
      · exact h3
  | announce m' sid' =>
    simp only [step] at hs
    split at hs
    · cases hs; exact ⟨c, hc, ho⟩
    · rename_i c1 hc1
      split at hs
      · cases hs; exact ⟨c, hc, ho⟩
      · cases hs
        exact set_other n.heap m' sid' c1 _ hc1 (fun x => x)
  | check m' sid' now =>
    simp only [step] at hs
    split at hs
    · cases hs; exact ⟨c, hc, ho⟩
    · rename_i c1 hc1
      rw [Option.map_eq_some_iff] at hs
      obtain ⟨⟨h', c'⟩, hr, rfl⟩ := hs
      obtain ⟨h1, h2, h3, _⟩ := checkPeers_spec (fun q hq => by
        obtain ⟨x, hx, _⟩ := hn.peers m' sid' c1 hc1 q hq; exact ⟨x, hx⟩) hr
      exact set_other h' m' sid' c1 c' hc1 (fun x => by rw [h3]; exact x)

example : ∃ n c, run toyWorld (start false) twoPeers = some n ∧ n.chans .inbound chan9 = some c ∧ c.own ≠ [] ∧ c.peers.length = 2 := by
  refine ⟨_, _, rfl, rfl, ?_, ?_⟩ <;> decide +kernel

/-- C56 refuted: one intent from the network with a partner fingerprint of 31 bytes aborts the node. -/
theorem C56_partner_fp_refuted :
    (run toyWorld (start false) [.register .inbound chan9 0x44, .upsert .inbound chan9 (mk 7 7 7 0x44 0) false,
      .receive (mk 1 2 3 0x44 31)]).isSome = true ∧
    (run toyWorld (start false) [.register .inbound chan9 0x44, .upsert .inbound chan9 (mk 7 7 7 0x44 0) false,
      .receive (mk 1 2 3 0x44 31), .intent .inbound chan9 1 0 true]).isNone = true := by
  constructor <;> decide +kernel

/-- C56 refuted: an intent that is authorized before the channel made its own intent leads to a NULL dereference. -/
theorem C56_no_own_intent_refuted :
    (run toyWorld (start false) [.register .inbound chan9 0x44, .receive (mk 1 2 3 0x44 0), .intent .inbound chan9 0 0 true,
      .authz 0 0 false yes, .intent .inbound chan9 0 0 true]).isNone = true := by decide +kernel

/-! ## C57 finding peers -/

/-- C57: in every reachable state the sender of a message is looked up without a crash, and the result is the first
stored intent that is valid now, authorized, and from the given sender; none if there is no such intent. -/
theorem C57_sender (W : World) (ops : List Op) (rc : Bool) (n : Node) (hr : run W (start rc) ops = some n)
    (m : Mode) (sid : Bytes) (c : Chan) (hc : n.chans m sid = some c) (now : BitVec 64) (sender : Dhkey) :
    ∃ h' r, getSender W now sender n.heap c.peers = some (h', r) ∧
      (∀ p, r = some p → ∃ a b, c.peers = a ++ p :: b ∧ (∃ o, n.heap[p]? = some o ∧ Accepts W now sender o.tok) ∧
        ∀ q ∈ a, ∀ o, n.heap[q]? = some o → ¬ Accepts W now sender o.tok) ∧
      (r = none → ∀ q ∈ c.peers, ∀ o, n.heap[q]? = some o → ¬ Accepts W now sender o.tok) := by
  have hn := run_alloc hr
  obtain ⟨h', hh⟩ := getSender_spec W now sender c.peers n.heap (fun q hq => by
    obtain ⟨o, h1, _, h3⟩ := hn.peers m sid c hc q hq; exact ⟨o, h1, h3⟩)
  refine ⟨h', _, hh, ?_, ?_⟩
  · intro p hp
    obtain ⟨h1, a, b, e, h2⟩ := List.find?_eq_some_iff_append.1 hp
    refine ⟨a, b, e, ?_, ?_⟩
    · obtain ⟨o, ho, _⟩ := hn.peers m sid c hc p (by rw [e]; simp)
      exact ⟨o, ho, (senderOk_iff _ _ _ _).1 (by simpa [onHeap, ho] using h1)⟩
    · intro q hq o ho hA
      have := h2 q hq
      simp [onHeap, ho, (senderOk_iff _ _ _ _).2 hA] at this
  · intro hp q hq o ho hA
    have := List.find?_eq_none.1 hp q hq
    simp [onHeap, ho, (senderOk_iff _ _ _ _).2 hA] at this

/-- C57: likewise for the receiver of a message. -/
theorem C57_receiver (W : World) (ops : List Op) (rc : Bool) (n : Node) (hr : run W (start rc) ops = some n)
    (m : Mode) (sid : Bytes) (c : Chan) (hc : n.chans m sid = some c) (now : BitVec 64) (me : Dhkey × Dhkey) (target : Dhkey) :
    ∃ h' r, getReceiver W now me target n.heap c.peers = some (h', r) ∧
      (∀ p, r = some p → ∃ a b, c.peers = a ++ p :: b ∧ (∃ o, n.heap[p]? = some o ∧ Reaches W now me target o.tok) ∧
        ∀ q ∈ a, ∀ o, n.heap[q]? = some o → ¬ Reaches W now me target o.tok) ∧
      (r = none → ∀ q ∈ c.peers, ∀ o, n.heap[q]? = some o → ¬ Reaches W now me target o.tok) := by
  have hn := run_alloc hr
  obtain ⟨h', hh⟩ := getReceiver_spec W now me target c.peers n.heap (fun q hq => by
    obtain ⟨o, h1, _, h3⟩ := hn.peers m sid c hc q hq; exact ⟨o, h1⟩)
  refine ⟨h', _, hh, ?_, ?_⟩
  · intro p hp
    obtain ⟨h1, a, b, e, h2⟩ := List.find?_eq_some_iff_append.1 hp
    refine ⟨a, b, e, ?_, ?_⟩
    · obtain ⟨o, ho, _⟩ := hn.peers m sid c hc p (by rw [e]; simp)
      exact ⟨o, ho, (receiverOk_iff _ _ _ _ _).1 (by simpa [onHeap, ho] using h1)⟩
    · intro q hq o ho hA
      have := h2 q hq
      simp [onHeap, ho, (receiverOk_iff _ _ _ _ _).2 hA] at this
  · intro hp q hq o ho hA
    have := List.find?_eq_none.1 hp q hq
    simp [onHeap, ho, (receiverOk_iff _ _ _ _ _).2 hA] at this

/-- C57: the receivers of a message to an audience are exactly the stored intents that are valid now, authorized and in
the audience, each as often as it is stored, in the order of the list. -/
theorem C57_all_receivers (W : World) (ops : List Op) (rc : Bool) (n : Node) (hr : run W (start rc) ops = some n)
    (m : Mode) (sid : Bytes) (c : Chan) (hc : n.chans m sid = some c) (now : BitVec 64) (audience : Dhkey) :
    ∃ h' l, getAllReceiver W now c.currentFp audience n.heap c.peers = some (h', l) ∧ l.Sublist c.peers ∧
      ∀ p o, n.heap[p]? = some o → (InAudience W now c.currentFp audience o.tok → l.count p = c.peers.count p) ∧
        (¬ InAudience W now c.currentFp audience o.tok → p ∉ l) := by
  have hn := run_alloc hr
  obtain ⟨h', hh⟩ := getAllReceiver_spec W now c.currentFp audience c.peers n.heap (fun q hq => by
    obtain ⟨o, h1, _, h3⟩ := hn.peers m sid c hc q hq; exact ⟨o, h1⟩)
  refine ⟨h', _, hh, List.filter_sublist, ?_⟩
  intro p o ho
  refine ⟨fun hA => ?_, fun hA hm => ?_⟩
  · rw [List.count_filter]
    simp [onHeap, ho, (audienceOk_iff _ _ _ _ _).2 hA]
  · rw [List.mem_filter] at hm
    simp only [onHeap, ho] at hm
    exact hA ((audienceOk_iff _ _ _ _ _).1 hm.2)

example : ∃ n c, run toyWorld (start false) twoPeers = some n ∧ n.chans .inbound chan9 = some c ∧
    ((getSender toyWorld 0 (toDhkey (List.replicate 32 2)) n.heap c.peers).map (·.2)) = some (some 3) ∧
    ((getSender toyWorld 0 (toDhkey (List.replicate 32 5)) n.heap c.peers).map (·.2)) = some none := by
  refine ⟨_, _, rfl, rfl, ?_, ?_⟩ <;> decide +kernel

/-! ## C58 expiry of intents -/

/-- C58, what holds: in histories without single senders and receivers, as many periodic checks as there are stored
intents leave exactly those that are valid. (Missing: single senders and receivers, where an intent with the same uuid
may be taken out instead; and one check takes out one intent only, see below.) -/
theorem C58_invalid_intents_leave_partial (W : World) (ops : List Op) (rc : Bool) (n n' : Node)
    (hm : ∀ op ∈ ops, MultiParty W op) (hr : run W (start rc) ops = some n) (m : Mode) (sid : Bytes) (c : Chan)
    (hc : n.chans m sid = some c) (now : BitVec 64) (k : Nat) (hk : c.peers.length ≤ k)
    (hs : run W n (List.replicate k (.check m sid now)) = some n') :
    ∃ c', n'.chans m sid = some c' ∧ c'.peers.Sublist c.peers ∧
      ∀ p ∈ c.peers, (p ∈ c'.peers ↔ ∃ o, n.heap[p]? = some o ∧ ValidNow W now o.tok) := by
  obtain ⟨c', h1, h2⟩ := check_many k n n' c (run_inv hm hr) hc hk hs
  refine ⟨c', h1, by rw [h2]; exact List.filter_sublist, ?_⟩
  intro p hp
  rw [h2, List.mem_filter]
  unfold validOn ValidNow
  constructor
  · rintro ⟨_, h⟩
    split at h
    · rename_i o ho; exact ⟨o, ho, h⟩
    · simp at h
  · rintro ⟨o, ho, h⟩
    exact ⟨hp, by simp [ho, h]⟩

/-- C58: one check takes out at most one intent, an invalid one, and none that is valid. -/
theorem C58_one_check (W : World) (ops : List Op) (rc : Bool) (n n' : Node)
    (hm : ∀ op ∈ ops, MultiParty W op) (hr : run W (start rc) ops = some n) (m : Mode) (sid : Bytes) (c : Chan)
    (hc : n.chans m sid = some c) (now : BitVec 64) (hs : step W n (.check m sid now) = some n') :
    ∃ c', n'.chans m sid = some c' ∧
      ((c'.peers = c.peers ∧ ∀ p ∈ c.peers, ∃ o, n.heap[p]? = some o ∧ ValidNow W now o.tok) ∨
       ∃ a p b o, c.peers = a ++ p :: b ∧ c'.peers = a ++ b ∧ n.heap[p]? = some o ∧ ¬ ValidNow W now o.tok) := by
  have hn := run_inv hm hr
  obtain ⟨c', h1, _, h3⟩ := check_spec hn hc hs
  refine ⟨c', h1, ?_⟩
  rcases h3 with ⟨h3, h4⟩ | ⟨a, p, b, h3, h4, h5, _⟩
  · refine Or.inl ⟨h3, fun p hp => ?_⟩
    obtain ⟨o, ho, _⟩ := hn.alloc.peers m sid c hc p hp
    exact ⟨o, ho, by have := h4 p hp; unfold ValidNow; simpa [validOn, ho] using this⟩
  · obtain ⟨o, ho, _⟩ := hn.alloc.peers m sid c hc p (by rw [h3]; simp)
    exact Or.inr ⟨a, p, b, o, h3, h4, ho, by unfold ValidNow; simp [validOn, ho] at h5; simp [h5]⟩

/-- The intents of `twoPeers` are expired at this time (2^62 as a number of type double is far beyond). -/
example : ∃ n c n', run toyWorld (start false) twoPeers = some n ∧ n.chans .inbound chan9 = some c ∧ c.peers.length = 2 ∧
    run toyWorld n (List.replicate 2 (.check .inbound chan9 0x43D0000000000000)) = some n' ∧
    (n'.chans .inbound chan9).map (·.peers) = some [] := by
  refine ⟨_, _, _, rfl, rfl, ?_, rfl, ?_⟩ <;> decide +kernel

end Np.Authz
