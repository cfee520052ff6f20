import Verif.Issue.Lemmas
/-! # Properties of the tokens a node issues: C223–C225 -/
namespace Np.Issue
open _root_.Np.Token _root_.Np.Token.Spec _root_.Np.Issue.Spec

/-- C223 (partial).  Every intent a node makes for a channel is read and accepted by every other node, until it expires.  Missing: nodes whose user sets attributes with
the names of the two counters (`Without`), which replace them, and intents for whose attributes there is no room, where the node aborts (`C223_room_refuted`). -/
theorem C223_accepted_partial (E : Env) (L : Lawful E) (O : Ops) (LO : LawfulOps E O) (keyOk : Bytes → Bool) (x : Fresh) (ident : Tok) (hI : Own E ident) (c : Conf)
    (k : Caches) (me node : Bytes) (hx : x.uuid.length = 16) (hme : me.length = 32) (hc : ∀ id, c.audience = some id → id.length = 32) (now ttl : BitVec 64) (t : Tok)
    (h : newIntent E O keyOk x ident c k me node now ttl = some t) (h1 : Without E k keyMax) (h2 : Without E k keyMsg) : AcceptedUntilExpiry E keyOk t typeIntent := by
  obtain ⟨a1, a2, a3, a4, a5, a6, a7, a8, a9, _, _, _, b1, b2, _⟩ := newIntent_some E L O LO keyOk x ident hI c k me node hx hme hc now ttl t h
  refine accepted E L keyOk t typeIntent a6 (by rw [a4]; exact Nat.le_refl _) a1 (by rw [a3, a2]; exact hI.pair) ?_ a9 a8 (by rw [a5, HasType]; decide) fun _ =>
    ⟨_, _, b1 h1, b2 h2, by simp [asUint]⟩
  rw [SignatureOk, a7, a2]
  exact hI.pair _

/-- C223.  Every other node that knows and has authenticated the identity can check that the intent was issued by it. -/
theorem C223_issuer_partial (E : Env) (L : Lawful E) (O : Ops) (LO : LawfulOps E O) (keyOk : Bytes → Bool) (x : Fresh) (ident : Tok) (hI : Own E ident) (c : Conf)
    (k : Caches) (me node : Bytes) (hx : x.uuid.length = 16) (hme : me.length = 32) (hc : ∀ id, c.audience = some id → id.length = 32) (now ttl : BitVec 64) (t : Tok)
    (h : newIntent E O keyOk x ident c k me node now ttl = some t) (h1 : Without E k (idText me)) (copy : Tok) (hs : getHash E copy = getHash E ident)
    (hg : copy.signature = ident.signature) (hv : flagCmp copy.state aaaValid = true) (ha : flagCmp copy.state aaaAuthenticated = true) (uuid : Bytes) (t0 ex : BitVec 64) :
    ∃ w t' r, encode E [] t = some (w, t') ∧ decode keyOk w (freshTok E uuid t0 ex) = some (r, true) ∧ ∃ r', verifySignature E r (some copy) = some (r', true) := by
  obtain ⟨a1, a2, a3, a4, a5, a6, a7, a8, ⟨n, a9⟩, _, b0, bm, _, _, b3⟩ := newIntent_some E L O LO keyOk x ident hI c k me node hx hme hc now ttl t h
  have hsc : t.scope ≤ scopePrivateAvailable := by rw [a4]; exact Nat.le_refl _
  have hu := updateAttr_of E t hsc n a9
  have he : ∃ w, encode E [] t = some (w, { t with attrSignature := E.sign (E.hash (t.attributes.take n ++ t.signature)) t.issuerSecret }) := by
    rw [encode, a9]
    simp only [if_pos hsc, hu]
    exact ⟨_, rfl⟩
  obtain ⟨w, he⟩ := he
  have hs' : Sized { t with attrSignature := E.sign (E.hash (t.attributes.take n ++ t.signature)) t.issuerSecret } :=
    ⟨a6.uuid, a6.realm, a6.issuer, a6.subject, a6.audience, a6.publicKey, a6.signature, L.sign_length _ _⟩
  obtain ⟨r, m, hd, hm, hf, _, f2, f3, f4, _, f6, f7, f8, _⟩ := C50_round_trip E L keyOk t _ w uuid t0 ex a6 hs' a1 a8 he
  rw [a9] at hm; cases hm
  refine ⟨w, _, r, he, hd, ?_⟩
  have hle := L.size_le _ _ a9
  have hash_eq : getHash E r = getHash E t := by
    simp only [SameSignedFields] at hf; simp [getHash, hashInput, hf]
  have hpk : r.publicKey = t.publicKey := hf.2.2.2.2.2.1
  have hiss : r.issuer = idText me := hf.2.2.1.trans b0
  have hpair : KeyPair E t.issuerSecret t.publicKey := by rw [a3, a2]; exact hI.pair
  have c1 : checkSignature E r = ({ r with sigVerified := true }, true) := by
    rw [checkSignature, f6, hash_eq, hpk, f2, a7, a2, hI.pair]; simp
  have hsz := L.size_prefix _ _ a9
  have htk : (t.attributes.take n ++ E.attrInit.drop n).take n = t.attributes.take n := by
    rw [List.take_append_of_le_length (by rw [List.length_take]; omega), List.take_take]; simp
  have c2 : checkAttributes E { r with sigVerified := true } = ({ r with sigVerified := true, attrVerified := true }, true) := by
    have hah : attrHash E { r with sigVerified := true } = some (E.hash (t.attributes.take n ++ t.signature)) := by simp only [attrHash, f4, hsz, htk, f2]
    have hvf : E.verify r.attrSignature (E.hash (t.attributes.take n ++ t.signature)) r.publicKey = true := by rw [f3, hpk]; exact hpair _
    rw [checkAttributes, if_neg (by simp [f7]), hah]
    simp only [hvf, if_true]
  have c3 : fromHash r.issuer = E.hash (getHash E copy ++ copy.signature) := by
    rw [hiss, fromHash_idText me hme, hs, hg]; exact bm
  have c4 : E.attrGet r.attributes r.issuer = some (.bin (ident.publicKey ++ E.sign (getHash E t) ident.issuerSecret)) := by
    rw [f4, L.get_prefix _ _ _ a9, hiss, ← b0]
    exact b3 (b0 ▸ h1)
  have hlp := hI.sized.publicKey
  have hls : (E.sign (getHash E t) ident.issuerSecret).length = 64 := L.sign_length _ _
  have d1 : (ident.publicKey ++ E.sign (getHash E t) ident.issuerSecret).take 32 = ident.publicKey := by rw [← hlp]; exact List.take_left' rfl
  have d2 : ((ident.publicKey ++ E.sign (getHash E t) ident.issuerSecret).drop 32).take 64 = E.sign (getHash E t) ident.issuerSecret := by
    rw [List.drop_left' hlp, List.take_of_length_le (by omega)]
  have d3 : ¬ (ident.publicKey ++ E.sign (getHash E t) ident.issuerSecret).length < 96 := by rw [List.length_append]; omega
  have d4 : getHash E { r with sigVerified := true, attrVerified := true } = getHash E t := hash_eq
  exact verifySignature_of E r _ _ copy _ c1 c2 f8 c3 hv ha c4 d3 (by rw [d1, d2, d4]; exact hI.pair _)

/-- C223 (refuted).  If the attributes the user set leave no room for the fingerprint of the node, the node aborts as soon as it makes an intent. -/
theorem C223_room_refuted (E : Env) (O : Ops) (keyOk : Bytes → Bool) (x : Fresh) (ident : Tok) (c : Conf) (k : Caches) (me node : Bytes) (now ttl : BitVec 64)
    (h : ∀ a, O.setBin (O.merge (O.merge (O.merge a k.a) k.b) k.c) (txt "_np.partner_fp") node = none) : newIntent E O keyOk x ident c k me node now ttl = none := by
  have hi : ∀ a, intentAttrs O a c k node = none := by
    intro a
    cases e : intentAttrs O a c k node with
    | none => rfl
    | some b =>
      simp only [intentAttrs, Option.bind_eq_bind, Option.bind_eq_some_iff] at e
      obtain ⟨_, _, _, _, _, _, _, _, e⟩ := e
      rw [h] at e; cases e
  cases e : newIntent E O keyOk x ident c k me node now ttl with
  | none => rfl
  | some b =>
    simp only [newIntent, Option.bind_eq_bind, Option.bind_eq_some_iff] at e
    obtain ⟨_, _, _, _, _, _, _, e, _⟩ := e
    rw [hi] at e; cases e

/-- C224.  No intent lives longer than the identity that issued it, nor longer than the channel allows. -/
theorem C224_lifetime (E : Env) (L : Lawful E) (O : Ops) (LO : LawfulOps E O) (keyOk : Bytes → Bool) (x : Fresh) (ident : Tok) (hI : Own E ident) (c : Conf)
    (k : Caches) (me node : Bytes) (hx : x.uuid.length = 16) (hme : me.length = 32) (hc : ∀ id, c.audience = some id → id.length = 32) (now ttl : BitVec 64) (t : Tok)
    (h : newIntent E O keyOk x ident c k me node now ttl = some t) : dgt t.expiresAt ident.expiresAt = false ∧ dgt t.expiresAt ttl = false := by
  obtain ⟨_, _, _, _, _, _, _, _, _, e, _⟩ := newIntent_some E L O LO keyOk x ident hI c k me node hx hme hc now ttl t h
  have irr : ∀ d, dgt d d = false := by intro d; simp [dgt]
  rw [e]
  split
  · next hd =>
    refine ⟨irr _, ?_⟩
    simp only [dgt, Bool.and_eq_true, decide_eq_true_eq] at hd
    simp only [dgt, Bool.and_eq_false_imp, decide_eq_false_iff_not]
    intro _; omega
  · next hd => exact ⟨by simpa using hd, irr _⟩

/-- C225.  The token a node sends in a handshake is read and accepted by every other node, until it expires. -/
theorem C225_handshake (E : Env) (L : Lawful E) (O : Ops) (LO : LawfulOps E O) (keyOk : Bytes → Bool) (x : Fresh) (node : Tok) (hN : Own E node)
    (hx : x.uuid.length = 16) (subject : Bytes) (prio : BitVec 32) (t : Tok) (h : newHandshake E O keyOk x node subject prio = some t) :
    AcceptedUntilExpiry E keyOk t typeHandshake ∧ t.expiresAt = node.expiresAt := by
  rw [newHandshake] at h
  split at h
  · simp only [Option.bind_eq_bind, Option.bind_eq_some_iff] at h
    obtain ⟨t0, h0, t1, h1, h2⟩ := h
    obtain ⟨hk, e0⟩ := derive_some E keyOk x node t0 hN.key h0
    obtain ⟨_, n1, d1, e1⟩ := signSelf_some E _ t1 h1
    obtain ⟨d2, _, e2⟩ := updateAttr_some h2
    have hl : ((O.setUint E.attrInit (txt "_np.hs.priority") prio).getD E.attrInit).length = E.attrInit.length := by
      cases e : O.setUint E.attrInit (txt "_np.hs.priority") prio with
      | none => rfl
      | some b => exact (LO.uint _ _ _ _ e L.init_size).1
    have hsig : SignatureOk E t := by rw [SignatureOk, e2, e1, e0]; exact hN.pair _
    refine ⟨accepted E L keyOk t typeHandshake ⟨?_, ?_, ?_, ?_, ?_, ?_, ?_, ?_⟩ (by rw [e2, e1, e0]; exact Nat.le_refl _) (by rw [e2, e1, e0]; exact hk)
      (by rw [e2, e1, e0]; exact hN.pair) hsig (by rw [e2, e1]; exact n1) (by rw [e2, e1]; exact hl) (by rw [e2, e1]; show typeHandshake &&& typeHandshake = typeHandshake; decide)
      (fun hh => absurd (show typeHandshake &&& typeIntent = typeIntent by rw [e2, e1] at hh; exact hh) (by decide)), by rw [e2, e1, e0]⟩
    · rw [e2, e1, e0]; exact hx
    · rw [e2, e1, e0]; exact List.length_take_le ..
    · rw [e2, e1]; simp only; rw [idText_len _ (L.hash_length _)]; omega
    · rw [e2, e1]; simp only; rw [List.length_take]; omega
    · rw [e2, e1, e0]; exact List.length_take_le ..
    · rw [e2, e1, e0]; exact hN.sized.publicKey
    · rw [e2, e1]; exact L.sign_length _ _
    · rw [e2]; exact L.sign_length _ _
  · cases h

/-- C225.  So is the identity token it sends to join, which keeps the uuid, the issuer and the lifetime of the identity. -/
theorem C225_identity (E : Env) (L : Lawful E) (O : Ops) (LO : LawfulOps E O) (keyOk : Bytes → Bool) (x : Fresh) (ident : Tok) (hI : Own E ident) (k : Caches)
    (hn : ∃ n, E.attrSize ident.attributes = some n) (hl : ident.attributes.length = E.attrInit.length) (hty : ¬ HasType ident.type typeIntent) (t : Tok)
    (h : publicIdent E O keyOk x ident k = some t) :
    AcceptedUntilExpiry E keyOk t typeIdentity ∧ t.expiresAt = ident.expiresAt ∧ t.uuid = ident.uuid ∧ t.issuer = ident.issuer := by
  rw [publicIdent] at h
  split at h
  · next hfl =>
    simp only [Option.bind_eq_bind, Option.bind_eq_some_iff] at h
    obtain ⟨t0, h0, t1, h1, h2⟩ := h
    obtain ⟨hk, e0⟩ := derive_some E keyOk x ident t0 hI.key h0
    obtain ⟨_, n1, d1, e1⟩ := signSelf_some E _ t1 h1
    obtain ⟨d2, _, e2⟩ := updateAttr_some h2
    have ha : t0.attributes = ident.attributes := by rw [e0]
    obtain ⟨l5, n5, _⟩ := LO.merge ident.attributes k.a hn
    obtain ⟨l6, n6, _⟩ := LO.merge _ k.b n5
    obtain ⟨l7, n7, _⟩ := LO.merge _ k.c n6
    have hsig : SignatureOk E t := by rw [SignatureOk, e2, e1, e0]; exact hI.pair _
    have hii : ident.issuer.take 65 = ident.issuer := List.take_of_length_le hI.sized.issuer
    refine ⟨accepted E L keyOk t typeIdentity ⟨?_, ?_, ?_, ?_, ?_, ?_, ?_, ?_⟩ (by rw [e2, e1, e0]; exact Nat.le_refl _) (by rw [e2, e1, e0]; exact hk)
      (by rw [e2, e1, e0]; exact hI.pair) hsig (by rw [e2, e1]; exact n1) (by rw [e2, e1]; simp only [ha]; rw [l7, l6, l5]; exact hl)
      (by rw [e2, e1, e0]; exact (flagCmp_iff _ _).1 hfl) (fun hh => absurd hh (by rw [e2, e1, e0]; exact hty)), by rw [e2, e1, e0], by rw [e2, e1],
      by rw [e2, e1, e0]; exact hii⟩
    · rw [e2, e1]; exact hI.sized.uuid
    · rw [e2, e1, e0]; exact List.length_take_le ..
    · rw [e2, e1, e0]; exact List.length_take_le ..
    · rw [e2, e1, e0]; exact List.length_take_le ..
    · rw [e2, e1, e0]; exact List.length_take_le ..
    · rw [e2, e1, e0]; exact hI.sized.publicKey
    · rw [e2, e1]; exact L.sign_length _ _
    · rw [e2]; exact L.sign_length _ _
  · cases h

/-- C225 (refuted).  The corresponding call for node tokens aborts, whatever the node: it asks for a public token and then for its signature with a key that public tokens
have not. -/
theorem C225_node_refuted (E : Env) (keyOk : Bytes → Bool) (x : Fresh) (node : Tok) : publicNode E keyOk x node = none := by
  cases e : publicNode E keyOk x node with
  | none => rfl
  | some t =>
    rw [publicNode] at e
    split at e
    · simp only [Option.bind_eq_bind, Option.bind_eq_some_iff] at e
      obtain ⟨t0, h0, h1⟩ := e
      have := (signSelf_some E t0 t h1).1
      rw [derive] at h0
      split at h0
      · split at h0
        · cases h0
          simp [scopePublic, scopePrivateAvailable] at this
        · cases h0
      · cases h0
    · cases e

/-- C226 (partial).  Every limit of parallel messages other than 24 can be written into an intent if there is room for it.  Missing: 24, see below. -/
theorem C226_other_partial (n : Nat) (calls : List ((Data.Key × Data.Value) × Data.Ret)) (a : Bytes) (h : Data.Spec.Built n calls a) (hn : calls.length < 65535)
    (former : BitVec 32) (p : BitVec 8) (h0 : p ≠ 0) (h24 : p ≠ 24)
    (room : Data.Spec.usedAfter (calls ++ [((keyMax, .uint (p.setWidth 32)), .ok)]) ≤ n) : ∃ b, dataOps.setUint a keyMax (maxFromUser former p) = some b := by
  have hp : maxFromUser former p = p.setWidth 32 := by
    rw [maxFromUser, if_pos]
    apply Nat.pos_of_ne_zero
    intro e
    exact h0 (BitVec.eq_of_toNat_eq (by simpa using e))
  have hr : Data.Spec.Regular keyMax (.uint (p.setWidth 32)) := by
    refine ⟨by decide, by decide, fun e => h24 (BitVec.eq_of_toNat_eq ?_)⟩
    have hlt : p.toNat < 256 := p.isLt
    simp only [BitVec.toNat_setWidth] at e
    rw [show (24 : BitVec 8).toNat = 24 from rfl]
    omega
  obtain ⟨b, hb⟩ := (Data.C08_fits_partial n calls a h keyMax (.uint (p.setWidth 32)) hr
    ⟨keyMax :: calls.map fun c => c.1.1, by rw [List.length_cons, List.length_map]; omega, fun op ho => by
      rcases List.mem_cons.1 ho with rfl | ho
      · exact List.mem_cons_self
      · obtain ⟨c, hc, rfl⟩ := List.mem_map.1 ho
        exact List.mem_cons_of_mem _ (List.mem_map.2 ⟨c, hc, rfl⟩)⟩).1 room
  refine ⟨b, ?_⟩
  rw [hp]
  simp only [dataOps, hb]

/-- C226 (refuted).  A node whose user sets the limit of parallel messages of a channel to 24 aborts when it makes an intent for that channel, however much room there is:
the size of that number is computed wrongly, so it cannot be set, and an assertion fails. -/
theorem C226_abort_refuted (E : Env) (hh : ∀ m, (E.hash m).length = 32) (hs : ∀ m sk, (E.sign m sk).length = 64) (n : Nat) (B : Blocks E n) (keyOk : Bytes → Bool) (x : Fresh) (ident : Tok) (hI : Own E ident) (subject : Bytes)
    (audience : Option Bytes) (mep ack former : BitVec 32) (k : Caches) (me node : Bytes) (now ttl : BitVec 64) :
    newIntent E dataOps keyOk x ident ⟨subject, audience, mep, ack, maxFromUser former 24⟩ k me node now ttl = none := by
  cases e : newIntent E dataOps keyOk x ident ⟨subject, audience, mep, ack, maxFromUser former 24⟩ k me node now ttl with
  | none => rfl
  | some t =>
    simp only [newIntent, Option.bind_eq_bind, Option.bind_eq_some_iff] at e
    obtain ⟨t0, _, t1, h1, t2, h2, a, h3, _⟩ := e
    obtain ⟨_, _, _, e1⟩ := signSelf_some E _ t1 h1
    have ha1 : t1.attributes = E.attrInit := by rw [e1]; rfl
    rw [signBy] at h2
    simp only [hI.key, Bool.not_true, Bool.false_eq_true, if_false] at h2
    split at h2
    · cases h2
    · cases h2
      simp only [ha1] at h3
      have hfl : (idText (E.hash (getHash E ident ++ ident.signature))).length = 64 := idText_len _ (hh _)
      have hkey : Data.Spec.IsKey (idText (E.hash (getHash E ident ++ ident.signature))) := ⟨by rw [hfl]; omega, idText_zero _⟩
      have hvl : (ident.publicKey ++ E.sign (getHash E t1) ident.issuerSecret).length = 96 := by
        rw [List.length_append, hI.sized.publicKey, hs]
      have hreg : Data.Spec.Regular (idText (E.hash (getHash E ident ++ ident.signature))) (.bin (ident.publicKey ++ E.sign (getHash E t1) ident.issuerSecret)) :=
        ⟨hkey, by rw [hfl]; omega, by rw [hvl]; omega, by rw [hvl]; omega⟩
      have hset : ∃ r b, Data.setData E.attrInit (idText (E.hash (getHash E ident ++ ident.signature)))
          (.bin (ident.publicKey ++ E.sign (getHash E t1) ident.issuerSecret)) = .ok (r, b) := by
        have hfit := Data.C08_fits_partial n [] E.attrInit B.init _ _ hreg ⟨[_], (show 1 < 65536 by decide), fun op ho => by
          rcases List.mem_cons.1 ho with rfl | ho
          · exact List.mem_singleton.2 rfl
          · cases ho⟩
        rcases Nat.lt_or_ge n (Data.Spec.usedAfter ([] ++ [((idText (E.hash (getHash E ident ++ ident.signature)),
          Data.Value.bin (ident.publicKey ++ E.sign (getHash E t1) ident.issuerSecret)), Data.Ret.ok)])) with hlt | hge
        · exact ⟨_, _, hfit.2 hlt⟩
        · obtain ⟨b, hb⟩ := hfit.1 hge
          exact ⟨_, b, hb⟩
      obtain ⟨r, b, hset⟩ := hset
      rw [B.set _ _ _ _ _ hset] at h3
      have hb := built_snoc n [] _ B.init (by decide) _ _ hreg r b hset
      simp only [intentAttrs, Option.bind_eq_bind, Option.bind_eq_some_iff] at h3
      obtain ⟨a1, g1, a2, g2, a3, g3, _⟩ := h3
      obtain ⟨_, hb1⟩ := setUint_built n _ _ _ _ _ hb (by simp) (by decide) (by decide) g1
      obtain ⟨_, hb2⟩ := setUint_built n _ _ _ _ _ hb1 (by simp) (by decide) (by decide) g2
      exact absurd (by simp [maxFromUser]) (setUint_built n _ _ _ _ _ hb2 (by simp) (by decide) (by decide) g3).1

/-! ## The hypotheses are met

An environment whose attributes are 165 bytes: one key of 64 and value of 96 bytes, and five small numbers; the keys of the area Token. -/

/-- Where the number with this key is. -/
def slot (k : Bytes) : Option Nat :=
  if k = txt "mep_type" then some 160
  else if k = txt "ack_mode" then some 161
  else if k = keyMax then some 162
  else if k = keyMsg then some 163
  else if k = txt "_np.hs.priority" then some 164
  else none

/-- The empty attributes. -/
@[irreducible] def boxInit : Bytes := List.replicate 165 0#8

def box : Env :=
  { toy with
    attrSize := fun a => if a.length = 165 then some 165 else none
    attrGet := fun a k =>
      if a.length = 165 then
        if k.length = 64 then if a.take 64 = k then some (.bin ((a.drop 64).take 96)) else none
        else (slot k).map fun i => .uint ((a.getD i 0).setWidth 32)
      else none
    attrSetBin := fun a k v => k ++ (v ++ a.drop 160)
    attrInit := boxInit }

def boxOps : Ops where
  setUint a k v := if v.toNat < 256 then (slot k).map fun i => a.set i (v.setWidth 8) else none
  setBin a _ _ := some a
  merge a _ := a

theorem box_init : box.attrInit.length = 165 := by
  show boxInit.length = 165
  rw [boxInit]
  exact List.length_replicate

theorem box_drop : (box.attrInit.drop 160).length = 5 := by rw [List.length_drop, box_init]

theorem box_get (k v d : Bytes) (h1 : k.length = 64) (h2 : v.length = 96) (hd : d.length = 5) :
    box.attrGet (k ++ (v ++ d)) k = some (.bin v) ∧ box.attrSize (k ++ (v ++ d)) = some 165 := by
  have hl : (k ++ (v ++ d)).length = 165 := by rw [List.length_append, List.length_append, h1, h2, hd]
  refine ⟨?_, if_pos hl⟩
  simp only [box]
  rw [if_pos hl, if_pos h1, List.take_left' h1, if_pos rfl, List.drop_left' h1, List.take_left' h2]

theorem box_size (a : Bytes) (n : Nat) (h : box.attrSize a = some n) : n = a.length ∧ a.length = 165 := by
  have h' : (if a.length = 165 then some 165 else none) = some n := h
  split at h'
  · next hl => exact ⟨by rw [hl]; exact (Option.some.inj h').symm, hl⟩
  · cases h'

theorem box_front (a : Bytes) (n : Nat) (h : box.attrSize a = some n) : a.take n ++ box.attrInit.drop n = a := by
  obtain ⟨e, hl⟩ := box_size a n h
  rw [e, List.take_length, List.drop_of_length_le (by rw [box_init, hl]; exact Nat.le_refl _), List.append_nil]

set_option maxRecDepth 4000 in
theorem box_lawful : Lawful box :=
  ⟨toy_lawful.hash_length, toy_lawful.sign_length, fun a n h => Nat.le_of_eq (box_size a n h).1, fun a n h => by rw [box_front a n h, h],
    fun a n k h => by rw [box_front a n h], fun k v h1 h2 => ⟨165, (box_get k v _ h1 h2 box_drop).2⟩, fun k v h1 h2 => (box_get k v _ h1 h2 box_drop).1,
    ⟨165, if_pos box_init⟩⟩

theorem slot_range (k : Bytes) (i : Nat) (h : slot k = some i) : 160 ≤ i ∧ i < 165 := by
  simp only [slot] at h
  repeat' split at h
  all_goals first | (cases h; omega) | cases h

theorem slot_key (k : Bytes) (i : Nat) (h : slot k = some i) :
    k = if i = 160 then txt "mep_type" else if i = 161 then txt "ack_mode" else if i = 162 then keyMax else if i = 163 then keyMsg else txt "_np.hs.priority" := by
  rw [slot] at h
  split at h
  · next e => rw [e]; cases h; rfl
  · split at h
    · next e => rw [e]; cases h; rfl
    · split at h
      · next e => rw [e]; cases h; rfl
      · split at h
        · next e => rw [e]; cases h; rfl
        · split at h
          · next e => rw [e]; cases h; rfl
          · cases h

theorem slot_inj (k j : Bytes) (i : Nat) (h : slot k = some i) (h' : slot j = some i) : k = j := (slot_key k i h).trans (slot_key j i h').symm

theorem box_ops : LawfulOps box boxOps where
  uint a k v b h hn := by
    obtain ⟨n, hn⟩ := hn
    simp only [box] at hn
    split at hn
    case isFalse => cases hn
    next hl =>
    simp only [boxOps] at h
    split at h
    case isFalse => cases h
    next hv =>
    obtain ⟨i, hi, e⟩ := Option.map_eq_some_iff.1 h
    subst e
    obtain ⟨r1, r2⟩ := slot_range k i hi
    have hk : k.length ≠ 64 := by
      intro hk
      have : slot k = none := by
        simp only [slot]
        rw [if_neg, if_neg, if_neg, if_neg, if_neg] <;> (intro e; rw [e] at hk; revert hk; decide)
      rw [this] at hi; cases hi
    refine ⟨by simp, ⟨165, by simp [box, hl]⟩, ?_, fun j hj => ?_⟩
    · have : (v.setWidth 8).setWidth 32 = v := by
        apply BitVec.eq_of_toNat_eq
        simp only [BitVec.toNat_setWidth]
        omega
      simp [box, hl, hk, hi, List.getD, r2, this]
    · have t1 : (a.set i (v.setWidth 8)).take 64 = a.take 64 := by rw [List.take_set_of_le (by omega)]
      have t2 : ((a.set i (v.setWidth 8)).drop 64).take 96 = (a.drop 64).take 96 := by
        rw [List.take_drop, List.take_drop, List.take_set_of_le (by omega)]
      simp only [box, List.length_set, t1, t2]
      cases hs : slot j with
      | none => simp
      | some m =>
        have hm : m ≠ i := fun e => hj (slot_inj j k m hs (e ▸ hi))
        simp [List.getD, List.getElem?_set_ne (Ne.symm hm)]
  bin a k v b h hn := by cases h; exact ⟨rfl, hn, fun _ _ => rfl⟩
  merge a s hn := ⟨rfl, hn, fun _ _ => rfl⟩
  setBin k v h1 h2 := by
    show (k ++ (v ++ box.attrInit.drop 160)).length = _
    rw [List.length_append, List.length_append, h1, h2, box_drop, box_init]

/-- An identity and a node of this environment. -/
def boxIdent : Tok := { sampleTok with attributes := List.replicate 165 0#8 }
def boxNode : Tok := { boxIdent with type := typeNode }

theorem box_own : Own box boxIdent ∧ Own box boxNode :=
  ⟨⟨rfl, rfl, toy_keys.1, by constructor <;> decide +kernel⟩, ⟨rfl, rfl, toy_keys.1, by constructor <;> decide +kernel⟩⟩

def boxFresh : Fresh := ⟨List.replicate 16 8, 0, 0⟩
def boxMe : Bytes := box.hash (getHash box boxIdent ++ boxIdent.signature)

/-- C223, C224: an intent for a protected channel, and the identity as another node knows it. -/
example : (∃ t, newIntent box boxOps (fun _ => true) boxFresh boxIdent ⟨[97, 98, 99], some (List.replicate 32 6), 3, 1, 20⟩ ⟨[], [], []⟩ boxMe (List.replicate 32 4)
      0 0x41DFFFFFFF000000 = some t) ∧
    boxFresh.uuid.length = 16 ∧ boxMe.length = 32 ∧ Without box ⟨[], [], []⟩ keyMax ∧ Without box ⟨[], [], []⟩ keyMsg ∧ Without box ⟨[], [], []⟩ (idText boxMe) ∧
    flagCmp ({ boxIdent with state := aaaValid ||| aaaAuthenticated } : Tok).state aaaValid = true ∧
    flagCmp ({ boxIdent with state := aaaValid ||| aaaAuthenticated } : Tok).state aaaAuthenticated = true := by
  refine ⟨Option.isSome_iff_exists.1 (by decide +kernel), by decide +kernel, by decide +kernel, ⟨rfl, rfl, rfl⟩, ⟨rfl, rfl, rfl⟩, ⟨rfl, rfl, rfl⟩, by decide, by decide⟩

/-- C224: both bounds are met with a channel that allows longer intents than the identity lives, and with one that does not. -/
example : dgt 0x41EFFFFFFF000000 boxIdent.expiresAt = true ∧ dgt 0x41DFFFFFFF000000 boxIdent.expiresAt = false := by decide +kernel

/-- C223: attributes without any room. -/
example : ∀ a : Bytes, ({ boxOps with setBin := fun _ _ _ => none } : Ops).setBin a (txt "_np.partner_fp") (List.replicate 32 4) = none := fun _ => rfl

/-- C225: a handshake, and an identity to join with. -/
example : (∃ t, newHandshake box boxOps (fun _ => true) boxFresh boxNode [117, 100, 112] 77 = some t) ∧
    (∃ t, publicIdent box boxOps (fun _ => true) boxFresh boxIdent ⟨[], [], []⟩ = some t) ∧
    (∃ n, box.attrSize boxIdent.attributes = some n) ∧ boxIdent.attributes.length = box.attrInit.length ∧ ¬ HasType boxIdent.type typeIntent := by
  refine ⟨Option.isSome_iff_exists.1 (by decide +kernel), Option.isSome_iff_exists.1 (by decide +kernel), Option.isSome_iff_exists.1 (by decide +kernel),
    by decide +kernel, by rw [HasType]; decide +kernel⟩

/-- C226: an environment with the attributes of the library, 500 bytes of them, and a block with room for one more number. -/
example : ∃ E : Env, (∀ m, (E.hash m).length = 32) ∧ (∀ m sk, (E.sign m sk).length = 64) ∧ Blocks E 500 ∧ Own E boxIdent ∧ boxIdent.privateKeySet = true ∧
    Data.Spec.usedAfter ([] ++ [((keyMax, .uint ((20 : BitVec 8).setWidth 32)), .ok)]) ≤ 500 := by
  obtain ⟨b, h, _⟩ := Data.init_repr (buf := List.replicate 500 0) (by rw [List.length_replicate]; omega) (by rw [List.length_replicate]; omega)
  refine ⟨{ toy with
      attrInit := b
      attrSetBin := fun a k v => match Data.setData a k (.bin v) with
        | .ok (_, c) => c
        | .error _ => a },
    toy_lawful.hash_length, toy_lawful.sign_length,
    ⟨⟨⟨by omega, by omega⟩, (by intro c hc; cases hc), ⟨[], by decide, (by intro c hc; cases hc)⟩, _, b, List.length_replicate, h, rfl⟩, ?_⟩,
    ⟨box_own.1.scope, box_own.1.key, toy_keys.1, box_own.1.sized⟩, rfl, by decide +kernel⟩
  intro a k v r c e
  simp only [e]

end Np.Issue
