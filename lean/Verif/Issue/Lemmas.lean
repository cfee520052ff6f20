import Verif.Issue.Spec
import Verif.Token.Props
import Verif.Data.Props
/-! # Lemmas about the tokens a node issues -/
namespace Np.Issue
open _root_.Np.Token _root_.Np.Token.Spec _root_.Np.Issue.Spec

theorem updateAttr_of (E : Env) (t : Tok) (hsc : t.scope ≤ scopePrivateAvailable) (n : Nat) (hn : E.attrSize t.attributes = some n) :
    updateAttrSignature E t = some { t with attrSignature := E.sign (E.hash (t.attributes.take n ++ t.signature)) t.issuerSecret } := by
  rw [updateAttrSignature, if_neg (by omega), attrHash, hn]

theorem accepted (E : Env) (L : Lawful E) (keyOk : Bytes → Bool) (t : Tok) (ty : TokType) (hs : Sized t) (hsc : t.scope ≤ scopePrivateAvailable)
    (hk : keyOk t.publicKey = true) (hp : KeyPair E t.issuerSecret t.publicKey) (hsig : SignatureOk E t) (hn : ∃ n, E.attrSize t.attributes = some n)
    (hl : t.attributes.length = E.attrInit.length) (hty : HasType t.type ty) (hth : HasType t.type typeIntent → ThresholdOk E t) : AcceptedUntilExpiry E keyOk t ty := by
  obtain ⟨n, hn⟩ := hn
  have hu := updateAttr_of E t hsc n hn
  have he : ∃ w, encode E [] t = some (w, { t with attrSignature := E.sign (E.hash (t.attributes.take n ++ t.signature)) t.issuerSecret }) := by
    rw [encode, hn]
    simp only [if_pos hsc, hu]
    exact ⟨_, rfl⟩
  obtain ⟨w, he⟩ := he
  refine ⟨w, _, he, fun uuid t0 ex now => ?_⟩
  have hs' : Sized { t with attrSignature := E.sign (E.hash (t.attributes.take n ++ t.signature)) t.issuerSecret } :=
    ⟨hs.uuid, hs.realm, hs.issuer, hs.subject, hs.audience, hs.publicKey, hs.signature, L.sign_length _ _⟩
  obtain ⟨r, hd, hv⟩ := C50_signature_survives E L keyOk t _ w uuid t0 ex now ty hs hs' hk hl he
  refine ⟨r, hd, hv.trans ⟨fun h => h.2.1, fun h => ⟨hty, h, hsig, ⟨n, hn, hp _⟩, hth⟩⟩⟩

theorem signSelf_some (E : Env) (t t1 : Tok) (h : signSelf E t = some t1) :
    t.scope ≤ scopePrivateAvailable ∧ (∃ n, E.attrSize t.attributes = some n) ∧
      ∃ d, t1 = { t with signature := E.sign (getHash E t) t.issuerSecret, attrSignature := E.sign d t.issuerSecret } := by
  rw [signSelf] at h
  split at h
  · cases h
  · next hs =>
    obtain ⟨d, hd, e⟩ := updateAttr_some h
    refine ⟨by omega, ?_, d, e⟩
    rw [attrHash] at hd
    split at hd
    · cases hd
    · next n hn => exact ⟨n, hn⟩

theorem derive_some (E : Env) (keyOk : Bytes → Bool) (x : Fresh) (src t : Tok) (hk : src.privateKeySet = true) (h : derive E keyOk x src scopePrivateAvailable = some t) :
    keyOk src.publicKey = true ∧ t = { freshTok E x.uuid x.now x.expires with
        realm := src.realm.take 255, issuer := src.issuer.take 65, subject := src.subject.take 255, audience := src.audience.take 255,
        notBefore := src.notBefore, expiresAt := src.expiresAt, issuedAt := src.issuedAt, state := src.state, publicKey := src.publicKey, scope := scopePrivateAvailable,
        type := src.type, issuerSecret := src.issuerSecret, attributes := src.attributes } := by
  rw [derive] at h
  split at h
  · split at h
    · next hk' => 
      refine ⟨hk', ?_⟩
      simp only [hk, and_self, if_true, Option.some.injEq] at h
      exact h.symm
    · cases h
  · cases h

theorem keys_apart : txt "mep_type" ≠ keyMax ∧ txt "ack_mode" ≠ keyMax ∧ keyMax ≠ keyMsg ∧ keyMax ≠ txt "_np.partner_fp" ∧ keyMsg ≠ txt "_np.partner_fp" := by
  decide

theorem intentAttrs_some (E : Env) (O : Ops) (LO : LawfulOps E O) (a b : Bytes) (c : Conf) (k : Caches) (node : Bytes) (hn : ∃ n, E.attrSize a = some n)
    (h : intentAttrs O a c k node = some b) : b.length = a.length ∧ (∃ n, E.attrSize b = some n) ∧
      (Without E k keyMax → E.attrGet b keyMax = some (.uint c.max)) ∧ (Without E k keyMsg → E.attrGet b keyMsg = some (.uint 0)) ∧
      ∀ j, j.length = 64 → Without E k j → E.attrGet b j = E.attrGet a j := by
  simp only [intentAttrs, Option.bind_eq_bind, Option.bind_eq_some_iff] at h
  obtain ⟨a1, h1, a2, h2, a3, h3, a4, h4, h5⟩ := h
  obtain ⟨l1, n1, _, o1⟩ := LO.uint _ _ _ _ h1 hn
  obtain ⟨l2, n2, _, o2⟩ := LO.uint _ _ _ _ h2 n1
  obtain ⟨l3, n3, g3, o3⟩ := LO.uint _ _ _ _ h3 n2
  obtain ⟨l4, n4, g4, o4⟩ := LO.uint _ _ _ _ h4 n3
  obtain ⟨l5, n5, o5⟩ := LO.merge a4 k.a n4
  obtain ⟨l6, n6, o6⟩ := LO.merge _ k.b n5
  obtain ⟨l7, n7, o7⟩ := LO.merge _ k.c n6
  obtain ⟨l8, n8, o8⟩ := LO.bin _ _ _ _ h5 n7
  obtain ⟨_, _, k3, k4, k5⟩ := keys_apart
  refine ⟨by omega, n8, fun w => ?_, fun w => ?_, fun j hj w => ?_⟩
  · rw [o8 _ k4, o7 _ w.2.2, o6 _ w.2.1, o5 _ w.1, o4 _ k3, g3]
  · rw [o8 _ k5, o7 _ w.2.2, o6 _ w.2.1, o5 _ w.1, g4]
  · have ne : ∀ s : Bytes, s.length ≠ 64 → j ≠ s := fun s hs e => hs (e ▸ hj)
    rw [o8 _ (ne _ (by decide)), o7 _ w.2.2, o6 _ w.2.1, o5 _ w.1, o4 _ (ne _ (by decide)), o3 _ (ne _ (by decide)), o2 _ (ne _ (by decide)), o1 _ (ne _ (by decide))]

theorem idText_len (id : Bytes) (h : id.length = 32) : (idText id).length = 64 := by rw [idText_length, h]

/-- What an intent looks like. -/
theorem newIntent_some (E : Env) (L : Lawful E) (O : Ops) (LO : LawfulOps E O) (keyOk : Bytes → Bool) (x : Fresh) (ident : Tok) (hI : Own E ident) (c : Conf) (k : Caches)
    (me node : Bytes) (hx : x.uuid.length = 16) (hme : me.length = 32) (hc : ∀ id, c.audience = some id → id.length = 32) (now ttl : BitVec 64) (t : Tok)
    (h : newIntent E O keyOk x ident c k me node now ttl = some t) :
    keyOk t.publicKey = true ∧ t.publicKey = ident.publicKey ∧ t.issuerSecret = ident.issuerSecret ∧ t.scope = scopePrivateAvailable ∧ t.type = typeIntent ∧ Sized t ∧
      t.signature = E.sign (getHash E t) ident.issuerSecret ∧ t.attributes.length = E.attrInit.length ∧ (∃ n, E.attrSize t.attributes = some n) ∧
      t.expiresAt = (if dgt ttl ident.expiresAt then ident.expiresAt else ttl) ∧ t.issuer = idText me ∧ me = E.hash (getHash E ident ++ ident.signature) ∧
      (Without E k keyMax → E.attrGet t.attributes keyMax = some (.uint c.max)) ∧ (Without E k keyMsg → E.attrGet t.attributes keyMsg = some (.uint 0)) ∧
      (Without E k t.issuer → E.attrGet t.attributes t.issuer = some (.bin (ident.publicKey ++ E.sign (getHash E t) ident.issuerSecret))) := by
  simp only [newIntent, Option.bind_eq_bind, Option.bind_eq_some_iff] at h
  obtain ⟨t0, h0, t1, h1, t2, h2, a, ha, h3⟩ := h
  obtain ⟨hk, e0⟩ := derive_some E keyOk x ident t0 hI.key h0
  obtain ⟨_, n1, d1, e1⟩ := signSelf_some E _ t1 h1
  simp only [signBy, hI.key, Bool.not_true, Bool.false_eq_true, if_false] at h2
  split at h2
  · cases h2
  · next hfp =>
    rw [ne_eq, Classical.not_not] at hfp
    have hiss : t1.issuer = idText me := by rw [e1]; rfl
    have ht64 : (idText me).take 64 = idText me := List.take_of_length_le (by rw [idText_len me hme]; omega)
    rw [hiss, ht64] at hfp
    have hmeq : me = E.hash (getHash E ident ++ ident.signature) := by
      have := congrArg fromHash hfp
      rw [fromHash_idText _ (L.hash_length _), fromHash_idText _ hme] at this
      exact this.symm
    rw [← hmeq] at h2
    simp only [Option.some.injEq] at h2
    have ha1 : t1.attributes = E.attrInit := by rw [e1]; rfl
    have hval : (ident.publicKey ++ E.sign (getHash E t1) ident.issuerSecret).length = 96 := by
      rw [List.length_append, hI.sized.publicKey, L.sign_length]
    have hk64 := idText_len me hme
    have hat : t2.attributes = E.attrSetBin E.attrInit (idText me) (ident.publicKey ++ E.sign (getHash E t1) ident.issuerSecret) := by rw [← h2, ha1]
    have hsz2 : ∃ n, E.attrSize t2.attributes = some n := by rw [hat]; exact L.init_set_size _ _ hk64 hval
    obtain ⟨la, na, ga, gb, gc⟩ := intentAttrs_some E O LO _ a c k node hsz2 ha
    obtain ⟨d3, _, e3⟩ := updateAttr_some h3
    have hsec : t1.issuerSecret = ident.issuerSecret := by rw [e1, e0]; rfl
    have hg : getHash E t = getHash E t1 := by rw [e3, ← h2]; rfl
    have hg1 : getHash E t1 = getHash E (intentFields E t0 ident c me now ttl) := by rw [e1]; rfl
    have hlen : a.length = E.attrInit.length := by rw [la, hat, LO.setBin _ _ hk64 hval]
    have hi : t.issuer = idText me := by rw [e3, ← h2]; exact hiss
    have haud : t.audience = (match c.audience with
      | none => ident.audience.take 255
      | some id => idText id ++ (ident.audience.take 255).drop 64) := by rw [e3, ← h2, e1, e0]; rfl
    refine ⟨?_, ?_, ?_, ?_, ?_, ⟨?_, ?_, ?_, ?_, ?_, ?_, ?_, ?_⟩, ?_, ?_, ?_, ?_, hi, hmeq, ?_, ?_, ?_⟩
    · rw [e3, ← h2, e1, e0]; exact hk
    · rw [e3, ← h2, e1, e0]; rfl
    · rw [e3, ← h2]; exact hsec
    · rw [e3, ← h2, e1, e0]; rfl
    · rw [e3, ← h2, e1, e0]; rfl
    · rw [e3, ← h2, e1, e0]; exact hx
    · rw [e3, ← h2, e1, e0]; exact List.length_take_le ..
    · rw [hi, hk64]; omega
    · rw [e3, ← h2, e1, e0]; simp only [intentFields]; rw [List.length_take]; omega
    · rw [haud]
      have := hI.sized.audience
      split
      · exact List.length_take_le ..
      · next id hid =>
        rw [List.length_append, List.length_drop, List.length_take, idText_len id (hc id hid)]; omega
    · rw [e3, ← h2, e1, e0]; exact hI.sized.publicKey
    · rw [e3, ← h2, e1]; exact L.sign_length _ _
    · rw [e3]; exact L.sign_length _ _
    · rw [hg, hg1, ← hsec, e3, ← h2, e1]
    · rw [e3]; exact hlen
    · rw [e3]; exact na
    · rw [e3, ← h2, e1, e0]; rfl
    · rw [e3]; exact ga
    · rw [e3]; exact gb
    · intro w
      rw [hi] at w ⊢
      rw [hg, e3]
      simp only
      rw [gc _ hk64 w, hat, L.init_set_get _ _ hk64 hval]

theorem verifySignature_of (E : Env) (r r1 r2 s : Tok) (v : Bytes) (h1 : checkSignature E r = (r1, true)) (h2 : checkAttributes E r1 = (r2, true))
    (hi : r2.issuerVerified = false) (hf : fromHash r2.issuer = E.hash (getHash E s ++ s.signature)) (hv : flagCmp s.state aaaValid = true)
    (ha : flagCmp s.state aaaAuthenticated = true) (hg : E.attrGet r2.attributes r2.issuer = some (.bin v)) (hl : ¬ v.length < 96)
    (hver : E.verify ((v.drop 32).take 64) (getHash E r2) (v.take 32) = true) : ∃ r', verifySignature E r (some s) = some (r', true) := by
  refine ⟨{ r2 with issuerVerified := true }, ?_⟩
  rw [verifySignature, h1]
  simp only
  rw [h2]
  simp [hi, hf, hv, ha, hg, hl, hver]

theorem run_snoc (k : Data.Key) (v : Data.Value) (r : Data.Ret) (b : Bytes) : ∀ (ops : List (Data.Key × Data.Value)) (b0 buf : Bytes) (rets : List Data.Ret),
    Data.run b0 ops = .ok (rets, buf) → Data.setData buf k v = .ok (r, b) → Data.run b0 (ops ++ [(k, v)]) = .ok (rets ++ [r], b) := by
  intro ops
  induction ops with
  | nil =>
    intro b0 buf rets h hs
    simp only [Data.run, Except.ok.injEq, Prod.mk.injEq] at h
    obtain ⟨rfl, rfl⟩ := h
    simp [Data.run, hs]
  | cons op ops ih =>
    intro b0 buf rets h hs
    simp only [Data.run, List.cons_append] at h ⊢
    split at h
    · cases h
    · next ret b1 e1 =>
      split at h
      · cases h
      · next rets' c e2 =>
        cases h
        rw [ih _ _ _ e2 hs]
        rfl

/-- One more call. -/
theorem built_snoc (n : Nat) (calls : List ((Data.Key × Data.Value) × Data.Ret)) (buf : Bytes) (h : Data.Spec.Built n calls buf) (hn : calls.length < 65535)
    (k : Data.Key) (v : Data.Value) (hr : Data.Spec.Regular k v) (r : Data.Ret) (b : Bytes) (hs : Data.setData buf k v = .ok (r, b)) :
    Data.Spec.Built n (calls ++ [((k, v), r)]) b := by
  obtain ⟨mem, b0, m1, m2, m3⟩ := h.made
  refine ⟨h.size, ?_, ?_, mem, b0, m1, m2, ?_⟩
  · intro c hc
    rcases List.mem_append.1 hc with hc | hc
    · exact h.regular c hc
    · cases List.mem_singleton.1 hc; exact hr
  · refine ⟨(calls ++ [((k, v), r)]).map fun c => c.1.1, by rw [List.length_map, List.length_append, List.length_singleton]; omega, fun op ho => ?_⟩
    obtain ⟨c, hc, rfl⟩ := List.mem_map.1 ho
    exact List.mem_map.2 ⟨c, hc, rfl⟩
  · rw [List.map_append, List.map_append]
    exact run_snoc k v r b _ _ _ _ m3 hs

theorem setUint_some (a k b : Bytes) (v : BitVec 32) (h : dataOps.setUint a k v = some b) : Data.setData a k (.uint v) = .ok (.ok, b) := by
  simp only [dataOps] at h
  split at h
  · next e => cases h; exact e
  · cases h

/-- After a number was set it was not 24, and the block is one that was built with one call more. -/
theorem setUint_built (n : Nat) (calls : List ((Data.Key × Data.Value) × Data.Ret)) (a b k : Bytes) (v : BitVec 32) (h : Data.Spec.Built n calls a)
    (hn : calls.length < 65535) (hk : Data.Spec.IsKey k) (hl : k.length ≠ 24) (hs : dataOps.setUint a k v = some b) :
    v ≠ 24 ∧ Data.Spec.Built n (calls ++ [((k, .uint v), .ok)]) b := by
  have e := setUint_some _ _ _ _ hs
  have h24 : v ≠ 24 := by
    intro e24
    subst e24
    exact Data.C08_sizes_refuted n calls a h k (.uint 24) hk.1 (Or.inr (Or.inr (Or.inr rfl))) _ _ e rfl
  refine ⟨h24, built_snoc n calls a h hn k _ ⟨hk, hl, ?_⟩ _ _ e⟩
  intro h'
  exact h24 (BitVec.eq_of_toNat_eq (by simpa using h'))

theorem idText_zero (id : Bytes) : (0 : BitVec 8) ∉ idText id := by
  have hd : ∀ n : Nat, n < 16 → BitVec.ofNat 8 (hexDigit n).toNat ≠ 0 := by decide
  intro h
  obtain ⟨c, hc, e⟩ := List.mem_map.1 h
  obtain ⟨b, _, hb⟩ := List.mem_flatMap.1 hc
  have : b.toNat < 256 := b.isLt
  rcases List.mem_cons.1 hb with rfl | hb
  · exact hd _ (by omega) e
  · rcases List.mem_singleton.1 hb with rfl
    exact hd _ (by omega) e

end Np.Issue
