import Verif.Token.Lemmas
/-! Helper lemmas: the wire form, signing, and forging. -/
set_option linter.unusedSimpArgs false
set_option linter.unusedVariables false
namespace Np.Token
open _root_.Np.Token.Spec

/-- The tree a token is written to, as a list. -/
def wireOf (t : Tok) (n : Nat) (sie : Bytes) : WireTree :=
  [("np.t.type", .ush t.type), ("np.t.u", .bin (t.uuid.take 16)), ("np.t.r", .str t.realm), ("np.t.i", .str t.issuer),
   ("np.t.s", .str t.subject), ("np.t.a", .str t.audience), ("np.t.p", .bin (t.publicKey.take 32)),
   ("np.t.ex", .dbl t.expiresAt), ("np.t.ia", .dbl t.issuedAt), ("np.t.nb", .dbl t.notBefore),
   ("np.t.si", .bin (t.signature.take 64)), ("np.t.e", .bin (t.attributes.take n)), ("np.t.sie", .bin (sie.take 64))]

theorem encode_wire (E : Env) (t t' : Tok) (w : WireTree) (h : encode E [] t = some (w, t')) :
    ∃ n, E.attrSize t.attributes = some n ∧ w = wireOf t n t'.attrSignature ∧
      (t' = t ∨ updateAttrSignature E t = some t') := by
  unfold encode at h
  cases hn : E.attrSize t.attributes with
  | none => rw [hn] at h; simp at h
  | some n =>
    rw [hn] at h
    simp only at h
    refine ⟨n, rfl, ?_⟩
    split at h
    · simp at h
    · rename_i t1 ht
      simp only [Option.some.injEq, Prod.mk.injEq] at h
      obtain ⟨hw, rfl⟩ := h
      refine ⟨?_, ?_⟩
      · rw [← hw]; simp [WireTree.replace, wireOf]
      · split at ht
        · exact Or.inr ht
        · simp only [Option.some.injEq] at ht; exact Or.inl ht.symm

theorem decode_wire (keyOk : Bytes → Bool) (t t0 : Tok) (n : Nat) (sie : Bytes) (hs : Sized t) (hk : keyOk t.publicKey = true)
    (hsie : sie.length = 64) (hn : n ≤ t0.attributes.length) (h0 : t0.attrSignature.length = 64) :
    decode keyOk (wireOf t n sie) t0 = some (updateScope { t0 with
      type := t.type, scope := scopeUndefined, uuid := t.uuid, realm := t.realm, issuer := t.issuer, subject := t.subject,
      audience := t.audience, publicKey := t.publicKey, expiresAt := t.expiresAt, issuedAt := t.issuedAt,
      notBefore := t.notBefore, signature := t.signature, attributes := overwrite t0.attributes (t.attributes.take n),
      attrSignature := sie, sigVerified := false, attrVerified := false }, true) := by
  have e1 : t.uuid.take 16 = t.uuid := List.take_of_length_le (by have := hs.uuid; omega)
  have e2 : t.realm.take 255 = t.realm := List.take_of_length_le hs.realm
  have e3 : t.issuer.take 65 = t.issuer := List.take_of_length_le hs.issuer
  have e4 : t.subject.take 255 = t.subject := List.take_of_length_le hs.subject
  have e5 : t.audience.take 255 = t.audience := List.take_of_length_le hs.audience
  have e6 : t.publicKey.take 32 = t.publicKey := List.take_of_length_le (by have := hs.publicKey; omega)
  have e7 : t.signature.take 64 = t.signature := List.take_of_length_le (by have := hs.signature; omega)
  have e8 : sie.take 64 = sie := List.take_of_length_le (by omega)
  have e9 : (t.attributes.take n).take t0.attributes.length = t.attributes.take n :=
    List.take_of_length_le (by rw [List.length_take]; omega)
  have e10 : overwrite t0.attrSignature sie = sie := by
    unfold overwrite; rw [List.drop_of_length_le (by omega), List.append_nil]
  have l1 := hs.uuid
  have l2 := hs.publicKey
  have l3 := hs.signature
  simp [decode, decodeAttrs, field, wireOf, WireTree.find, TreeVal.asBinAtLeast, TreeVal.asBin, TreeVal.asStr, TreeVal.asDbl,
    TreeVal.asUsh, e1, e2, e3, e4, e5, e6, e7, e8, e9, e10, l1, l2, l3, hk]

theorem updateAttr_some {E : Env} {t t' : Tok} (h : updateAttrSignature E t = some t') :
    ∃ d, attrHash E t = some d ∧ t' = { t with attrSignature := E.sign d t.issuerSecret } := by
  unfold updateAttrSignature at h
  split at h
  · simp at h
  · split at h
    · simp at h
    · rename_i d hd
      simp only [Option.some.injEq] at h
      exact ⟨d, hd, h.symm⟩

theorem signSelf_some {E : Env} {t t' : Tok} (h : signSelf E t = some t') :
    ∃ d, attrHash E { t with signature := E.sign (getHash E t) t.issuerSecret } = some d ∧
      t' = { t with signature := E.sign (getHash E t) t.issuerSecret, attrSignature := E.sign d t.issuerSecret } := by
  unfold signSelf at h
  split at h
  · simp at h
  · obtain ⟨d, h1, h2⟩ := updateAttr_some h
    exact ⟨d, h1, h2⟩

theorem getHash_sig (E : Env) (t : Tok) (s a : Bytes) :
    getHash E { t with signature := s, attrSignature := a } = getHash E t := rfl

/-- A self-signed token verifies under its own key. -/
theorem signSelf_ok {E : Env} {t t' : Tok} (h : signSelf E t = some t') (hk : KeyPair E t.issuerSecret t.publicKey) :
    SignatureOk E t' ∧ AttributesOk E t' := by
  obtain ⟨d, h1, h2⟩ := signSelf_some h
  subst h2
  refine ⟨hk _, (attrOk_iff E _).2 ⟨d, ?_, hk d⟩⟩
  rw [← h1]; rfl

/-- `verifySignature` on a token whose own signatures are fine, with a signee. -/
theorem verify_some (E : Env) (t s : Tok) (hc : t.sigVerified = false ∧ t.attrVerified = false ∧ t.issuerVerified = false)
    (h1 : SignatureOk E t) (h2 : AttributesOk E t) :
    verifySignature E t (some s) =
      (let t2 := { t with sigVerified := true, attrVerified := true }
       if fromHash t.issuer ≠ E.hash (getHash E s ++ s.signature) then some (invalidate t2, false)
       else if !flagCmp s.state aaaValid || !flagCmp s.state aaaAuthenticated then some (invalidate t2, false)
       else match E.attrGet t.attributes t.issuer with
        | none => some (invalidate t2, false)
        | some (.bin v) =>
          if v.length < 96 then none
          else if E.verify ((v.drop 32).take 64) (getHash E t) (v.take 32)
          then some ({ t2 with issuerVerified := true }, true)
          else some (invalidate t2, false)
        | some _ => none) := by
  obtain ⟨d, h3, h4⟩ := (attrOk_iff E t).1 h2
  have h5 : attrHash E { t with sigVerified := true } = some d := by rw [← h3]; rfl
  have h6 : E.verify t.signature (getHash E t) t.publicKey = true := h1
  unfold verifySignature
  have e1 : checkSignature E t = ({ t with sigVerified := true }, true) := by
    simp [checkSignature, hc.1, h6]
  have e2 : checkAttributes E { t with sigVerified := true } =
      ({ t with sigVerified := true, attrVerified := true }, true) := by
    unfold checkAttributes
    rw [if_neg (by simp [hc.2.1]), h5]
    simp only
    rw [if_pos h4]
  rw [e1]
  simp only
  rw [e2]
  simp only [hc.2.2, Bool.false_eq_true, if_false]
  rfl

theorem flag_both : flagCmp (aaaAuthenticated ||| aaaValid) aaaValid = true ∧
    flagCmp (aaaAuthenticated ||| aaaValid) aaaAuthenticated = true := by decide

end Np.Token
