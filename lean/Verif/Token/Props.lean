import Verif.Token.Lemmas2
/-!
# Properties of access tokens: C29, C30, C31, C49, C50, C54, C55
-/
set_option linter.unusedSimpArgs false
namespace Np.Token
open _root_.Np.Token.Spec

/-! ## A toy environment for the examples and counterexamples

The hash keeps the first 32 bytes, a signature is accepted iff it is made for the good key `1…1`, the attributes are
one key and one value. -/

def goodKey : Bytes := List.replicate 32 1#8
def badKey : Bytes := List.replicate 32 2#8

def toy : Env where
  hash m := (m ++ List.replicate 32 0#8).take 32
  verify _ _ pk := decide (pk = goodKey)
  sign _ _ := List.replicate 64 7#8
  attrSize a := some a.length
  attrGet a k := if a.take k.length = k ∧ a ≠ [] then some (.bin (a.drop k.length)) else none
  attrSetBin _ k v := k ++ v
  attrInit := []
  unionJunk _ := 0

theorem toy_lawful : Lawful toy where
  hash_length m := by simp [toy]
  sign_length m sk := by simp [toy]
  size_le a n h := by simp [toy] at h; omega
  size_prefix a n h := by simp [toy] at h; simp [toy, ← h]
  get_prefix a n k h := by
    simp only [toy, Option.some.injEq] at h
    subst h
    have e1 : a.take a.length ++ ([] : Bytes).drop a.length = a := by simp
    simp only [toy]
    rw [e1]
  init_set_size k v _ _ := ⟨_, rfl⟩
  init_set_get k v h1 h2 := by
    have : k ++ v ≠ [] := by
      intro h
      have h3 := congrArg List.length h
      rw [List.length_append, List.length_nil] at h3
      omega
    simp only [toy, List.take_left', List.drop_left', List.take_left, List.drop_left, this, ne_eq, not_false_eq_true, and_true, if_true]
  init_size := ⟨_, rfl⟩

/-- A key pair of the toy scheme, and a key under which nothing verifies. -/
theorem toy_keys : KeyPair toy [] goodKey ∧ ∀ s m, toy.verify s m badKey = false := by
  refine ⟨fun m => by simp [toy], fun s m => ?_⟩
  show decide (badKey = goodKey) = false
  decide

/-! ## C50 wire form -/

/-- C50: what `np_aaatoken_encode` wrote into an empty tree is read back by `np_aaatoken_decode` with all its fields,
the (possibly renewed) attribute signature and the counted part of the attributes; the new token is public and nothing
about it counts as verified. -/
theorem C50_round_trip (E : Env) (L : Lawful E) (keyOk : Bytes → Bool) (t t' : Tok) (w : WireTree) (uuid : Bytes)
    (now ex : BitVec 64) (hs : Sized t) (hs' : Sized t') (hk : keyOk t.publicKey = true)
    (hlen : t.attributes.length = E.attrInit.length) (h : encode E [] t = some (w, t')) :
    ∃ r n, decode keyOk w (freshTok E uuid now ex) = some (r, true) ∧ E.attrSize t.attributes = some n ∧
      SameSignedFields r t ∧ r.type = t.type ∧ r.signature = t.signature ∧ r.attrSignature = t'.attrSignature ∧
      r.attributes = t.attributes.take n ++ E.attrInit.drop n ∧ r.scope = scopePublic ∧
      r.sigVerified = false ∧ r.attrVerified = false ∧ r.issuerVerified = false ∧ r.state = 0 := by
  obtain ⟨n, hn, hw, _⟩ := encode_wire E t t' w h
  have hle := L.size_le _ _ hn
  subst hw
  have hd := decode_wire keyOk t (freshTok E uuid now ex) n t'.attrSignature hs hk hs'.attrSignature
    (by simp only [freshTok]; omega) (by simp [freshTok])
  refine ⟨_, n, hd, hn, ?_⟩
  have e : overwrite E.attrInit (t.attributes.take n) = t.attributes.take n ++ E.attrInit.drop n := by
    unfold overwrite; rw [List.length_take, Nat.min_eq_left hle]
  simp [SameSignedFields, updateScope, freshTok, e]

/-- C50: a token whose signatures verify still verifies after it was written and read back, so the receiver accepts it
exactly when the sender would accept its own copy as a public token (type, expiry and threshold included). -/
theorem C50_signature_survives (E : Env) (L : Lawful E) (keyOk : Bytes → Bool) (t t' : Tok) (w : WireTree) (uuid : Bytes)
    (now ex now' : BitVec 64) (ty : TokType) (hs : Sized t) (hs' : Sized t') (hk : keyOk t.publicKey = true)
    (hlen : t.attributes.length = E.attrInit.length) (h : encode E [] t = some (w, t')) :
    ∃ r, decode keyOk w (freshTok E uuid now ex) = some (r, true) ∧
      ((isValid E now' r ty).2 = true ↔
        (HasType t.type ty ∧ dgt now' t.expiresAt = false ∧ SignatureOk E t ∧ AttributesOk E t' ∧
          (HasType t.type typeIntent → ThresholdOk E t))) := by
  obtain ⟨n0, hn0, _, ht'⟩ := encode_wire E t t' w h
  obtain ⟨r, n, hd, hn, hf, h1, h2, h3, h4, h5, h6, h7, h8, _⟩ :=
    C50_round_trip E L keyOk t t' w uuid now ex hs hs' hk hlen h
  refine ⟨r, hd, ?_⟩
  have hon : Honest E r := ⟨by rw [h5]; decide, fun x => by rw [h6] at x; simp at x, fun x => by rw [h7] at x; simp at x⟩
  rw [(isValid_spec E now' r ty hon).2.2.2]
  have hle := L.size_le _ _ hn
  have hash_eq : hashInput r = hashInput t := by
    simp only [SameSignedFields] at hf; simp [hashInput, hf]
  have es : SignatureOk E r ↔ SignatureOk E t := by
    have := hf.2.2.2.2.2.1
    simp [SignatureOk, hash_eq, h2, this]
  have ht : t'.attributes = t.attributes ∧ t'.signature = t.signature ∧ t'.publicKey = t.publicKey := by
    rcases ht' with rfl | hu
    · simp
    · obtain ⟨d, _, rfl⟩ := updateAttr_some hu; simp
  have ea : AttributesOk E r ↔ AttributesOk E t' := by
    have hsz := L.size_prefix _ _ hn
    have htk : (t.attributes.take n ++ E.attrInit.drop n).take n = t.attributes.take n := by
      rw [List.take_append_of_le_length (by rw [List.length_take]; omega), List.take_take]; simp
    have hp := hf.2.2.2.2.2.1
    simp [AttributesOk, h4, hsz, htk, h2, h3, hp, ht, hn]
  have et : ThresholdOk E r ↔ ThresholdOk E t := by
    simp only [ThresholdOk, h4]
    rw [L.get_prefix _ _ keyMax hn, L.get_prefix _ _ keyMsg hn]
  have ex' : r.expiresAt = t.expiresAt := hf.2.2.2.2.2.2.2.2
  rw [h1, ex', es, ea, et]

/-- A signed identity in the toy scheme. -/
def sampleTok : Tok :=
  { type := typeIdentity, scope := scopePrivate, uuid := List.replicate 16 9, realm := [], issuer := idText (List.replicate 32 5),
    subject := [97, 98], audience := [], issuedAt := 0, notBefore := 0, expiresAt := 0x41DFFFFFFFC00000, publicKey := goodKey,
    privateKeySet := true, issuerSecret := [], state := 0, signature := List.replicate 64 7, attributes := [],
    attrSignature := List.replicate 64 7, sigVerified := false, attrVerified := false, issuerVerified := false }

example : Sized sampleTok ∧ (encode toy [] sampleTok).isSome := by
  refine ⟨⟨?_, ?_, ?_, ?_, ?_, ?_, ?_, ?_⟩, ?_⟩ <;> decide +kernel

/-! ## C29 validity of received tokens -/

/-- C29, all of it but the start of the validity period: whatever was received in whatever form, and however often the
token object was checked and verified before, it is accepted exactly if it has the expected type, its expiry is not in
the past, both signatures verify, and a message intent is within its message limit. The checks never change what the
token says.
Missing: `not_before` and `issued_at` (see `C29_not_before_refuted`), and an expiry that is not a number
(see `C29_nan_refuted`). -/
theorem C29_accepted_iff_partial (E : Env) (keyOk : Bytes → Bool) (w : WireTree) (uuid : Bytes) (t0 ex : BitVec 64)
    (t t' : Tok) (b : Bool) (ops : List Op) (now : BitVec 64) (ty : TokType)
    (hr : decode keyOk w (freshTok E uuid t0 ex) = some (t, b)) (ho : run E t ops = some t') :
    SameContent t' t ∧
    ((isValid E now t' ty).2 = true ↔
      (HasType t.type ty ∧ dgt now t.expiresAt = false ∧ SignatureOk E t ∧ AttributesOk E t ∧
        (HasType t.type typeIntent → ThresholdOk E t))) := by
  obtain ⟨hc, hsc⟩ := decode_clean keyOk w _ t b (by simp [Clean, freshTok]) hr
  obtain ⟨h1, h2⟩ := run_spec E ops t t' (clean_honest E t hc hsc) ho
  refine ⟨h1, ?_⟩
  rw [(isValid_spec E now t' ty h2).2.2.2, sigOk_congr E h1, attrOk_congr E h1, thr_congr E h1]
  have e1 : t'.type = t.type := h1.1
  have e2 : t'.expiresAt = t.expiresAt := h1.2.2.2.2.2.2.2.2.1
  rw [e1, e2]

/-- Every received token is honest, whatever was done with it. -/
theorem C29_received_honest (E : Env) (keyOk : Bytes → Bool) (w : WireTree) (uuid : Bytes) (t0 ex : BitVec 64)
    (t t' : Tok) (b : Bool) (ops : List Op)
    (hr : decode keyOk w (freshTok E uuid t0 ex) = some (t, b)) (ho : run E t ops = some t') : Honest E t' := by
  obtain ⟨hc, hsc⟩ := decode_clean keyOk w _ t b (by simp [Clean, freshTok]) hr
  exact (run_spec E ops t t' (clean_honest E t hc hsc) ho).2

/-- C29: a token marked valid by a check was accepted by it, and a rejected token is not marked valid. -/
theorem C29_mark (E : Env) (now : BitVec 64) (t : Tok) (ty : TokType) :
    (isValid E now t ty).2 = true ↔ (isValid E now t ty).1.state &&& aaaValid = aaaValid := by
  have hinv : ∀ x : Tok, ¬ ((invalidate x).state &&& aaaValid = aaaValid) := by
    intro x hx
    have := congrArg (fun b : BitVec 8 => b.getLsbD 0) hx
    simp [invalidate, aaaValid] at this
  have hor : ∀ s : BitVec 8, (s ||| aaaValid) &&& aaaValid = aaaValid := by
    intro s; ext i hi; simp; intro h; exact Or.inr h
  have hs : ∀ x : Tok, (checkSignature E x).2 = false → ∃ y, (checkSignature E x).1 = invalidate y := by
    intro x hx
    unfold checkSignature at *
    by_cases h1 : x.sigVerified = true
    · simp [h1] at hx
    · by_cases h2 : E.verify x.signature (getHash E x) x.publicKey = true
      · rw [if_neg h1, if_pos h2] at hx; simp at hx
      · exact ⟨x, by rw [if_neg h1, if_neg h2]⟩
  have ha : ∀ x : Tok, (checkAttributes E x).2 = false → ∃ y, (checkAttributes E x).1 = invalidate y := by
    intro x hx
    by_cases h1 : x.attrVerified = true
    · simp [checkAttributes, h1] at hx
    · unfold checkAttributes at *
      rw [if_neg h1] at hx ⊢
      cases hh : attrHash E x with
      | none => exact ⟨x, by simp⟩
      | some d =>
        rw [hh] at hx
        simp only at hx ⊢
        split at hx
        · simp at hx
        · rename_i h2; exact ⟨x, by rw [if_neg h2]⟩
  have ht : ∀ x : Tok, (checkThreshold E x).2 = false → ∃ y, (checkThreshold E x).1 = invalidate y := by
    intro x hx
    unfold checkThreshold at *
    split at hx
    · rename_i hf
      rw [if_pos hf]
      split at hx
      · split at hx
        · simp at hx
        · rename_i h2; exact ⟨x, by rw [if_neg h2]⟩
      · exact ⟨x, rfl⟩
    · simp at hx
  unfold isValid
  split
  · simp [hinv]
  · split
    · simp [hinv]
    · have hsig : ∀ p : Tok × Bool, (p = (if t.scope > scopePrivateAvailable then
          match checkSignature E t with
          | (t1, true) => checkAttributes E t1
          | (t1, false) => (t1, false)
        else (t, true))) → p.2 = false → ∃ y, p.1 = invalidate y := by
        intro p hp hp2
        split at hp
        · cases hc : checkSignature E t with
          | mk t1 b1 =>
            rw [hc] at hp
            cases b1 with
            | false =>
              simp only at hp
              have := hs t (by rw [hc]); rw [hc] at this; rw [hp]; exact this
            | true => simp only at hp; rw [hp] at hp2 ⊢; exact ha t1 hp2
        · rw [hp] at hp2; simp at hp2
      generalize hp : (if t.scope > scopePrivateAvailable then
          match checkSignature E t with
          | (t1, true) => checkAttributes E t1
          | (t1, false) => (t1, false)
        else (t, true)) = p
      have hsig := hsig p hp.symm
      obtain ⟨t2, b2⟩ := p
      cases b2 with
      | false =>
        obtain ⟨y, hy⟩ := hsig rfl
        simp only at hy ⊢
        rw [hy]; simp [hinv]
      | true =>
        simp only
        cases hc : checkThreshold E t2 with
        | mk t3 b3 =>
          cases b3 with
          | false =>
            obtain ⟨y, hy⟩ := ht t2 (by rw [hc])
            rw [hc] at hy
            simp only at hy ⊢
            rw [hy]; simp [hinv]
          | true => simp [hor]

/-- The start of the validity period is not checked: for every key pair and every time there is a token that becomes
valid in the future and is accepted now. -/
theorem C29_not_before_refuted (E : Env) (L : Lawful E) (sk pk : Bytes) (hk : KeyPair E sk pk) (now ex nb : BitVec 64)
    (hex : dgt now ex = false) :
    ∃ t : Tok, t.scope = scopePublic ∧ t.sigVerified = false ∧ t.attrVerified = false ∧ t.notBefore = nb ∧
      t.expiresAt = ex ∧ t.publicKey = pk ∧ (isValid E now t typeIdentity).2 = true := by
  obtain ⟨n, hn⟩ := L.init_size
  let d : Tok := { newIdentity E [] sk now ex with notBefore := nb, publicKey := pk }
  have hsome : ∃ t', signSelf E d = some t' := by
    refine ⟨{ d with
      signature := E.sign (getHash E d) d.issuerSecret
      attrSignature := E.sign (E.hash (E.attrInit.take n ++ E.sign (getHash E d) d.issuerSecret)) d.issuerSecret }, ?_⟩
    · unfold signSelf
      rw [if_neg (by simp [d, newIdentity, scopePrivate, scopePrivateAvailable])]
      unfold updateAttrSignature
      rw [if_neg (by simp [d, newIdentity, scopePrivate, scopePrivateAvailable])]
      have : attrHash E { d with signature := E.sign (getHash E d) d.issuerSecret } =
          some (E.hash (E.attrInit.take n ++ E.sign (getHash E d) d.issuerSecret)) := by
        simp [attrHash, d, newIdentity, freshTok, hn]
      rw [this]
  obtain ⟨t', ht⟩ := hsome
  obtain ⟨o1, o2⟩ := signSelf_ok ht hk
  obtain ⟨dd, h1, h2⟩ := signSelf_some ht
  let r : Tok := { t' with scope := scopePublic, sigVerified := false, attrVerified := false }
  have same : SameContent r t' := by simp [SameContent, r]
  have hon : Honest E r := ⟨by simp [r]; decide, fun x => by simp [r] at x, fun x => by simp [r] at x⟩
  refine ⟨r, rfl, rfl, rfl, ?_, ?_, ?_, ?_⟩
  · simp [r, h2, d]
  · simp [r, h2, d, newIdentity, freshTok]
  · simp [r, h2, d]
  · rw [(isValid_spec E now r typeIdentity hon).2.2.2]
    have ty : r.type = typeIdentity := by simp [r, h2, d, newIdentity]
    have e : r.expiresAt = ex := by simp [r, h2, d, newIdentity, freshTok]
    rw [ty, e]
    exact ⟨by unfold HasType; decide, hex, (sigOk_congr E same).2 o1, (attrOk_congr E same).2 o2,
      fun h => absurd h (by unfold HasType; decide)⟩

/-- The hypotheses are met: in the toy scheme at time 0, with an expiry far away. -/
example : Lawful toy ∧ KeyPair toy [] goodKey ∧ dgt 0 0x41DFFFFFFFC00000 = false ∧ dgt 0x41DFFFFFFFC00000 0 = true :=
  ⟨toy_lawful, toy_keys.1, by decide, by decide⟩

/-- An expiry that is not a number never passes: such a token is never rejected for being too old. -/
theorem C29_nan_refuted : ∃ ex : BitVec 64, ∀ now, dgt now ex = false := by
  refine ⟨0x7ff8000000000000, fun now => ?_⟩
  unfold dgt
  rw [show isNaN 0x7ff8000000000000 = true from by decide]
  simp

/-- C29: expiry is monotone for ordinary times: once rejected as too old, always rejected. -/
theorem C29_expired_stays (a b ex : BitVec 64) (h : dgt a ex = true) (hb : isNaN b = false) (hab : rank a ≤ rank b) :
    dgt b ex = true := by
  simp only [dgt, Bool.and_eq_true, Bool.not_eq_true', decide_eq_true_eq] at h ⊢
  exact ⟨⟨hb, h.1.2⟩, by omega⟩

example : dgt 0x40f0000000000000 0x40e0000000000000 = true ∧ rank 0x40f0000000000000 ≤ rank 0x4100000000000000 := by decide

/-! ## C30 issuer signatures -/

/-- C30, what the code checks: a token is accepted as issued by `s` only if its own signatures verify, it names the
fingerprint of `s` as issuer, `s` was found valid and authenticated, and it carries, under the issuer's name, a public
key and a signature of its own digest that verifies under that carried key; so if the carried key is the issuer's key
the issuer's key made the signature.
Missing: the carried key is never compared with the issuer's key (see `C30_forgery`). -/
theorem C30_issuer_partial (E : Env) (t t' s : Tok) (hh : Honest E t) (hi : t.issuerVerified = false)
    (h : verifySignature E t (some s) = some (t', true)) :
    SignatureOk E t ∧ AttributesOk E t ∧ fromHash t.issuer = E.hash (E.hash (hashInput s) ++ s.signature) ∧
    s.state &&& aaaValid = aaaValid ∧ s.state &&& aaaAuthenticated = aaaAuthenticated ∧
    ∃ v, E.attrGet t.attributes t.issuer = some (.bin v) ∧ 96 ≤ v.length ∧
      E.verify ((v.drop 32).take 64) (E.hash (hashInput t)) (v.take 32) = true ∧
      (v.take 32 = s.publicKey → E.verify ((v.drop 32).take 64) (E.hash (hashInput t)) s.publicKey = true) := by
  have hsp := verify_spec E t t' (some s) true hh h
  obtain ⟨h1, h2⟩ := hsp.2.2 rfl
  refine ⟨h1, h2, ?_⟩
  obtain ⟨a1, a2, a3, a4⟩ := checkSignature_spec E t hh
  unfold verifySignature at h
  cases hc : checkSignature E t with
  | mk t1 b1 =>
    rw [hc] at a1 a2 a3 a4 h
    cases b1 with
    | false => simp at h
    | true =>
      obtain ⟨c1, c2, c3, c4⟩ := checkAttributes_spec E t1 a2
      cases hd : checkAttributes E t1 with
      | mk t2 b2 =>
        rw [hd] at c1 c2 c3 c4
        simp only [hd] at h
        cases b2 with
        | false => simp at h
        | true =>
          have hsame : SameContent t2 t := c1.trans a1
          have hi2 : t2.issuerVerified = false := by rw [show t2.issuerVerified = t1.issuerVerified from c4]; exact a4.trans hi
          have e1 : t2.issuer = t.issuer := hsame.2.2.2.1
          have e2 : t2.attributes = t.attributes := hsame.2.2.2.2.2.2.2.2.2.2.2.1
          have e3 : hashInput t2 = hashInput t := hashInput_congr hsame
          simp only [hi2, Bool.false_eq_true, if_false] at h
          split at h
          · simp at h
          · rename_i hfp
            split at h
            · simp at h
            · rename_i hst
              simp only [Bool.or_eq_true, Bool.not_eq_true', not_or, Bool.not_eq_false] at hst
              split at h
              · simp at h
              · rename_i v hv
                split at h
                · simp at h
                · rename_i hlen
                  split at h
                  · rename_i hver
                    rw [e1, e2] at hv
                    simp only [getHash, e3] at hver
                    refine ⟨by rw [← e1]; exact Decidable.of_not_not hfp, (flagCmp_iff _ _).1 hst.1, (flagCmp_iff _ _).1 hst.2, v, hv, by omega, hver, ?_⟩
                    intro hkey; rw [← hkey]; exact hver
                  · simp at h
              · simp at h

/-- C30: a token that names an issuer is not accepted when no issuer token is at hand. -/
theorem C30_issuer_needed (E : Env) (t : Tok) (hi : t.issuer ≠ []) (hh : Honest E t) :
    ∃ t', verifySignature E t none = some (t', false) := by
  obtain ⟨a1, a2, _, _⟩ := checkSignature_spec E t hh
  unfold verifySignature
  cases hc : checkSignature E t with
  | mk t1 b1 =>
    rw [hc] at a1 a2
    cases b1 with
    | false => exact ⟨t1, rfl⟩
    | true =>
      obtain ⟨c1, _, _, _⟩ := checkAttributes_spec E t1 a2
      cases hd : checkAttributes E t1 with
      | mk t2 b2 =>
        rw [hd] at c1
        simp only [hd]
        cases b2 with
        | false => exact ⟨t2, rfl⟩
        | true =>
          have : t2.issuer = t.issuer := (c1.trans a1).2.2.2.1
          rw [← this] at hi
          exact ⟨invalidate t2, by simp only [if_pos hi]⟩

/-- The token an attacker makes out of their own key pair and the fingerprint of the victim. -/
def forge (E : Env) (sk pk victimFp : Bytes) (expires : BitVec 64) : UserTok :=
  let base : Tok := { newIdentity E (List.replicate 16 1) sk 0 expires with issuer := idText victimFp, publicKey := pk }
  let attrs := E.attrSetBin E.attrInit (idText victimFp) (pk ++ E.sign (getHash E base) sk)
  let sig := E.sign (getHash E base) sk
  { uuid := base.uuid, subject := [], issuer := victimFp, realm := zeroId, audience := zeroId, issuedAt := 0, notBefore := 0,
    expiresAt := expires, publicKey := pk, secretKey := [], signature := sig, attributes := attrs,
    attrSignature := match E.attrSize attrs with
      | some n => E.sign (E.hash (attrs.take n ++ sig)) sk
      | none => [] }

/-- The code accepts forged issuers: with any key pair of their own, anyone can make a token that `np_verify_issuer`
accepts as issued by a victim, knowing only the victim's (public) fingerprint. -/
theorem C30_forgery (E : Env) (L : Lawful E) (sk pk : Bytes) (hk : KeyPair E sk pk) (hpk : pk.length = 32)
    (victim : UserTok) (n1 n2 : Tok)
    (hn1 : n1.sigVerified = false ∧ n1.attrVerified = false ∧ n1.issuerVerified = false)
    (fp : Bytes) (hfp : fingerprint E (fromUser n2 victim) false = some fp) (hz : fp ≠ zeroId) (ex : BitVec 64) :
    verifyIssuer E n1 n2 (forge E sk pk fp ex) victim = some .ok := by
  have hfl : fp.length = 32 := by
    simp only [fingerprint, Bool.false_eq_true, if_false, Option.some.injEq] at hfp
    rw [← hfp]; exact L.hash_length _
  let base : Tok := { newIdentity E (List.replicate 16 1) sk 0 ex with issuer := idText fp, publicKey := pk }
  let v := pk ++ E.sign (getHash E base) sk
  have hv : v.length = 96 := by simp [v, hpk, L.sign_length]
  obtain ⟨n, hn⟩ := L.init_set_size (idText fp) v (by rw [idText_length, hfl]) hv
  have hget := L.init_set_get (idText fp) v (by rw [idText_length, hfl]) hv
  let it : Tok := { fromUser n1 (forge E sk pk fp ex) with state := aaaAuthenticated ||| aaaValid }
  have hiss : it.issuer = idText fp := by simp [it, fromUser, updateScope, forge, idField, hz]
  have hin : hashInput it = hashInput base := by
    simp [it, fromUser, updateScope, forge, hashInput, idField, hz, base, newIdentity, freshTok]
  have hat : it.attributes = E.attrSetBin E.attrInit (idText fp) v := rfl
  have hpub : it.publicKey = pk := rfl
  have hsg : it.signature = E.sign (getHash E base) sk := rfl
  have hasg : it.attrSignature = E.sign (E.hash ((E.attrSetBin E.attrInit (idText fp) v).take n ++ E.sign (getHash E base) sk)) sk := by
    show (match E.attrSize (E.attrSetBin E.attrInit (idText fp) v) with
      | some n => E.sign (E.hash ((E.attrSetBin E.attrInit (idText fp) v).take n ++ E.sign (getHash E base) sk)) sk
      | none => []) = _
    rw [hn]
  have s1 : SignatureOk E it := by
    unfold SignatureOk; rw [hin, hsg, hpub]; exact hk _
  have s2 : AttributesOk E it := ⟨n, by rw [hat]; exact hn, by rw [hat, hsg, hpub, hasg]; exact hk _⟩
  have hst : ∀ x : Tok, flagCmp ({ x with state := aaaAuthenticated ||| aaaValid } : Tok).state aaaValid = true ∧
    flagCmp ({ x with state := aaaAuthenticated ||| aaaValid } : Tok).state aaaAuthenticated = true := fun _ => flag_both
  have hvs := verify_some E it { fromUser n2 victim with state := aaaAuthenticated ||| aaaValid } hn1 s1 s2
  unfold verifyIssuer
  simp only
  rw [show ({ fromUser n1 (forge E sk pk fp ex) with state := aaaAuthenticated ||| aaaValid } : Tok) = it from rfl, hvs]
  simp only
  have hfp' : fromHash it.issuer = E.hash (getHash E { fromUser n2 victim with state := aaaAuthenticated ||| aaaValid } ++
      (fromUser n2 victim).signature) := by
    rw [hiss, fromHash_idText fp hfl]
    simp only [fingerprint, Bool.false_eq_true, if_false, Option.some.injEq] at hfp
    exact hfp.symm
  rw [if_neg (by simpa using hfp')]
  rw [if_neg (by have := flag_both; simp [this.1, this.2])]
  have hget' : E.attrGet it.attributes it.issuer = some (.bin v) := by rw [hat, hiss]; exact hget
  rw [hget']
  simp only
  rw [if_neg (by omega)]
  have e1 : v.take 32 = pk := by
    show (pk ++ _).take 32 = pk
    rw [← hpk]; exact List.take_left
  have e2 : (v.drop 32).take 64 = E.sign (getHash E base) sk := by
    show ((pk ++ E.sign (getHash E base) sk).drop 32).take 64 = _
    rw [← hpk, List.drop_left, List.take_of_length_le (Nat.le_of_eq (L.sign_length _ _))]
  have hver : E.verify ((v.drop 32).take 64) (getHash E it) (v.take 32) = true := by
    rw [e1, e2]
    show E.verify (E.sign (getHash E base) sk) (E.hash (hashInput it)) pk = true
    rw [hin]; exact hk _
  rw [if_pos hver]

/-- C30 refuted: a token is accepted as issued by an identity although nothing at all verifies under that identity's
public key. -/
theorem C30_refuted : ∃ (E : Env) (n1 n2 : Tok) (identity issuer : UserTok), Lawful E ∧
    verifyIssuer E n1 n2 identity issuer = some .ok ∧ ∀ s m, E.verify s m issuer.publicKey = false := by
  let n := newIdentity toy [] [] 0 0
  let victim : UserTok :=
    { uuid := List.replicate 16 3, subject := [97], issuer := zeroId, realm := zeroId, audience := zeroId, issuedAt := 0,
      notBefore := 0, expiresAt := 0, publicKey := badKey, secretKey := [], signature := List.replicate 64 7,
      attributes := [], attrSignature := List.replicate 64 7 }
  refine ⟨toy, n, n, forge toy [] goodKey ((fingerprint toy (fromUser n victim) false).getD []) 0, victim, toy_lawful,
    C30_forgery toy toy_lawful [] goodKey toy_keys.1 rfl victim n n ⟨rfl, rfl, rfl⟩ _ rfl ?_ 0, toy_keys.2⟩
  decide +kernel

/-- The value found under the issuer's name is used as 96 bytes whatever its type and size: a peer can make the node
read through a wild pointer. -/
theorem C30_memory_refuted : ∃ (E : Env) (t s : Tok), Honest E t ∧ t.issuerVerified = false ∧
    verifySignature E t (some s) = none := by
  let E : Env := { toy with attrGet := fun _ _ => some (.uint 5) }
  let s : Tok := { sampleTok with state := 3 }
  let fp := E.hash (getHash E s ++ s.signature)
  let t : Tok := { sampleTok with issuer := idText fp, scope := scopePublic }
  refine ⟨E, t, s, ⟨by decide, fun h => by simp [t, sampleTok] at h, fun h => by simp [t, sampleTok] at h⟩, rfl, ?_⟩
  decide +kernel

/-! ## C31 what the signature covers -/

/-- C31, the part that holds: equal digest inputs mean equal uuid, public key and times, and equal text once realm,
issuer, subject and audience are written one behind the other; if the lengths of realm, issuer and subject agree, all
signed fields agree.
Missing: without the lengths, text can move between the four fields (see `C31_refuted`). -/
theorem C31_digest_partial (a b : Tok) (ha : Sized a) (hb : Sized b) (h : hashInput a = hashInput b) :
    a.uuid = b.uuid ∧ a.publicKey = b.publicKey ∧ a.issuedAt = b.issuedAt ∧ a.notBefore = b.notBefore ∧
    a.expiresAt = b.expiresAt ∧
    a.realm ++ a.issuer ++ a.subject ++ a.audience = b.realm ++ b.issuer ++ b.subject ++ b.audience ∧
    (a.realm.length = b.realm.length → a.issuer.length = b.issuer.length → a.subject.length = b.subject.length →
      SameSignedFields a b) := by
  have norm : ∀ t : Tok, Sized t → hashInput t = t.uuid ++ ((t.realm ++ t.issuer ++ t.subject ++ t.audience) ++
      (t.publicKey ++ (doubleBytes t.expiresAt ++ (doubleBytes t.issuedAt ++ doubleBytes t.notBefore)))) := by
    intro t ht
    unfold hashInput
    rw [List.take_of_length_le (Nat.le_of_eq ht.uuid), List.take_of_length_le ht.realm, List.take_of_length_le ht.issuer,
      List.take_of_length_le ht.subject, List.take_of_length_le ht.audience,
      List.take_of_length_le (Nat.le_of_eq ht.publicKey)]
    simp only [List.append_assoc]
  rw [norm a ha, norm b hb] at h
  obtain ⟨hu, h⟩ := List.append_inj h (by rw [ha.uuid, hb.uuid])
  obtain ⟨ht, h⟩ := List.append_inj' h (by simp [doubleBytes, ha.publicKey, hb.publicKey])
  obtain ⟨hp, h⟩ := List.append_inj h (by rw [ha.publicKey, hb.publicKey])
  obtain ⟨hx, h⟩ := List.append_inj h (by simp [doubleBytes])
  obtain ⟨hi, hn⟩ := List.append_inj h (by simp [doubleBytes])
  have ex := double_inj _ _ hx
  have ei := double_inj _ _ hi
  have en := double_inj _ _ hn
  refine ⟨hu, hp, ei, en, ex, ht, ?_⟩
  intro l1 l2 l3
  simp only [List.append_assoc] at ht
  obtain ⟨t1, ht⟩ := List.append_inj ht l1
  obtain ⟨t2, ht⟩ := List.append_inj ht l2
  obtain ⟨t3, t4⟩ := List.append_inj ht l3
  exact ⟨hu, t1, t2, t3, t4, hp, ei, en, ex⟩

example : ∃ a b : Tok, Sized a ∧ Sized b ∧ hashInput a = hashInput b ∧ a.state ≠ b.state := by
  refine ⟨sampleTok, { sampleTok with state := 1 }, ?_, ?_, rfl, by decide⟩
  all_goals constructor <;> decide +kernel

/-- C31 refuted: every accepted token that names an issuer and no realm stays acceptable, with the same signatures and
the same fingerprint, when the issuer's name is moved into the realm: the token then names no issuer. -/
theorem C31_refuted (E : Env) (t : Tok) (hh : Honest E t) (hr : t.realm = []) (hl : t.issuer.length ≤ 65)
    (hn : t.issuer ≠ []) (now : BitVec 64) (ty : TokType) (hv : (isValid E now t ty).2 = true) :
    ∃ t' : Tok, t'.issuer = [] ∧ t'.realm = t.issuer ∧ t'.issuer ≠ t.issuer ∧ t'.signature = t.signature ∧
      t'.attrSignature = t.attrSignature ∧ fingerprint E t' false = fingerprint E t false ∧
      t'.sigVerified = false ∧ t'.attrVerified = false ∧ (isValid E now t' ty).2 = true := by
  have hin : hashInput { t with realm := t.issuer, issuer := [], sigVerified := false, attrVerified := false } = hashInput t := by
    unfold hashInput
    simp only [hr, List.take_nil, List.append_nil]
    rw [List.take_of_length_le (by omega : t.issuer.length ≤ 255), List.take_of_length_le hl]
  refine ⟨{ t with realm := t.issuer, issuer := [], sigVerified := false, attrVerified := false }, rfl, rfl,
    fun h => hn h.symm, rfl, rfl, ?_, rfl, rfl, ?_⟩
  · simp only [fingerprint, Bool.false_eq_true, if_false, getHash, hin]
  · obtain ⟨v1, v2, v3, v4, v5⟩ := (isValid_spec E now t ty hh).2.2.2.1 hv
    refine (isValid_spec E now { t with realm := t.issuer, issuer := [], sigVerified := false, attrVerified := false } ty
      ⟨hh.scope, fun x => by simp at x, fun x => by simp at x⟩).2.2.2.2 ⟨v1, v2, ?_, v4, v5⟩
    unfold SignatureOk; rw [hin]; exact v3

/-- The hypotheses are met by a received token of the toy scheme. -/
example : let t := { sampleTok with scope := scopePublic }
    Honest toy t ∧ t.realm = [] ∧ t.issuer.length ≤ 65 ∧ t.issuer ≠ [] ∧ (isValid toy 0 t typeIdentity).2 = true := by
  refine ⟨⟨by decide, fun h => by simp [sampleTok] at h, fun h => by simp [sampleTok] at h⟩, ?_, ?_, ?_, ?_⟩ <;> decide +kernel

/-- The type of a token is not signed at all: an accepted identity is accepted as a node token when its type is
changed on the way. -/
theorem C31_type_refuted (E : Env) (t : Tok) (hh : Honest E t) (now : BitVec 64)
    (hv : (isValid E now t typeIdentity).2 = true) :
    (isValid E now { t with type := typeNode, sigVerified := false, attrVerified := false } typeNode).2 = true := by
  obtain ⟨v1, v2, v3, v4, v5⟩ := (isValid_spec E now t typeIdentity hh).2.2.2.1 hv
  refine (isValid_spec E now { t with type := typeNode, sigVerified := false, attrVerified := false } typeNode
    ⟨hh.scope, fun x => by simp at x, fun x => by simp at x⟩).2.2.2.2 ⟨?_, v2, v3, v4, fun h => ?_⟩
  · show typeNode &&& typeNode = typeNode; decide
  · exact absurd (show typeNode &&& typeIntent = typeIntent from h) (by decide)

/-! ## C49 export and import -/

/-- C49: a token given to the user and taken back has the same content, if realm, issuer and audience are ids and the
attributes are well formed. Only the type comes from the object it is read into. -/
theorem C49_export_import (E : Env) (L : Lawful E) (t dest : Tok) (u0 : UserTok) (secret : Bytes) (inc : Bool) (n : Nat)
    (hid : IdFields t) (hs : t.subject.length ≤ 255) (hn : E.attrSize t.attributes = some n) (hty : dest.type = t.type) :
    SameContent (fromUser dest (toUser E u0 t secret inc)) t := by
  have hle := L.size_le _ _ hn
  have e : (t.subject.take 255).take 255 = t.subject := by
    rw [List.take_take, Nat.min_self, List.take_of_length_le hs]
  simp only [SameContent, fromUser, updateScope, toUser, hn, if_pos hle, idField_fromHash _ hid.1, idField_fromHash _ hid.2.1,
    idField_fromHash _ hid.2.2, hty, e, and_self]

/-- C49: what the user hands in is what the user gets back, apart from the secret key. -/
theorem C49_import_export (E : Env) (u dest : UserTok) (t : Tok) (secret : Bytes) (inc : Bool) (n : Nat)
    (hi : u.issuer.length = 32) (hr : u.realm.length = 32) (ha : u.audience.length = 32) (hs : u.subject.length ≤ 255)
    (hn : E.attrSize u.attributes = some n) (hle : n ≤ u.attributes.length) :
    let u' := toUser E dest (fromUser t u) secret inc
    u'.uuid = u.uuid ∧ u'.subject = u.subject ∧ u'.issuer = u.issuer ∧ u'.realm = u.realm ∧ u'.audience = u.audience ∧
    u'.issuedAt = u.issuedAt ∧ u'.notBefore = u.notBefore ∧ u'.expiresAt = u.expiresAt ∧ u'.publicKey = u.publicKey ∧
    u'.signature = u.signature ∧ u'.attributes = u.attributes ∧ u'.attrSignature = u.attrSignature := by
  have e : (u.subject.take 255).take 255 = u.subject := by
    rw [List.take_take, Nat.min_self, List.take_of_length_le hs]
  refine ⟨rfl, e, fromHash_idField _ hi, fromHash_idField _ hr, fromHash_idField _ ha, rfl, rfl, rfl, rfl, rfl, ?_, rfl⟩
  simp only [toUser, fromUser, updateScope, hn]
  exact if_pos hle

example : IdFields sampleTok ∧ toy.attrSize sampleTok.attributes = some 0 := by
  refine ⟨⟨Or.inl rfl, Or.inr ⟨List.replicate 32 5, rfl, by decide, rfl⟩, Or.inl rfl⟩, rfl⟩

/-- A realm that is no id (the realm text is any text) is lost on export. -/
theorem C49_realm_refuted : ∃ (t dest : Tok) (u0 : UserTok), dest.type = t.type ∧ t.realm.length = 2 ∧
    (fromUser dest (toUser toy u0 t [] false)).realm = [] := by
  refine ⟨{ sampleTok with realm := [97, 98] }, sampleTok, ⟨[], [], [], [], [], 0, 0, 0, [], [], [], [], []⟩, rfl, rfl, ?_⟩
  decide +kernel

/-! ## C54 signing an identity by its issuer -/

/-- C54: an identity that names the signer as issuer, is signed by them and then signed by its owner passes
`np_verify_issuer` with the signer's exported identity. `a1` are the attributes with the issuer's entry. -/
theorem C54_issued_identity_verifies (E : Env) (L : Lawful E) (n n' n1 n2 me : Tok) (mySecret sk : Bytes) (u u0 : UserTok)
    (hme : me.privateKeySet = true) (hid : IdFields me) (hmes : me.subject.length ≤ 255) (nm : Nat)
    (hmea : E.attrSize me.attributes = some nm)
    (hmk : KeyPair E mySecret me.publicKey) (hmpk : me.publicKey.length = 32)
    (hn' : n'.privateKeySet = true ∧ n'.issuerSecret = sk)
    (hu : u.secretKey = sk) (hsk : sk.take 64 ≠ List.replicate 64 0) (hk : KeyPair E sk u.publicKey)
    (hn1 : n1.sigVerified = false ∧ n1.attrVerified = false ∧ n1.issuerVerified = false)
    (hfp : fingerprint E me false = some u.issuer) (hz : u.issuer ≠ zeroId)
    (hr : u.realm.length = 32) (ha : u.audience.length = 32) (hs : u.subject.length ≤ 255)
    (hroom : ∀ v : Bytes, v.length = 96 → ∃ m, E.attrSize (E.attrSetBin u.attributes (idText u.issuer) v) = some m ∧
      E.attrGet (E.attrSetBin u.attributes (idText u.issuer) v) (idText u.issuer) = some (.bin v)) :
    ∃ ub uc, signIdentity E n me mySecret u false = some (.ok, ub) ∧ signIdentity E n' me mySecret ub true = some (.ok, uc) ∧
      verifyIssuer E n1 n2 uc (toUser E u0 me [] false) = some .ok := by
  have hil : u.issuer.length = 32 := by
    simp only [fingerprint, Bool.false_eq_true, if_false, Option.some.injEq] at hfp
    rw [← hfp]; exact L.hash_length _
  have hfp' : E.hash (getHash E me ++ me.signature) = u.issuer := by
    simpa only [fingerprint, Bool.false_eq_true, if_false, Option.some.injEq] using hfp
  have hisl : (idText u.issuer).length = 64 := by rw [idText_length, hil]
  have etk : (idText u.issuer).take 64 = idText u.issuer := List.take_of_length_le (by omega)
  have ess : (u.subject.take 255).take 255 = u.subject := by
    rw [List.take_take, Nat.min_self, List.take_of_length_le hs]
  have ess1 : u.subject.take 255 = u.subject := List.take_of_length_le hs
  -- signing by the issuer
  let t0 := fromUser n u
  let v := me.publicKey ++ E.sign (getHash E t0) mySecret
  have hv : v.length = 96 := by simp [v, hmpk, L.sign_length]
  obtain ⟨m, hm1, hm2⟩ := hroom v hv
  have hml := L.size_le _ _ hm1
  let attrs := E.attrSetBin u.attributes (idText u.issuer) v
  let tb : Tok := { t0 with attributes := attrs }
  have hsb : signBy E t0 me mySecret = some tb := by
    unfold signBy
    simp only [hme, Bool.not_true, Bool.false_eq_true, if_false, hfp']
    have : t0.issuer = idText u.issuer := by simp [t0, fromUser, updateScope, idField, hz]
    rw [if_neg (by rw [this, etk]; simp)]
    rfl
  let ub := toUser E u tb n.issuerSecret false
  have h1 : signIdentity E n me mySecret u false = some (.ok, ub) := by
    unfold signIdentity
    simp only [Bool.false_and, Bool.false_eq_true, if_false]
    rw [show signBy E (fromUser n u) me mySecret = some tb from hsb]
  -- fields of ub
  have hba : ub.attributes = attrs := by
    show (match E.attrSize attrs with | some n => if n ≤ attrs.length then attrs else u.attributes | none => u.attributes) = attrs
    rw [show E.attrSize attrs = some m from hm1]; exact if_pos hml
  have hbi : ub.issuer = u.issuer := by
    show fromHash (idField u.issuer) = u.issuer
    exact fromHash_idField _ hil
  have hbr : ub.realm = u.realm := fromHash_idField _ hr
  have hbau : ub.audience = u.audience := fromHash_idField _ ha
  have hbs : ub.subject = u.subject := ess
  have hbk : ub.secretKey = sk := by rw [← hu]; rfl
  -- signing by the owner
  let t1 := fromUser n' ub
  have hash1 : hashInput t1 = hashInput t0 := by
    simp only [hashInput, t1, t0, fromUser, updateScope, hbi, hbr, hbau, hbs]; rfl
  have hsc : t1.scope = scopePrivate := by simp [t1, fromUser, updateScope, hn'.1]
  have hsec : t1.issuerSecret = sk := hn'.2
  have hpub : t1.publicKey = u.publicKey := rfl
  have hat1 : t1.attributes = attrs := hba
  let sg := E.sign (getHash E t1) sk
  let asg := E.sign (E.hash (attrs.take m ++ sg)) sk
  let tc : Tok := { t1 with signature := sg, attrSignature := asg }
  have hup : ∀ s a, updateAttrSignature E { t1 with signature := s, attrSignature := a } =
      some { t1 with signature := s, attrSignature := E.sign (E.hash (attrs.take m ++ s)) sk } := by
    intro s a
    unfold updateAttrSignature
    rw [if_neg (by simp [hsc, scopePrivate, scopePrivateAvailable])]
    simp only [attrHash, hat1, hsec]
    rw [show E.attrSize attrs = some m from hm1]
  have hss : signSelf E t1 = some tc := by
    unfold signSelf
    rw [if_neg (by simp [hsc, scopePrivate, scopePrivateAvailable])]
    have e : E.sign (getHash E t1) t1.issuerSecret = sg := by rw [hsec]
    rw [e]
    exact hup sg t1.attrSignature
  let uc := toUser E ub tc ub.secretKey true
  have h2 : signIdentity E n' me mySecret ub true = some (.ok, uc) := by
    unfold signIdentity
    have hnz : ¬ ((true && decide (ub.secretKey.take 64 = List.replicate 64 0#8)) = true) := by
      rw [hbk]; simpa using hsk
    rw [if_neg (by simpa using hnz), if_pos rfl]
    rw [show signSelf E (fromUser n' ub) = some tc from hss]
    simp only
    rw [show updateAttrSignature E tc = some tc from hup sg asg]
  -- fields of uc
  have hca : uc.attributes = attrs := by
    show (match E.attrSize t1.attributes with | some n => if n ≤ t1.attributes.length then t1.attributes else ub.attributes | none => ub.attributes) = attrs
    rw [hat1, show E.attrSize attrs = some m from hm1]; exact if_pos hml
  have hci : uc.issuer = u.issuer := by
    show fromHash (idField ub.issuer) = u.issuer
    rw [hbi]; exact fromHash_idField _ hil
  have hcr : uc.realm = u.realm := by
    show fromHash (idField ub.realm) = u.realm
    rw [hbr]; exact fromHash_idField _ hr
  have hcau : uc.audience = u.audience := by
    show fromHash (idField ub.audience) = u.audience
    rw [hbau]; exact fromHash_idField _ ha
  have hcs : uc.subject = u.subject := by
    show (ub.subject.take 255).take 255 = u.subject
    rw [hbs]; exact ess
  refine ⟨ub, uc, h1, h2, ?_⟩
  -- verification
  let it : Tok := { fromUser n1 uc with state := aaaAuthenticated ||| aaaValid }
  let iss : Tok := { fromUser n2 (toUser E u0 me [] false) with state := aaaAuthenticated ||| aaaValid }
  have hashI : hashInput it = hashInput t0 := by
    simp only [hashInput, it, t0, fromUser, updateScope, hci, hcr, hcau, hcs]; rfl
  have hgi : E.hash (hashInput it) = getHash E t1 := by rw [hashI, ← hash1]; rfl
  have s1 : SignatureOk E it := by
    show E.verify sg (E.hash (hashInput it)) u.publicKey = true
    rw [hgi]; exact hk _
  have hati : it.attributes = attrs := hca
  have s2 : AttributesOk E it := by
    refine ⟨m, by rw [hati]; exact hm1, ?_⟩
    rw [hati]
    show E.verify asg (E.hash (attrs.take m ++ sg)) u.publicKey = true
    exact hk _
  have hsame := C49_export_import E L me { n2 with type := me.type } u0 [] false nm hid hmes hmea rfl
  have hhash : hashInput iss = hashInput me := by
    have := hashInput_congr hsame
    rw [← this]; rfl
  have hisig : iss.signature = me.signature := rfl
  unfold verifyIssuer
  simp only
  rw [show ({ fromUser n1 uc with state := aaaAuthenticated ||| aaaValid } : Tok) = it from rfl,
    show ({ fromUser n2 (toUser E u0 me [] false) with state := aaaAuthenticated ||| aaaValid } : Tok) = iss from rfl,
    verify_some E it iss hn1 s1 s2]
  have hii : it.issuer = idText u.issuer := by
    show idField uc.issuer = _
    rw [hci]; simp [idField, hz]
  simp only
  rw [if_neg (by
    rw [hii, fromHash_idText _ hil]
    have : E.hash (getHash E iss ++ iss.signature) = u.issuer := by
      rw [← hfp', hisig]; simp only [getHash, hhash]
    rw [this]; simp)]
  rw [if_neg (by
    show ¬ ((!flagCmp (aaaAuthenticated ||| aaaValid) aaaValid || !flagCmp (aaaAuthenticated ||| aaaValid) aaaAuthenticated) = true)
    decide)]
  have hget : E.attrGet it.attributes it.issuer = some (.bin v) := by rw [hati, hii]; exact hm2
  rw [hget]
  simp only
  rw [if_neg (by omega)]
  have e1 : v.take 32 = me.publicKey := by
    show (me.publicKey ++ _).take 32 = _
    rw [← hmpk]; exact List.take_left
  have e2 : (v.drop 32).take 64 = E.sign (getHash E t0) mySecret := by
    show ((me.publicKey ++ E.sign (getHash E t0) mySecret).drop 32).take 64 = _
    rw [← hmpk, List.drop_left, List.take_of_length_le (Nat.le_of_eq (L.sign_length _ _))]
  rw [if_pos (by
    rw [e1, e2]
    show E.verify _ (E.hash (hashInput it)) _ = true
    rw [hashI]; exact hmk _)]

/-- The hypotheses are met: two identities of the toy scheme. -/
example : ∃ (n n' n1 n2 me : Tok) (u u0 ub uc : UserTok), signIdentity toy n me [] u false = some (.ok, ub) ∧
    signIdentity toy n' me [] ub true = some (.ok, uc) ∧ verifyIssuer toy n1 n2 uc (toUser toy u0 me [] false) = some .ok := by
  let n := newIdentity toy [] (List.replicate 64 1) 0 0
  let me : Tok := { sampleTok with issuer := [] }
  let fp := (fingerprint toy me false).getD []
  let u : UserTok :=
    { uuid := List.replicate 16 3, subject := [97], issuer := fp, realm := zeroId, audience := zeroId, issuedAt := 0,
      notBefore := 0, expiresAt := 0, publicKey := goodKey, secretKey := List.replicate 64 1, signature := [],
      attributes := [], attrSignature := [] }
  have hl : (idText u.issuer).length = 64 := by decide +kernel
  obtain ⟨ub, uc, h⟩ := C54_issued_identity_verifies toy toy_lawful n n n n me [] (List.replicate 64 1) u u rfl
    ⟨Or.inl rfl, Or.inl rfl, Or.inl rfl⟩ (by decide) 0 rfl toy_keys.1 rfl ⟨rfl, rfl⟩ rfl (by decide) (fun m => rfl)
    ⟨rfl, rfl, rfl⟩ rfl (by decide +kernel) rfl rfl (by decide)
    (fun v hv => (toy_lawful.init_set_size _ v hl hv).imp fun _ h => ⟨h, toy_lawful.init_set_get _ v hl hv⟩)
  exact ⟨n, n, n, n, me, u, u, ub, uc, h⟩

/-! ## C55 np_use_token -/

/-- C55, one half: `np_use_token` imports nothing that is expired or wrongly signed. -/
theorem C55_rejects_partial (E : Env) (now : BitVec 64) (uuid : Bytes) (t0 ex : BitVec 64) (u : UserTok)
    (h : (useToken E now (freshTok E uuid t0 ex) u).1 = .ok) :
    let t := fromUser (freshTok E uuid t0 ex) u
    dgt now t.expiresAt = false ∧ SignatureOk E t ∧ AttributesOk E t := by
  intro t
  have hon : Honest E t := ⟨by simp [t, fromUser, updateScope, freshTok]; decide, fun x => by simp [t, fromUser, updateScope, freshTok] at x,
    fun x => by simp [t, fromUser, updateScope, freshTok] at x⟩
  have hsp := (isValid_spec E now t t.type hon).2.2.2
  unfold useToken at h
  simp only at h
  cases hv : isValid E now t t.type with
  | mk t1 b =>
    rw [hv] at hsp
    cases b with
    | false => rw [show isValid E now (fromUser (freshTok E uuid t0 ex) u) (fromUser (freshTok E uuid t0 ex) u).type = (t1, false) from hv] at h; simp at h
    | true => have := hsp.1 rfl; exact ⟨this.2.1, this.2.2.1, this.2.2.2.1⟩

/-- C55 refuted: `np_use_token` fails with `np_invalid_argument` for every token whatsoever, valid or not, because the
imported token has no type. -/
theorem C55_refuted (E : Env) (now : BitVec 64) (uuid : Bytes) (t0 ex : BitVec 64) (u : UserTok) :
    useToken E now (freshTok E uuid t0 ex) u = (.invalidArgument, none) := by
  have hty : (fromUser (freshTok E uuid t0 ex) u).type = typeUndefined := rfl
  have hon : Honest E (fromUser (freshTok E uuid t0 ex) u) := ⟨by simp [fromUser, updateScope, freshTok]; decide, fun x => by simp [fromUser, updateScope, freshTok] at x,
    fun x => by simp [fromUser, updateScope, freshTok] at x⟩
  have hsp := isValid_spec E now (fromUser (freshTok E uuid t0 ex) u) (fromUser (freshTok E uuid t0 ex) u).type hon
  unfold useToken
  simp only
  cases hv : isValid E now (fromUser (freshTok E uuid t0 ex) u) (fromUser (freshTok E uuid t0 ex) u).type with
  | mk t1 b =>
    rw [hv] at hsp
    cases b with
    | false => rfl
    | true =>
      have ht1 : t1.type = typeUndefined := hsp.1.1.trans hty
      simp only [ht1]
      rw [if_neg (by decide), if_neg (by decide)]

end Np.Token
