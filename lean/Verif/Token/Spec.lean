import Verif.Token.Model
/-!
# Vocabulary for the token properties
-/
namespace Np.Token.Spec
open Np.Token

/-- `sk`, `pk` are a key pair of the signature scheme: what is signed with `sk` verifies with `pk`. -/
def KeyPair (E : Env) (sk pk : Bytes) : Prop := ∀ m, E.verify (E.sign m sk) m pk = true

/-- The token carries a signature of its own digest under its own public key. -/
def SignatureOk (E : Env) (t : Tok) : Prop := E.verify t.signature (E.hash (hashInput t)) t.publicKey = true

/-- The attributes are well formed and the attribute signature covers them. -/
def AttributesOk (E : Env) (t : Tok) : Prop :=
  ∃ n, E.attrSize t.attributes = some n ∧
    E.verify t.attrSignature (E.hash (t.attributes.take n ++ t.signature)) t.publicKey = true

/-- A message intent announces how many messages it allows and has used, and has not used more than it allows. -/
def ThresholdOk (E : Env) (t : Tok) : Prop :=
  ∃ mx mg, E.attrGet t.attributes keyMax = some mx ∧ E.attrGet t.attributes keyMsg = some mg ∧
    (asUint E mg).toNat ≤ (asUint E mx).toNat

/-- Every flag of `want` is set in `have`. -/
def HasType (have_ want : TokType) : Prop := have_ &&& want = want

/-- Two token objects with the same content: they differ at most in their checking state. -/
def SameContent (a b : Tok) : Prop :=
  a.type = b.type ∧ a.uuid = b.uuid ∧ a.realm = b.realm ∧ a.issuer = b.issuer ∧ a.subject = b.subject ∧
  a.audience = b.audience ∧ a.issuedAt = b.issuedAt ∧ a.notBefore = b.notBefore ∧ a.expiresAt = b.expiresAt ∧
  a.publicKey = b.publicKey ∧ a.signature = b.signature ∧ a.attributes = b.attributes ∧
  a.attrSignature = b.attrSignature

/-- The fields the signature is meant to protect. -/
def SameSignedFields (a b : Tok) : Prop :=
  a.uuid = b.uuid ∧ a.realm = b.realm ∧ a.issuer = b.issuer ∧ a.subject = b.subject ∧ a.audience = b.audience ∧
  a.publicKey = b.publicKey ∧ a.issuedAt = b.issuedAt ∧ a.notBefore = b.notBefore ∧ a.expiresAt = b.expiresAt

/-- Field sizes of a token as the C structure enforces them. -/
structure Sized (t : Tok) : Prop where
  uuid : t.uuid.length = 16
  realm : t.realm.length ≤ 255
  issuer : t.issuer.length ≤ 65
  subject : t.subject.length ≤ 255
  audience : t.audience.length ≤ 255
  publicKey : t.publicKey.length = 32
  signature : t.signature.length = 64
  attrSignature : t.attrSignature.length = 64

/-- The text form of an id as tokens store it: empty, or the 64 hex digits of an id that is not zero. -/
def IdText (s : Bytes) : Prop := s = [] ∨ ∃ id : Bytes, id.length = 32 ∧ id ≠ zeroId ∧ s = idText id

/-- Realm, issuer and audience of the token are ids. -/
def IdFields (t : Tok) : Prop := IdText t.realm ∧ IdText t.issuer ∧ IdText t.audience

/-- What the model assumes of the functions it takes as parameters, where a theorem says so. The sizes are those of
libsodium; the attribute laws are those of a datablock of at most `attrInit.length` bytes whose header is part of the
counted bytes. -/
structure Lawful (E : Env) : Prop where
  hash_length : ∀ m, (E.hash m).length = 32
  sign_length : ∀ m sk, (E.sign m sk).length = 64
  size_le : ∀ a n, E.attrSize a = some n → n ≤ a.length
  /-- A datablock written over the front of an empty one is read as the same datablock. -/
  size_prefix : ∀ a n, E.attrSize a = some n → E.attrSize (a.take n ++ E.attrInit.drop n) = some n
  get_prefix : ∀ a n k, E.attrSize a = some n → E.attrGet (a.take n ++ E.attrInit.drop n) k = E.attrGet a k
  /-- There is room for one 96-byte value under a 64-byte key in an empty datablock. -/
  init_set_size : ∀ k v, k.length = 64 → v.length = 96 → ∃ n, E.attrSize (E.attrSetBin E.attrInit k v) = some n
  init_set_get : ∀ k v, k.length = 64 → v.length = 96 → E.attrGet (E.attrSetBin E.attrInit k v) k = some (.bin v)
  init_size : ∃ n, E.attrSize E.attrInit = some n

/-- A token that is not the node's own, and whose "already verified" flags are set only if it did verify.
Every received token is like this at all times (`C29_received_honest`). -/
structure Honest (E : Env) (t : Tok) : Prop where
  scope : t.scope > scopePrivateAvailable
  sig : t.sigVerified = true → SignatureOk E t
  attr : t.attrVerified = true → AttributesOk E t

end Np.Token.Spec
