import Verif.Dhkey.Model
/-!
# Model of access tokens

Models `src/np_aaatoken.c`, `src/np_token_factory.c` (creation), and the token calls of `src/neuropil.c`.

Text fields are modelled as the bytes in front of the terminating NUL (all writers use `strncpy`, which fills the
rest of the field with zeros, or write `'\0'` behind the text; all readers use `strnlen`).
libsodium's hash and signature functions and the attribute datablock are parameters (`Env`).
Logging, reference counting and `free` are left out. Building with `NDEBUG` unset is assumed, so a failing `ASSERT`
aborts; `none` stands for abort or undefined behaviour.
-/
namespace Np.Token

abbrev Byte := BitVec 8
abbrev Bytes := List Byte

/-- A value read out of an attribute datablock (`np_data_value`, include/neuropil_data.h:46-60, with its type). -/
inductive Value where
  | int (v : BitVec 32)
  | uint (v : BitVec 32)
  | bin (b : Bytes)
  | str (b : Bytes)
deriving DecidableEq, Repr

/-- The external functions the token code calls. -/
structure Env where
  /-- `crypto_generichash` of libsodium over the concatenation of all `update` calls. -/
  hash : Bytes → Bytes
  /-- `crypto_sign_verify_detached(sig, msg, 32, pk) == 0`. The function returns 0 or -1 only. -/
  verify : (sig msg pk : Bytes) → Bool
  /-- `crypto_sign_detached(_, msg, 32, sk)`. -/
  sign : (msg sk : Bytes) → Bytes
  /-- `np_get_data_size(attributes)`, `none` if it does not return `np_data_ok`. -/
  attrSize : Bytes → Option Nat
  /-- `np_get_data(attributes, key)`, `none` if it does not return `np_data_ok`. -/
  attrGet : (attrs key : Bytes) → Option Value
  /-- `np_set_data(attributes, {.key, .type = BIN}, value)`; the attributes stay as they are if it fails. -/
  attrSetBin : (attrs key value : Bytes) → Bytes
  /-- The attributes after `np_init_datablock`. -/
  attrInit : Bytes
  /-- The low 32 bits of the union `np_data_value` when it holds a pointer or nothing. -/
  unionJunk : Value → BitVec 32

/-- `enum np_aaatoken_type`, include/np_aaatoken.h:82-89 (flags in one byte). -/
abbrev TokType := BitVec 8
def typeUndefined : TokType := 0x00
def typeIdentity : TokType := 0x01
def typeNode : TokType := 0x02
def typeHandshake : TokType := 0x04
def typeIntent : TokType := 0x10
def typeAccounting : TokType := 0x20

/-- `FLAG_CMP`, include/np_util.h:53. -/
def flagCmp (data flag : BitVec 8) : Bool := (data &&& flag) == flag

/-- `enum np_aaatoken_scope`, include/np_aaatoken.h:91-99. -/
def scopePrivate : Nat := 1
def scopePrivateAvailable : Nat := 2
def scopePublic : Nat := 3
def scopeUndefined : Nat := 4

/-- `enum np_aaastate_e`, include/np_aaatoken.h:56-62. -/
def aaaValid : BitVec 8 := 0x01
def aaaAuthenticated : BitVec 8 := 0x02
def aaaAuthorized : BitVec 8 := 0x04

/-- `np_aaatoken_t`, include/np_aaatoken.h:150-213. `issuerSecret` is `issuer_token->crypto.ed25519_secret_key`
(the token itself unless `__np_token_factory_derive` linked it to its source). Times are the bits of a `double`. -/
structure Tok where
  type : TokType
  scope : Nat
  uuid : Bytes
  realm : Bytes
  issuer : Bytes
  subject : Bytes
  audience : Bytes
  issuedAt : BitVec 64
  notBefore : BitVec 64
  expiresAt : BitVec 64
  publicKey : Bytes
  privateKeySet : Bool
  issuerSecret : Bytes
  state : BitVec 8
  signature : Bytes
  attributes : Bytes
  attrSignature : Bytes
  sigVerified : Bool
  attrVerified : Bool
  issuerVerified : Bool

/-! ## IEEE 754 comparison -/

/-- Not a number: exponent all ones, fraction not zero. -/
def isNaN (d : BitVec 64) : Bool := d.extractLsb' 52 11 == BitVec.allOnes 11 && d.extractLsb' 0 52 != 0#52

/-- Position of a double that is not NaN in the order of doubles: sign and magnitude. -/
def rank (d : BitVec 64) : Int :=
  if d.getLsbD 63 then -((d.extractLsb' 0 63).toNat : Int) else ((d.extractLsb' 0 63).toNat : Int)

/-- C's `a > b` on doubles: false if one of them is NaN. -/
def dgt (a b : BitVec 64) : Bool := !isNaN a && !isNaN b && decide (rank a > rank b)

/-- The bytes of a double in memory (little endian machine). -/
def doubleBytes (d : BitVec 64) : Bytes :=
  [d.extractLsb' 0 8, d.extractLsb' 8 8, d.extractLsb' 16 8, d.extractLsb' 24 8,
   d.extractLsb' 32 8, d.extractLsb' 40 8, d.extractLsb' 48 8, d.extractLsb' 56 8]

/-! ## Digests -/

/-- Everything `_np_aaatoken_get_hash` feeds to the hash function, in order, src/np_aaatoken.c:528-560.
`strnlen` stops at 255 (issuer: 65) bytes. -/
def hashInput (t : Tok) : Bytes :=
  t.uuid.take 16 ++ t.realm.take 255 ++ t.issuer.take 65 ++ t.subject.take 255 ++ t.audience.take 255 ++
  t.publicKey.take 32 ++ doubleBytes t.expiresAt ++ doubleBytes t.issuedAt ++ doubleBytes t.notBefore

/-- `_np_aaatoken_get_hash`, src/np_aaatoken.c:526-578. -/
def getHash (E : Env) (t : Tok) : Bytes := E.hash (hashInput t)

/-- `__np_aaatoken_get_attributes_hash`, src/np_aaatoken.c:963-995. `none`: `assert(c_ret == 0)` fails. -/
def attrHash (E : Env) (t : Tok) : Option Bytes :=
  match E.attrSize t.attributes with
  | none => none
  | some n => some (E.hash (t.attributes.take n ++ t.signature))

/-- Text of an id as bytes (`_np_dhkey_str`, `np_id_str`). -/
def idText (id : Bytes) : Bytes := (idStr id).map fun c => BitVec.ofNat 8 c.toNat

/-- The all-zero id. -/
def zeroId : Bytes := List.replicate 32 0#8

/-- `np_dhkey_create_from_hash`, src/np_dhkey.c:77-108: all zero unless the first 64 characters are hex digits. -/
def fromHash (text : Bytes) : Bytes :=
  if (text.take 64).length ≠ 64 then zeroId
  else match strId ((text.take 64).map fun b => Char.ofNat b.toNat) with
    | some id => id
    | none => zeroId

/-- `np_aaatoken_get_fingerprint`, src/np_aaatoken.c:274-308; `none`: the attribute hash asserts.
The detour over the hex text (lines 299-304) gives back the hash itself and is left out. -/
def fingerprint (E : Env) (t : Tok) (includeExtensions : Bool) : Option Bytes :=
  if includeExtensions then
    match attrHash E t with
    | none => none
    | some a => some (E.hash (getHash E t ++ t.signature ++ a))
  else some (E.hash (getHash E t ++ t.signature))

/-! ## Checking tokens -/

/-- `token->state &= AAA_INVALID`. -/
def invalidate (t : Tok) : Tok := { t with state := t.state &&& ~~~aaaValid }

/-- The member `unsigned_integer` of the union. -/
def asUint (E : Env) : Value → BitVec 32
  | .int v => v
  | .uint v => v
  | v => E.unionJunk v

/-- "max_threshold" / "msg_threshold". -/
def keyMax : Bytes := "max_threshold".toList.map fun c => BitVec.ofNat 8 c.toNat
def keyMsg : Bytes := "msg_threshold".toList.map fun c => BitVec.ofNat 8 c.toNat

/-- First signature check, src/np_aaatoken.c:367-417 and 774-823: verify unless done before. -/
def checkSignature (E : Env) (t : Tok) : Tok × Bool :=
  if t.sigVerified then (t, true)
  else if E.verify t.signature (getHash E t) t.publicKey then ({ t with sigVerified := true }, true)
  else (invalidate t, false)

/-- Attribute signature check, src/np_aaatoken.c:419-463 and 825-870. -/
def checkAttributes (E : Env) (t : Tok) : Tok × Bool :=
  if t.attrVerified then (t, true)
  else match attrHash E t with
    | none => (invalidate t, false)
    | some h =>
      if E.verify t.attrSignature h t.publicKey then ({ t with attrVerified := true }, true)
      else (invalidate t, false)

/-- Threshold check, src/np_aaatoken.c:471-510. -/
def checkThreshold (E : Env) (t : Tok) : Tok × Bool :=
  if flagCmp t.type typeIntent then
    match E.attrGet t.attributes keyMax, E.attrGet t.attributes keyMsg with
    | some mx, some mg => if (asUint E mg).toNat ≤ (asUint E mx).toNat then (t, true) else (invalidate t, false)
    | _, _ => (invalidate t, false)
  else (t, true)

/-- `_np_aaatoken_is_valid`, src/np_aaatoken.c:310-519 (release build: a wrong type gives false, a debug build
aborts). `now` is `np_time_now()`. -/
def isValid (E : Env) (now : BitVec 64) (t : Tok) (expected : TokType) : Tok × Bool :=
  if !flagCmp t.type expected then (invalidate t, false)
  else if dgt now t.expiresAt then (invalidate t, false)
  else
    let sigs : Tok × Bool :=
      if t.scope > scopePrivateAvailable then
        match checkSignature E t with
        | (t1, true) => checkAttributes E t1
        | (t1, false) => (t1, false)
      else (t, true)
    match sigs with
    | (t2, false) => (t2, false)
    | (t2, true) =>
      match checkThreshold E t2 with
      | (t3, false) => (t3, false)
      | (t3, true) => ({ t3 with state := t3.state ||| aaaValid }, true)

/-- `_np_aaatoken_verify_signature`, src/np_aaatoken.c:762-931. `none`: the value found under the issuer's name is
not a byte string of at least 96 bytes, and the code follows or reads behind a wild pointer. -/
def verifySignature (E : Env) (t : Tok) (signee : Option Tok) : Option (Tok × Bool) :=
  match checkSignature E t with
  | (t1, false) => some (t1, false)
  | (t1, true) =>
    match checkAttributes E t1 with
    | (t2, false) => some (t2, false)
    | (t2, true) =>
      match signee with
      | none => if t2.issuer ≠ [] then some (invalidate t2, false) else some (t2, true)
      | some s =>
        if t2.issuerVerified then some (t2, true)
        else if fromHash t2.issuer ≠ (E.hash (getHash E s ++ s.signature)) then some (invalidate t2, false)
        else if !flagCmp s.state aaaValid || !flagCmp s.state aaaAuthenticated then some (invalidate t2, false)
        else match E.attrGet t2.attributes t2.issuer with
          | none => some (invalidate t2, false)
          | some (.bin v) =>
            if v.length < 96 then none
            else if E.verify ((v.drop 32).take 64) (getHash E t2) (v.take 32)
            then some ({ t2 with issuerVerified := true }, true)
            else some (invalidate t2, false)
          | some _ => none

/-! ## Signing -/

/-- `_np_aaatoken_update_attributes_signature`, src/np_aaatoken.c:935-961. `none`: `ASSERT` fails. -/
def updateAttrSignature (E : Env) (t : Tok) : Option Tok :=
  if t.scope > scopePrivateAvailable then none
  else match attrHash E t with
    | none => none
    | some h => some { t with attrSignature := E.sign h t.issuerSecret }

/-- `_np_aaatoken_set_signature(self, NULL)`, src/np_aaatoken.c:659-694. -/
def signSelf (E : Env) (t : Tok) : Option Tok :=
  if t.scope > scopePrivateAvailable then none
  else updateAttrSignature E { t with signature := E.sign (getHash E t) t.issuerSecret }

/-- `_np_aaatoken_set_signature(self, signee)`, src/np_aaatoken.c:658-744: the signee's public key and signature go
into the attributes under the signee's fingerprint. `signeeSecret` is the signee's own secret key.
`none`: the signee holds no private key, or its fingerprint is not the issuer of the token (`ASSERT`).
`strncmp` over 64 characters ends early at a NUL in either text; the fingerprint text has none. -/
def signBy (E : Env) (t signee : Tok) (signeeSecret : Bytes) : Option Tok :=
  if !signee.privateKeySet then none
  else
    let fp := idText (E.hash (getHash E signee ++ signee.signature))
    if fp ≠ t.issuer.take 64 then none
    else some { t with
      attributes := E.attrSetBin t.attributes fp (signee.publicKey ++ E.sign (getHash E t) signeeSecret) }

/-! ## Wire form -/

/-- The values of the tree a token is written to. -/
inductive TreeVal where
  | ush (v : BitVec 8)
  | bin (b : Bytes)
  | str (b : Bytes)
  | dbl (d : BitVec 64)
deriving DecidableEq, Repr

/-- A tree with text keys: the entries in the order of insertion, at most one per key. -/
abbrev WireTree := List (String × TreeVal)

/-- `np_tree_replace_str`, src/util/np_tree.c:476-487. -/
def WireTree.replace (w : WireTree) (k : String) (v : TreeVal) : WireTree := (w.filter fun e => e.1 ≠ k) ++ [(k, v)]

/-- `np_tree_find_str`, src/util/np_tree.c:127-139. -/
def WireTree.find (w : WireTree) (k : String) : Option TreeVal := (w.find? fun e => e.1 == k).map (·.2)

/-- `_np_aaatoken_encode`, src/np_aaatoken.c:116-161. The token comes back too, because a private token gets a new
attribute signature. `none`: that signature asserts, or the attributes have no size (the C code then copies an
uninitialised number of bytes). -/
def encode (E : Env) (w : WireTree) (t : Tok) : Option (WireTree × Tok) :=
  match E.attrSize t.attributes with
  | none => none
  | some n =>
    match (if t.scope ≤ scopePrivateAvailable then updateAttrSignature E t else some t) with
    | none => none
    | some t' =>
      some ((((((((((((((w.replace "np.t.type" (.ush t.type)).replace "np.t.u" (.bin (t.uuid.take 16))).replace
        "np.t.r" (.str t.realm)).replace "np.t.i" (.str t.issuer)).replace "np.t.s" (.str t.subject)).replace
        "np.t.a" (.str t.audience)).replace "np.t.p" (.bin (t.publicKey.take 32))).replace
        "np.t.ex" (.dbl t.expiresAt)).replace "np.t.ia" (.dbl t.issuedAt)).replace "np.t.nb" (.dbl t.notBefore)).replace
        "np.t.si" (.bin (t.signature.take 64))).replace "np.t.e" (.bin (t.attributes.take n))).replace
        "np.t.sie" (.bin (t'.attrSignature.take 64))), t')

/-- `tmp->val.value.bin`; reading another union member is undefined. -/
def TreeVal.asBin : TreeVal → Option Bytes
  | .bin b => some b
  | _ => none
/-- `np_treeval_to_str` of a text value; other types are converted to a text, which is left out (`none`). -/
def TreeVal.asStr : TreeVal → Option Bytes
  | .str b => some b
  | _ => none
/-- `tmp->val.value.d`. -/
def TreeVal.asDbl : TreeVal → Option (BitVec 64)
  | .dbl d => some d
  | _ => none
/-- `tmp->val.value.ush`. -/
def TreeVal.asUsh : TreeVal → Option (BitVec 8)
  | .ush v => some v
  | _ => none

/-- `tmp->val.value.bin` where at least `n` bytes are copied; a shorter byte string is read behind its end. -/
def TreeVal.asBinAtLeast (n : Nat) (v : TreeVal) : Option Bytes :=
  match v.asBin with
  | some b => if b.length < n then none else some b
  | none => none

/-- One `if (ret && NULL != (tmp = np_tree_find_str(data, key))) … else ret = false` of `np_aaatoken_decode`.
`must`: the field is mandatory. `none`: undefined behaviour because of a value of the wrong type or length. -/
def field {α : Type} (w : WireTree) (k : String) (as : TreeVal → Option α) (must : Bool) (set : Tok → α → Tok)
    (x : Tok × Bool) : Option (Tok × Bool) :=
  if x.2 then
    match w.find k with
    | none => some (x.1, !must)
    | some v => (as v).map fun a => (set x.1 a, true)
  else some x

/-- `_np_aaatoken_update_scope`, src/np_aaatoken.c:263-272. -/
def updateScope (t : Tok) : Tok := { t with scope := if t.privateKeySet then scopePrivate else scopePublic }

/-- `memcpy(dst, src, n)` into the front of a buffer. -/
def overwrite (dst src : Bytes) : Bytes := src ++ dst.drop src.length

/-- The attributes and their signature, src/np_aaatoken.c:231-248: both or none. -/
def decodeAttrs (w : WireTree) (x : Tok × Bool) : Option (Tok × Bool) :=
  if x.2 && (w.find "np.t.e").isSome then
    (field w "np.t.e" TreeVal.asBin true
      (fun t v => { t with attributes := overwrite t.attributes (v.take t.attributes.length) }) x).bind
    (field w "np.t.sie" TreeVal.asBin true
      (fun t v => { t with attrSignature := overwrite t.attrSignature (v.take 64), attrVerified := false }))
  else some x

/-- `np_aaatoken_decode`, src/np_aaatoken.c:170-261: the token and the return value.
`keyOk` is whether libsodium can convert the public key (`np_cryptofactory_by_public`, src/np_crypto.c:172-203). -/
def decode (keyOk : Bytes → Bool) (w : WireTree) (t0 : Tok) : Option (Tok × Bool) := do
  let x ← field w "np.t.u" (TreeVal.asBinAtLeast 16) true (fun t u => { t with uuid := u.take 16 })
    ({ t0 with scope := scopeUndefined, type := typeUndefined }, true)
  let x ← field w "np.t.type" TreeVal.asUsh true (fun t v => { t with type := v }) x
  let x ← field w "np.t.r" TreeVal.asStr false (fun t v => { t with realm := v.take 255 }) x
  let x ← field w "np.t.i" TreeVal.asStr true (fun t v => { t with issuer := v.take 65 }) x
  let x ← field w "np.t.s" TreeVal.asStr true (fun t v => { t with subject := v.take 255 }) x
  let x ← field w "np.t.a" TreeVal.asStr false (fun t v => { t with audience := v.take 255 }) x
  let y ← field w "np.t.p" (TreeVal.asBinAtLeast 32) true (fun t v => { t with publicKey := v.take 32 }) x
  let x : Tok × Bool := (y.1, y.2 && keyOk y.1.publicKey)
  let x ← field w "np.t.ex" TreeVal.asDbl true (fun t v => { t with expiresAt := v }) x
  let x ← field w "np.t.ia" TreeVal.asDbl false (fun t v => { t with issuedAt := v }) x
  let x ← field w "np.t.nb" TreeVal.asDbl false (fun t v => { t with notBefore := v }) x
  let x ← field w "np.t.si" (TreeVal.asBinAtLeast 64) true
    (fun t v => { t with signature := v.take 64, sigVerified := false }) x
  let x ← decodeAttrs w x
  some (updateScope x.1, x.2)

/-- `_np_aaatoken_t_new`, src/np_aaatoken.c:49-107, with the random uuid, the current time and the random expiry as
arguments. -/
def freshTok (E : Env) (uuid : Bytes) (now expires : BitVec 64) : Tok :=
  { type := typeUndefined, scope := scopeUndefined, uuid := uuid, realm := [], issuer := [], subject := [],
    audience := [], issuedAt := now, notBefore := now, expiresAt := expires, publicKey := List.replicate 32 0,
    privateKeySet := false, issuerSecret := List.replicate 64 0, state := 0, signature := List.replicate 64 0,
    attributes := E.attrInit, attrSignature := List.replicate 64 0, sigVerified := false, attrVerified := false,
    issuerVerified := false }

/-! ## The user's view -/

/-- `struct np_token`, include/neuropil.h:165-178. -/
structure UserTok where
  uuid : Bytes
  subject : Bytes
  issuer : Bytes
  realm : Bytes
  audience : Bytes
  issuedAt : BitVec 64
  notBefore : BitVec 64
  expiresAt : BitVec 64
  publicKey : Bytes
  secretKey : Bytes
  signature : Bytes
  attributes : Bytes
  attrSignature : Bytes

/-- `np_aaatoken4user`, src/np_aaatoken.c:1059-1110. `secret` is the secret key of the token itself; attributes with a
broken header are not copied (an attribute size above the buffer is broken, too). -/
def toUser (E : Env) (dest : UserTok) (t : Tok) (secret : Bytes) (includeSecret : Bool) : UserTok :=
  { uuid := t.uuid, subject := t.subject.take 255, issuer := fromHash t.issuer, realm := fromHash t.realm,
    audience := fromHash t.audience, issuedAt := t.issuedAt, notBefore := t.notBefore, expiresAt := t.expiresAt,
    publicKey := t.publicKey, secretKey := if includeSecret && t.privateKeySet then secret else dest.secretKey,
    signature := t.signature,
    attributes := match E.attrSize t.attributes with
      | some n => if n ≤ t.attributes.length then t.attributes else dest.attributes
      | none => dest.attributes,
    attrSignature := t.attrSignature }

/-- The text field for an id: empty for the zero id (only the first 32 bytes of the field are cleared, which makes it
an empty text). -/
def idField (id : Bytes) : Bytes := if id = zeroId then [] else idText id

/-- `np_user4aaatoken`, src/np_aaatoken.c:1112-1163. Type, state, flags and keys of `dest` stay as they are. -/
def fromUser (dest : Tok) (u : UserTok) : Tok :=
  updateScope { dest with
    expiresAt := u.expiresAt, issuedAt := u.issuedAt, notBefore := u.notBefore, uuid := u.uuid,
    issuer := idField u.issuer, realm := idField u.realm, audience := idField u.audience,
    subject := u.subject.take 255, publicKey := u.publicKey, signature := u.signature, attributes := u.attributes,
    attrSignature := u.attrSignature }

/-- `np_token_factory_new_identity_token`, src/np_token_factory.c:433-485, up to the fields `np_user4aaatoken`
overwrites: type, private key flag, secret key. `secret` is the given or newly made secret key. -/
def newIdentity (E : Env) (uuid secret : Bytes) (now expires : BitVec 64) : Tok :=
  { freshTok E uuid now expires with
    type := typeIdentity, scope := scopePrivate, privateKeySet := true, issuerSecret := secret }

/-- `enum np_return`, include/neuropil.h. -/
inductive Ret where
  | ok | operationFailed | invalidArgument
deriving DecidableEq, Repr

/-- `np_verify_issuer`, src/neuropil.c:389-420. `n1`, `n2` are the tokens made by the factory for the two arguments. -/
def verifyIssuer (E : Env) (n1 n2 : Tok) (identity issuer : UserTok) : Option Ret :=
  let it := { fromUser n1 identity with state := aaaAuthenticated ||| aaaValid }
  let is := { fromUser n2 issuer with state := aaaAuthenticated ||| aaaValid }
  match verifySignature E it (some is) with
  | none => none
  | some (_, true) => some .ok
  | some (_, false) => some .operationFailed

/-- `np_sign_identity`, src/neuropil.c:351-387. `n` is the factory's token, which in the case `self_sign` carries the
identity's own secret key; `me` and `mySecret` are the node's identity. -/
def signIdentity (E : Env) (n : Tok) (me : Tok) (mySecret : Bytes) (identity : UserTok) (selfSign : Bool) :
    Option (Ret × UserTok) :=
  if selfSign && identity.secretKey.take 64 = List.replicate 64 0#8 then some (.invalidArgument, identity)
  else if selfSign then
    match signSelf E (fromUser n identity) with
    | none => none
    | some t => match updateAttrSignature E t with
      | none => none
      | some t' => some (.ok, toUser E identity t' identity.secretKey true)
  else
    match signBy E (fromUser n identity) me mySecret with
    | none => none
    | some t => some (.ok, toUser E identity t n.issuerSecret false)

/-- `np_use_token`, src/neuropil.c:451-495: the result and, on success, the token handed to the key state machine
together with the id it is stored under. The type of a newly made token is `undefined` and `np_user4aaatoken`
does not set it. -/
def useToken (E : Env) (now : BitVec 64) (n : Tok) (token : UserTok) : Ret × Option (Bytes × Tok) :=
  let it := fromUser n token
  match isValid E now it it.type with
  | (_, false) => (.invalidArgument, none)
  | (t, true) =>
    let t' := { t with state := aaaAuthenticated ||| aaaAuthorized }
    if t'.type = typeIdentity ∨ t'.type = typeNode then
      (.ok, some (E.hash (getHash E t' ++ t'.signature), t'))
    else if t'.type = typeIntent ∨ t'.type = typeAccounting then
      (.ok, some (fromHash t'.subject, t'))
    else (.invalidArgument, none)

/-! ## Histories of one received token -/

/-- What happens to a token object after it was read from the network: it is checked at some time against an expected
type, or its signatures are verified with or without an issuer token. -/
inductive Op where
  | check (now : BitVec 64) (expected : TokType)
  | verify (signee : Option Tok)

/-- One operation; `none` is undefined behaviour. -/
def step (E : Env) (t : Tok) : Op → Option Tok
  | .check now ty => some (isValid E now t ty).1
  | .verify s => (verifySignature E t s).map (·.1)

/-- A sequence of operations. -/
def run (E : Env) : Tok → List Op → Option Tok
  | t, [] => some t
  | t, o :: os => match step E t o with
    | none => none
    | some t' => run E t' os

end Np.Token
