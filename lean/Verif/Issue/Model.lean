import Verif.Token.Model
import Verif.Data.Model
/-!
# Model of the tokens a node issues

`__np_token_factory_derive`, `_np_token_factory_new_message_intent_token`, `_np_token_factory_new_handshake_token`, `np_token_factory_get_public_ident_token` and
`np_token_factory_get_public_node_token` of src/np_token_factory.c, on top of the model of tokens (area Token).  As there, `none` stands for an abort.
-/
namespace Np.Issue
open _root_.Np.Token

/-- The functions on attributes that are used besides those of `Env`: `np_set_data` of a number and of bytes (`none`: it does not return `np_data_ok`), and `np_merge_data`,
whose result is ignored, src/neuropil_data.c:130-208 and src/neuropil_data.c:265-300 (area Data). -/
structure Ops where
  setUint : (attrs key : Bytes) → BitVec 32 → Option Bytes
  setBin : (attrs key value : Bytes) → Option Bytes
  merge : (attrs src : Bytes) → Bytes

/-- A text as bytes. -/
def txt (s : String) : Bytes := s.toList.map fun c => BitVec.ofNat 8 c.toNat

/-- What a new object brings along, src/np_aaatoken.c:84-95: random uuid, time and a random expiry. -/
structure Fresh where
  uuid : Bytes
  now : BitVec 64
  expires : BitVec 64

/-- `__np_token_factory_derive`, src/np_token_factory.c:79-159, for the scopes it is called with.  `keyOk`: the public key can be converted, src/np_crypto.c:172-203.  A
private token is its own issuer token, src/np_token_factory.c:74. -/
def derive (E : Env) (keyOk : Bytes → Bool) (x : Fresh) (src : Tok) (scope : Nat) : Option Tok :=
  if (scope = scopePrivateAvailable ∧ src.scope ≤ scopePrivate) ∨ (scope = scopePublic ∧ src.scope ≤ scopePrivateAvailable) then
    if keyOk src.publicKey then
      some { freshTok E x.uuid x.now x.expires with
        realm := src.realm.take 255, issuer := src.issuer.take 65, subject := src.subject.take 255, audience := src.audience.take 255,
        notBefore := src.notBefore, expiresAt := src.expiresAt, issuedAt := src.issuedAt, state := src.state, publicKey := src.publicKey, scope := scope, type := src.type,
        issuerSecret := if src.privateKeySet ∧ scope = scopePrivateAvailable then src.issuerSecret else List.replicate 64 0#8,
        attributes := src.attributes }
    else none
  else none

/-- The part of the configuration of a channel that goes into its intents. -/
structure Conf where
  subject : Bytes
  /-- The audience of a protected channel. -/
  audience : Option Bytes
  mep : BitVec 32
  ack : BitVec 32
  max : BitVec 32

/-- The three caches of attributes that are merged into an intent, src/np_token_factory.c:287-297, or into an identity, src/np_token_factory.c:174-184. -/
structure Caches where
  a : Bytes
  b : Bytes
  c : Bytes

/-- The fields of an intent that are signed, src/np_token_factory.c:222-247.  `me` is the id of the own identity; `now` the time, `ttl` the time plus the longest lifetime
of an intent of the channel. -/
def intentFields (E : Env) (t ident : Tok) (c : Conf) (me : Bytes) (now ttl : BitVec 64) : Tok :=
  { t with
    type := typeIntent, attributes := E.attrInit, subject := c.subject.take 254, issuer := idText me,
    audience := (match c.audience with
      | none => t.audience
      | some id => idText id ++ t.audience.drop 64),
    notBefore := now, expiresAt := if dgt ttl ident.expiresAt then ident.expiresAt else ttl }

/-- The attributes of an intent, src/np_token_factory.c:262-300 and src/np_aaatoken.c:602-608. -/
def intentAttrs (O : Ops) (a : Bytes) (c : Conf) (k : Caches) (node : Bytes) : Option Bytes := do
  let a ← O.setUint a (txt "mep_type") c.mep
  let a ← O.setUint a (txt "ack_mode") c.ack
  let a ← O.setUint a keyMax c.max
  let a ← O.setUint a keyMsg 0
  O.setBin (O.merge (O.merge (O.merge a k.a) k.b) k.c) (txt "_np.partner_fp") node

/-- `_np_token_factory_new_message_intent_token`, src/np_token_factory.c:213-307. -/
def newIntent (E : Env) (O : Ops) (keyOk : Bytes → Bool) (x : Fresh) (ident : Tok) (c : Conf) (k : Caches) (me node : Bytes) (now ttl : BitVec 64) : Option Tok := do
  let t ← derive E keyOk x ident scopePrivateAvailable
  let t ← signSelf E (intentFields E t ident c me now ttl)
  let t ← signBy E t ident ident.issuerSecret
  let a ← intentAttrs O t.attributes c k node
  updateAttrSignature E { t with state := aaaValid ||| aaaAuthenticated ||| aaaAuthorized, attributes := a }

/-- `_np_token_factory_new_handshake_token`, src/np_token_factory.c:309-405; `subject` names the interface (area Addr), `prio` is random; that there may be no room for it
is ignored. -/
def newHandshake (E : Env) (O : Ops) (keyOk : Bytes → Bool) (x : Fresh) (node : Tok) (subject : Bytes) (prio : BitVec 32) : Option Tok :=
  if flagCmp node.type typeNode ∧ node.scope = scopePrivate then do
    let t ← derive E keyOk x node scopePrivateAvailable
    let t ← signSelf E { t with
      type := typeHandshake, issuer := idText (E.hash (getHash E node ++ node.signature)), subject := subject.take 253,
      attributes := (O.setUint E.attrInit (txt "_np.hs.priority") prio).getD E.attrInit }
    updateAttrSignature E t
  else none

/-- `np_token_factory_get_public_ident_token`, src/np_token_factory.c:161-192. -/
def publicIdent (E : Env) (O : Ops) (keyOk : Bytes → Bool) (x : Fresh) (ident : Tok) (k : Caches) : Option Tok :=
  if flagCmp ident.type typeIdentity then do
    let t ← derive E keyOk x ident scopePrivateAvailable
    let t ← signSelf E { t with uuid := ident.uuid, attributes := O.merge (O.merge (O.merge t.attributes k.a) k.b) k.c }
    updateAttrSignature E t
  else none

/-- `np_token_factory_get_public_node_token`, src/np_token_factory.c:194-210: the only one that asks for a public token. -/
def publicNode (E : Env) (keyOk : Bytes → Bool) (x : Fresh) (node : Tok) : Option Tok :=
  if flagCmp node.type typeNode then do
    let t ← derive E keyOk x node scopePublic
    signSelf E t
  else none

/-- The functions on attributes of the library itself, src/neuropil_data.c:130-208 and src/neuropil_data.c:265-300, as modelled in area Data.  Where merging aborts, hangs
or leaves the memory the attributes stay as they are here; the theorems about these functions only say what happens before the merge. -/
def dataOps : Ops where
  setUint a k v := match Data.setData a k (.uint v) with
    | .ok (.ok, b) => some b
    | _ => none
  setBin a k v := match Data.setData a k (.bin v) with
    | .ok (.ok, b) => some b
    | _ => none
  merge a s := match Data.merge a s with
    | .ok (_, b) => b
    | .error _ => a

/-- `dest->max_threshold`, src/core/np_comp_msgproperty.c:1511-1513: what `max_parallel` of `np_set_mx_properties` becomes; 0 keeps the former value. -/
def maxFromUser (former : BitVec 32) (maxParallel : BitVec 8) : BitVec 32 := if 0 < maxParallel.toNat then maxParallel.setWidth 32 else former

end Np.Issue
