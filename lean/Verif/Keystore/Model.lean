import Verif.Ident.Model
import Verif.Skip.Model
import Verif.Bloom.Model
/-!
# Model of the key store

Models `framework/identity/np_keystore.c` on top of the identity files (area Ident), the skip list (area Skip) and the filter (area Bloom).

Simplified: the global lock makes the calls one after the other; the file of the store is opened and mapped without error, and is new when
it is written; the copies of the tokens are the tokens.
-/
namespace Np.Keystore
open Np.Token (UserTok)
open Np.Ident (Bytes World St Ret Out fingerprint)

/-- What the key store uses: the environment of tokens, `crypto_kdf_derive_from_key` with the first 8 bytes of an id (the context and the
passphrase of a store are fixed), and `memcmp` of two fingerprints, as converted to `int8_t`. -/
structure Lib where
  env : Token.Env
  kdf : Bytes → Bytes
  mem : Bytes → Bytes → Int

/-- The global `__keystore`, np_keystore.c:36-57: files, directory, allowed identities, and the two filters. -/
structure Ks where
  files : St
  dir : Nat
  list : Skip.Sl UserTok
  allowed : Bloom.Nb
  denied : Bloom.Nb

/-- `memcpy` of a fingerprint into a key. -/
def keyOf (b : Bytes) : Dhkey :=
  let w := fun i => Dhkey.wordOf (b.getD (4 * i) 0#8) (b.getD (4 * i + 1) 0#8) (b.getD (4 * i + 2) 0#8) (b.getD (4 * i + 3) 0#8)
  { t0 := w 0, t1 := w 1, t2 := w 2, t3 := w 3, t4 := w 4, t5 := w 5, t6 := w 6, t7 := w 7 }

/-- `__compare_nptoken_by_fingerprint`, np_keystore.c:156-167. -/
def compare (K : Lib) (a b : UserTok) : Int := K.mem (fingerprint K.env a) (fingerprint K.env b)

/-- `np_keystore_init`, np_keystore.c:304-343. -/
def init (files : St) (dir : Nat) : Ks := { files := files, dir := dir, list := Skip.init, allowed := Bloom.Nb.create, denied := Bloom.Nb.create }

/-- `__map_nptoken_by_fingerprint`, np_keystore.c:183-205, over the items it is called with: it goes on behind a null pointer and stops at
the first token; what is found is the entry of the tree afterwards. -/
def scan (K : Lib) (fp : Bytes) : List (Option UserTok) → Option UserTok
  | [] => none
  | none :: r => scan K fp r
  | some y :: _ => if fp = fingerprint K.env y then some y else none

/-- `np_keystore_check_identity`, np_keystore.c:366-409.  `mr.cmp` is `__cmp_nptoken_by_fingerprint`, lines 169-177: the fingerprint that is
looked for comes first. -/
def check (K : Lib) (k : Ks) (t : UserTok) : Out Ret :=
  let fp := fingerprint K.env t
  if k.allowed.check (keyOf fp) && !k.denied.check (keyOf fp) then
    match Skip.map (fun y => decide (K.mem fp (fingerprint K.env y) < 0)) k.list with
    | none => .crash
    | some items =>
      match scan K fp items with
      | some y => .ok (if y.publicKey = t.publicKey then .ok else .unknownError)
      | none => .ok .unknownError
  else .ok .unknownError

/-- The end of `np_keystore_store_identity`, np_keystore.c:677-694; `z` is the random number of the skip list. -/
def insert (K : Lib) (k : Ks) (t : UserTok) (z : BitVec 31) : Out (Ret × Ks) :=
  match Skip.add (compare K) k.list t z with
  | none => .crash
  | some (false, l) => .ok (.invalidOperation, { k with list := l })
  | some (true, l) =>
    match k.allowed.add (keyOf (fingerprint K.env t)) with
    | none => .crash
    | some f => .ok (.ok, { k with list := l, allowed := f })

/-- `np_keystore_store_identity`, np_keystore.c:606-704.  The token that is loaded has the fingerprint that was asked for, the comparison of
lines 660-674 is left out. -/
def store (K : Lib) (w : World) (k : Ks) (t : UserTok) (z : BitVec 31) : Out (Ret × Ks) :=
  match check K k t with
  | .crash => .crash
  | .ok .ok => .ok (.ok, k)
  | .ok _ =>
    let fp := fingerprint K.env t
    let sub := K.kdf (fp.take 8)
    match Ident.saveToken w K.env k.files k.dir sub t with
    | .crash => .crash
    | .ok (.ok, f) => insert K { k with files := f } t z
    | .ok (_, f) =>
      match Ident.loadToken w K.env f k.dir fp sub
          { uuid := List.replicate 16 0#8, subject := [], issuer := Token.zeroId, realm := Token.zeroId, audience := Token.zeroId, issuedAt := 0,
            notBefore := 0, expiresAt := 0, publicKey := List.replicate 32 0#8, secretKey := List.replicate 64 0#8,
            signature := List.replicate 64 0#8, attributes := List.replicate 10240 0#8, attrSignature := List.replicate 64 0#8 } with
      | .crash => .crash
      | .ok (.ok, f', _) => insert K { k with files := f' } t z
      | .ok (_, f', _) => .ok (.invalidOperation, { k with files := f' })

/-- The fingerprints that `__np_keystore_save` puts into the file, np_keystore.c:242-255: those the map function is called with
(`__all_nptoken_by_fingerprint` always says -1; `__store_nptoken_fingerprint` stops at a null pointer). -/
def saved (K : Lib) (k : Ks) : Option (List Bytes) :=
  (Skip.map (fun _ => true) k.list).map fun items => (items.takeWhile (·.isSome)).filterMap fun i => i.map (fingerprint K.env)

/-- `__np_keystore_save`, np_keystore.c:224-298: does it succeed?  `c` is the encrypted content, 16 bytes longer than the ids. -/
def save (k : Ks) (nonce c : Bytes) : Bool :=
  if Skip.size k.list = 0 then true
  else (Ident.writeEncrypted (Skip.size k.list * 32 + (8 + 24) + 16) nonce c).isSome

end Np.Keystore
