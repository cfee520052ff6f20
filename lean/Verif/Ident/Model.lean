import Verif.Cbor.Model
import Verif.Token.Model
/-!
# Model of the identity files

Models `framework/identity/np_identity.c` and the functions of `src/util/s11n_impl/np_serialize_qcbor.c` it writes and reads files with
(lines 1026-1541).  libsodium's secret box, the random nonce, the clock and the file system are parameters or part of the state; QCBOR is
an external library and modelled by its documentation.

Simplified: strings of indefinite length in a CBOR input are an error; the nesting limit of QCBOR is left out; logging, file descriptors
that are not closed, and the uninitialised `struct stat` that `__write_encrypted` hands to `localtime_r` when there is no file
(np_identity.c:64-78; the `rename` that follows fails) are left out; directory names are absolute.
-/
namespace Np.Ident
open Np.Cbor (head intItem readHead)
open Np.Token (UserTok)

abbrev Byte := BitVec 8
abbrev Bytes := List Byte

/-! ## Reading CBOR -/

/-- The conversions between a double and the shortest float that holds it (`QCBOREncode_AddDouble` and its inverse): how many bytes follow
the first one, as in `Cbor.following`, and the number they hold. -/
structure Floats where
  enc : BitVec 64 → Nat × Nat
  dec : Nat → Nat → BitVec 64

/-- The encoded item. -/
def dblItem (F : Floats) (d : BitVec 64) : Bytes :=
  Cbor.byte (7 * 32 + (F.enc d).1) :: Cbor.be (if (F.enc d).1 = 25 then 2 else if (F.enc d).1 = 26 then 4 else 8) (F.enc d).2

/-- A data item as the decoder sees it: an array or map is only its head. -/
inductive Elem
  | int (v : Int)
  | bytes (b : Bytes)
  | text (b : Bytes)
  | dbl (d : BitVec 64)
  | array (n : Nat)
  | map (n : Nat)
  | other
  deriving DecidableEq

/-- `QCBORDecode_GetNext`: the item, its innermost tag, the bytes behind.  At most four tags. -/
def look (F : Floats) : Nat → Option Nat → Bytes → Option (Elem × Option Nat × Bytes)
  | fuel, tag, b =>
    match readHead b with
    | none => none
    | some (m, n, r) =>
      if m = 0 then some (if n < 9223372036854775808 then .int n else .other, tag, r)
      else if m = 1 then if n < 9223372036854775808 then some (.int (-1 - n), tag, r) else none
      else if m = 2 then if r.length < n then none else some (.bytes (r.take n), tag, r.drop n)
      else if m = 3 then if r.length < n then none else some (.text (r.take n), tag, r.drop n)
      else if m = 4 then some (.array n, tag, r)
      else if m = 5 then some (.map n, tag, r)
      else if m = 6 then
        match fuel with
        | 0 => none
        | f + 1 => look F f (some n) r
      else
        let ai := (b.headD 0#8).toNat % 32
        some (if 25 ≤ ai ∧ ai ≤ 27 then .dbl (F.dec ai n) else .other, tag, r)

/-- How many items belong to the item whose head was read. -/
def inside : Elem → Nat
  | .array n => n
  | .map n => 2 * n
  | _ => 0

/-- Steps over `k` complete items. -/
def skipItems (F : Floats) : Nat → Nat → Bytes → Option Bytes
  | _, 0, b => some b
  | 0, _ + 1, _ => none
  | fuel + 1, k + 1, b =>
    match look F 4 none b with
    | none => none
    | some (e, _, r) => skipItems F fuel (k + inside e) r

/-- Enough fuel: every item has at least one byte. -/
def skip (F : Floats) (k : Nat) (b : Bytes) : Option Bytes := skipItems F (b.length + 1) k b

/-- One entry of a map: label, value, and the bytes behind the value's head. -/
abbrev Entry := Elem × Elem × Bytes

/-- The `n` entries of a map, and the bytes behind it. -/
def entries (F : Floats) : Nat → Bytes → Option (List Entry × Bytes)
  | 0, b => some ([], b)
  | n + 1, b =>
    match look F 4 none b with
    | none => none
    | some (l, _, r) =>
      match look F 4 none r with
      | none => none
      | some (v, _, r') =>
        match skip F (inside v) r' with
        | none => none
        | some r'' =>
          match entries F n r'' with
          | none => none
          | some (es, rest) => some ((l, v, r') :: es, rest)

/-- The outcome of a search in a map: nothing under the label, an error (two entries, wrong type), or the value. -/
inductive Found (α : Type)
  | missing
  | bad
  | ok (v : α)

/-- The values under a label. -/
def under (es : List Entry) (l : Elem) : List Elem := (es.filter fun e => e.1 = l).map (·.2.1)

/-- `QCBORDecode_GetByteStringInMapN`, `…SZ`. -/
def findBytes (es : List Entry) (l : Elem) : Found Bytes :=
  match under es l with
  | [] => .missing
  | [.bytes b] => .ok b
  | _ => .bad

/-- `QCBORDecode_GetTextStringInMapN`. -/
def findText (es : List Entry) (l : Elem) : Found Bytes :=
  match under es l with
  | [] => .missing
  | [.text b] => .ok b
  | _ => .bad

/-- `QCBORDecode_GetDoubleInMapN`. -/
def findDbl (es : List Entry) (l : Elem) : Found (BitVec 64) :=
  match under es l with
  | [] => .missing
  | [.dbl d] => .ok d
  | _ => .bad

/-- `QCBORDecode_GetInt64InMapN`. -/
def findInt (es : List Entry) (l : Elem) : Found Int :=
  match under es l with
  | [] => .missing
  | [.int v] => .ok v
  | _ => .bad

/-- What a call can end with instead of returning: memory outside an object is read or written. -/
inductive Out (α : Type)
  | ok (v : α)
  | crash
  deriving DecidableEq

/-! ## Token bytes -/

def textBytes (s : String) : Bytes := s.toList.map fun c => BitVec.ofNat 8 c.toNat

def bytesItem (b : Bytes) : Bytes := head 2 b.length ++ b
def textItem (b : Bytes) : Bytes := head 3 b.length ++ b

/-- One entry of a map on the way out. -/
def entryN (l : Int) (v : Bytes) : Bytes := intItem l ++ v
def entryS (l : String) (v : Bytes) : Bytes := textItem (textBytes l) ++ v

/-- `memcmp(id, null_block, 32) != 0`: the entry is written only then, np_serialize_qcbor.c:1041-1047, 1054-1059, 1077-1082. -/
def idEntry (id entry : Bytes) : List Bytes := if id = Token.zeroId then [] else [entry]

/-- A map of the given entries: `QCBOREncode_OpenMap` … `QCBOREncode_CloseMap`. -/
def mapItem (es : List Bytes) : Bytes := head 5 es.length ++ es.flatten

/-- The first map of `np_serializer_write_nptoken`, np_serialize_qcbor.c:1041-1092. -/
def tokenEntries (F : Floats) (E : Token.Env) (t : UserTok) : List Bytes :=
  idEntry t.issuer (entryN 1 (bytesItem t.issuer)) ++ [entryN 2 (textItem (t.subject.take 255))] ++
  idEntry t.audience (entryN 3 (bytesItem t.audience)) ++
  [entryN 6 (dblItem F t.expiresAt), entryN 5 (dblItem F t.notBefore), entryN 4 (dblItem F t.issuedAt), entryN 7 (bytesItem (t.uuid.take 16))] ++
  idEntry t.realm (entryS "np:realm" (bytesItem t.realm)) ++
  [entryS "np:attr" (bytesItem (t.attributes.take ((E.attrSize t.attributes).getD 0))), entryS "np:pk" (bytesItem (t.publicKey.take 32))]

/-- The second map, with the signatures, np_serialize_qcbor.c:1107-1122. -/
def signatureEntries (t : UserTok) : List Bytes :=
  [entryN 1 (bytesItem (t.signature.take 64)), entryN 2 (bytesItem (t.attrSignature.take 64))]

/-- `np_serializer_write_nptoken`, np_serialize_qcbor.c:1026-1131: `none` if the buffer of `cap` bytes is too small.  98 is
`CBOR_TAG_COSE_SIGN`. -/
def writeToken (F : Floats) (E : Token.Env) (cap : Nat) (t : UserTok) : Option Bytes :=
  let a := head 6 98 ++ mapItem (tokenEntries F E t)
  let b := mapItem (signatureEntries t)
  if cap < a.length then none else if cap - a.length < b.length then none else some (a ++ b)

/-- The optional ids of `np_serializer_read_nptoken`, np_serialize_qcbor.c:1155-1163, 1171-1179, 1203-1211: 32 bytes are copied whatever
the length of the element is. -/
def readId (old : Bytes) (f : Found Bytes) : Out Bytes :=
  match f with
  | .ok b => if b.length < 32 then .crash else .ok (b.take 32)
  | _ => .ok old

/-- The signatures, np_serialize_qcbor.c:1238-1271. -/
def readSignatures (F : Floats) (b : Bytes) (t : UserTok) : UserTok × Bool :=
  match look F 4 none b with
  | some (.map n, _, r) =>
    match entries F n r with
    | none => (t, false)
    | some (es, _) =>
      match findBytes es (.int 1) with
      | .ok s =>
        if s.length ≠ 64 then (t, false)
        else
          match findBytes es (.int 2) with
          | .ok a => if a.length ≠ 64 then ({ t with signature := s }, false) else ({ t with signature := s, attrSignature := a }, true)
          | _ => ({ t with signature := s }, false)
      | _ => (t, false)
  | _ => (t, false)

/-- The rest of the first map, from the attributes on, np_serialize_qcbor.c:1213-1236. -/
def readBody (F : Floats) (es : List Entry) (rest : Bytes) (t : UserTok) : Out (UserTok × Bool) :=
  match findBytes es (.text (textBytes "np:attr")) with
  | .ok a =>
    if 10240 < a.length then .crash
    else
      let t := { t with attributes := Token.overwrite t.attributes a }
      match findBytes es (.text (textBytes "np:pk")) with
      | .ok k => if k.length ≠ 32 then .ok (t, false) else .ok (readSignatures F rest { t with publicKey := k })
      | _ => .ok (t, false)
  | _ => .ok (t, false)

/-- The times and the uuid, np_serialize_qcbor.c:1180-1194: an error of one of the times makes every later call fail. -/
def readTimes (F : Floats) (es : List Entry) (rest : Bytes) (t : UserTok) : Out (UserTok × Bool) :=
  match findDbl es (.int 6) with
  | .ok x =>
    match findDbl es (.int 5) with
    | .ok y =>
      match findDbl es (.int 4) with
      | .ok z =>
        let t := { t with expiresAt := x, notBefore := y, issuedAt := z }
        match findBytes es (.int 7) with
        | .ok u =>
          if u.length < 16 then .crash
          else
            let t := { t with uuid := u.take 16 }
            match readId t.realm (findBytes es (.text (textBytes "np:realm"))) with
            | .crash => .crash
            | .ok r => readBody F es rest { t with realm := r }
        | _ => .ok (t, false)
      | _ => .ok ({ t with expiresAt := x, notBefore := y }, false)
    | _ => .ok ({ t with expiresAt := x }, false)
  | _ => .ok (t, false)

/-- `np_serializer_read_nptoken`, np_serialize_qcbor.c:1133-1272: the token is changed as far as reading got. -/
def readToken (F : Floats) (b : Bytes) (t : UserTok) : Out (UserTok × Bool) :=
  match look F 4 none b with
  | some (.map n, some 98, r) =>
    match entries F n r with
    | none => .ok (t, false)
    | some (es, rest) =>
      match readId t.issuer (findBytes es (.int 1)) with
      | .crash => .crash
      | .ok i =>
        let t := { t with issuer := i }
        match findText es (.int 2) with
        | .ok s =>
          let t := { t with subject := Token.overwrite t.subject (s.take 255) }
          match readId t.audience (findBytes es (.int 3)) with
          | .crash => .crash
          | .ok a => readTimes F es rest { t with audience := a }
        | _ => .ok (t, false)
  | _ => .ok (t, false)

/-! ## Key bytes -/

/-- `np_serializer_write_ed25519`, np_serialize_qcbor.c:1284-1345.  `some` of nothing that does not fit into the buffer. -/
def writeKey (cap : Nat) (sk pk : Bytes) (includeSecret : Bool) (identifier : Bytes) : Option Bytes :=
  let b := mapItem ([entryN 1 (intItem 1)] ++ idEntry identifier (entryN 2 (bytesItem identifier)) ++
    [entryN 4 (head 4 2 ++ (head 0 1 ++ head 0 2)), entryN (-1) (intItem 6)] ++ idEntry (pk.take 32) (entryN (-2) (bytesItem (pk.take 32))) ++
    (if includeSecret then idEntry (sk.take 32) (entryN (-4) (bytesItem (sk.take 32))) else []))
  if cap < b.length then none else some b

/-- The entry behind the one with label 4, which has to be an array that begins with 1 and 2, np_serialize_qcbor.c:1388-1404. -/
def curveOk (F : Floats) (es : List Entry) : Bool :=
  match under es (.int 4), es.dropWhile (fun e => e.1 ≠ .int 4) with
  | [.array n], (_, _, body) :: (_, v, _) :: _ =>
    2 ≤ n && v = .int 6 &&
    (match look F 4 none body with
     | some (.int 1, _, r) => (match look F 4 none r with | some (.int 2, _, _) => true | _ => false)
     | _ => false)
  | _, _ => false

/-- What `np_serializer_read_ed25519` fills in. -/
structure KeyOut where
  identifier : Bytes
  sk : Bytes
  pk : Bytes

/-- The public part, np_serialize_qcbor.c:1406-1421. -/
def readPk (k : KeyOut) (f : Found Bytes) : Out (KeyOut × Bool) :=
  match f with
  | .ok b => if b.length < 32 then .crash else .ok ({ k with pk := b.take 32, sk := k.sk.take 32 ++ b.take 32 }, true)
  | _ => .ok (k, false)

/-- The secret part, np_serialize_qcbor.c:1423-1433. -/
def readSk (k : KeyOut) (f : Found Bytes) : Out (KeyOut × Bool) :=
  match f with
  | .ok b => if b.length < 32 then .crash else .ok ({ k with sk := b.take 32 ++ k.sk.drop 32 }, true)
  | _ => .ok (k, false)

/-- `np_serializer_read_ed25519`, np_serialize_qcbor.c:1347-1446. -/
def readKey (F : Floats) (b : Bytes) (k : KeyOut) : Out (KeyOut × Bool) :=
  match look F 4 none b with
  | some (.map n, _, r) =>
    match entries F n r with
    | none => .ok (k, false)
    | some (es, _) =>
      match findInt es (.int 1) with
      | .ok v =>
        if v ≠ 1 then .ok (k, false)
        else
          match readId k.identifier (findBytes es (.int 2)) with
          | .crash => .crash
          | .ok i =>
            let k := { k with identifier := i }
            if curveOk F es then
              match readPk k (findBytes es (.int (-2))) with
              | .crash => .crash
              | .ok (k, p) =>
                match readSk k (findBytes es (.int (-4))) with
                | .crash => .crash
                | .ok (k, s) => .ok (k, p || s)
            else .ok (k, false)
      | _ => .ok (k, false)
  | _ => .ok (k, false)

/-! ## Encrypted bytes -/

/-- `np_serializer_write_encrypted`, np_serialize_qcbor.c:1448-1487.  16 is `CBOR_TAG_COSE_ENCRYPT0`. -/
def writeEncrypted (cap : Nat) (nonce m : Bytes) : Option Bytes :=
  let b := head 6 16 ++ (head 4 3 ++ (bytesItem [] ++ (mapItem [entryN 6 (bytesItem nonce)] ++ bytesItem m)))
  if cap < b.length then none else some b

/-- `np_serializer_read_encrypted`, np_serialize_qcbor.c:1489-1540: nonce and content.  Simplified: an array or a map in the place of the
empty byte string is an error. -/
def readEncrypted (F : Floats) (b : Bytes) (cap : Nat) : Option (Bytes × Bytes) :=
  match look F 4 none b with
  | some (.array n, some 16, r) =>
    match look F 4 none r with
    | none => none
    | some (e, _, r1) =>
      if inside e ≠ 0 then none
      else
        match look F 4 none r1 with
        | some (.map m, _, r2) =>
          match entries F m r2 with
          | none => none
          | some (es, r3) =>
            match findBytes es (.int 6) with
            | .ok nonce =>
              if nonce.length ≠ 24 then none
              else
                match look F 4 none r3 with
                | some (.bytes c, _, r4) =>
                  if n < 3 ∨ cap < c.length then none
                  else match skip F (n - 3) r4 with
                    | none => none
                    | some _ => some (nonce, c)
                | _ => none
            | _ => none
        | _ => none
  | _ => none

/-! ## Files -/

/-- The names of the files: `.npid`, its backups `.npid.<time>`, and `np:npt:<fingerprint>` (the text of an id determines the id, C04). -/
inductive Name
  | npid
  | backup (second : Nat)
  | token (fp : Bytes)
  deriving DecidableEq

/-- A file: its bytes, whether its owner may read and write it, and the second it was changed. -/
structure File where
  content : Bytes
  mayRead : Bool
  mayWrite : Bool
  changed : Nat
  deriving DecidableEq

abbrev Dir := List (Name × File)

/-- The process: the directories that exist, the current one, and whether `errno` is `ENOENT`. -/
structure St where
  dirs : List (Nat × Dir)
  cwd : Nat
  noent : Bool

/-- The world during one call: is the process privileged, can a file be created, how many bytes can be written, the time, the random
nonce; and libsodium's secret box (`crypto_secretbox_easy`, `crypto_secretbox_open_easy`). -/
structure World where
  floats : Floats
  root : Bool
  creat : Bool
  disk : Nat
  now : Nat
  nonce : Bytes
  box : Bytes → Bytes → Bytes → Bytes
  unbox : Bytes → Bytes → Bytes → Option Bytes

/-- `enum np_return`. -/
inductive Ret | ok | unknownError | invalidArgument | invalidOperation
  deriving DecidableEq

def St.dir (s : St) (d : Nat) : Dir := ((s.dirs.find? fun e => e.1 = d).map (·.2)).getD []

def St.setDir (s : St) (d : Nat) (x : Dir) : St := { s with dirs := s.dirs.map fun e => if e.1 = d then (d, x) else e }

/-- `chdir`: without effect if there is no such directory (the result is not looked at); the failure sets `errno` to `ENOENT`. -/
def St.chdir (s : St) (d : Nat) : St := if s.dirs.any fun e => e.1 = d then { s with cwd := d } else { s with noent := true }

def Dir.get (x : Dir) (n : Name) : Option File := (x.find? fun e => e.1 = n).map (·.2)
def Dir.del (x : Dir) (n : Name) : Dir := x.filter fun e => e.1 ≠ n
def Dir.put (x : Dir) (n : Name) (f : File) : Dir := (n, f) :: Dir.del x n

/-- `stat` and the backup, np_identity.c:63-87: `errno` is looked at without looking at the result of `stat`, and a successful `stat`
leaves it as it was. -/
def makeBackup (s : St) (name : Name) : St :=
  match Dir.get (s.dir s.cwd) name with
  | none => { s with noent := true }
  | some f =>
    if s.noent ∧ name = .npid then s.setDir s.cwd (Dir.put (Dir.del (s.dir s.cwd) name) (.backup f.changed) f)
    else s

/-- `open(filename, O_CREAT | O_RDWR, S_IRUSR)`, np_identity.c:90: the file there was, or a new one that nobody may write; `none` if it
fails. -/
def openFile (w : World) (x : Dir) (name : Name) : Option File :=
  match Dir.get x name with
  | some f => if w.root ∨ (f.mayRead ∧ f.mayWrite) then some f else none
  | none => if w.creat then some { content := [], mayRead := true, mayWrite := false, changed := w.now } else none

/-- `__write_encrypted`, np_identity.c:56-108: the file is not cut off behind the new content. -/
def writeFile (w : World) (s : St) (name : Name) (nonce buf : Bytes) : Ret × St :=
  let s := makeBackup s name
  match openFile w (s.dir s.cwd) name with
  | none => (.invalidOperation, { s with noent := false })
  | some f =>
    match writeEncrypted (buf.length + 48) nonce buf with
    | none => (.invalidOperation, s.setDir s.cwd (Dir.put (s.dir s.cwd) name f))
    | some b =>
      let out := b.take w.disk
      let s := s.setDir s.cwd (Dir.put (s.dir s.cwd) name { f with content := Token.overwrite f.content out, changed := w.now })
      (if out.length = b.length then .ok else .invalidOperation, s)

/-- `__read_encrypted`, np_identity.c:110-134: the size of the caller's buffer (`cap`) is overwritten with the size of the file. -/
def readFile (w : World) (s : St) (name : Name) (cap : Nat) : Out (Option (Bytes × Bytes)) × St :=
  match Dir.get (s.dir s.cwd) name with
  | none => (.ok none, { s with noent := true })
  | some f =>
    if w.root ∨ f.mayRead then
      match readEncrypted w.floats f.content f.content.length with
      | none => (.ok none, s)
      | some (nonce, c) => if cap < c.length then (.crash, s) else (.ok (some (nonce, c)), s)
    else (.ok none, { s with noent := false })

def zeroKey : Bytes := List.replicate 32 0#8

/-! ## The calls -/

/-- `np_token_fingerprint`, src/neuropil.c:422-449, without attributes: the fields of the factory's token that enter the digest are all
overwritten. -/
def fingerprint (E : Token.Env) (t : UserTok) : Bytes :=
  let n := Token.fromUser (Token.freshTok E [] 0 0) t
  E.hash (Token.getHash E n ++ n.signature)

/-- The size of the buffer for tokens, `sizeof(struct np_token) + NP_FINGERPRINT_BYTES`, np_identity.c:307, 373 (include/neuropil.h:170-183,
packed). -/
def tokenCap : Nat := 16 + 255 + 3 * 32 + 3 * 8 + 32 + 64 + 64 + 10240 + 64 + 32

/-- `np_identity_save_token`, np_identity.c:355-431. -/
def saveToken (w : World) (E : Token.Env) (s : St) (dir : Nat) (pass : Bytes) (t : UserTok) : Out (Ret × St) :=
  if pass = zeroKey then .ok (.invalidArgument, s)
  else
    match writeToken w.floats E tokenCap t with
    | none => .ok (.unknownError, s)
    | some b =>
      if tokenCap < (w.box pass w.nonce b).length then .crash
      else
        let back := s.cwd
        let r := writeFile w (s.chdir dir) (.token (fingerprint E t)) w.nonce (w.box pass w.nonce b)
        .ok (if r.1 = .ok then .ok else .unknownError, r.2.chdir back)

/-- `np_identity_load_token`, np_identity.c:296-352.  `np_use_token` and `np_use_identity` get the token and their results are ignored; they
are left out. -/
def loadToken (w : World) (E : Token.Env) (s : St) (dir : Nat) (fp pass : Bytes) (t : UserTok) : Out (Ret × St × UserTok) :=
  if pass = zeroKey then .ok (.invalidArgument, s, t)
  else
    let back := s.cwd
    match readFile w (s.chdir dir) (.token fp) tokenCap with
    | (.crash, _) => .crash
    | (.ok none, s) => .ok (.unknownError, s.chdir back, t)
    | (.ok (some (nonce, c)), s) =>
      let s := s.chdir back
      match w.unbox pass nonce c with
      | none => .ok (.unknownError, s, t)
      | some m =>
        match readToken w.floats m t with
        | .crash => .crash
        | .ok (t, false) => .ok (.unknownError, s, t)
        | .ok (t, true) => .ok (if fingerprint E t = fp then .ok else .invalidArgument, s, t)

/-- The common part of `np_identity_save_secretkey` and `np_identity_create_secretkey`, np_identity.c:204-245, 254-294. -/
def saveKey (w : World) (s : St) (dir : Nat) (pass sk pk identifier : Bytes) : Out (Ret × St) :=
  match writeKey 512 sk pk true identifier with
  | none => .ok (.unknownError, s)
  | some b =>
    if 512 < (w.box pass w.nonce b).length then .crash
    else
      let back := s.cwd
      let r := writeFile w (s.chdir dir) .npid w.nonce (w.box pass w.nonce b)
      .ok (if r.1 = .ok then .ok else .unknownError, r.2.chdir back)

/-- `np_identity_save_secretkey`, np_identity.c:247-294. -/
def saveSecret (w : World) (E : Token.Env) (s : St) (dir : Nat) (pass : Bytes) (t : UserTok) : Out (Ret × St) :=
  if pass = zeroKey then .ok (.invalidArgument, s) else saveKey w s dir pass t.secretKey t.publicKey (fingerprint E t)

/-- `np_identity_create_secretkey`, np_identity.c:191-245, for a key pair `np_new_identity` made: the identifier is zero. -/
def createSecret (w : World) (s : St) (dir : Nat) (pass sk pk : Bytes) : Out (Ret × St) :=
  if pass = zeroKey then .ok (.invalidArgument, s) else saveKey w s dir pass sk pk Token.zeroId

/-- What `np_identity_load_secretkey` leaves behind. -/
structure Loaded where
  ret : Ret
  st : St
  identifier : Bytes
  tok : UserTok

/-- `np_sign_identity(context, identity, true)`, through `Token.signIdentity`. -/
def signSelf (E : Token.Env) (t : UserTok) : Out (Ret × UserTok) :=
  let n := Token.newIdentity E [] t.secretKey 0 t.expiresAt
  match Token.signIdentity E n n t.secretKey t true with
  | none => .crash
  | some (.ok, t) => .ok (.ok, t)
  | some (_, t) => .ok (.invalidArgument, t)

/-- `np_identity_load_secretkey`, np_identity.c:136-189: if the file cannot be read the call returns from the other directory. -/
def loadSecret (w : World) (E : Token.Env) (s : St) (dir : Nat) (pass identifier : Bytes) (t : UserTok) : Out Loaded :=
  if pass = zeroKey then .ok { ret := .invalidArgument, st := s, identifier := identifier, tok := t }
  else
    let back := s.cwd
    match readFile w (s.chdir dir) .npid 512 with
    | (.crash, _) => .crash
    | (.ok none, s) => .ok { ret := .unknownError, st := s, identifier := identifier, tok := t }
    | (.ok (some (nonce, c)), s) =>
      let s := s.chdir back
      match w.unbox pass nonce c with
      | none => .ok { ret := .unknownError, st := s, identifier := identifier, tok := t }
      | some m =>
        match readKey w.floats m { identifier := identifier, sk := t.secretKey, pk := t.publicKey } with
        | .crash => .crash
        | .ok (k, false) =>
          .ok { ret := .unknownError, st := s, identifier := k.identifier, tok := { t with secretKey := k.sk, publicKey := k.pk } }
        | .ok (k, true) =>
          match signSelf E { t with secretKey := k.sk, publicKey := k.pk } with
          | .crash => .crash
          | .ok (r, t) => .ok { ret := r, st := s, identifier := k.identifier, tok := t }

end Np.Ident
