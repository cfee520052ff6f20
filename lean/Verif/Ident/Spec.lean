import Verif.Ident.Model
import Verif.Token.Spec
/-! # What the properties of identity files mean -/
namespace Np.Ident.Spec
open Np.Ident
open Np.Token (UserTok)

/-- The two laws of an authenticated box: what was put in comes out again, and 16 bytes are added. -/
structure BoxOk (w : World) : Prop where
  opens : ∀ k n m, w.unbox k n (w.box k n m) = some m
  size : ∀ k n m, (w.box k n m).length = m.length + 16

/-- Every double is written as a half, single or double precision float that is read as the same double. -/
structure FloatsOk (F : Floats) : Prop where
  width : ∀ d, (F.enc d).1 = 25 ∧ (F.enc d).2 < 256 ^ 2 ∨ (F.enc d).1 = 26 ∧ (F.enc d).2 < 256 ^ 4 ∨ (F.enc d).1 = 27 ∧ (F.enc d).2 < 256 ^ 8
  back : ∀ d, F.dec (F.enc d).1 (F.enc d).2 = d

/-- The sizes of the fields of a `struct np_token`; the attributes in use are no more than there is room for. -/
structure Sized (E : Token.Env) (t : UserTok) : Prop where
  uuid : t.uuid.length = 16
  subject : t.subject.length ≤ 255
  issuer : t.issuer.length = 32
  realm : t.realm.length = 32
  audience : t.audience.length = 32
  publicKey : t.publicKey.length = 32
  secretKey : t.secretKey.length = 64
  signature : t.signature.length = 64
  attributes : t.attributes.length = 10240
  attrSignature : t.attrSignature.length = 64
  used : ∀ n, E.attrSize t.attributes = some n → n ≤ 10240

/-- A `struct np_token` of zeros. -/
def blank : UserTok :=
  { uuid := List.replicate 16 0#8, subject := [], issuer := Token.zeroId, realm := Token.zeroId, audience := Token.zeroId, issuedAt := 0,
    notBefore := 0, expiresAt := 0, publicKey := List.replicate 32 0#8, secretKey := List.replicate 64 0#8, signature := List.replicate 64 0#8,
    attributes := List.replicate 10240 0#8, attrSignature := List.replicate 64 0#8 }

/-- `b` has everything of `a` except the secret key: all fields, and of the attributes the part in use. -/
def SamePublic (E : Token.Env) (a b : UserTok) : Prop :=
  b.uuid = a.uuid ∧ b.subject = a.subject ∧ b.issuer = a.issuer ∧ b.realm = a.realm ∧ b.audience = a.audience ∧ b.issuedAt = a.issuedAt ∧
  b.notBefore = a.notBefore ∧ b.expiresAt = a.expiresAt ∧ b.publicKey = a.publicKey ∧ b.signature = a.signature ∧
  b.attrSignature = a.attrSignature ∧
  ∀ n, E.attrSize a.attributes = some n → b.attributes.take n = a.attributes.take n

/-- The directory exists. -/
def DirExists (s : St) (d : Nat) : Prop := ∃ x, (d, x) ∈ s.dirs

/-- The file of that name in the directory. -/
def St.file (s : St) (d : Nat) (n : Name) : Option File := Dir.get (s.dir d) n

/-- The directory a call works in: the one it was given if that exists, the current one otherwise. -/
def target (s : St) (d : Nat) : Nat := (s.chdir d).cwd

/-- One call of a program, with the world it meets. -/
inductive Call
  | saveToken (w : World) (dir : Nat) (pass : Bytes) (t : UserTok)
  | saveSecret (w : World) (dir : Nat) (pass : Bytes) (t : UserTok)
  | createSecret (w : World) (dir : Nat) (pass sk pk : Bytes)
  | loadToken (w : World) (dir : Nat) (fp pass : Bytes) (t : UserTok)
  | loadSecret (w : World) (dir : Nat) (pass identifier : Bytes) (t : UserTok)
  /-- The program changes its directory, or `errno` by other calls. -/
  | other (cwd : Nat) (noent : Bool)

def Call.world : Call → Option World
  | .saveToken w _ _ _ => some w
  | .saveSecret w _ _ _ => some w
  | .createSecret w _ _ _ _ => some w
  | .loadToken w _ _ _ _ => some w
  | .loadSecret w _ _ _ _ => some w
  | .other _ _ => none

/-- The state after the call. -/
def after (E : Token.Env) (s : St) : Call → Out St
  | .saveToken w d p t => match Ident.saveToken w E s d p t with | .ok (_, s') => .ok s' | .crash => .crash
  | .saveSecret w d p t => match Ident.saveSecret w E s d p t with | .ok (_, s') => .ok s' | .crash => .crash
  | .createSecret w d p sk pk => match Ident.createSecret w s d p sk pk with | .ok (_, s') => .ok s' | .crash => .crash
  | .loadToken w d fp p t => match Ident.loadToken w E s d fp p t with | .ok (_, s', _) => .ok s' | .crash => .crash
  | .loadSecret w d p i t => match Ident.loadSecret w E s d p i t with | .ok l => .ok l.st | .crash => .crash
  | .other c e => .ok { s.chdir c with noent := e }

/-- The state after a history of calls. -/
def history (E : Token.Env) (s : St) : List Call → Out St
  | [] => .ok s
  | c :: cs => match after E s c with | .ok s' => history E s' cs | .crash => .crash

/-- No call is made by a privileged process. -/
def Ordinary (cs : List Call) : Prop := ∀ c ∈ cs, ∀ w, c.world = some w → w.root = false

/-- The clock shows a later second at every call, all of them after second `t`. -/
def Ticking : Nat → List Call → Prop
  | _, [] => True
  | t, c :: cs => match c.world with | some w => t < w.now ∧ Ticking w.now cs | none => Ticking t cs

/-- Of the secret key files in the directory, the current one is the youngest, nobody may write it, and none is younger than `T`. -/
structure Orderly (T : Nat) (s : St) (d : Nat) : Prop where
  backups : ∀ k f, St.file s d (.backup k) = some f → k ≤ T ∧ ∀ g, St.file s d .npid = some g → k < g.changed
  current : ∀ g, St.file s d .npid = some g → g.changed ≤ T ∧ g.mayWrite = false

/-- The file is still there, under the same or another name. -/
def Kept (s s' : St) (d : Nat) : Prop :=
  ∀ n f, (n = .npid ∨ ∃ k, n = .backup k) → St.file s d n = some f → ∃ n', (n' = .npid ∨ ∃ k, n' = .backup k) ∧ St.file s' d n' = some f

/-- The directory a call is told to work in. -/
def Call.dir : Call → Option Nat
  | .saveToken _ d _ _ => some d
  | .saveSecret _ d _ _ => some d
  | .createSecret _ d _ _ _ => some d
  | .loadToken _ d _ _ _ => some d
  | .loadSecret _ d _ _ _ => some d
  | .other _ _ => none

end Np.Ident.Spec
