import Verif.Inbox.Model

/-! # What a message has to be like, and what its receiver may rely on -/
namespace Np.Inbox.Spec

open Np.Inbox
open Np.Ser (Val Ents Wrap Lib)
open Np.Tree (Name Tree)

/-- A binary of at least `n` bytes. -/
def Holds (n : Nat) : Val → Prop
  | .bin b => n ≤ b.length
  | .hash b => n ≤ b.length
  | _ => False

/-- A text. -/
def Text : Val → Prop
  | .str _ => True
  | _ => False

/-- A text of two characters or more. -/
def LongText : Val → Prop
  | .str s => 2 ≤ (cText s).length
  | _ => False

/-- Each entry of a token that is there is of the right type and long enough. -/
structure GoodToken (es : Ents) : Prop where
  uuid : ∀ v, look (key "np.t.u") es = some v → Holds 16 v
  realm : ∀ v, look (key "np.t.r") es = some v → Text v
  issuer : ∀ v, look (key "np.t.i") es = some v → Text v
  subject : ∀ v, look (key "np.t.s") es = some v → LongText v
  audience : ∀ v, look (key "np.t.a") es = some v → Text v
  publicKey : ∀ v, look (key "np.t.p") es = some v → Holds 32 v
  signature : ∀ v, look (key "np.t.si") es = some v → Holds 64 v
  attributes : ∀ v, look (key "np.t.e") es = some v → Holds 0 v
  attributesSignature : ∀ v, look (key "np.t.sie") es = some v → Holds 0 v

/-- The subject of a token begins with the 64 hex digits of an id. -/
def NamesChannel (es : Ents) : Prop := ∀ s, look (key "np.t.s") es = some (.str s) → (strId (chars ((cText s).take 255))).isSome

/-- Each entry of a node that is there is a text where it has to be one. -/
structure GoodNode (es : Ents) : Prop where
  host : ∀ v, look (key "np.n.d") es = some v → Text v
  port : ∀ v, look (key "np.n.p") es = some v → Text v
  hostKey : ∀ v, look (key "np.n.k") es = some v → Text v

/-- The entry is a tree with this property. -/
def IsTree (P : Ents → Prop) (v : Val) : Prop := ∃ w es, v = .tree w es ∧ P es

/-- The body of a system message is as its senders write it. -/
def Proper : Kind → Tree Val → Prop
  | .ping, _ => True
  | .ack, _ => True
  | .piggy, t => ∀ i, i < t.size % 65536 → ∃ v, value t (.int (BitVec.ofNat 16 i)) = some v ∧ IsTree GoodNode v
  | .leave, t => ∀ v, value t urnNode = some v → IsTree GoodToken v
  | .join, t => (∀ v, value t urnNode = some v → IsTree GoodToken v) ∧ ∀ v, value t urnIdentity = some v → IsTree GoodToken v
  | .update, t => ∃ v, value t urnNode = some v ∧ IsTree GoodToken v
  | .availableSender, t => ∀ v, value t urnIntent = some v → IsTree (fun es => GoodToken es ∧ NamesChannel es) v
  | .availableReceiver, t => ∃ v, value t urnIntent = some v ∧ IsTree (fun es => GoodToken es ∧ NamesChannel es) v

/-- The partner attribute of a token has the size of an id. -/
def GoodPartners (J : Judge) : Prop := ∀ f b, J.partner f = some b → b.length = 32

/-- The token `f` is in the entry `n` of the message. -/
def Carries (W : World) (t : Tree Val) (n : Name) (f : Fields) : Prop :=
  ∃ w es, value t n = some (.tree w es) ∧ decode W es = .ok (some f)

/-- The effect is backed by the message: it concerns a token that the message carries and that is valid, of the type that is called for. -/
def Backed (W : World) (J : Judge) (t : Tree Val) : Act → Prop
  | .shutdown f => Carries W t urnNode f ∧ J.valid f 0 = true
  | .authenticate f => (Carries W t urnNode f ∧ J.valid f 2 = true ∨ Carries W t urnIdentity f ∧ J.valid f 1 = true)
  | .store f => Carries W t urnNode f ∧ J.valid f 2 = true
  | .intent _ id f => Carries W t urnIntent f ∧ J.valid f 0 = true ∧ strId (chars f.subject) = some id
  | .handshake f => Carries W t urnHandshake f ∧ J.valid f 4 = true
  | .introduce f => Carries W t urnNode f ∧ J.valid f 4 = true
  | .node _ => True

/-- The library reads a number from its own bytes only. -/
def ReadsOwn (lib : Lib) : Prop := ∀ b x v r, lib.read b = some (v, r) → lib.read (b ++ x) = some (v, r ++ x)

/-- Authenticated encryption: a text is what was encrypted, under the same key, nonce and additional data. -/
structure Authentic (A : Aead) : Prop where
  iff : ∀ k n a p c m, A.dec k n a c m = some p ↔ A.enc k n a p = (c, m)
  body : ∀ k n a p, (A.enc k n a p).1.length = p.length
  mac : ∀ k n a p, (A.enc k n a p).2.length = 16

end Np.Inbox.Spec
