import Verif.Stable.Model
/-! # What the properties of the stable filter mean -/
namespace Np.Stable.Spec
open Np.Stable
open Np.Token (Bytes Tok)

/-- The parts offered to a node one after the other: which are sent, and the filter afterwards. -/
def sendAll (G : Gen) (hash : Bytes → Dhkey) (f : Filter) : List Part → List Bool × Filter
  | [] => ([], f)
  | m :: ms =>
    let r := isNew G hash f m
    let s := sendAll G hash r.2 ms
    (r.1 :: s.1, s.2)

/-- Is the last part sent, after the others? -/
def sentAfter (G : Gen) (hash : Bytes → Dhkey) (s0 s1 : BitVec 64) (before : List Part) (m : Part) : Bool :=
  (isNew G hash (sendAll G hash (create s0 s1) before).2 m).1

/-- The next random numbers. -/
def draws (G : Gen) : Nat → Rng → List (BitVec 32)
  | 0, _ => []
  | n + 1, r => (G r).1 :: draws G n (G r).2

/-- A random number prunes a cell: it is one of the eight cells that start with it. -/
def Hits (c : Nat) (x : BitVec 32) : Prop := (c + (2048 - x.toNat % 2048)) % 2048 < 8

instance (c : Nat) (x : BitVec 32) : Decidable (Hits c x) := by unfold Hits; infer_instance

/-- The requests about tokens, one after the other. -/
structure Request where
  kind : Kind
  now : BitVec 64
  token : Tok

def askAll (G : Gen) (E : Token.Env) (hash : Bytes → Dhkey) (f : Filter) : List Request → List Bool × Filter
  | [] => ([], f)
  | q :: qs =>
    let r := isRequest G E hash f q.kind q.now q.token
    let s := askAll G E hash r.2 qs
    (r.1 :: s.1, s.2)

/-- Is the last request handled, after the others? -/
def handledAfter (G : Gen) (E : Token.Env) (hash : Bytes → Dhkey) (s0 s1 : BitVec 64) (before : List Request) (q : Request) : Bool :=
  (isRequest G E hash (askAll G E hash (create s0 s1) before).2 q.kind q.now q.token).1

end Np.Stable.Spec
