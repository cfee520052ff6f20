import Verif.Search.Model

/-!
# What is expected of the search node
-/
namespace Np.Search.Spec

/-- A prime number. -/
def Prime (p : Nat) : Prop := 2 ≤ p ∧ ∀ d, d ∣ p → d = 1 ∨ d = p

/-- The bits of a key from the left, `t[0]` first. -/
def bit (k : Dhkey) (b : Nat) : Bool := (k.words.getD (b / 32) 0).getLsbD (31 - b % 32)

/-- In how many bits the words with number `j` of two keys differ. -/
def wordDiff (a b : Dhkey) (j : Nat) : Nat :=
  (List.range 32).countP fun i => (a.words.getD j 0).getLsbD i != (b.words.getD j 0).getLsbD i

/-- In how many of the 256 bits two keys differ. -/
def keyDiff (a b : Dhkey) : Nat := ((List.range 8).map (wordDiff a b)).sum

/-- What can happen to a search node: the application adds an entry, asks, collects results; other nodes send queries, entries and results; time
passes.  `remote`: to how many peers the object was sent. -/
inductive Op
  | add (e : Entry) (remote : Nat)
  | ask (uuid : Nat) (target : Nat × Nat) (index : Dhkey) (filter : Filter) (remote now : Nat)
  | remoteQuery (q : Option Query) (remote : Nat)
  | remoteEntry (e : Option Entry) (remote : Nat)
  | receive (uuid id : Nat) (e : Entry)
  | collect (uuid id now : Nat)
  | cleanup (now : Nat)

def step (n : Node) : Op → Except Fault Node
  | .add e r => n.add e r
  | .ask u t i f r now => n.ask u t i f r now
  | .remoteQuery q r => (n.remoteQuery q r).map Prod.fst
  | .remoteEntry e r => n.remoteEntry e r
  | .receive u i e => n.receive u i e
  | .collect u i now => (n.collect u i now).map Prod.fst
  | .cleanup now => .ok (n.cleanup now)

def run (n : Node) : List Op → Except Fault Node
  | [] => .ok n
  | o :: r =>
    match step n o with
    | .error f => .error f
    | .ok n' => run n' r

/-- The entry an operation brings. -/
def brings : Op → Option Entry
  | .add e _ => some e
  | .remoteEntry e _ => e
  | _ => none

/-- The two indexes have enough in common: some one in both, and no difference or more than 0.66 common ones per difference. -/
def Alike (q e : Dhkey) : Prop := 0 < weight (q.and e) ∧ (weight (q.xor e) = 0 ∨ 66 * weight (q.xor e) < 100 * weight (q.and e))

/-- The similarity of the filters is above the target. -/
def SimilarEnough (target : Nat × Nat) (q e : Filter) : Prop :=
  target.1 * (similarity e q).2 < (similarity e q).1 * target.2

/-- The tables with these keys are not all equally far from the index. -/
def Spread (l : List Dhkey) (index : Dhkey) : Prop := ∃ p ∈ l, ∃ q ∈ l, distance index p ≠ distance index q

/-- How many queries of the application there are among the operations. -/
def asks : List Op → Nat
  | [] => 0
  | .ask .. :: r => asks r + 1
  | _ :: r => asks r

/-- An operation that is safe on a node with tables at `l`, whatever came before. -/
def Careful (l : List Dhkey) : Op → Prop
  | .add e r => r ≤ 6 ∧ Spread l e.index
  | .ask .. => True
  | .remoteQuery q _ => ∃ q', q = some q' ∧ q'.id < 255
  | .remoteEntry e r => ∃ e', e = some e' ∧ (6 < r ∨ Spread l e'.index)
  | .receive .. => False
  | .collect .. => False
  | .cleanup _ => True

/-- A token of a search peer, as it comes to the authorisation: the id, the size of the type attribute, and the answer of the filter of known
peers. -/
structure Candidate where
  peer : Option Dhkey
  typeSize : Option Nat
  known : Bool

/-- The peers are authorised one after the other. -/
def authorizeAll (self : Dhkey) : List Candidate → Peers → Except Fault Peers
  | [], p => .ok p
  | c :: r, p =>
    match authorize self p c.peer c.typeSize c.known with
    | .error f => .error f
    | .ok p' => authorizeAll self r p'

/-- The candidate is a new peer, not the node itself. -/
def Fresh (self : Dhkey) (c : Candidate) (k : Dhkey) : Prop := c.peer = some k ∧ c.typeSize ≠ none ∧ c.known = false ∧ k ≠ self ∧ k ≠ Dhkey.zero

end Np.Search.Spec
