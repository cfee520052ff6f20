import Verif.Link.Model

/-!
# What is expected of the quality of a link
-/
namespace Np.Link.Spec

/-- The outcomes in a history: whether a request was answered. -/
def outcomes : List Op → List Bool
  | [] => []
  | .event (.response _) :: r => true :: outcomes r
  | .event (.timeout _) :: r => false :: outcomes r
  | .update _ _ :: r => outcomes r

/-- The times in a history: of an answer, or waited for it. -/
def times : List Op → List Rat
  | [] => []
  | .event (.response l) :: r => l :: times r
  | .event (.timeout w) :: r => w :: times r
  | .update _ _ :: r => times r

/-- The last `k` elements of a list. -/
def recent {α : Type} (k : Nat) (l : List α) : List α := l.drop (l.length - k)

/-- How many of the outcomes are answers. -/
def answered (l : List Bool) : Nat := l.countP id

/-- The arithmetic mean. -/
def mean (l : List Rat) : Rat := total l / l.length

/-- The outcomes a peer is credited with in the beginning, the oldest first: answers and failures in turn. -/
def credit : List Bool :=
  [true, false, true, false, true, false, true, false, true, false, true, false, true, false, true, false, true, false, true, false, true,
   false, true, false, true, false, true, false, true, false, false]

/-- The windows have their size, the places are in them. -/
def Wf (n : Node) : Prop := n.sWin.length = 31 ∧ n.sIdx < 31 ∧ n.lWin.length = 31 ∧ n.lIdx < 31

/-- The peer is judged to be bad. -/
def Bad (n : Node) : Prop := n.avg < 1 / 4

end Np.Link.Spec
