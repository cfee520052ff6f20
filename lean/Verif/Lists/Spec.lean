import Verif.Lists.Model
/-! # Lists as plain sequences -/
namespace Np.Lists.Spec

variable {α : Type}

/-- A double linked list is a sequence. -/
def dstep [DecidableEq α] (l : List α) : DOp α → List α × Option α
  | .append v => (l ++ [v], none)
  | .prepend v => (v :: l, none)
  | .head => (l.tail, l.head?)
  | .tail => (l.dropLast, l.getLast?)
  | .remove v => (l.erase v, none)
  | .clear => ([], none)

def drun [DecidableEq α] : List α → List (DOp α) → List α × List (Option α)
  | l, [] => (l, [])
  | l, op :: ops =>
    let (l, r) := dstep l op
    let (l, rs) := drun l ops
    (l, r :: rs)

/-- Insertion into a priority sequence: in front of the first element that is smaller than the new one; if duplicates
are not wanted and an equal element comes first, nothing changes. -/
def insert (cmp : α → α → Int) (dupsOk : Bool) (v : α) : List α → List α × Bool
  | [] => ([v], true)
  | x :: xs =>
    if cmp x v < 0 then (v :: x :: xs, true)
    else if cmp x v = 0 ∧ dupsOk = false then (x :: xs, false)
    else let r := insert cmp dupsOk v xs; (x :: r.1, r.2)

/-- Replace the first element equal to `v`, handing out the old one. -/
def replace (cmp : α → α → Int) (v : α) : List α → List α × Option α
  | [] => ([], none)
  | x :: xs => if cmp x v = 0 then (v :: xs, some x) else let r := replace cmp v xs; (x :: r.1, r.2)

def pstep (cmp : α → α → Int) (l : List α) : POp α → List α × POut α
  | .insert v d => let r := insert cmp d v l; (r.1, .bool r.2)
  | .remove v => (l.eraseP (fun x => cmp x v = 0), .unit)
  | .replace v => let r := replace cmp v l; (r.1, .val r.2)
  | .head => (l.tail, .val l.head?)
  | .tail => (l.dropLast, .val l.getLast?)
  | .clear => ([], .unit)

def prun (cmp : α → α → Int) : List α → List (POp α) → List α × List (POut α)
  | l, [] => (l, [])
  | l, op :: ops =>
    let (l, r) := pstep cmp l op
    let (l, rs) := prun cmp l ops
    (l, r :: rs)

/-- `v` behind the first element satisfying `q`. -/
def insertAfter (q : α → Bool) (v : α) : List α → List α
  | [] => []
  | x :: xs => if q x then x :: v :: xs else x :: insertAfter q v xs

def sstep (eq : α → α → Bool) (l : List α) : SOp α → List α × SOut α
  | .append v => (l ++ [v], .unit)
  | .prepend v => (v :: l, .unit)
  | .head => (l.tail, .val l.head?)
  | .tail => (l.dropLast, .val l.getLast?)
  | .remove v => (l.eraseP (fun x => eq x v), .unit)
  | .contains v => (l, .bool (l.any fun x => eq x v))
  | .find v => (l, .val (l.find? fun x => eq x v))
  | .clear => ([], .unit)
  | .insertAfter u v => (insertAfter (fun x => eq x u) v l, .unit)

def srun (eq : α → α → Bool) : List α → List (SOp α) → List α × List (SOut α)
  | l, [] => (l, [])
  | l, op :: ops =>
    let (l, r) := sstep eq l op
    let (l, rs) := srun eq l ops
    (l, r :: rs)

/-- What a reader sees walking forward from `first` / backward from `last`: `k` steps at most. -/
def forward (mem : Nat → Option (DNode α)) : Nat → Ptr → List α
  | 0, _ => []
  | _ + 1, none => []
  | k + 1, some p => match mem p with | none => [] | some n => n.val :: forward mem k n.flink
def backward (mem : Nat → Option (DNode α)) : Nat → Ptr → List α
  | 0, _ => []
  | _ + 1, none => []
  | k + 1, some p => match mem p with | none => [] | some n => n.val :: backward mem k n.blink

/-- The list header and memory present exactly the sequence `vs`: size, both ends, both directions. -/
def Presents (l : DList α) (vs : List α) : Prop :=
  l.size = vs.length ∧ (∀ k, vs.length ≤ k → forward l.mem k l.first = vs ∧ backward l.mem k l.last = vs.reverse) ∧
  (l.first = none ↔ vs = []) ∧ (l.last = none ↔ vs = [])

/-- Walking forward in a single linked list. -/
def sforward (mem : Nat → Option (SNode α)) : Nat → Ptr → List α
  | 0, _ => []
  | _ + 1, none => []
  | k + 1, some p => match mem p with | none => [] | some n => n.val :: sforward mem k n.flink

def SPresents (l : SList α) (vs : List α) : Prop :=
  l.size = vs.length ∧ (∀ k, vs.length ≤ k → sforward l.mem k l.first = vs) ∧ (l.first = none ↔ vs = [])

/-- Exactly `n` nodes are allocated: nothing leaks, nothing is lost. -/
def Allocated {β : Type} (mem : Nat → Option β) (n : Nat) : Prop :=
  ∃ as : List Nat, as.Nodup ∧ as.length = n ∧ ∀ j, mem j ≠ none ↔ j ∈ as

/-- A comparator as the priority list needs it: three-way, antisymmetric, transitive. -/
structure Comparator (cmp : α → α → Int) : Prop where
  flip : ∀ a b, cmp a b < 0 ↔ 0 < cmp b a
  trans : ∀ a b c, 0 ≤ cmp a b → 0 ≤ cmp b c → 0 ≤ cmp a c

/-- Highest first. -/
def Descending (cmp : α → α → Int) (l : List α) : Prop := l.Pairwise fun a b => 0 ≤ cmp a b

/-- Histories of a single linked list in which a cleared list is not read from its end or prepended to before the next append.
The Boolean says that the list was cleared and not appended to since. -/
def avoidsStaleEnd : Bool → List (SOp α) → Prop
  | _, [] => True
  | _, .clear :: ops => avoidsStaleEnd true ops
  | _, .append _ :: ops => avoidsStaleEnd false ops
  | d, .tail :: ops => d = false ∧ avoidsStaleEnd d ops
  | d, .prepend _ :: ops => d = false ∧ avoidsStaleEnd d ops
  | d, _ :: ops => avoidsStaleEnd d ops

/-- Union of two sequences in the way the code merges: first `b` then `a`, without repetitions. -/
def union (eq : α → α → Bool) (acc : List α) (vs : List α) : List α :=
  vs.foldl (fun acc v => if acc.any (fun x => eq x v) then acc else acc ++ [v]) acc

end Np.Lists.Spec
