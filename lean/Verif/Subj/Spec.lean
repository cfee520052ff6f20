import Verif.Subj.Model

/-! # What is asked of the names of subjects -/
namespace Np.Subj.Spec

open Np Np.Subj

/-- The string in a buffer: the characters before the first zero byte. -/
def text (written : List Char) : List Char := written.takeWhile fun c => decide (c ≠ Char.ofNat 0)

/-- The answer is the right one for its arguments. -/
def Right (hash : String → Dhkey) (o : Out) : Prop :=
  (o.args.buffer = none ∨ (∃ n, o.args.buffer = some n ∧ n < 64) →
    o.ret = .invalidArgument ∧ o.written = []) ∧
  (∀ n, o.args.buffer = some n → 64 ≤ n →
    (∀ s ∈ known, o.args.subject = hash s → o.ret = .ok ∧ text o.written = s.toList) ∧
    ((∀ s ∈ known, o.args.subject ≠ hash s) →
      o.ret = .notImplemented ∧ text o.written = idStr o.args.subject.bytes))

/-- The answer stays inside the buffer. -/
def Inside (o : Out) : Prop := o.written.length ≤ o.args.buffer.getD 0

/-- A call by thread `t` that nobody else interrupts. -/
def whole (t : Nat) (a : Args) : List Ev := .call t a :: List.replicate 20 (.go t)

/-- The ids of the built-in subjects are distinct. -/
def Distinct (hash : String → Dhkey) : Prop :=
  ∀ a ∈ known, ∀ b ∈ known, hash a = hash b → a = b

end Np.Subj.Spec
