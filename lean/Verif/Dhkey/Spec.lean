import Verif.Dhkey.Model
/-!
# Specification vocabulary for ids: plain arithmetic on the ring of 2^256 numbers and text
-/
namespace Np.Spec

/-- Size of the identifier ring. -/
def ringSize : Nat := 2 ^ 256

/-- The number an id stands for: its eight words read as one 256-bit number, first word most significant. -/
def num (k : Dhkey) : Nat :=
  k.t0.toNat * 2 ^ 224 + k.t1.toNat * 2 ^ 192 + k.t2.toNat * 2 ^ 160 + k.t3.toNat * 2 ^ 128 +
  k.t4.toNat * 2 ^ 96 + k.t5.toNat * 2 ^ 64 + k.t6.toNat * 2 ^ 32 + k.t7.toNat

/-- Steps needed to walk upwards from `a` to `b` on the ring. -/
def stepsUp (a b : Nat) : Nat := (b + ringSize - a) % ringSize

/-- `x` is met strictly after `a` and strictly before `b` on the way up from `a`
(if `a = b` the way is the whole ring without `a`). -/
def strictlyBetween (x a b : Nat) : Prop :=
  0 < stepsUp a x ∧ (stepsUp a x < stepsUp a b ∨ a = b)

/-- Number of leading positions in which two texts agree. -/
def commonPrefix : List Char → List Char → Nat
  | a :: as, b :: bs => if a = b then commonPrefix as bs + 1 else 0
  | _, _ => 0

/-- Circular distance on the ring. -/
def ringDist (a b : Nat) : Nat := min (stepsUp a b) (stepsUp b a)

/-- Characters of lower-case hex text. -/
def isLowerHex (c : Char) : Prop := c ∈ "0123456789abcdef".toList

end Np.Spec
