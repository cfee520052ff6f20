import Verif.Url.Model

/-! # What a user expects of percent-encoding -/
namespace Np.Url.Spec

open _root_.Np.Url (Byte)

/-- A byte is written by a hexadecimal digit of either case. -/
def Hex (b : Byte) (v : Nat) : Prop :=
  (v < 10 ∧ b.toNat = 48 + v) ∨ (10 ≤ v ∧ v < 16 ∧ b.toNat = 65 + (v - 10)) ∨ (10 ≤ v ∧ v < 16 ∧ b.toNat = 97 + (v - 10))

/-- The second text is a way to write the first: each byte other than `%` may stand for itself, and each may be written as `%` and two digits. -/
inductive Enc : List Byte → List Byte → Prop where
  | nil : Enc [] []
  | raw {b : Byte} {s e : List Byte} (hb : b ≠ 37) (h0 : b ≠ 0) (h : Enc s e) : Enc (b :: s) (b :: e)
  | esc {b h1 h2 : Byte} {v1 v2 : Nat} {s e : List Byte} (h0 : b ≠ 0) (d1 : Hex h1 v1) (d2 : Hex h2 v2) (hv : b.toNat = 16 * v1 + v2) (h : Enc s e) :
      Enc (b :: s) (37 :: h1 :: h2 :: e)

/-- A text has `%` with two digits behind it at a place. -/
def EscapeAt (s : List Byte) (i : Nat) : Prop := ∃ h1 h2 v1 v2, s[i]? = some 37 ∧ s[i + 1]? = some h1 ∧ s[i + 2]? = some h2 ∧ Hex h1 v1 ∧ Hex h2 v2

/-- A text that does not itself look as if something in it were encoded. -/
def Plain (s : List Byte) : Prop := ∀ i, ¬ EscapeAt s i

end Np.Url.Spec
