import Verif.Rate.Model

/-! # Specification of the limit of messages per second -/
namespace Np.Rate.Spec

open Np.Rate
open Np.Dhkey

/-- A limiter that keeps one unbounded counter for each address: a packet passes if the counter of its address is not above the limit, and counts;
a reset halves all counters. Result: the addresses of the packets that pass, in order. -/
def ideal (max : Nat) : (Dhkey → Nat) → List Step → List Dhkey
  | _, [] => []
  | c, .packet a :: l => if c a ≤ max then a :: ideal max (fun b => if b = a then c b + 1 else c b) l else ideal max c l
  | c, .reset :: l => ideal max (fun b => c b / 2) l

/-- The addresses of the packets of a history. -/
def addresses : List Step → List Dhkey
  | [] => []
  | .packet a :: l => a :: addresses l
  | .reset :: l => addresses l

/-- The number of resets of a history. -/
def resets : List Step → Nat
  | [] => 0
  | .reset :: l => resets l + 1
  | .packet _ :: l => resets l

/-- The eight positions of an address differ from each other, and from those of all other addresses of the list. -/
def Private (as : List Dhkey) : Prop :=
  ∀ a ∈ as, (positions a).Nodup ∧ ∀ b ∈ as, b ≠ a → ∀ p ∈ positions a, p ∉ positions b

/-- The packets of all addresses together, halved at each reset, never exceed the limit. -/
def Low (max : Nat) : Nat → List Step → Prop
  | _, [] => True
  | n, .packet _ :: l => n ≤ max ∧ Low max (n + 1) l
  | n, .reset :: l => Low max (n / 2) l

/-- The history without the packets of other addresses. -/
def only (a : Dhkey) : List Step → List Step
  | [] => []
  | .packet b :: l => if b = a then .packet b :: only a l else only a l
  | .reset :: l => .reset :: only a l

end Np.Rate.Spec
