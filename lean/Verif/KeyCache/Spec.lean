import Verif.KeyCache.Model
import Verif.Dhkey.Spec

/-! # What is asked of the periodic check -/
namespace Np.KeyCache.Spec

open Np.Dhkey

/-- The contents of the key cache: ids in ascending order, none twice. -/
def Sorted (keys : List Dhkey) : Prop := List.Pairwise (fun a b => Np.Spec.num a < Np.Spec.num b) keys

/-- Some call visits the id. -/
def Visited (k : Dhkey) (v : List (List Dhkey)) : Prop := ∃ l ∈ v, k ∈ l

/-- The key `k` stays in the cache, no ids other than those of `ids` ever occur, and the key at which a call stopped is still there at
the next call.  `it` is the place where the previous call stopped, zero if it came to the end. -/
def Steady (ids : List Dhkey) (k : Dhkey) : Dhkey → List (List Dhkey) → Prop
  | _, [] => True
  | it, keys :: r =>
    Sorted keys ∧ (∀ x ∈ keys, x ∈ ids) ∧ k ∈ keys ∧ (it = Dhkey.zero ∨ it ∈ keys) ∧ Steady ids k (round keys it).2 r

/-- The key `k` stays in the cache. -/
def Stays (k : Dhkey) (hist : List (List Dhkey)) : Prop := ∀ keys ∈ hist, Sorted keys ∧ k ∈ keys

end Np.KeyCache.Spec
