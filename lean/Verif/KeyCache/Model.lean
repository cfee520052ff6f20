import Verif.Dhkey.Model

/-! # Model of the periodic check of the key cache

`_np_keycache_exists_state`, src/np_keycache.c:232-305.  The red-black tree of tree/tree.h (third party) is the list of its ids in
ascending order. -/
namespace Np.KeyCache

open Np.Dhkey

/-- `_NP_KEYCACHE_ITERATION_STEPS`, include/np_settings.h:111-113. -/
def steps : Nat := 11

/-- What the loop leaves behind: the ids to be visited, `_check_state_iterator` and `i`. -/
structure Scan where
  visit : List Dhkey
  iter : Dhkey
  i : Nat

/-- The `RB_FOREACH` loop, src/np_keycache.c:240-276; `on` is `process_state_check`. -/
def scan : Dhkey → Bool → Nat → List Dhkey → Scan
  | it, _, i, [] => { visit := [], iter := it, i := i }
  | it, on, i, k :: r =>
    let it1 := if equal Dhkey.zero it then k else it
    let take := (equal k it1 || on) && decide (i < steps)
    let i1 := if take then i + 1 else i
    if steps ≤ i1 then { visit := if take then [k] else [], iter := k, i := i1 }
    else
      let s := scan it1 (on || take) i1 r
      { s with visit := if take then k :: s.visit else s.visit }

/-- One call of `_np_keycache_exists_state`: the ids that receive the `noop` event, in order, and the new iterator,
src/np_keycache.c:240-299. -/
def round (keys : List Dhkey) (it : Dhkey) : List Dhkey × Dhkey :=
  let s := scan it false 0 keys
  (s.visit, if s.i < steps then Dhkey.zero else s.iter)

/-- Consecutive calls, with the key cache as found by each of them; yields the ids visited by each call. -/
def rounds : Dhkey → List (List Dhkey) → List (List Dhkey)
  | _, [] => []
  | it, keys :: r => (round keys it).1 :: rounds (round keys it).2 r

end Np.KeyCache
