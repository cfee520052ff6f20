import Verif.KeyCache.Lemmas

/-! # C45: the periodic check of the key cache -/
namespace Np.KeyCache

open Np.Dhkey
open _root_.Np.KeyCache.Spec

/-- **C45, partial.**  While keys come and go, a key that stays is visited within `2 * (n / 10 + 1)` calls, where `n` bounds
the number of different ids that occur meanwhile, provided the key at which a call stopped is still there at the next call.
Missing: if that key is removed the check starts over, and a key can be left out for ever (`C45_starved_refuted`). -/
theorem C45_visited_partial (ids : List Dhkey) (k it : Dhkey) (hist : List (List Dhkey)) (h : Steady ids k it hist)
    (hn : 2 * (ids.length / 10 + 1) ≤ hist.length) : Visited k (rounds it hist) :=
  visited_any (ids.length / 10) hist it h (by omega) (Or.inr (by omega))

/-- With the same keys all the time nothing else is needed, wherever the check stood before. -/
theorem C45_unchanged (keys : List Dhkey) (hs : Sorted keys) (k it : Dhkey) (hk : k ∈ keys)
    (n : Nat) (hn : 2 * (keys.length / 10 + 1) + 1 ≤ n) : Visited k (rounds it (List.replicate n keys)) := by
  have hst : ∀ n it, (it = Dhkey.zero ∨ it ∈ keys) → Steady keys k it (List.replicate n keys) := by
    intro n
    induction n with
    | zero => intro it _; trivial
    | succ n ih =>
      intro it hit
      rw [List.replicate_succ]
      refine ⟨hs, fun _ h => h, hk, hit, ih _ ?_⟩
      rcases (round_progress (ids := keys) hs (fun _ h => h) hit).2 with h | h
      · exact Or.inl h
      · exact Or.inr h.1
  by_cases hit : it = Dhkey.zero ∨ it ∈ keys
  · exact C45_visited_partial keys k it _ (hst n it hit) (by rw [List.length_replicate]; omega)
  · rw [not_or] at hit
    cases n with
    | zero => omega
    | succ n =>
      rw [List.replicate_succ]
      unfold rounds
      rw [round_absent hit.1 hit.2]
      rcases C45_visited_partial keys k Dhkey.zero _ (hst n _ (Or.inl rfl)) (by rw [List.length_replicate]; omega) with ⟨l, hl, hm⟩
      exact ⟨l, List.mem_cons_of_mem _ hl, hm⟩

def key (i : Nat) : Dhkey := ⟨BitVec.ofNat 32 (i + 1), 0, 0, 0, 0, 0, 0, 0⟩
def keysUpTo (n : Nat) : List Dhkey := (List.range n).map key

/-- A history with keys that come and go: 25 keys, of which those with an odd number vanish unless a call stopped there. -/
example : Steady (keysUpTo 25) (key 24) Dhkey.zero [keysUpTo 25, (keysUpTo 25).filter (fun x => x.t0.toNat % 2 = 1), keysUpTo 25, keysUpTo 25, keysUpTo 25, keysUpTo 25] ∧
    2 * ((keysUpTo 25).length / 10 + 1) ≤ 6 := by
  have hs : Sorted (keysUpTo 25) := by unfold Sorted; decide +kernel
  have hs' : Sorted ((keysUpTo 25).filter (fun x => x.t0.toNat % 2 = 1)) := List.Pairwise.filter _ hs
  refine ⟨⟨hs, fun _ h => h, by decide +kernel, by decide +kernel, hs', fun _ h => (List.mem_filter.1 h).1, by decide +kernel, by decide +kernel,
    hs, fun _ h => h, by decide +kernel, by decide +kernel, hs, fun _ h => h, by decide +kernel, by decide +kernel,
    hs, fun _ h => h, by decide +kernel, by decide +kernel, hs, fun _ h => h, by decide +kernel, by decide +kernel, trivial⟩, by decide +kernel⟩

/-- **C45 is false without that.**  Of twelve keys the eleventh is removed after each call that stops at it and returns after the next
call: the twelfth is never visited, however often the check runs. -/
theorem C45_starved_refuted (n : Nat) : ∃ hist, n ≤ hist.length ∧ Stays (key 11) hist ∧ ¬ Visited (key 11) (rounds Dhkey.zero hist) := by
  let a := keysUpTo 12
  let b := keysUpTo 10 ++ [key 11]
  have ha : round a Dhkey.zero = (keysUpTo 11, key 10) := by decide +kernel
  have hb : round b (key 10) = ([], Dhkey.zero) := by decide +kernel
  have hr : ∀ n, rounds Dhkey.zero (List.replicate n [a, b]).flatten = (List.replicate n [keysUpTo 11, []]).flatten := by
    intro n
    induction n with
    | zero => rfl
    | succ n ih =>
      rw [List.replicate_succ, List.replicate_succ, List.flatten_cons, List.flatten_cons]
      show rounds Dhkey.zero (a :: b :: (List.replicate n [a, b]).flatten) = _
      unfold rounds
      rw [ha]
      unfold rounds
      rw [hb]
      show _ :: _ :: rounds Dhkey.zero _ = _
      rw [ih]
      rfl
  have hm : ∀ (n : Nat) (x y z : List Dhkey), z ∈ (List.replicate n [x, y]).flatten → z = x ∨ z = y := by
    intro n x y z hz
    rw [List.mem_flatten] at hz
    rcases hz with ⟨l, hl, hz⟩
    rw [(List.mem_replicate.1 hl).2] at hz
    simpa using hz
  refine ⟨(List.replicate n [a, b]).flatten, ?_, ?_, ?_⟩
  · have : (List.replicate n [a, b]).flatten.length = 2 * n := by
      induction n with
      | zero => rfl
      | succ n ih => rw [List.replicate_succ, List.flatten_cons, List.length_append, ih]; simp; omega
    omega
  · intro keys hk
    rcases hm n a b keys hk with h | h
    · rw [h]; exact ⟨by unfold Sorted; decide +kernel, by decide +kernel⟩
    · rw [h]; exact ⟨by unfold Sorted; decide +kernel, by decide +kernel⟩
  · rintro ⟨l, hl, hk⟩
    rw [hr] at hl
    rcases hm n _ _ l hl with h | h
    · rw [h] at hk; revert hk; decide +kernel
    · rw [h] at hk; simp at hk

end Np.KeyCache
