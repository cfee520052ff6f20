import Verif.Heap.Lemmas
/-! # C15: the binary heap is a priority queue -/
namespace Np.Heap
open Spec
variable {α : Type}

/-- C15: after every history of operations, for every strict weak order and every capacity up to 32768: an operation fails exactly
when the heap is full (insert) or empty (first, head); otherwise it changes the bag by exactly the element concerned, and
`first`/`head` deliver a smallest element. -/
theorem C15_priority_queue (lt : α → α → Bool) (hw : StrictWeak lt) (zero : α) (size : Nat) (hs : size ≤ 32768)
    (ops : List (Op α)) (h : Heap α) (os : List (Out α)) (hr : run lt (init zero size) ops = some (h, os)) (op : Op α) :
    (step lt h op = none ↔ ¬ Allowed size (content h) op) ∧
    (∀ h' out, step lt h op = some (h', out) → Step lt (content h) op out (content h')) := by
  have hg := run_good hw size hs ops _ _ _ (good_init lt zero size) hr
  have hst := step_spec hw size hs h hg op
  by_cases ha : Allowed size (content h) op
  · obtain ⟨h1, o, e1, _, s1⟩ := hst.2 ha
    refine ⟨⟨fun hn => (by rw [e1] at hn; cases hn), fun hn => absurd ha hn⟩, ?_⟩
    intro h' out e2
    rw [e1] at e2; cases e2; exact s1
  · refine ⟨⟨fun _ => ha, hst.1⟩, ?_⟩
    intro h' out e2
    rw [hst.1 ha] at e2; cases e2

/-- C15: the heap starts empty. -/
theorem C15_starts_empty (zero : α) (size : Nat) : content (init zero size) = [] := rfl

/-- C15: whatever is inserted comes out sorted, nothing lost and nothing added. -/
theorem C15_sorts (lt : α → α → Bool) (hw : StrictWeak lt) (zero : α) (size : Nat) (hs : size ≤ 32768) (xs : List α)
    (hx : xs.length ≤ size) :
    ∃ h vs, insertAll lt xs (init zero size) = some h ∧ drain lt xs.length h = some vs ∧ vs.Perm xs ∧ Sorted lt vs := by
  obtain ⟨h, e1, g1, p1⟩ := insertAll_spec hw size xs (init zero size) (good_init lt zero size) (by simpa [init] using hx)
  have hc : h.count = xs.length := by
    rw [← content_length, p1.length_eq]; simp [content, init]
  obtain ⟨vs, e2, e3, e4⟩ := drain_spec hw size hs xs.length h g1 hc
  refine ⟨h, vs, e1, e2, e3.trans (p1.trans ?_), e4⟩
  simp [content, init]

/-- C15: removal at an index takes out exactly the element at that index. -/
theorem C15_remove_content (lt : α → α → Bool) (hw : StrictWeak lt) (h : Heap α) (i : Nat) (hi : 1 ≤ i ∧ i ≤ h.count)
    (hs : h.count ≤ 32767) :
    ∃ h', remove lt h i = some (h', some (h.e i)) ∧ (content h).Perm (h.e i :: content h') := by
  obtain ⟨h', h1, _, _, h4, _⟩ := remove_spec hw h i hi hs
  exact ⟨h', h1, h4⟩

/-- C15, proved part for the heap shape after a removal at an index: it is kept if the last element does not come before the parent of the
removed one (always true for index 1). Missing: the other case, see `C15_remove_refuted`. -/
theorem C15_remove_partial (lt : α → α → Bool) (hw : StrictWeak lt) (h : Heap α) (i : Nat) (hi : 1 ≤ i ∧ i ≤ h.count)
    (hs : h.count ≤ 32767) (hh : IsHeap lt h) (hp : 2 ≤ i → lt (h.e h.count) (h.e (i / 2)) = false) :
    ∃ h' v, remove lt h i = some (h', v) ∧ IsHeap lt h' := by
  obtain ⟨h', h1, _, _, _, h5⟩ := remove_spec hw h i hi hs
  exact ⟨h', _, h1, h5 hh hp⟩

/-- A heap of seven numbers: 1; 10 2; 11 12 3 4. -/
def seven : Heap Nat := ⟨7, 10, fun k => [0, 1, 10, 2, 11, 12, 3, 4].getD k 0⟩

theorem natLt_weak : StrictWeak (fun a b : Nat => decide (a < b)) := by
  constructor
  · intro a; simp
  · intro a b c; simp; omega
  · intro a b c; simp; omega

/-- C15 is violated by removal at an index: `binheap_remove` only sifts down (line 138). In the heap 1; 10 2; 11 12 3 4 the removal of 11
(index 4) moves 4 below 10. -/
theorem C15_remove_refuted :
    ¬ ∀ (lt : Nat → Nat → Bool), StrictWeak lt → ∀ (h : Heap Nat) (i : Nat), 1 ≤ i ∧ i ≤ h.count → h.count ≤ 32767 → IsHeap lt h →
      ∃ h' v, remove lt h i = some (h', v) ∧ IsHeap lt h' := by
  intro hall
  have hseven : IsHeap (fun a b : Nat => decide (a < b)) seven := by
    intro k h2 h7
    simp only [seven] at h7
    have : k = 2 ∨ k = 3 ∨ k = 4 ∨ k = 5 ∨ k = 6 ∨ k = 7 := by omega
    rcases this with rfl | rfl | rfl | rfl | rfl | rfl <;> decide
  obtain ⟨h', v, h1, h2⟩ := hall _ natLt_weak seven 4 (by decide) (by decide) hseven
  have e : (remove (fun a b : Nat => decide (a < b)) seven 4).map (fun r => decide (r.1.e 4 < r.1.e 2) && decide (r.1.count = 6)) = some true := by
    decide +kernel
  rw [h1] at e
  simp at e
  have := h2 4 (by omega) (by omega)
  simp at this; omega

/-- C15 is violated by a heap with more than 32768 places: the child index `2 * i` of index 32768 does not fit into its `uint16_t`, the sift
compares with the sentinel `elements[0]` and moves it into the heap. Taking the first of the 32769 elements 1, 2, 3, … makes the sentinel
value 0 appear. -/
theorem C15_large_refuted :
    ¬ ∀ (lt : Nat → Nat → Bool), StrictWeak lt → ∀ (h : Heap Nat), h.size ≤ 65535 → h.count ≤ h.size → 0 < h.count → IsHeap lt h →
      ∃ h' v, head lt h = some (h', v) ∧ (content h).Perm (v :: content h') := by
  intro hall
  let h : Heap Nat := ⟨32769, 65535, fun k => k⟩
  have hh : IsHeap (fun a b : Nat => decide (a < b)) h := by
    intro k h1 h2; simp [h]; omega
  obtain ⟨h', v, h1, h2⟩ := hall _ natLt_weak h (by decide) (by decide) (by decide) hh
  have e : (head (fun a b : Nat => decide (a < b)) h).map (fun r => decide (r.1.count = 32768) && decide (r.1.e 32768 = 0)) = some true := by
    decide +kernel
  rw [h1] at e
  simp at e
  have h3 : (0 : Nat) ∈ content h' := (mem_cont h'.e h'.count 0).2 ⟨32768, by omega, by omega, e.2⟩
  have h4 : (0 : Nat) ∈ content h := h2.mem_iff.2 (List.mem_cons_of_mem _ h3)
  obtain ⟨k, h5, _, h6⟩ := (mem_cont h.e h.count 0).1 h4
  simp [h] at h6; omega

/-- C15 is violated by `binheap_increase_idx_priority` (unused in the library): it swaps with the last element and sifts down only. -/
theorem C15_increase_refuted :
    ¬ ∀ (lt : Nat → Nat → Bool), StrictWeak lt → ∀ (h : Heap Nat) (i : Nat), 1 ≤ i ∧ i ≤ h.count → h.count ≤ 32767 → IsHeap lt h →
      ∃ h', increaseIdxPriority lt h i = some h' ∧ IsHeap lt h' := by
  intro hall
  have hseven : IsHeap (fun a b : Nat => decide (a < b)) seven := by
    intro k h2 h7
    simp only [seven] at h7
    have : k = 2 ∨ k = 3 ∨ k = 4 ∨ k = 5 ∨ k = 6 ∨ k = 7 := by omega
    rcases this with rfl | rfl | rfl | rfl | rfl | rfl <;> decide
  obtain ⟨h', h1, h2⟩ := hall _ natLt_weak seven 4 (by decide) (by decide) hseven
  have e : (increaseIdxPriority (fun a b : Nat => decide (a < b)) seven 4).map (fun r => decide (r.e 4 < r.e 2) && decide (r.count = 7)) = some true := by
    decide +kernel
  rw [h1] at e
  simp at e
  have := h2 4 (by omega) (by omega)
  simp at this; omega

example : StrictWeak (fun a b : Nat => decide (a < b)) := natLt_weak
example : ((run (fun a b : Nat => decide (a < b)) (init 0 4) [.insert 3, .insert 1, .insert 2, .head, .head]).map (·.2)) =
    some [.unit, .unit, .unit, .val 1, .val 2] := by decide +kernel
example : 2 ≤ 2 → (fun a b : Nat => decide (a < b)) (seven.e seven.count) (seven.e (2 / 2)) = false := by decide

end Np.Heap
