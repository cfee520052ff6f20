import Verif.Axon.Spec
import Verif.Route.Props
import Verif.Phero.Props

set_option linter.unusedSimpArgs false
set_option linter.unusedVariables false

namespace Np.Axon

open Np.Dhkey Np.Bloom
open _root_.Np.Axon.Spec

theorem removeFirst_eq (x : Dhkey) : ∀ l, removeFirst x l = l.erase x := by
  intro l
  induction l with
  | nil => rfl
  | cons y r ih =>
    unfold removeFirst
    by_cases h : y = x
    · rw [if_pos ((equal_iff y x).2 h), h, List.erase_cons_head]
    · rw [if_neg (fun q => h ((equal_iff y x).1 q)), List.erase_cons_tail (by simpa using h), ih]

theorem reachable_iff {n : Node} {x : Dhkey} : n.reachable x = true ↔ Peer n x := by
  unfold Node.reachable Peer
  rw [Bool.and_eq_true, Bool.not_eq_true']
  constructor
  · rintro ⟨h1, h2⟩
    exact ⟨fun e => by rw [(equal_iff x n.me).2 e] at h1; simp at h1, h2⟩
  · rintro ⟨h1, h2⟩
    refine ⟨?_, h2⟩
    cases h : equal x n.me with
    | false => rfl
    | true => exact absurd ((equal_iff _ _).1 h) h1

theorem mem_send {n : Node} {l : List Dhkey} {x : Dhkey} : x ∈ (sendChunks n l).1 ↔ x ∈ l ∧ Peer n x := by
  unfold sendChunks
  simp only [List.mem_filter, reachable_iff]

theorem send_ok {n : Node} {l : List Dhkey} : (sendChunks n l).2 = true ↔ (sendChunks n l).1 ≠ [] := by
  unfold sendChunks
  simp only [decide_eq_true_eq, ne_eq]

theorem send_nil {n : Node} : sendChunks n [] = ([], false) := by
  simp [sendChunks]

/-- What the table has for the id, and how strong it is. -/
def allOf (t : Phero.Table) (id : Dhkey) (sender : Bool) : List Dhkey := (Phero.snuffle t id 0 sender).1
def strength (t : Phero.Table) (id : Dhkey) : Nat := (Phero.snuffle t id 0 false).2

theorem snuffle_eq (t : Phero.Table) (id : Dhkey) (p : Nat) (sender : Bool) :
    Phero.snuffle t id p sender = (if p ≤ strength t id then allOf t id sender else [], strength t id) := by
  unfold allOf strength Phero.snuffle
  cases t.entry (id.t0.toNat % 257) with
  | none => simp
  | some e =>
    simp only []
    by_cases hc : e.zero.check id = true
    · simp only [hc, if_true, Nat.zero_le]
      by_cases hp : p ≤ e.zero.heuristic id
      · simp [hp]
      · simp [hp]
    · simp [hc]

theorem mem_all {t : Phero.Table} {id : Dhkey} {sender : Bool} {x : Dhkey} : x ∈ allOf t id sender ↔ Trail t id sender x := by
  unfold allOf Phero.snuffle Trail
  cases he : t.entry (id.t0.toNat % 257) with
  | none => simp
  | some e =>
    simp only [Nat.zero_le, if_true, Option.some.injEq]
    by_cases hc : e.zero.check id = true
    · simp only [hc, if_true, Phero.hops, List.mem_flatMap]
      constructor
      · rintro ⟨y, hy, hx⟩
        by_cases hb : y.bloom.check id = true
        · rw [if_pos hb, List.mem_map] at hx
          obtain ⟨h, hh, hid⟩ := hx
          exact ⟨e, rfl, hc, y, hy, hb, h, hh, hid⟩
        · rw [if_neg hb] at hx; simp at hx
      · rintro ⟨e', rfl, _, y, hy, hb, h, hh, hid⟩
        exact ⟨y, hy, by rw [if_pos hb, List.mem_map]; exact ⟨h, hh, hid⟩⟩
    · simp only [hc]
      constructor
      · intro h; simp at h
      · rintro ⟨e', rfl, h, _⟩; exact absurd h hc

theorem forwardLoop_low {t : Phero.Table} {id prev : Dhkey} : ∀ (k p : Nat), p ≤ strength t id →
    forwardLoop t id prev (k + 1) p = (allOf t id false).erase prev := by
  intro k
  induction k with
  | zero =>
    intro p hp
    unfold forwardLoop
    simp only [snuffle_eq, hp, if_true, removeFirst_eq, forwardLoop]
    split
    · next h => exact h.symm
    · rfl
  | succ k ih =>
    intro p hp
    unfold forwardLoop
    simp only [snuffle_eq, hp, if_true, removeFirst_eq]
    split
    · exact ih _ (Nat.sub_le _ _)
    · rfl

theorem forwardLoop_eq {t : Phero.Table} {id prev : Dhkey} (k p : Nat) :
    forwardLoop t id prev (k + 2) p = (allOf t id false).erase prev := by
  by_cases hp : p ≤ strength t id
  · exact forwardLoop_low _ _ hp
  · unfold forwardLoop
    simp only [snuffle_eq, hp, if_false, removeFirst_eq, List.erase_nil, if_true]
    exact forwardLoop_low _ _ (Nat.sub_le _ _)

theorem defaultLoop_low {t : Phero.Table} {id : Dhkey} : ∀ (k p : Nat), p ≤ strength t id → defaultLoop t id (k + 1) p = allOf t id false := by
  intro k
  induction k with
  | zero =>
    intro p hp
    unfold defaultLoop
    simp only [snuffle_eq, hp, if_true, defaultLoop]
    split
    · next h => exact h.symm
    · rfl
  | succ k ih =>
    intro p hp
    unfold defaultLoop
    simp only [snuffle_eq, hp, if_true]
    split
    · exact ih _ (Nat.sub_le _ _)
    · rfl

theorem defaultLoop_eq {t : Phero.Table} {id : Dhkey} (k p : Nat) : defaultLoop t id (k + 2) p = allOf t id false := by
  by_cases hp : p ≤ strength t id
  · exact defaultLoop_low _ _ hp
  · unfold defaultLoop
    simp only [snuffle_eq, hp, if_false, if_true]
    exact defaultLoop_low _ _ (Nat.sub_le _ _)

theorem availableLoop_eq {t : Phero.Table} {id : Dhkey} {sender : Bool} : ∀ (k i : Nat), i + k = 8 →
    availableLoop t id sender (k + 1) i = if 52 ≤ strength t id then allOf t id sender else [] := by
  intro k
  induction k with
  | zero =>
    intro i hi
    have : i = 8 := by omega
    subst this
    unfold availableLoop
    have ht : targetOf 8 = 52 := rfl
    simp only [snuffle_eq, ht, availableLoop]
    by_cases hp : 52 ≤ strength t id
    · rw [if_pos hp]
      split
      · next h => exact h.symm
      · rfl
    · rw [if_neg hp, if_pos rfl]
  | succ k ih =>
    intro i hi
    unfold availableLoop
    have ht : 52 ≤ targetOf i := by unfold targetOf; omega
    simp only [snuffle_eq]
    by_cases hp : targetOf i ≤ strength t id
    · rw [if_pos hp, ih (i + 1) (by omega), if_pos (Nat.le_trans ht hp)]
      split
      · rfl
      · rfl
    · rw [if_neg hp, if_pos rfl, ih (i + 1) (by omega)]

theorem outForward_eq {n : Node} (h : Connected n) (subject prev : Dhkey) :
    outForward n subject prev = sendChunks n (((allOf n.trails subject false).erase prev).erase prev) := by
  unfold outForward
  rw [if_pos (show Route.hasConnection n.route = true from h), forwardLoop_eq 6 256, removeFirst_eq]

theorem outDefault_eq {n : Node} (h : Connected n) (subject : Dhkey) : outDefault n subject = sendChunks n (allOf n.trails subject false) := by
  unfold outDefault
  rw [if_pos (show Route.hasConnection n.route = true from h), defaultLoop_eq 6 256]
  simp only []
  split
  · next h => rw [h, send_nil]
  · rfl

/-- Which of the two lists a discovery message follows. -/
def Search.dir : Search → Option Bool
  | .findReceiver => some false
  | .findSender => some true
  | .neither => none

theorem outAvailable_eq {n : Node} (h : Connected n) (audience prev : Dhkey) (what : Search) :
    outAvailable n audience what prev = sendChunks n (match what.dir with
      | some d => if 52 ≤ strength n.trails audience then (allOf n.trails audience d).erase prev else []
      | none => []) := by
  unfold outAvailable
  rw [if_pos (show Route.hasConnection n.route = true from h)]
  cases what <;> simp only [Search.dir, availableLoop_eq 8 0 rfl, removeFirst_eq]
  · by_cases hs : 52 ≤ strength n.trails audience
    · simp only [hs, if_true]
      split
      · next h => rw [h, send_nil]
      · rfl
    · simp [hs, send_nil]
  · by_cases hs : 52 ≤ strength n.trails audience
    · simp only [hs, if_true]
      split
      · next h => rw [h, send_nil]
      · rfl
    · simp [hs, send_nil]
  · simp [send_nil]

theorem heuristicLoop_ge {f : Nb} {k : Nat} : ∀ (l : List Nat) (r : Nat), (∀ c ∈ l, k ≤ f.age c) → (∀ c ∈ l, f.count c ≠ 0) → k ≤ r → k ≤ heuristicLoop f l r := by
  intro l
  induction l with
  | nil => intro r _ _ h; exact h
  | cons c l ih =>
    intro r ha hc hr
    unfold heuristicLoop
    rw [if_neg (hc c (by simp))]
    exact ih _ (fun d hd => ha d (by simp [hd])) (fun d hd => hc d (by simp [hd])) (by have := ha c (by simp); omega)

theorem strength_ge {t : Phero.Table} {id : Dhkey} {k : Nat} (hk : k ≤ 256) (hs : Strong t id k) {sender : Bool} {x : Dhkey} (ht : Trail t id sender x) :
    k ≤ strength t id := by
  obtain ⟨e, he, hc, _⟩ := ht
  unfold strength Phero.snuffle
  rw [he]
  simp only [hc, if_true, Nat.zero_le]
  unfold Nb.check at hc
  rw [List.all_eq_true] at hc
  exact heuristicLoop_ge _ _ (hs e he) (fun c h => (of_decide_eq_true (hc c h)).2) hk

theorem count_le_of_timesRecorded {t : Phero.Table} {id prev : Dhkey} {sender : Bool}
    (hok : ∀ e, t.entry (id.t0.toNat % 257) = some e → ∀ x ∈ e.slots, (x.send.map Phero.Hop.id).Nodup ∧ (x.recv.map Phero.Hop.id).Nodup) :
    (allOf t id sender).count prev ≤ timesRecorded t id sender prev := by
  unfold allOf Phero.snuffle timesRecorded
  cases he : t.entry (id.t0.toNat % 257) with
  | none => simp
  | some e =>
    simp only [Nat.zero_le, if_true]
    by_cases hc : e.zero.check id = true
    · simp only [hc, if_true]
      have hl : ∀ sl : List Phero.Slot, (∀ x ∈ sl, (x.send.map Phero.Hop.id).Nodup ∧ (x.recv.map Phero.Hop.id).Nodup) →
          (Phero.hops id sender sl).count prev ≤
            (sl.filter fun x => x.bloom.check id && ((if sender then x.send else x.recv).any fun h => decide (h.id = prev))).length := by
        intro sl
        induction sl with
        | nil => intro _; simp [Phero.hops]
        | cons x r ih =>
          intro hx
          have h1 := ih (fun y hy => hx y (by simp [hy]))
          have h2 := hx x (by simp)
          have hn : ((if sender then x.send else x.recv).map Phero.Hop.id).Nodup := by
            split
            · exact h2.1
            · exact h2.2
          simp only [Phero.hops, List.flatMap_cons, List.count_append] at h1 ⊢
          by_cases hb : x.bloom.check id = true
          · rw [if_pos hb, List.filter_cons]
            by_cases hm : prev ∈ (if sender then x.send else x.recv).map Phero.Hop.id
            · have hany : ((if sender then x.send else x.recv).any fun h => decide (h.id = prev)) = true := by
                rw [List.any_eq_true]
                obtain ⟨h, hh, hid⟩ := List.mem_map.1 hm
                exact ⟨h, hh, by simpa using hid⟩
              rw [hb, hany]
              simp only [Bool.and_self, if_true, List.length_cons]
              have := List.nodup_iff_count.1 hn prev
              omega
            · have h0 := List.count_eq_zero.2 hm
              have hany : ((if sender then x.send else x.recv).any fun h => decide (h.id = prev)) = false := by
                rw [List.any_eq_false]
                intro h hh q
                exact hm (List.mem_map.2 ⟨h, hh, by simpa using q⟩)
              rw [h0, hany]
              simpa using h1
          · rw [if_neg hb, List.filter_cons, if_neg (by simp [hb])]
            simpa using h1
      exact hl e.slots (hok e he)
    · simp [hc]

end Np.Axon
