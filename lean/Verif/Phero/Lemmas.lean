import Verif.Phero.Spec
import Verif.Bloom.Lemmas2
import Verif.Dhkey.Lemmas

set_option linter.unusedSimpArgs false
set_option linter.unusedVariables false

namespace Np.Phero

open Np.Dhkey Np.Bloom
open _root_.Np.Phero.Spec

/-! ## Lists of next hops -/

theorem removeHop_none {id : Dhkey} {l : List Hop} : removeHop id l = none ↔ ∀ h ∈ l, h.id ≠ id := by
  induction l with
  | nil => simp [removeHop]
  | cons h r ih =>
    unfold removeHop
    cases hr : removeHop id r with
    | some r' =>
      simp only [reduceCtorEq, false_iff]
      intro hall
      rw [ih.2 (fun x hx => hall x (by simp [hx]))] at hr
      simp at hr
    | none =>
      simp only []
      have := ih.1 hr
      by_cases e : equal h.id id = true
      · rw [if_pos e]
        simp only [reduceCtorEq, false_iff]
        intro hall
        exact hall h (by simp) ((equal_iff _ _).1 e)
      · rw [if_neg e]
        simp only [true_iff]
        intro x hx
        rcases List.mem_cons.1 hx with h1 | h1
        · subst h1; exact fun h => e ((equal_iff _ _).2 h)
        · exact this x h1

theorem removeHop_some {id : Dhkey} : ∀ {l l' : List Hop}, removeHop id l = some l' →
    ∃ a h b, l = a ++ h :: b ∧ l' = a ++ b ∧ h.id = id ∧ ∀ x ∈ b, x.id ≠ id := by
  intro l
  induction l with
  | nil => intro l' h; simp [removeHop] at h
  | cons h r ih =>
    intro l' hl
    unfold removeHop at hl
    cases hr : removeHop id r with
    | some r' =>
      simp only [hr, Option.some.injEq] at hl
      rcases ih hr with ⟨a, x, b, h1, h2, h3, h4⟩
      exact ⟨h :: a, x, b, by simp [h1], by simp [← hl, h2], h3, h4⟩
    | none =>
      simp only [hr] at hl
      by_cases e : equal h.id id = true
      · rw [if_pos e] at hl
        exact ⟨[], h, r, rfl, by simpa using hl.symm, (equal_iff _ _).1 e, removeHop_none.1 hr⟩
      · rw [if_neg e] at hl
        simp at hl

theorem removeOlder_some {t : Nat} : ∀ {l l' : List Hop}, removeOlder t l = some l' →
    ∃ a h b, l = a ++ h :: b ∧ l' = a ++ b ∧ h.ts < t := by
  intro l
  induction l with
  | nil => intro l' h; simp [removeOlder] at h
  | cons h r ih =>
    intro l' hl
    unfold removeOlder at hl
    cases hr : removeOlder t r with
    | some r' =>
      simp only [hr, Option.some.injEq] at hl
      rcases ih hr with ⟨a, x, b, h1, h2, h3⟩
      exact ⟨h :: a, x, b, by simp [h1], by simp [← hl, h2], h3⟩
    | none =>
      simp only [hr] at hl
      split at hl
      · exact ⟨[], h, r, rfl, by simpa using hl.symm, by assumption⟩
      · simp at hl

theorem removeOlder_none {t : Nat} : ∀ {l : List Hop}, removeOlder t l = none → ∀ h ∈ l, t ≤ h.ts := by
  intro l
  induction l with
  | nil => simp
  | cons h r ih =>
    intro hl
    unfold removeOlder at hl
    cases hr : removeOlder t r with
    | some r' => simp [hr] at hl
    | none =>
      simp only [hr] at hl
      split at hl
      · simp at hl
      · intro x hx
        rcases List.mem_cons.1 hx with e | e
        · subst e; omega
        · exact ih hr x e

/-- One element goes; either it is the first, and then none is older, or it is older than the first. -/
theorem removeOldest_spec {l : List Hop} (hne : l ≠ []) : ∃ a h b, l = a ++ h :: b ∧ removeOldest l = a ++ b ∧
    ((a = [] ∧ ∀ x ∈ l, h.ts ≤ x.ts) ∨ ∃ f, l.head? = some f ∧ h.ts < f.ts) := by
  cases l with
  | nil => exact absurd rfl hne
  | cons f r =>
    unfold removeOldest
    simp only []
    cases hr : removeOlder f.ts (f :: r) with
    | some l' =>
      rcases removeOlder_some hr with ⟨a, x, b, h1, h2, h3⟩
      exact ⟨a, x, b, h1, h2, Or.inr ⟨f, rfl, h3⟩⟩
    | none => exact ⟨[], f, r, rfl, rfl, Or.inl ⟨rfl, removeOlder_none hr⟩⟩

theorem removeOldest_length {l : List Hop} (hne : l ≠ []) : (removeOldest l).length + 1 = l.length := by
  rcases removeOldest_spec hne with ⟨a, h, b, h1, h2, _⟩
  rw [h2, h1]; simp; omega

theorem removeOldest_sublist (l : List Hop) : List.Sublist (removeOldest l) l := by
  cases l with
  | nil => exact List.Sublist.refl _
  | cons f r =>
    rcases removeOldest_spec (l := f :: r) (by simp) with ⟨a, h, b, h1, h2, _⟩
    rw [h2, h1]
    exact List.Sublist.append (List.Sublist.refl a) (List.sublist_cons_self h b)

/-- The comparison is with an element of the list, unless that is empty. -/
theorem insertWalk_mem (own d : Dhkey) : ∀ l : List Hop, l = [] ∨ ∃ h ∈ l, insertWalk own d l = cmp d (distance own h.id) := by
  intro l
  induction l with
  | nil => exact Or.inl rfl
  | cons h r ih =>
    refine Or.inr ?_
    cases r with
    | nil => exact ⟨h, by simp, rfl⟩
    | cons h2 r2 =>
      unfold insertWalk
      split
      · rcases ih with e | ⟨x, hx, hw⟩
        · simp at e
        · exact ⟨x, by simp [List.mem_cons] at hx ⊢; exact Or.inr hx, hw⟩
      · exact ⟨h, by simp, rfl⟩

theorem insertHop_cases (own : Dhkey) (now : Nat) (id : Dhkey) (l : List Hop) :
    (insertHop own now id l = l ++ [{ id := id, ts := now }] ∨ insertHop own now id l = { id := id, ts := now } :: l) ∨
    (insertHop own now id l = l ∧ ∃ h ∈ l, distance own id = distance own h.id) := by
  unfold insertHop
  simp only []
  split
  · exact Or.inl (Or.inl rfl)
  · split
    · exact Or.inl (Or.inr rfl)
    · refine Or.inr ⟨by simp, ?_⟩
      rcases insertWalk_mem own (distance own id) l with e | ⟨h, hh, hw⟩
      · subst e; rename_i h1 h2; simp [insertWalk] at h2
      · refine ⟨h, hh, ?_⟩
        rename_i h1 h2
        rw [hw] at h1 h2
        exact (cmp_total_order _ _ Dhkey.zero).1.1 (by omega)

/-- What is asked of one list. -/
def ListOk (l : List Hop) : Prop := l.length ≤ 19 ∧ (l.map Hop.id).Nodup

theorem sublist_ok {l l' : List Hop} (h : List.Sublist l' l) (ho : ListOk l) : ListOk l' :=
  ⟨Nat.le_trans h.length_le ho.1, List.Nodup.sublist (h.map _) ho.2⟩

theorem forget_spec {bloom : Nb} {l : List Hop} {id : Dhkey} (ho : (l.map Hop.id).Nodup) :
    List.Sublist (forget bloom l id).2 l ∧ (∀ h ∈ (forget bloom l id).2, h.id ≠ id) ∧
    ((forget bloom l id).1 = bloom ∧ (forget bloom l id).2 = l ∨
     (forget bloom l id).1 = bloom.countDecrement ∧ (forget bloom l id).2.length + 1 = l.length) := by
  unfold forget
  cases hr : removeHop id l with
  | none => exact ⟨List.Sublist.refl _, removeHop_none.1 hr, Or.inl (by simp)⟩
  | some l' =>
    rcases removeHop_some hr with ⟨a, h, b, h1, h2, h3, h4⟩
    simp only []
    refine ⟨?_, ?_, Or.inr ⟨trivial, ?_⟩⟩
    · rw [h1, h2]
      exact List.Sublist.append (List.Sublist.refl a) (List.sublist_cons_self h b)
    · intro x hx hid
      rw [h2] at hx
      rcases List.mem_append.1 hx with hx | hx
      · rw [h1, List.map_append, List.map_cons, List.nodup_append] at ho
        exact ho.2.2 x.id (List.mem_map_of_mem hx) h.id (by simp) (by rw [hid, h3])
      · exact h4 x hx hid
    · rw [h1, h2]; simp; omega

theorem insertHop_nodup {own : Dhkey} {now : Nat} {id : Dhkey} {l : List Hop} (ho : (l.map Hop.id).Nodup) (hn : ∀ h ∈ l, h.id ≠ id) :
    ((insertHop own now id l).map Hop.id).Nodup := by
  rcases insertHop_cases own now id l with (h | h) | h
  · rw [h, List.map_append, List.nodup_append]
    refine ⟨ho, by simp, ?_⟩
    intro a ha b hb
    simp only [List.map_cons, List.map_nil, List.mem_singleton] at hb
    rcases List.mem_map.1 ha with ⟨x, hx, rfl⟩
    rw [hb]
    exact hn x hx
  · rw [h, List.map_cons, List.nodup_cons]
    refine ⟨?_, ho⟩
    intro hm
    rcases List.mem_map.1 hm with ⟨x, hx, hid⟩
    exact hn x hx hid
  · rw [h.1]; exact ho

theorem insertHop_length (own : Dhkey) (now : Nat) (id : Dhkey) (l : List Hop) : (insertHop own now id l).length ≤ l.length + 1 := by
  rcases insertHop_cases own now id l with (h | h) | h
  · rw [h]; simp
  · rw [h]; simp
  · rw [h.1]; omega

theorem limit_ok {bloom : Nb} {l : List Hop} (hn : (l.map Hop.id).Nodup) (hl : l.length ≤ 20) : ListOk (limit bloom l).2 := by
  unfold limit
  split
  · have hne : l ≠ [] := by intro h; subst h; rename_i h; simp at h
    have := removeOldest_length hne
    exact ⟨by simp only []; omega, List.Nodup.sublist ((removeOldest_sublist l).map _) hn⟩
  · rename_i h
    simp only [maxHops] at h
    exact ⟨by simp only []; omega, hn⟩

theorem refresh_ok {own : Dhkey} {now : Nat} {scent : Nb} {id : Dhkey} {bloom : Nb} {l : List Hop} {r : Nb × List Hop}
    (h : refresh own now scent id bloom l = some r) (ho : ListOk l) : ListOk r.2 := by
  unfold refresh at h
  simp only [Option.map_eq_some_iff] at h
  rcases h with ⟨f, _, hr⟩
  rw [← hr]
  have hf := forget_spec (bloom := bloom) (id := id) ho.2
  refine limit_ok (insertHop_nodup (List.Nodup.sublist (hf.1.map _) ho.2) hf.2.1) ?_
  have h1 := insertHop_length own now id (forget bloom l id).2
  have h2 := hf.1.length_le
  have h3 := ho.1
  omega

def SlotOk (x : Slot) : Prop := ListOk x.send ∧ ListOk x.recv

theorem visit_ok {own : Dhkey} {now : Nat} {s : Scent} {x : Slot} {v : Slot × Bool} (h : visit own now s x = some v) (hx : SlotOk x) :
    SlotOk v.1 := by
  unfold visit at h
  split at h
  · simp only [Option.bind_eq_some_iff, Option.map_eq_some_iff] at h
    rcases h with ⟨a, ha, b, hb, hv⟩
    have hao : SlotOk a.1 := by
      unfold refreshSend at ha
      split at ha
      · simp only [Option.map_eq_some_iff] at ha
        rcases ha with ⟨r, hr, he⟩
        rw [← he]
        exact ⟨refresh_ok hr hx.1, hx.2⟩
      · simp only [Option.some.injEq] at ha
        rw [← ha]; exact hx
    rw [← hv]
    unfold refreshRecv at hb
    split at hb
    · simp only [Option.map_eq_some_iff] at hb
      rcases hb with ⟨r, hr, he⟩
      rw [← he]
      exact ⟨hao.1, refresh_ok hr hao.2⟩
    · simp only [Option.some.injEq] at hb
      rw [← hb]; exact hao
  · simp only [Option.some.injEq] at h
    rw [← h]; exact hx

theorem inhaleLoop_ok {own : Dhkey} {now : Nat} {s : Scent} : ∀ {l : List Slot} {zero : Nb} {w : Nb × List Slot × Bool},
    inhaleLoop own now s zero l = some w → (∀ x ∈ l, SlotOk x) → w.2.1.length = l.length ∧ ∀ x ∈ w.2.1, SlotOk x := by
  intro l
  induction l with
  | nil => intro zero w h _; simp only [inhaleLoop, Option.some.injEq] at h; subst h; simp
  | cons x r ih =>
    intro zero w h ho
    simp only [inhaleLoop, Option.bind_eq_some_iff, Option.map_eq_some_iff] at h
    rcases h with ⟨v, hv, z, hz, w', hw', he⟩
    have hi := ih hw' (fun y hy => ho y (by simp [hy]))
    have hvo := visit_ok hv (ho x (by simp))
    rw [← he]
    refine ⟨by simp [hi.1], ?_⟩
    intro y hy
    rcases List.mem_cons.1 hy with e | e
    · subst e; exact hvo
    · exact hi.2 y e

theorem newSlot_ok {own : Dhkey} {now : Nat} {s : Scent} {n : Slot} (h : newSlot own now s = some n) : SlotOk n := by
  unfold newSlot at h
  simp only [Option.map_eq_some_iff] at h
  rcases h with ⟨f, _, he⟩
  rw [← he]
  have h1 : ∀ id, ListOk (insertHop own now id []) := by
    intro id
    simp [insertHop, insertWalk, ListOk]
  have h0 : ListOk [] := by simp [ListOk]
  refine ⟨?_, ?_⟩
  · simp only []; split
    · exact h0
    · exact h1 _
  · simp only []; split
    · exact h1 _
    · exact h0

/-! ## Tables -/

def TableOk (t : Table) : Prop := ∀ i e, t.entry i = some e → e.slots.length ≤ 31 ∧ ∀ x ∈ e.slots, SlotOk x

theorem set_ok {t : Table} {i : Nat} {e : Entry} (ht : TableOk t) (he : e.slots.length ≤ 31 ∧ ∀ x ∈ e.slots, SlotOk x) :
    TableOk (t.set i e) := by
  intro j e' h
  simp only [Table.set] at h
  split at h
  · simp only [Option.some.injEq] at h; subst h; exact he
  · exact ht j e' h

/-- The form of a successful insertion. -/
theorem inhale_cases {debug : Bool} {own : Dhkey} {now : Nat} {t : Table} {s : Scent} {r : Table × Bool}
    (h : inhale debug own now t s = some r) : s.pos ≠ 0 ∧ s.pos.natAbs - 1 < 257 ∧
    ∃ w, inhaleLoop own now s Nb.create (slotsAt t (s.pos.natAbs - 1)) = some w ∧
      finish debug own now s t (s.pos.natAbs - 1) w = some r := by
  unfold inhale at h
  by_cases h0 : s.pos = 0
  · rw [if_pos h0] at h; simp at h
  · rw [if_neg h0] at h
    by_cases h1 : s.pos.natAbs - 1 ≥ 257
    · rw [if_pos h1] at h; simp at h
    · rw [if_neg h1] at h
      simp only [Option.bind_eq_some_iff] at h
      rcases h with ⟨w, hw, hf⟩
      exact ⟨h0, by omega, w, hw, hf⟩

theorem inhale_ok {debug : Bool} {own : Dhkey} {now : Nat} {t : Table} {s : Scent} {r : Table × Bool}
    (h : inhale debug own now t s = some r) (ht : TableOk t) : TableOk r.1 := by
  rcases inhale_cases h with ⟨_, _, w, hw, hf⟩
  have hs : (slotsAt t (s.pos.natAbs - 1)).length ≤ 31 ∧ ∀ x ∈ slotsAt t (s.pos.natAbs - 1), SlotOk x := by
    unfold slotsAt
    cases he : t.entry (s.pos.natAbs - 1) with
    | none => simp
    | some e => exact ht _ e he
  have hwo := inhaleLoop_ok hw hs.2
  unfold finish at hf
  split at hf
  · split at hf
    · simp at hf
    · simp only [Option.some.injEq] at hf
      rw [← hf]
      exact set_ok ht ⟨by simp only []; omega, hwo.2⟩
  · split at hf
    · simp only [Option.some.injEq] at hf
      rw [← hf]
      exact set_ok ht ⟨by simp only []; omega, hwo.2⟩
    · split at hf
      · simp only [Option.bind_eq_some_iff, Option.map_eq_some_iff] at hf
        rcases hf with ⟨z, hz, n, hn, he⟩
        rw [← he]
        refine set_ok ht ⟨by simp only [List.length_append, List.length_singleton]; omega, ?_⟩
        intro x hx
        rcases List.mem_append.1 hx with hx | hx
        · exact hwo.2 x hx
        · rw [List.mem_singleton] at hx; subst hx; exact newSlot_ok hn
      · simp at hf

theorem shorten_sublist (bloom : Nb) (l : List Hop) : List.Sublist (shorten bloom l).2 l := by
  unfold shorten
  split
  · exact removeOldest_sublist l
  · exact List.Sublist.refl _

theorem shortenBoth_ok {x : Slot} (h : SlotOk x) : SlotOk (shortenBoth x) :=
  ⟨sublist_ok (shorten_sublist _ _) h.1, sublist_ok (shorten_sublist _ _) h.2⟩

theorem exhaleLoop_ok {zero : Nb} : ∀ {l : List Slot} {n : Nat} {l' : List Slot}, exhaleLoop zero n l = some l' → (∀ x ∈ l, SlotOk x) →
    l'.length ≤ l.length ∧ ∀ x ∈ l', SlotOk x := by
  intro l
  induction l with
  | nil => intro n l' h _; simp only [exhaleLoop, Option.some.injEq] at h; subst h; simp
  | cons x r ih =>
    intro n l' h ho
    have hr : ∀ y ∈ r, SlotOk y := fun y hy => ho y (by simp [hy])
    simp only [exhaleLoop] at h
    split at h
    · split at h
      · simp at h
      · have hi := ih h hr
        exact ⟨by simp; omega, hi.2⟩
    · simp only [Option.map_eq_some_iff] at h
      rcases h with ⟨l2, h2, he⟩
      have hi := ih h2 hr
      rw [← he]
      refine ⟨by simp; exact hi.1, ?_⟩
      intro y hy
      rcases List.mem_cons.1 hy with e | e
      · subst e
        exact shortenBoth_ok (ho x (by simp))
      · exact hi.2 y e

theorem exhale_ok {t t' : Table} {i : Nat} (h : exhale t i = some t') (ht : TableOk t) : TableOk t' := by
  unfold exhale at h
  cases he : t.entry i with
  | none => simp only [he, Option.some.injEq] at h; subst h; exact ht
  | some e =>
    simp only [he, Option.map_eq_some_iff] at h
    rcases h with ⟨l, hl, h⟩
    have hi := exhaleLoop_ok hl (ht i e he).2
    rw [← h]
    exact set_ok ht ⟨by have := (ht i e he).1; simp only []; omega, hi.2⟩

theorem run_ok {debug : Bool} {own : Dhkey} : ∀ {l : List (Nat × Op)} {t t' : Table}, run debug own t l = some t' → TableOk t → TableOk t' := by
  intro l
  induction l with
  | nil => intro t t' h ht; simp only [run, Option.some.injEq] at h; subst h; exact ht
  | cons o l ih =>
    intro t t' h ht
    simp only [run, Option.bind_eq_some_iff] at h
    rcases h with ⟨t1, h1, h2⟩
    refine ih h2 ?_
    rcases o with ⟨now, s | i⟩
    · simp only [step, Option.map_eq_some_iff] at h1
      rcases h1 with ⟨r, hr, he⟩
      rw [← he]
      exact inhale_ok hr ht
    · exact exhale_ok h1 ht

theorem empty_ok : TableOk Table.empty := by intro i e h; simp [Table.empty] at h

end Np.Phero
