import Verif.Route.Lemmas
import Verif.Route.Spec

set_option linter.unusedSimpArgs false
set_option linter.unusedVariables false

/-! # Leafset and table -/
namespace Np.Route

open Np.Dhkey _root_.Np.Route.Spec

/-! ## Leafset -/

theorem sortKd_dist (me : Dhkey) (l : List Dhkey) : (sortKd me l).Perm l ∧ NearestFirst me (sortKd me l) := sortKd_spec me l

/-- What inserting into a side does. -/
theorem insertSide_cases (me : Dhkey) (cap : Nat) (room : Bool) (side : List Dhkey) (x : Dhkey) (hl : side.length ≤ cap) :
    (room = false ∧ insertSide me cap room side x = (side, none, none)) ∨
    (room = true ∧ side.length < cap ∧ insertSide me cap room side x = (sortKd me (x :: side), some x, none)) ∨
    (room = true ∧ side.length = cap ∧ ∃ a y, sortKd me (x :: side) = a ++ [y] ∧
      insertSide me cap room side x = (a, some x, some y)) := by
  have hlen : (sortKd me (x :: side)).length = side.length + 1 := by
    rw [(sortKd_dist me (x :: side)).1.length_eq]; rfl
  unfold insertSide
  cases room with
  | false =>
    left
    simp only [Bool.false_eq_true, if_false]
    rw [if_neg (by omega)]
    exact ⟨trivial, rfl⟩
  | true =>
    right
    simp only [if_true]
    by_cases h : side.length < cap
    · left
      rw [if_neg (by omega)]
      exact ⟨trivial, h, rfl⟩
    · right
      rw [if_pos (by omega)]
      refine ⟨trivial, by omega, ?_⟩
      have hne : sortKd me (x :: side) ≠ [] := by
        intro e
        rw [e] at hlen
        simp at hlen
      refine ⟨(sortKd me (x :: side)).dropLast, (sortKd me (x :: side)).getLast hne, ?_, ?_⟩
      · exact (List.dropLast_concat_getLast hne).symm
      · rw [List.getLast?_eq_some_getLast hne]

structure SideInv (me : Dhkey) (cap : Nat) (l : List Dhkey) : Prop where
  len : l.length ≤ cap
  nodup : l.Nodup
  sorted : NearestFirst me l
  notMe : me ∉ l

theorem SideInv.insert {me : Dhkey} {cap : Nat} {side : List Dhkey} (h : SideInv me cap side) (room : Bool) {x : Dhkey}
    (hx : x ∉ side) (hm : x ≠ me) : SideInv me cap (insertSide me cap room side x).1 ∧
      ∀ y ∈ (insertSide me cap room side x).1, y = x ∨ y ∈ side := by
  have hp := sortKd_dist me (x :: side)
  have hn : (sortKd me (x :: side)).Nodup := hp.1.nodup_iff.2 (List.nodup_cons.2 ⟨hx, h.nodup⟩)
  have hmem : ∀ y ∈ sortKd me (x :: side), y = x ∨ y ∈ side := fun y hy => List.mem_cons.1 (hp.1.mem_iff.1 hy)
  have hme : me ∉ sortKd me (x :: side) := fun hy => by
    rcases hmem me hy with h1 | h1
    · exact hm h1.symm
    · exact h.notMe h1
  have hlen : (sortKd me (x :: side)).length = side.length + 1 := by rw [hp.1.length_eq]; rfl
  rcases insertSide_cases me cap room side x h.len with ⟨_, h1⟩ | ⟨_, h2, h1⟩ | ⟨_, h2, a, y, h3, h1⟩
  · rw [h1]
    exact ⟨h, fun y hy => Or.inr hy⟩
  · rw [h1]
    exact ⟨⟨by simp only; omega, hn, hp.2, hme⟩, hmem⟩
  · rw [h1]
    have hs : a.Sublist (sortKd me (x :: side)) := by rw [h3]; exact List.sublist_append_left _ _
    refine ⟨⟨?_, hn.sublist hs, hp.2.sublist hs, fun hy => hme (hs.subset hy)⟩, fun y hy => hmem y (hs.subset hy)⟩
    rw [h3] at hlen
    simp only [List.length_append, List.length_singleton] at hlen
    simp only
    omega

theorem SideInv.erase {me : Dhkey} {cap : Nat} {side : List Dhkey} (h : SideInv me cap side) (x : Dhkey) :
    SideInv me cap (side.erase x) :=
  ⟨by have := List.length_erase_le (a := x) (l := side); have := h.len; omega, h.nodup.erase x,
   h.sorted.sublist List.erase_sublist, fun hy => h.notMe (List.mem_of_mem_erase hy)⟩

structure LInv (s : Leafset) : Prop where
  left : SideInv s.me s.cap s.left
  right : SideInv s.me s.cap s.right
  disj : ∀ x, x ∈ s.left → x ∉ s.right

theorem rangeUpdate_fields (s : Leafset) : s.rangeUpdate.me = s.me ∧ s.rangeUpdate.cap = s.cap ∧
    s.rangeUpdate.left = s.left ∧ s.rangeUpdate.right = s.right := ⟨rfl, rfl, rfl, rfl⟩

theorem finish_fields (s : Leafset) (a d : Option Dhkey) : (s.finish a d).1.me = s.me ∧ (s.finish a d).1.cap = s.cap ∧
    (s.finish a d).1.left = s.left ∧ (s.finish a d).1.right = s.right := by
  unfold Leafset.finish
  repeat' split
  all_goals exact ⟨rfl, rfl, rfl, rfl⟩

theorem LInv.congr {s t : Leafset} (h : LInv s) (h1 : t.me = s.me) (h2 : t.cap = s.cap) (h3 : t.left = s.left)
    (h4 : t.right = s.right) : LInv t :=
  ⟨by rw [h1, h2, h3]; exact h.left, by rw [h1, h2, h4]; exact h.right, by rw [h3, h4]; exact h.disj⟩

/-- The four cases of a join. -/
theorem join_cases (s : Leafset) (x : Dhkey) :
    (x = s.me ∧ s.join x = (s, none, none)) ∨ ((x ∈ s.right ∨ x ∈ s.left) ∧ s.join x = (s, none, none)) ∨
    (x ≠ s.me ∧ x ∉ s.right ∧ x ∉ s.left ∧
      ((∃ room, (s.right.length < s.cap → room = true) ∧
        s.join x = Leafset.finish { s with right := (insertSide s.me s.cap room s.right x).1 }
          (insertSide s.me s.cap room s.right x).2.1 (insertSide s.me s.cap room s.right x).2.2) ∨
       (∃ room, (s.left.length < s.cap → room = true) ∧
        s.join x = Leafset.finish { s with left := (insertSide s.me s.cap room s.left x).1 }
          (insertSide s.me s.cap room s.left x).2.1 (insertSide s.me s.cap room s.left x).2.2))) := by
  unfold Leafset.join
  by_cases h1 : x = s.me
  · rw [if_pos h1]; exact Or.inl ⟨h1, rfl⟩
  rw [if_neg h1]
  by_cases h2 : x ∈ s.right ∨ x ∈ s.left
  · rw [if_pos h2]; exact Or.inr (Or.inl ⟨h2, rfl⟩)
  rw [if_neg h2]
  refine Or.inr (Or.inr ⟨h1, fun h => h2 (Or.inl h), fun h => h2 (Or.inr h), ?_⟩)
  by_cases h3 : between x s.me (add s.me half) true = true
  · rw [if_pos h3]
    left
    refine ⟨_, ?_, rfl⟩
    intro h
    simp [h]
  · rw [if_neg h3]
    right
    refine ⟨_, ?_, rfl⟩
    intro h
    simp [h]

theorem join_fields (s : Leafset) (x : Dhkey) : (s.join x).1.me = s.me ∧ (s.join x).1.cap = s.cap := by
  rcases join_cases s x with ⟨_, h⟩ | ⟨_, h⟩ | ⟨_, _, _, ⟨r, _, h⟩ | ⟨r, _, h⟩⟩
  · rw [h]; exact ⟨rfl, rfl⟩
  · rw [h]; exact ⟨rfl, rfl⟩
  · rw [h]; exact ⟨(finish_fields _ _ _).1, (finish_fields _ _ _).2.1⟩
  · rw [h]; exact ⟨(finish_fields _ _ _).1, (finish_fields _ _ _).2.1⟩

theorem join_inv {s : Leafset} (h : LInv s) (x : Dhkey) : LInv (s.join x).1 := by
  rcases join_cases s x with ⟨_, h1⟩ | ⟨_, h1⟩ | ⟨hm, hr, hl, ⟨room, _, h1⟩ | ⟨room, _, h1⟩⟩
  · rw [h1]; exact h
  · rw [h1]; exact h
  · rw [h1]
    have hf := finish_fields { s with right := (insertSide s.me s.cap room s.right x).1 }
      (insertSide s.me s.cap room s.right x).2.1 (insertSide s.me s.cap room s.right x).2.2
    have hi := h.right.insert room hr hm
    refine LInv.congr (s := { s with right := (insertSide s.me s.cap room s.right x).1 }) ⟨h.left, hi.1, ?_⟩
      hf.1 hf.2.1 hf.2.2.1 hf.2.2.2
    intro y hy hy'
    rcases hi.2 y hy' with h2 | h2
    · exact hl (h2 ▸ hy)
    · exact h.disj y hy h2
  · rw [h1]
    have hf := finish_fields { s with left := (insertSide s.me s.cap room s.left x).1 }
      (insertSide s.me s.cap room s.left x).2.1 (insertSide s.me s.cap room s.left x).2.2
    have hi := h.left.insert room hl hm
    refine LInv.congr (s := { s with left := (insertSide s.me s.cap room s.left x).1 }) ⟨hi.1, h.right, ?_⟩
      hf.1 hf.2.1 hf.2.2.1 hf.2.2.2
    intro y hy hy'
    rcases hi.2 y hy with h2 | h2
    · exact hr (h2 ▸ hy')
    · exact h.disj y h2 hy'

theorem leave_cases (s : Leafset) (x : Dhkey) :
    (x = s.me ∧ s.leave x = (s, none, none)) ∨
    (x ≠ s.me ∧ x ∈ s.right ∧ s.leave x = ({ s with right := s.right.erase x }.rangeUpdate, none, some x)) ∨
    (x ≠ s.me ∧ x ∉ s.right ∧ x ∈ s.left ∧ s.leave x = ({ s with left := s.left.erase x }.rangeUpdate, none, some x)) ∨
    (x ≠ s.me ∧ x ∉ s.right ∧ x ∉ s.left ∧ s.leave x = (s, none, none)) := by
  unfold Leafset.leave
  by_cases h1 : x = s.me
  · rw [if_pos h1]; exact Or.inl ⟨h1, rfl⟩
  rw [if_neg h1]
  by_cases h2 : x ∈ s.right
  · rw [if_pos h2]
    exact Or.inr (Or.inl ⟨h1, h2, by simp [Leafset.finish]⟩)
  rw [if_neg h2]
  by_cases h3 : x ∈ s.left
  · rw [if_pos h3]
    exact Or.inr (Or.inr (Or.inl ⟨h1, h2, h3, by simp [Leafset.finish]⟩))
  · rw [if_neg h3]
    exact Or.inr (Or.inr (Or.inr ⟨h1, h2, h3, rfl⟩))

theorem leave_fields (s : Leafset) (x : Dhkey) : (s.leave x).1.me = s.me ∧ (s.leave x).1.cap = s.cap := by
  rcases leave_cases s x with ⟨_, h⟩ | ⟨_, _, h⟩ | ⟨_, _, _, h⟩ | ⟨_, _, _, h⟩ <;> rw [h] <;> exact ⟨rfl, rfl⟩

theorem leave_inv {s : Leafset} (h : LInv s) (x : Dhkey) : LInv (s.leave x).1 := by
  rcases leave_cases s x with ⟨_, h1⟩ | ⟨_, _, h1⟩ | ⟨_, _, _, h1⟩ | ⟨_, _, _, h1⟩
  · rw [h1]; exact h
  · rw [h1]
    exact ⟨h.left, h.right.erase x, fun y hy hy' => h.disj y hy (List.mem_of_mem_erase hy')⟩
  · rw [h1]
    exact ⟨h.left.erase x, h.right, fun y hy hy' => h.disj y (List.mem_of_mem_erase hy) hy'⟩
  · rw [h1]; exact h

/-- Membership after a join, with the flags reported. -/
theorem join_mem {s : Leafset} (h : LInv s) (x y : Dhkey) (hx : x ∉ s.left ∧ x ∉ s.right) :
    (y ∈ (s.join x).1.left ∨ y ∈ (s.join x).1.right) ↔
      ((if (s.join x).2.1.isSome then y = x ∨ (y ∈ s.left ∨ y ∈ s.right) else y ∈ s.left ∨ y ∈ s.right) ∧
        (s.join x).2.2 ≠ some y) := by
  have key : ∀ (room : Bool) (side other : List Dhkey), SideInv s.me s.cap side → x ∉ side → x ∉ other → x ≠ s.me →
      (∀ z ∈ side, z ∉ other) → ∀ t : Leafset,
      (y ∈ (insertSide s.me s.cap room side x).1 ∨ y ∈ other) ↔
      ((if (t.finish (insertSide s.me s.cap room side x).2.1 (insertSide s.me s.cap room side x).2.2).2.1.isSome then
        y = x ∨ (y ∈ side ∨ y ∈ other) else y ∈ side ∨ y ∈ other) ∧
        (t.finish (insertSide s.me s.cap room side x).2.1 (insertSide s.me s.cap room side x).2.2).2.2 ≠ some y) := by
    intro room side other hi hxs hxo hm hd t
    have hp := sortKd_dist s.me (x :: side)
    rcases insertSide_cases s.me s.cap room side x hi.len with ⟨_, h1⟩ | ⟨_, h2, h1⟩ | ⟨_, h2, a, z, h3, h1⟩
    · rw [h1]; simp [Leafset.finish]
    · rw [h1]
      simp only [Leafset.finish, Option.isSome_none, Option.isSome_some, Bool.false_eq_true, false_and, if_false, or_true,
        if_true, ne_eq, reduceCtorEq, not_false_eq_true, and_true]
      rw [hp.1.mem_iff, List.mem_cons, or_assoc]
    · rw [h1]
      have hn : (a ++ [z]).Nodup := by
        rw [← h3]
        exact hp.1.nodup_iff.2 (List.nodup_cons.2 ⟨hxs, hi.nodup⟩)
      have hmem : ∀ w, w ∈ a ∨ w = z ↔ w = x ∨ w ∈ side := by
        intro w
        have := hp.1.mem_iff (a := w)
        rw [h3] at this
        simpa using this
      have hza : z ∉ a := by
        rw [List.nodup_append] at hn
        intro hz
        exact hn.2.2 z hz z (by simp) rfl
      have hzo : z ∉ other := by
        rcases (hmem z).1 (Or.inr rfl) with h4 | h4
        · rw [h4]; exact hxo
        · exact hd z h4
      by_cases hzx : z = x
      · subst hzx
        simp only [Leafset.finish, Option.isSome_some, true_and, if_true, Option.isSome_none, Bool.false_eq_true, if_false,
          ne_eq, reduceCtorEq, not_false_eq_true, and_true]
        constructor
        · rintro (h4 | h4)
          · rcases (hmem y).1 (Or.inl h4) with h5 | h5
            · subst h5; exact absurd h4 hza
            · exact Or.inl h5
          · exact Or.inr h4
        · rintro (h4 | h4)
          · rcases (hmem y).2 (Or.inr h4) with h5 | h5
            · exact Or.inl h5
            · subst h5; exact absurd h4 hxs
          · exact Or.inr h4
      · have hne : ¬ (some z = some x) := by simpa using hzx
        simp only [Leafset.finish, Option.isSome_some, true_and, hne, if_false, true_or, if_true, ne_eq, Option.some.injEq]
        constructor
        · rintro (h4 | h4)
          · refine ⟨?_, ?_⟩
            · rcases (hmem y).1 (Or.inl h4) with h5 | h5
              · exact Or.inl h5
              · exact Or.inr (Or.inl h5)
            · rintro rfl
              exact hza h4
          · refine ⟨Or.inr (Or.inr h4), ?_⟩
            rintro rfl
            exact hzo h4
        · rintro ⟨h4, h5⟩
          rcases h4 with h4 | h4 | h4
          · rcases (hmem y).2 (Or.inl h4) with h6 | h6
            · exact Or.inl h6
            · exact absurd h6.symm h5
          · rcases (hmem y).2 (Or.inr h4) with h6 | h6
            · exact Or.inl h6
            · exact absurd h6.symm h5
          · exact Or.inr h4
  rcases join_cases s x with ⟨_, h1⟩ | ⟨h0, h1⟩ | ⟨hm, hr, hl, ⟨room, _, h1⟩ | ⟨room, _, h1⟩⟩
  · rw [h1]; simp
  · rcases h0 with h0 | h0
    · exact absurd h0 hx.2
    · exact absurd h0 hx.1
  · rw [h1]
    have hf := finish_fields { s with right := (insertSide s.me s.cap room s.right x).1 }
      (insertSide s.me s.cap room s.right x).2.1 (insertSide s.me s.cap room s.right x).2.2
    rw [hf.2.2.1, hf.2.2.2]
    have hk := key room s.right s.left h.right hr hl hm (fun z hz hz' => h.disj z hz' hz)
      { s with right := (insertSide s.me s.cap room s.right x).1 }
    rw [Or.comm (a := y ∈ s.left) (b := y ∈ s.right)]
    exact Or.comm.trans hk
  · rw [h1]
    have hf := finish_fields { s with left := (insertSide s.me s.cap room s.left x).1 }
      (insertSide s.me s.cap room s.left x).2.1 (insertSide s.me s.cap room s.left x).2.2
    rw [hf.2.2.1, hf.2.2.2]
    exact key room s.left s.right h.left hl hr hm h.disj { s with left := (insertSide s.me s.cap room s.left x).1 }

/-! ## Table -/

theorem slot_some {me x : Dhkey} (h : me ≠ x) : ∃ col, slot me x = some (3 * (col + 16 * index me x)) ∧ col < 16 ∧
    index me x < 64 ∧ (idStr x.bytes)[index me x]? = some (hexDigit col) ∧ hexalphaAt x (index me x) = some col := by
  have hb := C06_symmetric_and_bounded me x
  have hlt : index me x < 64 := by
    have : index me x ≠ 64 := fun c => h (hb.2.2.1 c)
    omega
  obtain ⟨c, hc, hc16, tc⟩ := hexalpha_char x _ hlt
  refine ⟨c, ?_, hc16, hlt, tc, hc⟩
  simp [slot, hc, maxEntry, maxCol]

theorem scan_spec (t : Table) (slower : Dhkey → Dhkey → Bool) (x : Dhkey) (base : Nat) :
    ∀ (ks : List Nat) (s : Option (Nat × Dhkey)),
      (∀ p z, s = some (p, z) → t (base + p) = some z ∧ z ≠ x) →
      match scan t slower x base ks s with
      | .empty k => k ∈ ks ∧ t (base + k) = none
      | .present => ∃ k ∈ ks, t (base + k) = some x
      | .full s' => (∀ k ∈ ks, ∃ z, t (base + k) = some z ∧ z ≠ x) ∧
          (∀ p z, s' = some (p, z) → t (base + p) = some z ∧ z ≠ x ∧ (p ∈ ks ∨ s = some (p, z)) ) ∧
          (s' = none → ks = [] ∧ s = none)
  | [], s, hs => by
    simp only [scan]
    refine ⟨by simp, ?_, fun h => ⟨trivial, h⟩⟩
    intro p z h
    exact ⟨(hs p z h).1, (hs p z h).2, Or.inr h⟩
  | k :: ks, s, hs => by
    unfold scan
    cases ht : t (base + k) with
    | none => exact ⟨List.mem_cons_self, ht⟩
    | some y =>
      simp only
      by_cases he : equal y x = true
      · rw [if_pos he]
        refine ⟨k, List.mem_cons_self, ?_⟩
        rw [ht, (equal_iff y x).1 he]
      · rw [if_neg he]
        have hyx : y ≠ x := fun e => he ((equal_iff y x).2 e)
        generalize hg : slowest slower k y s = s1
        have hs1 : ∀ p z, s1 = some (p, z) → (t (base + p) = some z ∧ z ≠ x) ∧ (p = k ∨ s = some (p, z)) := by
          intro p z hp
          rw [← hg] at hp
          cases s with
          | none =>
            simp only [slowest, Option.some.injEq, Prod.mk.injEq] at hp
            obtain ⟨rfl, rfl⟩ := hp
            exact ⟨⟨ht, hyx⟩, Or.inl rfl⟩
          | some q =>
            obtain ⟨p0, z0⟩ := q
            simp only [slowest] at hp
            split at hp
            · simp only [Option.some.injEq, Prod.mk.injEq] at hp
              obtain ⟨rfl, rfl⟩ := hp
              exact ⟨⟨ht, hyx⟩, Or.inl rfl⟩
            · simp only [Option.some.injEq, Prod.mk.injEq] at hp
              obtain ⟨rfl, rfl⟩ := hp
              exact ⟨hs _ _ rfl, Or.inr rfl⟩
        have hne : s1 ≠ none := by
          rw [← hg]
          cases s with
          | none => simp [slowest]
          | some q =>
            obtain ⟨p0, z0⟩ := q
            simp only [slowest]
            split <;> simp
        have ih := scan_spec t slower x base ks s1 (fun p z hp => (hs1 p z hp).1)
        cases hsc : scan t slower x base ks s1 with
        | empty j =>
          rw [hsc] at ih
          exact ⟨List.mem_cons_of_mem _ ih.1, ih.2⟩
        | present =>
          rw [hsc] at ih
          obtain ⟨j, h1, h2⟩ := ih
          exact ⟨j, List.mem_cons_of_mem _ h1, h2⟩
        | full s' =>
          rw [hsc] at ih
          obtain ⟨h1, h2, h3⟩ := ih
          refine ⟨?_, ?_, fun h => absurd (h3 h).2 hne⟩
          · intro j hj
            rcases List.mem_cons.1 hj with rfl | hj
            · exact ⟨y, ht, hyx⟩
            · exact h1 j hj
          · intro p z hp
            obtain ⟨h4, h5, h6⟩ := h2 p z hp
            refine ⟨h4, h5, ?_⟩
            rcases h6 with h6 | h6
            · exact Or.inl (List.mem_cons_of_mem _ h6)
            · rcases (hs1 p z h6).2 with rfl | h7
              · exact Or.inl List.mem_cons_self
              · exact Or.inr h7

theorem removeScan_spec (t : Table) (x : Dhkey) (base : Nat) : ∀ ks : List Nat,
    match removeScan t x base ks with
    | some k => k ∈ ks ∧ t (base + k) = some x
    | none => ∀ k ∈ ks, t (base + k) ≠ some x
  | [] => by simp [removeScan]
  | k :: ks => by
    unfold removeScan
    have ih := removeScan_spec t x base ks
    cases ht : t (base + k) with
    | none =>
      simp only
      cases hr : removeScan t x base ks with
      | none =>
        rw [hr] at ih
        intro j hj
        rcases List.mem_cons.1 hj with rfl | hj
        · rw [ht]; simp
        · exact ih j hj
      | some j =>
        rw [hr] at ih
        exact ⟨List.mem_cons_of_mem _ ih.1, ih.2⟩
    | some y =>
      simp only
      by_cases he : equal y x = true
      · rw [if_pos he]
        exact ⟨List.mem_cons_self, by rw [ht, (equal_iff y x).1 he]⟩
      · rw [if_neg he]
        cases hr : removeScan t x base ks with
        | none =>
          rw [hr] at ih
          intro j hj
          rcases List.mem_cons.1 hj with rfl | hj
          · rw [ht]
            intro e
            exact he ((equal_iff y x).2 (by simpa using e))
          · exact ih j hj
        | some j =>
          rw [hr] at ih
          exact ⟨List.mem_cons_of_mem _ ih.1, ih.2⟩

/-- The cases of a join of the table. -/
theorem tableJoin_cases (me : Dhkey) (t : Table) (slower faster : Dhkey → Dhkey → Bool) (x : Dhkey) :
    (tableJoin me t slower faster x = (t, none, none) ∧
      (me = x ∨ ∃ base k, slot me x = some base ∧ k < 3 ∧ t (base + k) ≠ none ∧ (t (base + k) = some x ∨
        ∀ j < 3, t (base + j) ≠ none))) ∨
    (∃ base k, me ≠ x ∧ slot me x = some base ∧ k < 3 ∧ t (base + k) = none ∧
      tableJoin me t slower faster x = (t.set (base + k) (some x), some x, none)) ∨
    (∃ base k y, me ≠ x ∧ slot me x = some base ∧ k < 3 ∧ t (base + k) = some y ∧ y ≠ x ∧ faster x y = true ∧
      (∀ j < 3, ∃ z, t (base + j) = some z ∧ z ≠ x) ∧
      tableJoin me t slower faster x = (t.set (base + k) (some x), some x, some y)) := by
  unfold tableJoin
  by_cases hm : equal me x = true
  · rw [if_pos hm]; exact Or.inl ⟨rfl, Or.inl ((equal_iff _ _).1 hm)⟩
  · rw [if_neg hm]
    have hm' : me ≠ x := fun e => hm ((equal_iff _ _).2 e)
    obtain ⟨col, hs, _⟩ := slot_some hm'
    generalize 3 * (col + 16 * index me x) = base at hs
    rw [hs]
    simp only
    have sp := scan_spec t slower x base (List.range maxEntry) none (by simp)
    cases hsc : scan t slower x base (List.range maxEntry) none with
    | empty k =>
      rw [hsc] at sp
      exact Or.inr (Or.inl ⟨base, k, hm', rfl, List.mem_range.1 sp.1, sp.2, rfl⟩)
    | present =>
      rw [hsc] at sp
      obtain ⟨k, h1, h2⟩ := sp
      exact Or.inl ⟨rfl, Or.inr ⟨base, k, rfl, List.mem_range.1 h1, by rw [h2]; simp, Or.inl h2⟩⟩
    | full s =>
      rw [hsc] at sp
      obtain ⟨h1, h2, h3⟩ := sp
      have hall : ∀ j < 3, ∃ z, t (base + j) = some z ∧ z ≠ x := fun j hj => h1 j (List.mem_range.2 hj)
      cases s with
      | none => exact absurd (h3 rfl).1 (by decide)
      | some q =>
        obtain ⟨k, y⟩ := q
        obtain ⟨h4, h5, h6⟩ := h2 k y rfl
        have hk : k < 3 := by
          rcases h6 with h6 | h6
          · exact List.mem_range.1 h6
          · exact absurd h6 (by simp)
        simp only
        by_cases hf : faster x y = true
        · rw [if_pos hf]
          exact Or.inr (Or.inr ⟨base, k, y, hm', rfl, hk, h4, h5, hf, hall, rfl⟩)
        · rw [if_neg hf]
          refine Or.inl ⟨rfl, Or.inr ⟨base, k, rfl, hk, by rw [h4]; simp, Or.inr ?_⟩⟩
          intro j hj
          obtain ⟨z, hz, _⟩ := hall j hj
          rw [hz]; simp

theorem tableLeave_cases (me : Dhkey) (t : Table) (x : Dhkey) :
    (tableLeave me t x = (t, none, none) ∧ (me = x ∨ ∃ base, slot me x = some base ∧ ∀ k < 3, t (base + k) ≠ some x)) ∨
    (∃ base k, me ≠ x ∧ slot me x = some base ∧ k < 3 ∧ t (base + k) = some x ∧
      tableLeave me t x = (t.set (base + k) none, none, some x)) := by
  unfold tableLeave
  by_cases hm : equal me x = true
  · rw [if_pos hm]; exact Or.inl ⟨rfl, Or.inl ((equal_iff _ _).1 hm)⟩
  · rw [if_neg hm]
    have hm' : me ≠ x := fun e => hm ((equal_iff _ _).2 e)
    obtain ⟨col, hs, _⟩ := slot_some hm'
    generalize 3 * (col + 16 * index me x) = base at hs
    rw [hs]
    simp only
    have sp := removeScan_spec t x base (List.range maxEntry)
    cases hr : removeScan t x base (List.range maxEntry) with
    | none =>
      rw [hr] at sp
      exact Or.inl ⟨rfl, Or.inr ⟨base, rfl, fun k hk => sp k (List.mem_range.2 hk)⟩⟩
    | some k =>
      rw [hr] at sp
      exact Or.inr ⟨base, k, hm', rfl, List.mem_range.1 sp.1, sp.2, rfl⟩

/-- The number of occupied slots below `n`. -/
def occupied (t : Table) (n : Nat) : Nat := (List.range n).countP fun i => (t i).isSome

theorem occupied_set (t : Table) (i : Nat) (v : Option Dhkey) : ∀ n,
    occupied (t.set i v) n + (if i < n ∧ (t i).isSome then 1 else 0) =
      occupied t n + (if i < n ∧ v.isSome then 1 else 0)
  | 0 => by simp [occupied]
  | n + 1 => by
    have ih := occupied_set t i v n
    unfold occupied at ih ⊢
    rw [List.range_succ, List.countP_append, List.countP_append]
    simp only [List.countP_singleton, Table.set]
    simp only [Table.set] at ih
    by_cases h : n = i
    · subst h
      simp only [Nat.lt_irrefl, false_and, if_false, Nat.lt_succ_self, true_and, if_true] at ih ⊢
      omega
    · have e : (i < n + 1) ↔ i < n := by omega
      simp only [e, h, if_false] at ih ⊢
      omega

structure TInv (me : Dhkey) (t : Table) (count : Nat) (flag : Dhkey → Bool) : Prop where
  place : ∀ i k, t i = some k → me ≠ k ∧ ∃ base, slot me k = some base ∧ base ≤ i ∧ i < base + 3
  once : ∀ i j k, t i = some k → t j = some k → i = j
  flag : ∀ k, flag k = true ↔ ∃ i, t i = some k
  count : count = occupied t 3072

theorem slot_lt {me x : Dhkey} {base : Nat} (h : me ≠ x) (hs : slot me x = some base) : base + 3 ≤ 3072 := by
  obtain ⟨col, h1, h2, h3, _⟩ := slot_some h
  rw [hs] at h1
  simp only [Option.some.injEq] at h1
  omega

theorem occupied_le (t : Table) (n : Nat) : occupied t n ≤ n := by
  have : occupied t n ≤ (List.range n).length := List.countP_le_length
  simpa using this

theorem tableJoin_inv {me : Dhkey} {t : Table} {count : Nat} {flag : Dhkey → Bool} (h : TInv me t count flag)
    (slower faster : Dhkey → Dhkey → Bool) {x : Dhkey} (hx : flag x = false) :
    TInv me (tableJoin me t slower faster x).1
      (countUpdate count (tableJoin me t slower faster x).2.1 (tableJoin me t slower faster x).2.2)
      (setFlag (setFlag flag (tableJoin me t slower faster x).2.1 true) (tableJoin me t slower faster x).2.2 false) := by
  have hnot : ∀ i, t i ≠ some x := fun i e => by
    have := (h.flag x).2 ⟨i, e⟩
    rw [hx] at this
    exact absurd this (by simp)
  have hle := occupied_le t 3072
  have hcount := h.count
  rcases tableJoin_cases me t slower faster x with ⟨e, _⟩ | ⟨base, k, hm, hs, hk, ht, e⟩ | ⟨base, k, y, hm, hs, hk, ht, hyx, hf, _, e⟩
  · rw [e]
    simpa [countUpdate, setFlag] using h
  · rw [e]
    have hb := slot_lt hm hs
    have ho := occupied_set t (base + k) (some x) 3072
    have hle2 := occupied_le (t.set (base + k) (some x)) 3072
    rw [ht] at ho
    simp only [Option.isSome_none, Option.isSome_some, Bool.false_eq_true, and_false, if_false, and_true] at ho
    rw [if_pos (by omega)] at ho
    refine ⟨?_, ?_, ?_, ?_⟩
    · intro i z hz
      simp only [Table.set] at hz
      split at hz
      · simp only [Option.some.injEq] at hz
        subst hz
        rename_i hi
        exact ⟨hm, base, hs, by omega, by omega⟩
      · exact h.place i z hz
    · intro i j z hi hj
      simp only [Table.set] at hi hj
      split at hi <;> split at hj
      · omega
      · simp only [Option.some.injEq] at hi
        subst hi
        exact absurd hj (hnot j)
      · simp only [Option.some.injEq] at hj
        subst hj
        exact absurd hi (hnot i)
      · exact h.once i j z hi hj
    · intro z
      simp only [setFlag, Table.set]
      by_cases hz : z = x
      · subst hz
        simp only [if_true, true_iff]
        exact ⟨base + k, by simp⟩
      · rw [if_neg hz, h.flag z]
        constructor
        · rintro ⟨i, hi⟩
          refine ⟨i, ?_⟩
          rw [if_neg]
          · exact hi
          · rintro rfl
            rw [ht] at hi
            exact absurd hi (by simp)
        · rintro ⟨i, hi⟩
          split at hi
          · simp only [Option.some.injEq] at hi
            exact absurd hi.symm hz
          · exact ⟨i, hi⟩
    · simp only [countUpdate, Option.isSome_some, if_true, Option.isSome_none, Bool.false_eq_true, if_false]
      omega
  · rw [e]
    have hb := slot_lt hm hs
    have ho := occupied_set t (base + k) (some x) 3072
    have hle2 := occupied_le (t.set (base + k) (some x)) 3072
    rw [ht] at ho
    simp only [Option.isSome_some, and_true] at ho
    have hpos : 0 < occupied t 3072 := by
      unfold occupied
      rw [List.countP_pos_iff]
      exact ⟨base + k, List.mem_range.2 (by omega), by rw [ht]; rfl⟩
    refine ⟨?_, ?_, ?_, ?_⟩
    · intro i z hz
      simp only [Table.set] at hz
      split at hz
      · simp only [Option.some.injEq] at hz
        subst hz
        rename_i hi
        exact ⟨hm, base, hs, by omega, by omega⟩
      · exact h.place i z hz
    · intro i j z hi hj
      simp only [Table.set] at hi hj
      split at hi <;> split at hj
      · omega
      · simp only [Option.some.injEq] at hi
        subst hi
        exact absurd hj (hnot j)
      · simp only [Option.some.injEq] at hj
        subst hj
        exact absurd hi (hnot i)
      · exact h.once i j z hi hj
    · intro z
      simp only [setFlag, Table.set]
      by_cases hzy : z = y
      · subst hzy
        simp only [if_true, Bool.false_eq_true, false_iff, not_exists]
        intro i hi
        split at hi
        · simp only [Option.some.injEq] at hi
          exact hyx hi.symm
        · rename_i hne
          exact hne (h.once _ _ z hi ht)
      · rw [if_neg hzy]
        by_cases hz : z = x
        · subst hz
          simp only [if_true, true_iff]
          exact ⟨base + k, by simp⟩
        · rw [if_neg hz, h.flag z]
          constructor
          · rintro ⟨i, hi⟩
            refine ⟨i, ?_⟩
            rw [if_neg]
            · exact hi
            · rintro rfl
              rw [ht] at hi
              simp only [Option.some.injEq] at hi
              exact hzy hi.symm
          · rintro ⟨i, hi⟩
            split at hi
            · simp only [Option.some.injEq] at hi
              exact absurd hi.symm hz
            · exact ⟨i, hi⟩
    · simp only [countUpdate, Option.isSome_some, if_true]
      split at ho <;> omega

theorem tableLeave_inv {me : Dhkey} {t : Table} {count : Nat} {flag : Dhkey → Bool} (h : TInv me t count flag) (x : Dhkey) :
    TInv me (tableLeave me t x).1 (countUpdate count (tableLeave me t x).2.1 (tableLeave me t x).2.2)
      (setFlag flag (tableLeave me t x).2.2 false) := by
  have hle := occupied_le t 3072
  have hcount := h.count
  rcases tableLeave_cases me t x with ⟨e, _⟩ | ⟨base, k, hm, hs, hk, ht, e⟩
  · rw [e]
    simpa [countUpdate, setFlag] using h
  · rw [e]
    have hb := slot_lt hm hs
    have ho := occupied_set t (base + k) none 3072
    have hle2 := occupied_le (t.set (base + k) none) 3072
    rw [ht] at ho
    simp only [Option.isSome_none, Option.isSome_some, Bool.false_eq_true, and_false, if_false, and_true] at ho
    rw [if_pos (by omega)] at ho
    refine ⟨?_, ?_, ?_, ?_⟩
    · intro i z hz
      simp only [Table.set] at hz
      split at hz
      · exact absurd hz (by simp)
      · exact h.place i z hz
    · intro i j z hi hj
      simp only [Table.set] at hi hj
      split at hi <;> split at hj
      · omega
      · exact absurd hi (by simp)
      · exact absurd hj (by simp)
      · exact h.once i j z hi hj
    · intro z
      simp only [setFlag, Table.set]
      by_cases hz : z = x
      · subst hz
        simp only [if_true, Bool.false_eq_true, false_iff, not_exists]
        intro i hi
        split at hi
        · exact absurd hi (by simp)
        · rename_i hne
          exact hne (h.once _ _ z hi ht)
      · rw [if_neg hz, h.flag z]
        constructor
        · rintro ⟨i, hi⟩
          refine ⟨i, ?_⟩
          rw [if_neg]
          · exact hi
          · rintro rfl
            rw [ht] at hi
            simp only [Option.some.injEq] at hi
            exact hz hi.symm
        · rintro ⟨i, hi⟩
          split at hi
          · exact absurd hi (by simp)
          · exact ⟨i, hi⟩
    · simp only [countUpdate, Option.isSome_none, Bool.false_eq_true, if_false, Option.isSome_some, if_true]
      omega

/-! ## The module -/

structure Inv (s : State) : Prop where
  table : TInv s.leaf.me s.table s.count s.inTable
  leaf : LInv s.leaf
  leafFlag : ∀ x, s.inLeaf x = true ↔ x ∈ s.leaf.left ∨ x ∈ s.leaf.right

theorem occupied_empty (n : Nat) : occupied (fun _ => none) n = 0 := by simp [occupied]

theorem inv_init (me : Dhkey) (cap : Nat) : Inv (State.init me cap) := by
  refine ⟨⟨?_, ?_, ?_, ?_⟩, ⟨⟨?_, ?_, ?_, ?_⟩, ⟨?_, ?_, ?_, ?_⟩, ?_⟩, ?_⟩ <;>
    simp [State.init, Leafset.init, NearestFirst, occupied_empty]

theorem join_result {s : Leafset} (x : Dhkey) : (s.join x).2.1 = none ∨ (s.join x).2.1 = some x := by
  have fin : ∀ (t : Leafset) (a d : Option Dhkey), (a = none ∨ a = some x) → ((t.finish a d).2.1 = none ∨ (t.finish a d).2.1 = some x) := by
    intro t a d ha
    unfold Leafset.finish
    repeat' split
    · exact Or.inl rfl
    · exact ha
    · exact Or.inl rfl
  have ins : ∀ (room : Bool) (l : List Dhkey), ((insertSide s.me s.cap room l x).2.1 = none ∨ (insertSide s.me s.cap room l x).2.1 = some x) := by
    intro room l
    unfold insertSide
    repeat' split
    · exact Or.inr rfl
    · exact Or.inr rfl
    · exact Or.inl rfl
    · exact Or.inl rfl
  rcases join_cases s x with ⟨_, h⟩ | ⟨_, h⟩ | ⟨_, _, _, ⟨r, _, h⟩ | ⟨r, _, h⟩⟩
  · rw [h]; exact Or.inl rfl
  · rw [h]; exact Or.inl rfl
  · rw [h]; exact fin _ _ _ (ins _ _)
  · rw [h]; exact fin _ _ _ (ins _ _)

theorem step_me (s : State) (op : Op) : (step s op).leaf.me = s.leaf.me := by
  cases op with
  | joinTable x a b => simp only [step]; split <;> rfl
  | leaveTable x => simp only [step]; split <;> rfl
  | joinLeaf x =>
    simp only [step]
    split
    · rfl
    · exact (join_fields s.leaf x).1
  | leaveLeaf x =>
    simp only [step]
    split
    · exact (leave_fields s.leaf x).1
    · rfl

theorem step_inv {s : State} (h : Inv s) (op : Op) : Inv (step s op) := by
  cases op with
  | joinTable x slower faster =>
    simp only [step]
    by_cases hx : s.inTable x = true
    · rw [if_pos hx]; exact h
    · rw [if_neg hx]
      exact ⟨tableJoin_inv h.table slower faster (by simpa using hx), h.leaf, h.leafFlag⟩
  | leaveTable x =>
    simp only [step]
    by_cases hx : s.inTable x = true
    · rw [if_pos hx]
      exact ⟨tableLeave_inv h.table x, h.leaf, h.leafFlag⟩
    · rw [if_neg hx]; exact h
  | joinLeaf x =>
    simp only [step]
    by_cases hx : s.inLeaf x = true
    · rw [if_pos hx]; exact h
    · rw [if_neg hx]
      have hx' : x ∉ s.leaf.left ∧ x ∉ s.leaf.right := by
        rw [h.leafFlag] at hx
        exact ⟨fun e => hx (Or.inl e), fun e => hx (Or.inr e)⟩
      refine ⟨?_, join_inv h.leaf x, ?_⟩
      · have := h.table
        rw [← (join_fields s.leaf x).1] at this
        exact this
      · intro y
        simp only
        rw [join_mem h.leaf x y hx']
        have hres : (s.leaf.join x).2.1 = none ∨ (s.leaf.join x).2.1 = some x := join_result x
        generalize hd : (s.leaf.join x).2.2 = d
        generalize ha : (s.leaf.join x).2.1 = a at hres
        have hf := h.leafFlag y
        cases d with
        | none =>
          rcases hres with rfl | rfl
          · simp only [setFlag, Option.isSome_none, Bool.false_eq_true, if_false, ne_eq, reduceCtorEq, not_false_eq_true,
              and_true]
            exact hf
          · simp only [setFlag, Option.isSome_some, if_true, ne_eq, reduceCtorEq, not_false_eq_true, and_true]
            by_cases hyx : y = x
            · simp [hyx]
            · simp only [hyx, if_false, false_or]; exact hf
        | some z =>
          rcases hres with rfl | rfl
          · simp only [setFlag, Option.isSome_none, Bool.false_eq_true, if_false, ne_eq, Option.some.injEq]
            by_cases hyz : y = z
            · simp [hyz]
            · have : ¬ z = y := fun e => hyz e.symm
              simp only [hyz, this, if_false, not_false_eq_true, and_true]; exact hf
          · simp only [setFlag, Option.isSome_some, if_true, ne_eq, Option.some.injEq]
            by_cases hyz : y = z
            · simp [hyz]
            · have : ¬ z = y := fun e => hyz e.symm
              simp only [hyz, this, if_false, not_false_eq_true, and_true]
              by_cases hyx : y = x
              · simp [hyx]
              · simp only [hyx, if_false, false_or]; exact hf
  | leaveLeaf x =>
    simp only [step]
    by_cases hx : s.inLeaf x = true
    · rw [if_pos hx]
      refine ⟨?_, leave_inv h.leaf x, ?_⟩
      · have := h.table
        rw [← (leave_fields s.leaf x).1] at this
        exact this
      · intro y
        simp only
        have hf := h.leafFlag y
        rcases leave_cases s.leaf x with ⟨h1, e⟩ | ⟨_, h1, e⟩ | ⟨_, h1, h2, e⟩ | ⟨_, h1, h2, e⟩
        · rw [e]; simp only [setFlag]; exact hf
        · rw [e]
          have hxl : x ∉ s.leaf.left := fun e => h.leaf.disj x e h1
          simp only [setFlag, Leafset.rangeUpdate, h.leaf.right.nodup.mem_erase_iff]
          by_cases hyx : y = x
          · subst hyx; simp [hxl]
          · simp only [hyx, if_false, ne_eq, not_false_eq_true, true_and]; exact hf
        · rw [e]
          simp only [setFlag, Leafset.rangeUpdate, h.leaf.left.nodup.mem_erase_iff]
          by_cases hyx : y = x
          · subst hyx; simp [h1]
          · simp only [hyx, if_false, ne_eq, not_false_eq_true, true_and]; exact hf
        · rw [e]; simp only [setFlag]; exact hf
    · rw [if_neg hx]; exact h

theorem run_inv : ∀ (ops : List Op) {s : State}, Inv s → Inv (run s ops)
  | [], _, h => h
  | op :: r, _, h => run_inv r (step_inv h op)

theorem run_me : ∀ (ops : List Op) (s : State), (run s ops).leaf.me = s.leaf.me
  | [], _ => rfl
  | op :: r, s => (run_me r (step s op)).trans (step_me s op)

theorem step_cap (s : State) (op : Op) : (step s op).leaf.cap = s.leaf.cap := by
  cases op with
  | joinTable x a b => simp only [step]; split <;> rfl
  | leaveTable x => simp only [step]; split <;> rfl
  | joinLeaf x =>
    simp only [step]
    split
    · rfl
    · exact (join_fields s.leaf x).2
  | leaveLeaf x =>
    simp only [step]
    split
    · exact (leave_fields s.leaf x).2
    · rfl

theorem run_cap : ∀ (ops : List Op) (s : State), (run s ops).leaf.cap = s.leaf.cap
  | [], _ => rfl
  | op :: r, s => (run_cap r (step s op)).trans (step_cap s op)

theorem mem_peers {s : State} (h : Inv s) (x : Dhkey) : x ∈ peers s ↔ ∃ i, s.table i = some x := by
  unfold peers
  rw [List.mem_filterMap]
  constructor
  · rintro ⟨i, _, hi⟩; exact ⟨i, hi⟩
  · rintro ⟨i, hi⟩
    obtain ⟨hm, base, hs, h1, h2⟩ := h.table.place i x hi
    have := slot_lt hm hs
    exact ⟨i, List.mem_range.2 (by omega), hi⟩

end Np.Route
