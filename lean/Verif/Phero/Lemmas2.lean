import Verif.Phero.Lemmas

set_option linter.unusedSimpArgs false
set_option linter.unusedVariables false

namespace Np.Phero

open Np.Dhkey Np.Bloom
open _root_.Np.Phero.Spec

/-! ## Scents of one target -/

theorem scentOf_spec {target source : Dhkey} {dir : Bool} {s : Scent} (h : scentOf target source dir = some s) :
    s.bloom.free = 63 ∧ (∀ c, s.bloom.count c = (cellsOf target).count c) ∧ (∀ c, s.bloom.age c = if c ∈ cellsOf target then 128 else 0) ∧
    s.pos.natAbs - 1 = target.t0.toNat % 257 ∧
    (dir = true → 0 < s.pos ∧ s.receiver = source) ∧ (dir = false → s.pos < 0 ∧ s.sender = source) := by
  unfold scentOf at h
  rcases add_spec create_inv (by simp [Nb.create, capacity]) target with ⟨g, hg, _, hf, hc, ha⟩
  rw [hg] at h
  simp only [Option.map_some, Option.some.injEq] at h
  rw [← h]
  refine ⟨by simp only []; rw [hf]; rfl, ?_, ?_, ?_, ?_, ?_⟩
  · intro c; simp only []; rw [hc]; simp [Nb.create]
  · intro c; simp only []; rw [ha]; simp [Nb.create]
  · simp only [position]; cases dir
    · simp only [Bool.false_eq_true, if_false]; omega
    · simp only [if_true]; omega
  · intro hd; subst hd; simp only [position, if_true, and_true]; omega
  · intro hd; subst hd; simp only [position, Bool.false_eq_true, if_false, and_true]; omega

theorem scentOf_some (target source : Dhkey) (dir : Bool) : ∃ s, scentOf target source dir = some s := by
  unfold scentOf
  rcases add_spec create_inv (by simp [Nb.create, capacity]) target with ⟨g, hg, _⟩
  rw [hg]
  exact ⟨_, rfl⟩

/-! ## Balance of free items and next hops -/

theorem countDecrement_free {f : Nb} (h : f.free < 64) : f.countDecrement.free = f.free + 1 := by
  unfold Nb.countDecrement
  rw [if_pos (by simpa [capacity] using h)]

theorem union_free {r f : Nb} (h : 64 ≤ r.free + f.free) (hlt : r.free + f.free < 65536 + 64) :
    ∃ u, r.union f = some u ∧ u.free = r.free + f.free - 64 ∧ (∀ i, u.age i = min 255 (r.age i + f.age i)) ∧
      ∀ i, u.count i = (r.count i + f.count i) % 256 := by
  unfold Nb.union
  rw [if_pos (by simp only [capacity]; omega)]
  refine ⟨_, rfl, ?_, fun _ => rfl, fun _ => rfl⟩
  simp only [capacity]
  omega

theorem forget_bal {bloom : Nb} {l : List Hop} {id : Dhkey} {other : Nat} (hn : (l.map Hop.id).Nodup)
    (hb : bloom.free + l.length + other = 64) : (forget bloom l id).1.free + (forget bloom l id).2.length + other = 64 := by
  rcases (forget_spec (bloom := bloom) (id := id) hn).2.2 with ⟨h1, h2⟩ | ⟨h1, h2⟩
  · rw [h1, h2]; exact hb
  · rw [h1, countDecrement_free (by omega)]; omega

theorem limit_bal {bloom : Nb} {l : List Hop} {other : Nat} (hb : bloom.free + l.length + other = 65) :
    (limit bloom l).1.free + (limit bloom l).2.length + other = 65 := by
  unfold limit
  split
  · rename_i h
    have hne : l ≠ [] := by intro h'; subst h'; simp at h
    have := removeOldest_length hne
    simp only [maxHops] at h
    rw [countDecrement_free (by omega)]
    simp only []
    omega
  · exact hb

theorem insertHop_length_eq {own : Dhkey} {now : Nat} {id : Dhkey} {l : List Hop} (hd : ∀ h ∈ l, distance own id ≠ distance own h.id) :
    (insertHop own now id l).length = l.length + 1 := by
  rcases insertHop_cases own now id l with (h | h) | ⟨_, x, hx, he⟩
  · rw [h]; simp
  · rw [h]; simp
  · exact absurd he (hd x hx)

theorem insertHop_mem {own : Dhkey} {now : Nat} {id : Dhkey} {l : List Hop} {x : Hop} (h : x ∈ insertHop own now id l) :
    x = { id := id, ts := now } ∨ x ∈ l := by
  rcases insertHop_cases own now id l with (e | e) | ⟨e, _⟩
  · rw [e, List.mem_append, List.mem_singleton] at h; exact h.symm
  · rw [e, List.mem_cons] at h; exact h
  · rw [e] at h; exact Or.inr h

theorem limit_sublist (bloom : Nb) (l : List Hop) : List.Sublist (limit bloom l).2 l := by
  unfold limit
  split
  · exact removeOldest_sublist l
  · exact List.Sublist.refl _

theorem refresh_bal {own : Dhkey} {now : Nat} {scent : Nb} {id : Dhkey} {bloom : Nb} {l : List Hop} {other : Nat} (hl : ListOk l)
    (hd : ∀ h ∈ l, distance own id = distance own h.id → h.id = id) (ho : other ≤ 19) (hb : bloom.free + l.length + other = 64)
    (hs : scent.free = 63) : ∃ r, refresh own now scent id bloom l = some r ∧ r.1.free + r.2.length + other = 64 ∧
      ∀ h ∈ r.2, h.id = id ∨ ∃ h' ∈ l, h'.id = h.id := by
  have hf := forget_spec (bloom := bloom) (id := id) hl.2
  have hfb := forget_bal (id := id) hl.2 hb
  have hil : (insertHop own now id (forget bloom l id).2).length = (forget bloom l id).2.length + 1 := by
    refine insertHop_length_eq ?_
    intro h hh he
    exact hf.2.1 h hh (hd h (hf.1.subset hh) he)
  have hlb := limit_bal (bloom := (forget bloom l id).1) (l := insertHop own now id (forget bloom l id).2) (other := other) (by omega)
  have hll : (limit (forget bloom l id).1 (insertHop own now id (forget bloom l id).2)).2.length ≤ 19 :=
    (limit_ok (insertHop_nodup (List.Nodup.sublist (hf.1.map _) hl.2) hf.2.1) (by
      have h1 := hl.1
      have h2 := hf.1.length_le
      omega)).1
  rcases union_free (r := (limit (forget bloom l id).1 (insertHop own now id (forget bloom l id).2)).1) (f := scent) (by omega) (by omega)
    with ⟨u, hu, huf, _⟩
  refine ⟨(u, (limit (forget bloom l id).1 (insertHop own now id (forget bloom l id).2)).2), ?_, ?_, ?_⟩
  · unfold refresh; simp only []; rw [hu]; rfl
  · simp only []; omega
  · intro h hh
    simp only [] at hh
    rcases insertHop_mem ((limit_sublist _ _).subset hh) with e | e
    · subst e; exact Or.inl rfl
    · exact Or.inr ⟨h, hf.1.subset e, rfl⟩

/-- The state of an element in an honest history. -/
structure SlotFair (peers : List Dhkey) (x : Slot) : Prop where
  ok : SlotOk x
  bal : x.bloom.free + x.send.length + x.recv.length = 64
  send : ∀ h ∈ x.send, h.id ∈ peers
  recv : ∀ h ∈ x.recv, h.id ∈ peers

theorem visit_fair {own : Dhkey} {now : Nat} {s : Scent} {x : Slot} {peers : List Dhkey} (hx : SlotFair peers x)
    (hd : DistinctDistances own peers) (hs : Honest peers s) : ∃ v, visit own now s x = some v ∧ SlotFair peers v.1 := by
  rcases hs with ⟨target, source, dir, hsrc, hso⟩
  have hsp := scentOf_spec hso
  unfold visit
  by_cases ht : x.bloom.intersectTest s.bloom = true
  · rw [if_pos ht]
    cases dir with
    | true =>
      have hpos := hsp.2.2.2.2.1 rfl
      have h1 : refreshSend own now s x = some (x, false) := by
        unfold refreshSend
        rw [if_neg (by omega)]
      rw [h1]
      simp only [Option.bind_some]
      unfold refreshRecv
      by_cases hz : s.receiver ≠ Dhkey.zero
      · rw [if_pos ⟨hpos.1, hz⟩]
        rcases refresh_bal (own := own) (now := now) (scent := s.bloom) (id := s.receiver) (bloom := x.bloom) (l := x.recv) (other := x.send.length)
          hx.ok.2 (by intro h hh he; rw [hpos.2] at he ⊢; exact (hd _ hsrc _ (hx.recv h hh) he).symm) hx.ok.1.1
          (by have := hx.bal; omega) hsp.1 with ⟨r, hr, hrb, hrm⟩
        rw [hr]
        refine ⟨_, rfl, ⟨⟨hx.ok.1, refresh_ok hr hx.ok.2⟩, by simp only []; omega, hx.send, ?_⟩⟩
        intro h hh
        rcases hrm h hh with e | ⟨h', hh', e⟩
        · rw [e, hpos.2]; exact hsrc
        · rw [← e]; exact hx.recv h' hh'
      · rw [if_neg (fun h => hz h.2)]
        exact ⟨_, rfl, hx⟩
    | false =>
      have hpos := hsp.2.2.2.2.2 rfl
      have h2 : ∀ y, refreshRecv own now s y = some (y, false) := by
        intro y
        unfold refreshRecv
        rw [if_neg (by omega)]
      unfold refreshSend
      by_cases hz : s.sender ≠ Dhkey.zero
      · rw [if_pos ⟨hpos.1, hz⟩]
        rcases refresh_bal (own := own) (now := now) (scent := s.bloom) (id := s.sender) (bloom := x.bloom) (l := x.send) (other := x.recv.length)
          hx.ok.1 (by intro h hh he; rw [hpos.2] at he ⊢; exact (hd _ hsrc _ (hx.send h hh) he).symm) hx.ok.2.1
          (by have := hx.bal; omega) hsp.1 with ⟨r, hr, hrb, hrm⟩
        rw [hr]
        simp only [Option.map_some, Option.bind_some, h2]
        refine ⟨_, rfl, ⟨⟨refresh_ok hr hx.ok.1, hx.ok.2⟩, by simp only []; omega, ?_, hx.recv⟩⟩
        intro h hh
        rcases hrm h hh with e | ⟨h', hh', e⟩
        · rw [e, hpos.2]; exact hsrc
        · rw [← e]; exact hx.send h' hh'
      · rw [if_neg (fun h => hz h.2)]
        simp only [Option.bind_some, h2]
        exact ⟨_, rfl, hx⟩
  · rw [if_neg ht]
    exact ⟨_, rfl, hx⟩

theorem collect_total {zero : Nb} {x : Slot} (hz : zero.free = 64) (hx : x.bloom.free ≤ 64) : ∃ z, collect zero x = some z ∧ z.free = 64 := by
  unfold collect
  rw [if_pos (by omega)]
  rcases union_free (r := zero) (f := x.bloom) (by omega) (by omega) with ⟨u, hu, _⟩
  rw [hu]
  exact ⟨_, rfl, rfl⟩

theorem inhaleLoop_fair {own : Dhkey} {now : Nat} {s : Scent} {peers : List Dhkey} (hd : DistinctDistances own peers) (hs : Honest peers s) :
    ∀ (l : List Slot) (zero : Nb), zero.free = 64 → (∀ x ∈ l, SlotFair peers x) →
    ∃ w, inhaleLoop own now s zero l = some w ∧ w.1.free = 64 ∧ w.2.1.length = l.length ∧ ∀ x ∈ w.2.1, SlotFair peers x := by
  intro l
  induction l with
  | nil => intro zero hz _; exact ⟨_, rfl, hz, rfl, by simp⟩
  | cons x r ih =>
    intro zero hz hx
    rcases visit_fair (now := now) (hx x (by simp)) hd hs with ⟨v, hv, hvf⟩
    rcases collect_total hz (x := v.1) (by have := hvf.bal; omega) with ⟨z, hz', hzf⟩
    rcases ih z hzf (fun y hy => hx y (by simp [hy])) with ⟨w, hw, hwf, hwl, hws⟩
    refine ⟨(w.1, v.1 :: w.2.1, v.2 || w.2.2), ?_, hwf, by simp [hwl], ?_⟩
    · simp only [inhaleLoop, hv, hz', hw, Option.bind_some, Option.map_some]
    · intro y hy
      rcases List.mem_cons.1 hy with e | e
      · subst e; exact hvf
      · exact hws y e

theorem newSlot_fair {own : Dhkey} {now : Nat} {s : Scent} {peers : List Dhkey} (hs : Honest peers s) :
    ∃ n, newSlot own now s = some n ∧ SlotFair peers n := by
  rcases hs with ⟨target, source, dir, hsrc, hso⟩
  have hsp := scentOf_spec hso
  rcases union_free (r := Nb.create) (f := s.bloom) (by simp [Nb.create, capacity]) (by simp [Nb.create, capacity]; omega) with ⟨u, hu, huf, _⟩
  have hn : newSlot own now s = some { bloom := u, send := if s.pos > 0 then [] else insertHop own now s.sender [], recv := if s.pos > 0 then insertHop own now s.receiver [] else [] } := by
    unfold newSlot
    rw [hu]
    rfl
  have hi : ∀ id, insertHop own now id [] = [{ id := id, ts := now }] := by intro id; simp [insertHop, insertWalk]
  have huf' : u.free = 63 := by rw [huf, hsp.1]; rfl
  refine ⟨_, hn, newSlot_ok hn, ?_, ?_, ?_⟩
  · simp only [hi, huf']
    split <;> simp
  · intro h hh
    cases dir with
    | true => simp only [if_pos (hsp.2.2.2.2.1 rfl).1] at hh; simp at hh
    | false =>
      have h1 := hsp.2.2.2.2.2 rfl
      simp only [if_neg (show ¬ s.pos > 0 by omega), hi, List.mem_singleton] at hh
      rw [hh, h1.2]; exact hsrc
  · intro h hh
    cases dir with
    | true =>
      have h1 := hsp.2.2.2.2.1 rfl
      simp only [if_pos h1.1, hi, List.mem_singleton] at hh
      rw [hh, h1.2]; exact hsrc
    | false =>
      have h1 := hsp.2.2.2.2.2 rfl
      simp only [if_neg (show ¬ s.pos > 0 by omega)] at hh
      simp at hh

def Fair (peers : List Dhkey) (t : Table) : Prop := ∀ i, ∀ x ∈ slotsAt t i, SlotFair peers x

theorem slotsAt_set (t : Table) (i j : Nat) (e : Entry) : slotsAt (t.set i e) j = if j = i then e.slots else slotsAt t j := by
  unfold slotsAt Table.set
  by_cases h : j = i
  · simp [h]
  · simp [h]

theorem inhale_fair {debug : Bool} {own : Dhkey} {now : Nat} {t : Table} {s : Scent} {peers : List Dhkey} (ht : Fair peers t)
    (hd : DistinctDistances own peers) (hs : Honest peers s) (hn : (slotsAt t (s.pos.natAbs - 1)).length ≤ 30) :
    ∃ t', inhale debug own now t s = some (t', true) ∧ Fair peers t' ∧ t'.held = t.held ∧
      ∀ j, (slotsAt t' j).length ≤ (slotsAt t j).length + if s.pos.natAbs - 1 = j then 1 else 0 := by
  have hs' := hs
  rcases hs' with ⟨target, source, dir, hsrc, hso⟩
  have hsp := scentOf_spec hso
  have hp0 : s.pos ≠ 0 := by
    cases dir with
    | true => have := hsp.2.2.2.2.1 rfl; omega
    | false => have := hsp.2.2.2.2.2 rfl; omega
  have hpl : ¬ s.pos.natAbs - 1 ≥ 257 := by rw [hsp.2.2.2.1]; have := Nat.mod_lt target.t0.toNat (show 0 < 257 by omega); omega
  rcases inhaleLoop_fair (now := now) hd hs (slotsAt t (s.pos.natAbs - 1)) Nb.create rfl (ht _) with ⟨w, hw, hwf, hwl, hws⟩
  have heq : inhale debug own now t s = finish debug own now s t (s.pos.natAbs - 1) w := by
    unfold inhale
    rw [if_neg hp0, if_neg hpl]
    show (inhaleLoop own now s Nb.create (slotsAt t (s.pos.natAbs - 1))).bind _ = _
    rw [hw]
    rfl
  rw [heq]
  unfold finish
  rw [if_neg (by omega)]
  by_cases hu : w.2.2 = true
  · rw [if_pos hu]
    refine ⟨_, rfl, ?_, rfl, ?_⟩
    · intro j x hx
      rw [slotsAt_set] at hx
      split at hx
      · exact hws x hx
      · exact ht j x hx
    · intro j
      rw [slotsAt_set]
      by_cases e : j = s.pos.natAbs - 1
      · subst e; simp only [if_true]; omega
      · rw [if_neg e]; omega
  · rw [if_neg hu, if_pos (by rw [hwf]; omega)]
    rcases union_free (r := w.1) (f := s.bloom) (by omega) (by omega) with ⟨z, hz, _⟩
    rcases newSlot_fair (own := own) (now := now) hs with ⟨n, hn', hnf⟩
    rw [hz]
    simp only [Option.bind_some, hn', Option.map_some]
    refine ⟨_, rfl, ?_, rfl, ?_⟩
    · intro j x hx
      rw [slotsAt_set] at hx
      split at hx
      · simp only [] at hx
        rcases List.mem_append.1 hx with hx | hx
        · exact hws x hx
        · rw [List.mem_singleton] at hx; subst hx; exact hnf
      · exact ht j x hx
    · intro j
      rw [slotsAt_set]
      by_cases e : j = s.pos.natAbs - 1
      · subst e; simp only [if_true, List.length_append, List.length_singleton]; omega
      · rw [if_neg e]; omega

theorem shorten_bal {bloom : Nb} {l : List Hop} {other : Nat} (hb : bloom.free + l.length + other = 64) :
    (shorten bloom l).1.free + (shorten bloom l).2.length + other = 64 := by
  unfold shorten
  split
  · rename_i h
    have hne : l ≠ [] := by intro h'; subst h'; simp at h
    have := removeOldest_length hne
    rw [countDecrement_free (by omega)]
    simp only []
    omega
  · exact hb

theorem shortenBoth_fair {peers : List Dhkey} {x : Slot} (hx : SlotFair peers x) : SlotFair peers (shortenBoth x) := by
  refine ⟨shortenBoth_ok hx.ok, ?_, ?_, ?_⟩
  · have h1 := shorten_bal (bloom := x.bloom) (l := x.recv) (other := x.send.length) (by have := hx.bal; omega)
    have h2 := shorten_bal (bloom := (shorten x.bloom x.recv).1) (l := x.send) (other := (shorten x.bloom x.recv).2.length) (by omega)
    unfold shortenBoth
    simp only []
    omega
  · intro h hh; exact hx.send h ((shorten_sublist _ _).subset hh)
  · intro h hh; exact hx.recv h ((shorten_sublist _ _).subset hh)

theorem exhaleLoop_fair {zero : Nb} {peers : List Dhkey} : ∀ (l : List Slot) (n : Nat), n < 32 → (∀ x ∈ l, SlotFair peers x) →
    ∃ l', exhaleLoop zero n l = some l' ∧ l'.length ≤ l.length ∧ ∀ x ∈ l', SlotFair peers x := by
  intro l
  induction l with
  | nil => intro n _ _; exact ⟨[], rfl, by simp, by simp⟩
  | cons x r ih =>
    intro n hn hx
    have hr : ∀ y ∈ r, SlotFair peers y := fun y hy => hx y (by simp [hy])
    simp only [exhaleLoop]
    split
    · rw [if_neg (by omega)]
      rcases ih (n - 1) (by omega) hr with ⟨l', h1, h2, h3⟩
      exact ⟨l', h1, by simp; omega, h3⟩
    · rcases ih n hn hr with ⟨l', h1, h2, h3⟩
      rw [h1]
      refine ⟨_, rfl, by simp; omega, ?_⟩
      intro y hy
      rcases List.mem_cons.1 hy with e | e
      · subst e
        have hx0 := hx x (by simp)
        exact shortenBoth_fair ⟨hx0.ok, hx0.bal, hx0.send, hx0.recv⟩
      · exact h3 y e

theorem exhale_fair {t : Table} {i : Nat} {peers : List Dhkey} (ht : Fair peers t) (hn : (slotsAt t i).length ≤ 30) :
    ∃ t', exhale t i = some t' ∧ Fair peers t' ∧ t'.held = t.held ∧ ∀ j, (slotsAt t' j).length ≤ (slotsAt t j).length := by
  unfold exhale
  cases he : t.entry i with
  | none => exact ⟨t, rfl, ht, rfl, fun _ => Nat.le_refl _⟩
  | some e =>
    have hsl : slotsAt t i = e.slots := by simp [slotsAt, he]
    have hti := ht i
    rw [hsl] at hn hti
    rcases exhaleLoop_fair (zero := e.zero.ageDecrement) e.slots (e.slots.length + 1) (by omega) hti with ⟨l', h1, h2, h3⟩
    simp only [h1, Option.map_some]
    refine ⟨_, rfl, ?_, rfl, ?_⟩
    · intro j x hx
      rw [slotsAt_set] at hx
      split at hx
      · exact h3 x hx
      · exact ht j x hx
    · intro j
      rw [slotsAt_set]
      by_cases e' : j = i
      · subst e'; simp only [if_true]; rw [hsl]; exact h2
      · rw [if_neg e']; omega

theorem writes_cons (i : Nat) (o : Nat × Op) (l : List (Nat × Op)) : writes i (o :: l) = writes i l + if writesTo i o then 1 else 0 := by
  unfold writes
  rw [List.filter_cons]
  split <;> simp

theorem run_fair {debug : Bool} {own : Dhkey} {peers : List Dhkey} (hd : DistinctDistances own peers) : ∀ (l : List (Nat × Op)) (t : Table),
    Fair peers t → HonestRun peers l → (∀ i, (slotsAt t i).length + writes i l ≤ 30) →
    ∃ t', run debug own t l = some t' ∧ Fair peers t' ∧ t'.held = t.held := by
  intro l
  induction l with
  | nil => intro t ht _ _; exact ⟨t, rfl, ht, rfl⟩
  | cons o l ih =>
    intro t ht hh hw
    have hh' : HonestRun peers l := fun now s hm => hh now s (by simp [hm])
    have hstep : ∃ t1, step debug own t o = some t1 ∧ Fair peers t1 ∧ t1.held = t.held ∧ ∀ i, (slotsAt t1 i).length + writes i l ≤ 30 := by
      rcases o with ⟨now, s | i⟩
      · have hwi := hw (s.pos.natAbs - 1)
        rcases inhale_fair (debug := debug) (now := now) ht hd (hh now s (by simp)) (by omega) with ⟨t', h1, h2, h3, h4⟩
        refine ⟨t', by simp [step, h1], h2, h3, ?_⟩
        intro i
        have h5 := h4 i
        have h6 := hw i
        rw [writes_cons] at h6
        simp only [writesTo, decide_eq_true_eq] at h6
        by_cases e : s.pos.natAbs - 1 = i
        · rw [if_pos e] at h5 h6; omega
        · rw [if_neg e] at h5 h6; omega
      · rcases exhale_fair (i := i) ht (by have := hw i; omega) with ⟨t', h1, h2, h3, h4⟩
        refine ⟨t', h1, h2, h3, ?_⟩
        intro j
        have h5 := h4 j
        have h6 := hw j
        rw [writes_cons] at h6
        simp only [writesTo] at h6
        simp at h6
        omega
    rcases hstep with ⟨t1, h1, h2, h3, h4⟩
    rcases ih t1 h2 hh' h4 with ⟨t', h5, h6, h7⟩
    exact ⟨t', by simp [run, h1, h5], h6, h7.trans h3⟩

end Np.Phero
