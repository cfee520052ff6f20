import Verif.Phero.Lemmas2

set_option linter.unusedSimpArgs false
set_option linter.unusedVariables false

namespace Np.Phero

open Np.Dhkey Np.Bloom
open _root_.Np.Phero.Spec

/-! ## A hop that has been learned is found -/

theorem limit_keeps {bloom : Nb} {l : List Hop} {x : Hop} (hx : x ∈ l) (hts : ∀ y ∈ l, y.ts < x.ts ∨ y = x) (hn : (l.map Hop.id).Nodup) :
    x ∈ (limit bloom l).2 := by
  unfold limit
  split
  · rename_i hlen
    have hne : l ≠ [] := by intro h; subst h; simp at hx
    rcases removeOldest_spec hne with ⟨a, h, b, h1, h2, h3⟩
    simp only []
    have hd : h ≠ x := by
      intro e
      subst e
      rcases h3 with ⟨ha, hall⟩ | ⟨f, hf, hlt⟩
      · subst ha
        cases b with
        | nil => rw [h1] at hlen; simp [maxHops] at hlen
        | cons y b =>
          have hy : y ∈ l := by rw [h1]; simp
          rcases hts y hy with h | h
          · have := hall y hy; omega
          · rw [h1, h] at hn; simp at hn
      · have hfm : f ∈ l := List.mem_of_mem_head? hf
        rcases hts f hfm with h' | h'
        · omega
        · rw [h'] at hlt; omega
    rw [h2]
    rw [h1] at hx
    simp only [List.mem_append, List.mem_cons] at hx ⊢
    rcases hx with h | h | h
    · exact Or.inl h
    · exact absurd h.symm hd
    · exact Or.inr h
  · exact hx

/-- The list an arriving scent is recorded in. -/
def side (dir : Bool) (x : Slot) : List Hop := if dir then x.recv else x.send

/-- The id is found in the filter and the peer is in the list. -/
def Learned (target source : Dhkey) (dir : Bool) (x : Slot) : Prop :=
  (∃ h ∈ side dir x, h.id = source) ∧ ∀ c ∈ cellsOf target, x.bloom.age c ≠ 0 ∧ x.bloom.count c ≠ 0

theorem countDecrement_le (f : Nb) (c : Nat) : f.countDecrement.count c ≤ f.count c := by
  unfold Nb.countDecrement
  split
  · simp only []; split <;> omega
  · omega

theorem refresh_learned {own : Dhkey} {now : Nat} {scent : Nb} {id : Dhkey} {bloom : Nb} {l : List Hop} {r : Nb × List Hop}
    (h : refresh own now scent id bloom l = some r) (hl : ListOk l) (hts : ∀ x ∈ l, x.ts < now)
    (hd : ∀ x ∈ l, distance own id = distance own x.id → x.id = id) :
    (∃ x ∈ r.2, x.id = id) ∧
    (∀ c, bloom.count c + scent.count c < 256 → r.1.count c ≤ bloom.count c + scent.count c ∧ scent.count c ≤ r.1.count c) ∧
    (∀ c, scent.age c ≠ 0 → r.1.age c ≠ 0) := by
  unfold refresh at h
  simp only [Option.map_eq_some_iff] at h
  rcases h with ⟨u, hu, hr⟩
  have hf := forget_spec (bloom := bloom) (id := id) hl.2
  have hnd := insertHop_nodup (own := own) (now := now) (List.Nodup.sublist (hf.1.map _) hl.2) hf.2.1
  refine ⟨?_, ?_, ?_⟩
  · rw [← hr]
    refine ⟨{ id := id, ts := now }, ?_, rfl⟩
    refine limit_keeps ?_ ?_ hnd
    · rcases insertHop_cases own now id (forget bloom l id).2 with (e | e) | ⟨_, x, hx, he⟩
      · rw [e]; simp
      · rw [e]; simp
      · exact absurd (hd x (hf.1.subset hx) he) (hf.2.1 x hx)
    · intro y hy
      rcases insertHop_mem hy with e | e
      · exact Or.inr e
      · exact Or.inl (hts y (hf.1.subset e))
  all_goals
    unfold Nb.union at hu
    split at hu
    · simp only [Option.some.injEq] at hu
      rw [← hr, ← hu]
      intro c hc
      simp only []
      have h1 : (limit (forget bloom l id).1 (insertHop own now id (forget bloom l id).2)).1.count c ≤ (forget bloom l id).1.count c := by
        unfold limit
        split
        · exact countDecrement_le _ _
        · exact Nat.le_refl _
      have h2 : (forget bloom l id).1.count c ≤ bloom.count c := by
        unfold forget
        split
        · exact countDecrement_le _ _
        · exact Nat.le_refl _
      first
        | (constructor <;> omega)
        | omega
    · simp at hu

/-- What a round of the loop does to an element. -/
theorem visit_learned {own : Dhkey} {now : Nat} {target source : Dhkey} {dir : Bool} {s : Scent} (hs : scentOf target source dir = some s)
    {x : Slot} {v : Slot × Bool} (h : visit own now s x = some v) (hx : SlotOk x) (hts : ∀ y ∈ side dir x, y.ts < now)
    (hd : ∀ y ∈ side dir x, distance own source = distance own y.id → y.id = source) (hw : ∀ c, x.bloom.count c + 2 < 256) :
    (∀ c, v.1.bloom.count c ≤ x.bloom.count c + 2) ∧ (v.2 = true → Learned target source dir v.1) := by
  have hsp := scentOf_spec hs
  have hsc : ∀ c, s.bloom.count c ≤ 2 := by intro c; rw [hsp.2.1]; exact cellsOf_count _ _
  have hfin : ∀ (r : Nb × List Hop) (l : List Hop), refresh own now s.bloom source x.bloom l = some r → ListOk l → (∀ y ∈ l, y.ts < now) →
      (∀ y ∈ l, distance own source = distance own y.id → y.id = source) →
      (∃ y ∈ r.2, y.id = source) ∧ (∀ c, r.1.count c ≤ x.bloom.count c + 2) ∧ ∀ c ∈ cellsOf target, r.1.age c ≠ 0 ∧ r.1.count c ≠ 0 := by
    intro r l hr h1 h2 h3
    have hrl := refresh_learned hr h1 h2 h3
    refine ⟨hrl.1, ?_, ?_⟩
    · intro c
      have := hsc c
      have h5 := hw c
      have := (hrl.2.1 c (by omega)).1
      omega
    · intro c hc
      refine ⟨hrl.2.2 c (by rw [hsp.2.2.1, if_pos hc]; omega), ?_⟩
      have h4 := hsc c
      have h5 := hw c
      have h6 := (hrl.2.1 c (by omega)).2
      have h7 : 0 < (cellsOf target).count c := List.count_pos_iff.2 hc
      rw [hsp.2.1] at h6
      omega
  unfold visit at h
  split at h
  · cases dir with
    | true =>
      have hpos := hsp.2.2.2.2.1 rfl
      have h1 : refreshSend own now s x = some (x, false) := by
        unfold refreshSend
        rw [if_neg (by omega)]
      rw [h1] at h
      simp only [Option.bind_some, Option.map_eq_some_iff] at h
      rcases h with ⟨b, hb, he⟩
      unfold refreshRecv at hb
      split at hb
      · simp only [Option.map_eq_some_iff] at hb
        rcases hb with ⟨r, hr, hbe⟩
        rw [hpos.2] at hr
        have hf := hfin r x.recv hr hx.2 (by simpa [side] using hts) (by simpa [side] using hd)
        rw [← he, ← hbe]
        exact ⟨hf.2.1, fun _ => ⟨by simpa [side] using hf.1, hf.2.2⟩⟩
      · simp only [Option.some.injEq] at hb
        rw [← he, ← hb]
        exact ⟨fun c => by simp only []; omega, by simp⟩
    | false =>
      have hpos := hsp.2.2.2.2.2 rfl
      have h2 : ∀ y, refreshRecv own now s y = some (y, false) := by
        intro y
        unfold refreshRecv
        rw [if_neg (by omega)]
      simp only [h2, Option.map_some, Option.bind_eq_some_iff] at h
      rcases h with ⟨a, ha, he⟩
      simp only [Option.some.injEq] at he
      unfold refreshSend at ha
      split at ha
      · simp only [Option.map_eq_some_iff] at ha
        rcases ha with ⟨r, hr, hae⟩
        rw [hpos.2] at hr
        have hf := hfin r x.send hr hx.1 (by simpa [side] using hts) (by simpa [side] using hd)
        rw [← he, ← hae]
        exact ⟨hf.2.1, fun _ => ⟨by simpa [side] using hf.1, hf.2.2⟩⟩
      · simp only [Option.some.injEq] at ha
        rw [← he, ← ha]
        exact ⟨fun c => by simp only []; omega, by simp⟩
  · simp only [Option.some.injEq] at h
    rw [← h]
    exact ⟨fun c => by simp only []; omega, by simp⟩

/-- Sum of the counts of a cell. -/
def total (l : List Slot) (c : Nat) : Nat := (l.map fun x => x.bloom.count c).sum

theorem total_cons (x : Slot) (l : List Slot) (c : Nat) : total (x :: l) c = x.bloom.count c + total l c := by simp [total]

theorem le_total (c : Nat) {x : Slot} : ∀ {l : List Slot}, x ∈ l → x.bloom.count c ≤ total l c := by
  intro l
  induction l with
  | nil => simp
  | cons y l ih =>
    intro h
    rw [total_cons]
    rcases List.mem_cons.1 h with e | e
    · subst e; omega
    · have := ih e; omega

theorem collect_spec {zero z : Nb} {x : Slot} (h : collect zero x = some z) (c : Nat) :
    z.count c = (zero.count c + x.bloom.count c) % 256 ∧ z.age c = min 255 (zero.age c + x.bloom.age c) := by
  unfold collect Nb.union at h
  split at h
  · split at h
    · simp only [Option.map_some, Option.some.injEq] at h
      rw [← h]
      exact ⟨rfl, rfl⟩
    · simp at h
  · simp at h

theorem loop_learned {own : Dhkey} {now : Nat} {target source : Dhkey} {dir : Bool} {s : Scent} (hs : scentOf target source dir = some s) :
    ∀ {l : List Slot} {zero : Nb} {w : Nb × List Slot × Bool}, inhaleLoop own now s zero l = some w → (∀ x ∈ l, SlotOk x) →
    (∀ x ∈ l, ∀ y ∈ side dir x, y.ts < now) → (∀ x ∈ l, ∀ y ∈ side dir x, distance own source = distance own y.id → y.id = source) →
    (∀ c, zero.count c + total l c + 2 * (l.length + 1) < 256) →
    (w.2.2 = true → ∃ x ∈ w.2.1, Learned target source dir x) ∧
    (∀ c, w.1.count c = zero.count c + total w.2.1 c ∧ w.1.count c ≤ zero.count c + total l c + 2 * l.length) ∧
    ∀ c, (zero.age c ≠ 0 ∨ ∃ x ∈ w.2.1, x.bloom.age c ≠ 0) → w.1.age c ≠ 0 := by
  intro l
  induction l with
  | nil =>
    intro zero w h _ _ _ _
    simp only [inhaleLoop, Option.some.injEq] at h
    subst h
    exact ⟨by simp, by simp [total], by simp⟩
  | cons x r ih =>
    intro zero w h hok hts hd hw
    simp only [inhaleLoop, Option.bind_eq_some_iff, Option.map_eq_some_iff] at h
    rcases h with ⟨v, hv, z, hz, w', hw', he⟩
    have hvl := visit_learned hs hv (hok x (by simp)) (hts x (by simp)) (hd x (by simp)) (by
      intro c; have := hw c; rw [total_cons] at this; simp only [List.length_cons] at this; omega)
    have hcol := collect_spec hz
    have hzc : ∀ c, z.count c = zero.count c + v.1.bloom.count c := by
      intro c
      rw [(hcol c).1]
      have h1 := hvl.1 c
      have h2 := hw c
      rw [total_cons] at h2
      simp only [List.length_cons] at h2
      omega
    have hi := ih hw' (fun y hy => hok y (by simp [hy])) (fun y hy => hts y (by simp [hy])) (fun y hy => hd y (by simp [hy])) (by
      intro c
      rw [hzc]
      have h1 := hvl.1 c
      have h2 := hw c
      rw [total_cons] at h2
      simp only [List.length_cons] at h2
      omega)
    rw [← he]
    refine ⟨?_, ?_, ?_⟩
    · intro hu
      simp only [Bool.or_eq_true] at hu
      rcases hu with hu | hu
      · exact ⟨v.1, by simp, hvl.2 hu⟩
      · rcases hi.1 hu with ⟨y, hy, hyl⟩
        exact ⟨y, by simp [hy], hyl⟩
    · intro c
      simp only [total_cons, List.length_cons]
      have h1 := hi.2.1 c
      have h2 := hvl.1 c
      have h3 := hzc c
      omega
    · intro c hc
      refine hi.2.2 c ?_
      simp only [List.mem_cons] at hc
      rcases hc with h1 | ⟨y, hy | hy, hya⟩
      · exact Or.inl (by rw [(hcol c).2]; omega)
      · subst hy; exact Or.inl (by rw [(hcol c).2]; omega)
      · exact Or.inr ⟨y, hy, hya⟩

theorem newSlot_learned {own : Dhkey} {now : Nat} {target source : Dhkey} {dir : Bool} {s : Scent} (hs : scentOf target source dir = some s)
    {n : Slot} (h : newSlot own now s = some n) : Learned target source dir n ∧ (∀ c, n.bloom.count c ≤ 2) := by
  have hsp := scentOf_spec hs
  have hi : ∀ id, insertHop own now id [] = [{ id := id, ts := now }] := by intro id; simp [insertHop, insertWalk]
  unfold newSlot at h
  simp only [Option.map_eq_some_iff] at h
  rcases h with ⟨u, hu, hn⟩
  have hcl : ∀ c, s.bloom.count c ≤ 2 := by intro c; rw [hsp.2.1]; exact cellsOf_count _ _
  unfold Nb.union at hu
  split at hu
  · simp only [Option.some.injEq] at hu
    rw [← hn, ← hu]
    refine ⟨⟨?_, ?_⟩, ?_⟩
    · cases dir with
      | true =>
        have h1 := hsp.2.2.2.2.1 rfl
        simp [side, hi, h1.1, h1.2]
      | false =>
        have h1 := hsp.2.2.2.2.2 rfl
        have h2 : ¬ (0 < s.pos) := by omega
        simp [side, hi, h2, h1.2]
    · intro c hc
      have h1 := hcl c
      have h2 : 0 < (cellsOf target).count c := List.count_pos_iff.2 hc
      have h3 := hsp.2.1 c
      have h4 := hsp.2.2.1 c
      rw [if_pos hc] at h4
      simp only [Nb.create]
      omega
    · intro c
      have h1 := hcl c
      simp only [Nb.create]
      omega
  · simp at hu

theorem hops_mem {target source : Dhkey} {dir : Bool} {l : List Slot} {x : Slot} (hx : x ∈ l) (h : Learned target source dir x) :
    source ∈ hops target (!dir) l := by
  unfold hops
  rw [List.mem_flatMap]
  refine ⟨x, hx, ?_⟩
  rw [if_pos ((check_iff _ _).2 h.2)]
  rcases h.1 with ⟨y, hy, hid⟩
  rw [List.mem_map]
  refine ⟨y, ?_, hid⟩
  unfold side at hy
  cases dir <;> simpa using hy

theorem found {debug : Bool} {own : Dhkey} {now : Nat} {t t' : Table} {target source : Dhkey} {dir : Bool} {s : Scent}
    (hs : scentOf target source dir = some s) (h : inhale debug own now t s = some (t', true)) (ht : TableOk t)
    (hts : ∀ x ∈ slotsAt t (target.t0.toNat % 257), ∀ y ∈ side dir x, y.ts < now)
    (hd : ∀ x ∈ slotsAt t (target.t0.toNat % 257), ∀ y ∈ side dir x, distance own source = distance own y.id → y.id = source)
    (hw : ∀ c, total (slotsAt t (target.t0.toNat % 257)) c + 2 * ((slotsAt t (target.t0.toNat % 257)).length + 1) < 256) :
    source ∈ (snuffle t' target 0 (!dir)).1 := by
  have hsp := scentOf_spec hs
  rcases inhale_cases h with ⟨_, hidx, w, hwl, hf⟩
  rw [hsp.2.2.2.1] at hwl hf hidx
  have hso : ∀ x ∈ slotsAt t (target.t0.toNat % 257), SlotOk x := by
    unfold slotsAt
    cases he : t.entry (target.t0.toNat % 257) with
    | none => simp
    | some e => exact (ht _ e he).2
  have hl := loop_learned hs hwl hso hts hd (by intro c; simpa [Nb.create] using hw c)
  have key : ∀ e : Entry, t'.entry (target.t0.toNat % 257) = some e → (∃ x ∈ e.slots, Learned target source dir x) →
      (∀ c ∈ cellsOf target, e.zero.age c ≠ 0 ∧ e.zero.count c ≠ 0) → source ∈ (snuffle t' target 0 (!dir)).1 := by
    intro e he ⟨x, hx, hxl⟩ hz
    unfold snuffle
    simp only [he]
    rw [if_pos ((check_iff _ _).2 hz), if_pos (Nat.zero_le _)]
    exact hops_mem hx hxl
  unfold finish at hf
  split at hf
  · split at hf
    · simp at hf
    · simp at hf
  · split at hf
    · rename_i hu
      simp only [Option.some.injEq, Prod.mk.injEq, and_true] at hf
      rcases hl.1 hu with ⟨x, hx, hxl⟩
      refine key { zero := w.1, slots := w.2.1 } (by rw [← hf]; simp [Table.set]) ⟨x, hx, hxl⟩ ?_
      intro c hc
      refine ⟨hl.2.2 c (Or.inr ⟨x, hx, (hxl.2 c hc).1⟩), ?_⟩
      simp only []
      rw [(hl.2.1 c).1]
      have h1 : x.bloom.count c ≤ total w.2.1 c := le_total c hx
      have h2 := (hxl.2 c hc).2
      omega
    · split at hf
      · simp only [Option.bind_eq_some_iff, Option.map_eq_some_iff] at hf
        rcases hf with ⟨z, hz, n, hn, he⟩
        simp only [Prod.mk.injEq, and_true] at he
        have hnl := newSlot_learned hs hn
        refine key { zero := z, slots := w.2.1 ++ [n] } (by rw [← he]; simp [Table.set]) ⟨n, by simp, hnl.1⟩ ?_
        intro c hc
        unfold Nb.union at hz
        split at hz
        · simp only [Option.some.injEq] at hz
          rw [← hz]
          have h1 : 0 < (cellsOf target).count c := List.count_pos_iff.2 hc
          have h2 := cellsOf_count target c
          have h3 := hsp.2.1 c
          have h4 := hsp.2.2.1 c
          rw [if_pos hc] at h4
          have h5 := (hl.2.1 c).2
          have h6 := hw c
          simp only [Nb.create] at h5
          simp only []
          omega
        · simp at hz
      · simp at hf

end Np.Phero
