import Verif.Phero.Lemmas3

set_option linter.unusedSimpArgs false
set_option linter.unusedVariables false

namespace Np.Phero

open Np.Dhkey Np.Bloom
open _root_.Np.Phero.Spec

/-! ## Many different targets at one position -/

/-- Some cell is used by one of the two only. -/
def Differs (a b : List Nat) : Prop := ∃ c, ¬ (c ∈ a ↔ c ∈ b)

/-- The elements are filters of single targets. -/
def Single (x : Slot) (target : Dhkey) : Prop := x.bloom.free ≤ 64 ∧ ∀ c, x.bloom.age c > 0 ↔ c ∈ cellsOf target

theorem intersectTest_false {r f : Nb} {c : Nat} (hc : c < cells) (h : ¬ (r.age c > 0 ↔ f.age c > 0)) : r.intersectTest f = false := by
  unfold Nb.intersectTest
  rw [Bool.and_eq_false_iff]
  refine Or.inl (decide_eq_false ?_)
  intro hall
  exact h (hall c hc)

theorem visit_differs {own : Dhkey} {now : Nat} {target t' source : Dhkey} {dir : Bool} {s : Scent} (hs : scentOf target source dir = some s) {x : Slot}
    (hx : Single x t') (hd : Differs (cellsOf t') (cellsOf target)) : visit own now s x = some (x, false) := by
  have hsp := scentOf_spec hs
  rcases hd with ⟨c, hc⟩
  have hlt : c < cells := by
    by_cases h : c ∈ cellsOf t'
    · exact cellsOf_lt _ _ h
    · have h' : c ∈ cellsOf target := by
        apply Classical.byContradiction
        intro h'
        exact hc ⟨fun h1 => absurd h1 h, fun h1 => absurd h1 h'⟩
      exact cellsOf_lt _ _ h'
  have hf : x.bloom.intersectTest s.bloom = false := by
    refine intersectTest_false hlt ?_
    intro h
    apply hc
    rw [← hx.2 c, h, hsp.2.2.1 c]
    by_cases h' : c ∈ cellsOf target <;> simp [h']
  unfold visit
  rw [hf]
  rfl

theorem loop_differs {own : Dhkey} {now : Nat} {target source : Dhkey} {dir : Bool} {s : Scent} (hs : scentOf target source dir = some s) :
    ∀ (l : List Slot) (zero : Nb), zero.free = 64 → (∀ x ∈ l, ∃ t', Single x t' ∧ Differs (cellsOf t') (cellsOf target)) →
    ∃ z, inhaleLoop own now s zero l = some (z, l, false) ∧ z.free = 64 := by
  intro l
  induction l with
  | nil => intro zero hz _; exact ⟨zero, rfl, hz⟩
  | cons x r ih =>
    intro zero hz hx
    rcases hx x (by simp) with ⟨t', h1, h2⟩
    rcases collect_total hz h1.1 with ⟨z, hzc, hzf⟩
    rcases ih z hzf (fun y hy => hx y (by simp [hy])) with ⟨z', hz', hzf'⟩
    refine ⟨z', ?_, hzf'⟩
    simp only [inhaleLoop, visit_differs hs h1 h2, Option.bind_some, hzc, hz', Option.map_some, Bool.or_self]

theorem newSlot_single {own : Dhkey} {now : Nat} {target source : Dhkey} {dir : Bool} {s : Scent} (hs : scentOf target source dir = some s) :
    ∃ n, newSlot own now s = some n ∧ Single n target := by
  have hsp := scentOf_spec hs
  rcases union_free (r := Nb.create) (f := s.bloom) (by simp [Nb.create, capacity]) (by simp [Nb.create, capacity]; omega) with ⟨u, hu, huf, hua, _⟩
  refine ⟨_, by unfold newSlot; rw [hu]; rfl, ?_, ?_⟩
  · simp only [huf]
    rw [hsp.1]
    simp [Nb.create, capacity]
  · intro c
    simp only [hua, hsp.2.2.1 c]
    by_cases h : c ∈ cellsOf target
    · simp [h, Nb.create]
    · simp [h, Nb.create]

theorem inhale_eq {debug : Bool} {own : Dhkey} {now : Nat} {t : Table} {target source : Dhkey} {dir : Bool} {s : Scent} (hs : scentOf target source dir = some s)
    {w : Nb × List Slot × Bool} (hw : inhaleLoop own now s Nb.create (slotsAt t (target.t0.toNat % 257)) = some w) :
    inhale debug own now t s = finish debug own now s t (target.t0.toNat % 257) w := by
  have hsp := scentOf_spec hs
  have hp0 : s.pos ≠ 0 := by
    cases dir with
    | true => have := hsp.2.2.2.2.1 rfl; omega
    | false => have := hsp.2.2.2.2.2 rfl; omega
  unfold inhale
  rw [if_neg hp0, if_neg (by rw [hsp.2.2.2.1]; have := Nat.mod_lt target.t0.toNat (show 0 < 257 by omega); omega), hsp.2.2.2.1]
  show (inhaleLoop own now s Nb.create (slotsAt t (target.t0.toNat % 257))).bind _ = _
  rw [hw]
  rfl

/-- Scents for these targets, one after the other, from one peer. -/
def scents (source : Dhkey) (targets : List Dhkey) : List (Nat × Op) :=
  targets.filterMap fun x => (scentOf x source true).map fun s => (0, Op.inhale s)

theorem scents_cons {source x : Dhkey} {l : List Dhkey} {s : Scent} (h : scentOf x source true = some s) :
    scents source (x :: l) = (0, Op.inhale s) :: scents source l := by
  simp [scents, h]

theorem run_differs {debug : Bool} {own source : Dhkey} {idx : Nat} : ∀ (targets : List Dhkey) (t : Table) (done : List Dhkey),
    (∀ x ∈ targets, x.t0.toNat % 257 = idx) → List.Pairwise (fun a b => Differs (cellsOf a) (cellsOf b)) (done ++ targets) →
    (∀ x ∈ slotsAt t idx, ∃ d ∈ done, Single x d) → (slotsAt t idx).length + targets.length ≤ 31 →
    ∃ t', run debug own t (scents source targets) = some t' ∧ (slotsAt t' idx).length = (slotsAt t idx).length + targets.length ∧
      t'.held = t.held ∧ ∀ x ∈ slotsAt t' idx, ∃ d ∈ done ++ targets, Single x d := by
  intro targets
  induction targets with
  | nil => intro t done _ _ hs _; exact ⟨t, rfl, by simp, rfl, by simpa using hs⟩
  | cons target l ih =>
    intro t done hidx hp hs hl
    rcases scentOf_some target source true with ⟨s, hso⟩
    have hti := hidx target (by simp)
    have hdf : ∀ x ∈ slotsAt t (target.t0.toNat % 257), ∃ t', Single x t' ∧ Differs (cellsOf t') (cellsOf target) := by
      rw [hti]
      intro x hx
      rcases hs x hx with ⟨d, hd, h1⟩
      exact ⟨d, h1, (List.pairwise_append.1 hp).2.2 d hd target (by simp)⟩
    rcases loop_differs (own := own) (now := 0) hso _ Nb.create rfl hdf with ⟨z, hz, hzf⟩
    rcases newSlot_single (own := own) (now := 0) hso with ⟨n, hn, hns⟩
    have hsp := scentOf_spec hso
    rcases union_free (r := z) (f := s.bloom) (by omega) (by omega) with ⟨u, hu, _⟩
    have hin : inhale debug own 0 t s = some (t.set idx { zero := u, slots := slotsAt t idx ++ [n] }, true) := by
      rw [inhale_eq hso hz, hti]
      unfold finish
      simp only [List.length_cons] at hl
      rw [if_neg (by simp only []; omega), if_neg (by simp), if_pos (by simp only []; omega), hu]
      simp only [Option.bind_some, hn, Option.map_some]
    have hsa : slotsAt (t.set idx { zero := u, slots := slotsAt t idx ++ [n] }) idx = slotsAt t idx ++ [n] := by
      rw [slotsAt_set]; simp
    rcases ih (t.set idx { zero := u, slots := slotsAt t idx ++ [n] }) (done ++ [target]) (fun x hx => hidx x (by simp [hx]))
      (by simpa using hp) (by
        rw [hsa]
        intro x hx
        rcases List.mem_append.1 hx with hx | hx
        · rcases hs x hx with ⟨d, hd, h1⟩; exact ⟨d, by simp [hd], h1⟩
        · rw [List.mem_singleton] at hx; subst hx; exact ⟨target, by simp, hns⟩)
      (by rw [hsa]; simp only [List.length_append, List.length_cons, List.length_nil] at hl ⊢; omega) with ⟨t', h1, h2, h3, h4⟩
    refine ⟨t', ?_, ?_, h3, by simpa using h4⟩
    · rw [scents_cons hso]
      simp only [run, step, hin, Option.map_some, Option.bind_some, h1]
    · rw [h2, hsa]; simp only [List.length_append, List.length_cons, List.length_nil]; omega

theorem run_append {debug : Bool} {own : Dhkey} (l r : List (Nat × Op)) : ∀ t, run debug own t (l ++ r) = (run debug own t l).bind fun t' => run debug own t' r := by
  induction l with
  | nil => intro t; rfl
  | cons o l ih =>
    intro t
    simp only [List.cons_append, run]
    cases step debug own t o with
    | none => rfl
    | some g => simp [ih]

theorem scents_append (source : Dhkey) (a b : List Dhkey) : scents source (a ++ b) = scents source a ++ scents source b := by
  simp [scents, List.filterMap_append]

/-! ## One target again and again -/

/-- The count of a cell after `k + 1` times. -/
def grown (sc k : Nat) : Nat := if sc = 0 then 0 else sc + k * (sc - 1)

/-- The element after `k + 1` times. -/
structure Again (target source : Dhkey) (k : Nat) (x : Slot) : Prop where
  age : ∀ c, x.bloom.age c = if c ∈ cellsOf target then min 255 (128 * (k + 1)) else 0
  count : ∀ c, x.bloom.count c = grown ((cellsOf target).count c) k
  free : x.bloom.free = 63
  recv : ∃ h, x.recv = [h] ∧ h.id = source
  send : x.send = []

theorem grown_le {sc k : Nat} (h : sc ≤ 2) : grown sc k ≤ 2 + k := by
  unfold grown
  split
  · omega
  · have : sc = 1 ∨ sc = 2 := by omega
    rcases this with e | e <;> subst e <;> simp <;> omega

theorem again_test {target source : Dhkey} {k : Nat} {x : Slot} (hx : Again target source k x) {s : Scent}
    (hs : scentOf target source true = some s) : x.bloom.intersectTest s.bloom = true := by
  have hsp := scentOf_spec hs
  unfold Nb.intersectTest
  rw [Bool.and_eq_true]
  have hge : ∀ c, s.bloom.count c ≤ x.bloom.count c := by
    intro c
    rw [hsp.2.1, hx.count]
    unfold grown
    split
    · omega
    · exact Nat.le_add_right _ _
  refine ⟨decide_eq_true ?_, decide_eq_true ?_⟩
  · intro c _
    rw [hx.age, hsp.2.2.1]
    by_cases h : c ∈ cellsOf target
    · simp only [if_pos h]; omega
    · simp [h]
  · congr 3
    funext i
    by_cases h : x.bloom.age i > 0 ∧ s.bloom.age i > 0
    · rw [if_pos h, if_pos ⟨h.1, h.2, hge i⟩]
    · rw [if_neg h, if_neg (fun h' => h ⟨h'.1, h'.2.1⟩)]

theorem again_visit {own : Dhkey} {now : Nat} {target source : Dhkey} {k : Nat} {x : Slot} (hx : Again target source k x) {s : Scent}
    (hs : scentOf target source true = some s) (hne : source ≠ Dhkey.zero) : ∃ y, visit own now s x = some (y, true) ∧
      (∀ c, y.bloom.age c = if c ∈ cellsOf target then min 255 (128 * (k + 2)) else 0) ∧
      (∀ c, y.bloom.count c = grown ((cellsOf target).count c) (k + 1) % 256) ∧ y.bloom.free = 63 ∧ (∃ h, y.recv = [h] ∧ h.id = source) ∧ y.send = [] := by
  have hsp := scentOf_spec hs
  have hpos := hsp.2.2.2.2.1 rfl
  rcases hx.recv with ⟨h, hr, hid⟩
  have h1 : refreshSend own now s x = some (x, false) := by
    unfold refreshSend
    rw [if_neg (by omega)]
  have hfo : forget x.bloom x.recv source = (x.bloom.countDecrement, []) := by
    unfold forget
    rw [hr]
    have : removeHop source [h] = some [] := by
      simp [removeHop, (equal_iff h.id source).2 hid]
    rw [this]
  have hin : insertHop own now source [] = [{ id := source, ts := now }] := by simp [insertHop, insertWalk]
  have hli : limit x.bloom.countDecrement [{ id := source, ts := now }] = (x.bloom.countDecrement, [{ id := source, ts := now }]) := by
    simp [limit, maxHops]
  have hcf : x.bloom.countDecrement.free = 64 := by rw [countDecrement_free (by rw [hx.free]; omega), hx.free]
  rcases union_free (r := x.bloom.countDecrement) (f := s.bloom) (by omega) (by omega) with ⟨u, hu, huf, hua, huc⟩
  refine ⟨{ x with bloom := u, recv := [{ id := source, ts := now }] }, ?_, ?_, ?_, ?_, ⟨_, rfl, rfl⟩, hx.send⟩
  · unfold visit
    rw [if_pos (again_test hx hs), h1]
    simp only [Option.bind_some]
    unfold refreshRecv
    rw [if_pos ⟨hpos.1, by rw [hpos.2]; exact hne⟩, hpos.2]
    unfold refresh
    simp only [hfo, hin, hli, hu, Option.map_some, Bool.false_or]
  · intro c
    simp only [hua]
    have : x.bloom.countDecrement.age c = x.bloom.age c := by unfold Nb.countDecrement; split <;> rfl
    rw [this, hx.age, hsp.2.2.1]
    by_cases h : c ∈ cellsOf target
    · simp only [if_pos h]; omega
    · simp [h]
  · intro c
    simp only [huc]
    have hdec : x.bloom.countDecrement.count c = x.bloom.count c - 1 := by
      unfold Nb.countDecrement
      rw [if_pos (by rw [hx.free]; decide)]
      simp only []
      split <;> omega
    rw [hdec, hx.count, hsp.2.1]
    congr 1
    have h2 := cellsOf_count target c
    unfold grown
    have : (cellsOf target).count c = 0 ∨ (cellsOf target).count c = 1 ∨ (cellsOf target).count c = 2 := by omega
    rcases this with e | e | e <;> rw [e] <;> simp <;> omega
  · simp only [huf]; omega

theorem again_inhale {debug : Bool} {own : Dhkey} {now : Nat} {target source : Dhkey} {k : Nat} {x : Slot} {t : Table} {s : Scent}
    (hx : Again target source k x) (ht : slotsAt t (target.t0.toNat % 257) = [x]) (hs : scentOf target source true = some s) (hne : source ≠ Dhkey.zero) :
    ∃ y z, inhale debug own now t s = some (t.set (target.t0.toNat % 257) { zero := z, slots := [y] }, true) ∧
      (∀ c, y.bloom.age c = if c ∈ cellsOf target then min 255 (128 * (k + 2)) else 0) ∧
      (∀ c, y.bloom.count c = grown ((cellsOf target).count c) (k + 1) % 256) ∧ y.bloom.free = 63 ∧ (∃ h, y.recv = [h] ∧ h.id = source) ∧ y.send = [] := by
  rcases again_visit (own := own) (now := now) hx hs hne with ⟨y, hv, h1, h2, h3, h4, h5⟩
  rcases collect_total (zero := Nb.create) (x := y) rfl (by omega) with ⟨z, hz, _⟩
  refine ⟨y, z, ?_, h1, h2, h3, h4, h5⟩
  have hw : inhaleLoop own now s Nb.create (slotsAt t (target.t0.toNat % 257)) = some (z, [y], true) := by
    rw [ht]
    simp [inhaleLoop, hv, hz]
  rw [inhale_eq hs hw]
  simp [finish]

theorem again_first {debug : Bool} {own : Dhkey} {now : Nat} {target source : Dhkey} {s : Scent} {t : Table}
    (ht : slotsAt t (target.t0.toNat % 257) = []) (hs : scentOf target source true = some s) :
    ∃ y z, inhale debug own now t s = some (t.set (target.t0.toNat % 257) { zero := z, slots := [y] }, true) ∧ Again target source 0 y := by
  have hsp := scentOf_spec hs
  have hpos := hsp.2.2.2.2.1 rfl
  rcases union_free (r := Nb.create) (f := s.bloom) (by simp [Nb.create, capacity]) (by simp [Nb.create, capacity]; omega) with ⟨u, hu, huf, hua, huc⟩
  have hin : insertHop own now source [] = [{ id := source, ts := now }] := by simp [insertHop, insertWalk]
  have hn : newSlot own now s = some { bloom := u, send := [], recv := [{ id := source, ts := now }] } := by
    unfold newSlot
    rw [hu]
    simp [hpos.1, hpos.2, hin]
  refine ⟨{ bloom := u, send := [], recv := [{ id := source, ts := now }] }, u, ?_, ⟨?_, ?_, ?_, ⟨_, rfl, rfl⟩, rfl⟩⟩
  · have hw : inhaleLoop own now s Nb.create (slotsAt t (target.t0.toNat % 257)) = some (Nb.create, [], false) := by rw [ht]; rfl
    rw [inhale_eq hs hw]
    unfold finish
    rw [if_neg (by simp), if_neg (by simp), if_pos (by simp [Nb.create, capacity]), hu]
    simp [hn]
  · intro c
    simp only [hua, hsp.2.2.1 c]
    by_cases h : c ∈ cellsOf target <;> simp [h, Nb.create]
  · intro c
    simp only [huc, hsp.2.1 c]
    have h2 := cellsOf_count target c
    unfold grown
    simp only [Nb.create]
    split <;> omega
  · simp only [huf, hsp.1]
    rfl

theorem again_run {debug : Bool} {own target source : Dhkey} {s : Scent} (hs : scentOf target source true = some s) (hne : source ≠ Dhkey.zero) :
    ∀ k, k ≤ 253 → ∃ t x, run debug own Table.empty (List.replicate (k + 1) (0, Op.inhale s)) = some t ∧
      slotsAt t (target.t0.toNat % 257) = [x] ∧ Again target source k x := by
  intro k
  induction k with
  | zero =>
    intro _
    rcases again_first (debug := debug) (own := own) (now := 0) (t := Table.empty) rfl hs with ⟨y, z, h1, h2⟩
    refine ⟨Table.empty.set (target.t0.toNat % 257) { zero := z, slots := [y] }, y, ?_, ?_, h2⟩
    · show run debug own Table.empty [(0, Op.inhale s)] = _
      simp only [run, step, h1, Option.map_some, Option.bind_some]
    · rw [slotsAt_set]; simp
  | succ k ih =>
    intro hk
    rcases ih (by omega) with ⟨t, x, h1, h2, h3⟩
    rcases again_inhale (debug := debug) (own := own) (now := 0) h3 h2 hs hne with ⟨y, z, h4, h5, h6, h7, h8, h9⟩
    refine ⟨t.set (target.t0.toNat % 257) { zero := z, slots := [y] }, y, ?_, ?_, ⟨?_, ?_, h7, h8, h9⟩⟩
    · rw [List.replicate_succ', run_append, h1]
      simp only [Option.bind_some, run, step, h4, Option.map_some]
    · rw [slotsAt_set]; simp
    · intro c; rw [h5]
    · intro c
      rw [h6]
      have := grown_le (sc := (cellsOf target).count c) (k := k + 1) (cellsOf_count target c)
      omega

end Np.Phero
