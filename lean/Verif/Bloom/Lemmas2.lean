import Verif.Bloom.Lemmas

set_option linter.unusedSimpArgs false
set_option linter.unusedVariables false

namespace Np.Bloom

open Np.Dhkey
open _root_.Np.Bloom.Spec

/-! ## Cells -/

theorem prod_lt (n : Nat) : (n % 3 + 1) * (n % 5 + 1) * (n % 17 + 1) - 1 < 255 := by
  have h1 : n % 3 + 1 ≤ 3 := by omega
  have h2 : n % 5 + 1 ≤ 5 := by omega
  have h3 : n % 17 + 1 ≤ 17 := by omega
  have h4 : (n % 3 + 1) * (n % 5 + 1) * (n % 17 + 1) ≤ 3 * 5 * 17 := Nat.mul_le_mul (Nat.mul_le_mul h1 h2) h3
  omega

theorem cellOf_block (k : Nat) (w : BitVec 32) : cellOf k w / 255 = k / 2 := by
  unfold cellOf
  have := prod_lt w.toNat
  generalize (w.toNat % 3 + 1) * (w.toNat % 5 + 1) * (w.toNat % 17 + 1) - 1 = x at this
  omega

theorem cellsOf_lt (id : Dhkey) : ∀ c ∈ cellsOf id, c < cells := by
  intro c hc
  unfold cells
  have hb : ∀ k w, k < 8 → cellOf k w < 1020 := by
    intro k w hk
    have := cellOf_block k w
    omega
  simp only [cellsOf, List.mem_cons, List.not_mem_nil, or_false] at hc
  rcases hc with h | h | h | h | h | h | h | h <;> rw [h] <;> exact hb _ _ (by omega)

theorem cellsOf_count (id : Dhkey) (i : Nat) : (cellsOf id).count i ≤ 2 := by
  have hb : ∀ k w, (if cellOf k w == i then 1 else 0) ≤ (if i / 255 = k / 2 then 1 else 0) := by
    intro k w
    by_cases h : cellOf k w = i
    · have := cellOf_block k w
      rw [h] at this
      simp [this, h]
    · simp [h]
  simp only [cellsOf, List.count_cons, List.count_nil]
  have h0 := hb 0 id.t0
  have h1 := hb 1 id.t1
  have h2 := hb 2 id.t2
  have h3 := hb 3 id.t3
  have h4 := hb 4 id.t4
  have h5 := hb 5 id.t5
  have h6 := hb 6 id.t6
  have h7 := hb 7 id.t7
  have e : (if i / 255 = 0 / 2 then 1 else 0) + (if i / 255 = 1 / 2 then 1 else 0) + (if i / 255 = 2 / 2 then 1 else 0) +
      (if i / 255 = 3 / 2 then 1 else 0) + (if i / 255 = 4 / 2 then 1 else 0) + (if i / 255 = 5 / 2 then 1 else 0) +
      (if i / 255 = 6 / 2 then 1 else 0) + (if i / 255 = 7 / 2 then 1 else 0) ≤ 2 := by
    generalize i / 255 = q
    by_cases h0 : q = 0
    · subst h0; simp
    by_cases h1 : q = 1
    · subst h1; simp
    by_cases h2 : q = 2
    · subst h2; simp
    by_cases h3 : q = 3
    · subst h3; simp
    simp [h0, h1, h2, h3]
  omega

/-! ## Additions -/

theorem fold_age (l : List Nat) : ∀ (f : Nb) (i : Nat), (l.foldl Nb.touch f).age i = if i ∈ l then f.age i % 128 + 128 else f.age i := by
  induction l with
  | nil => intro f i; simp
  | cons c l ih =>
    intro f i
    rw [List.foldl_cons, ih]
    unfold Nb.touch
    by_cases h : i = c
    · subst h
      simp
    · by_cases hl : i ∈ l <;> simp [h, hl]

theorem fold_count (l : List Nat) : ∀ (f : Nb) (i : Nat), f.count i + l.count i < 256 →
    (l.foldl Nb.touch f).count i = f.count i + l.count i := by
  induction l with
  | nil => intro f i _; simp
  | cons c l ih =>
    intro f i h
    rw [List.foldl_cons]
    rw [List.count_cons] at h ⊢
    by_cases e : c = i
    · subst e
      simp only [beq_self_eq_true, if_true] at h ⊢
      have ht : (f.touch c).count c = f.count c + 1 := by
        simp only [Nb.touch, if_true]
        omega
      rw [ih _ _ (by rw [ht]; omega), ht]
      omega
    · have ht : (f.touch c).count i = f.count i := by
        simp only [Nb.touch]
        rw [if_neg (fun h => e h.symm)]
      have e' : (c == i) = false := by simpa using e
      simp only [e', Bool.false_eq_true, if_false, Nat.add_zero] at h ⊢
      rw [ih _ _ (by rw [ht]; omega), ht]

/-- Counts never overflow within the capacity. -/
def NbInv (f : Nb) : Prop := f.free ≤ 64 ∧ ∀ i, f.count i ≤ 2 * (64 - f.free)

theorem create_inv : NbInv Nb.create := ⟨by simp [Nb.create, capacity], by simp [Nb.create]⟩

theorem add_spec {f : Nb} (hf : NbInv f) (h : 0 < f.free) (id : Dhkey) : ∃ g, f.add id = some g ∧ NbInv g ∧ g.free = f.free - 1 ∧
    (∀ i, g.count i = f.count i + (cellsOf id).count i) ∧ ∀ i, g.age i = if i ∈ cellsOf id then f.age i % 128 + 128 else f.age i := by
  have hc : ∀ i, ((cellsOf id).foldl Nb.touch f).count i = f.count i + (cellsOf id).count i := by
    intro i
    refine fold_count _ _ _ ?_
    have := hf.2 i
    have := cellsOf_count id i
    have := hf.1
    omega
  unfold Nb.add
  rw [if_neg (by omega)]
  refine ⟨_, rfl, ⟨?_, ?_⟩, rfl, hc, fun i => fold_age (cellsOf id) f i⟩
  · show f.free - 1 ≤ 64
    have := hf.1
    omega
  · intro i
    show ((cellsOf id).foldl Nb.touch f).count i ≤ 2 * (64 - (f.free - 1))
    rw [hc]
    have := hf.2 i
    have := cellsOf_count id i
    have := hf.1
    omega

theorem add_full {f : Nb} (h : f.free = 0) (id : Dhkey) : f.add id = none := by
  unfold Nb.add
  rw [if_pos h]

theorem age_inv {f : Nb} (hf : NbInv f) : NbInv f.ageDecrement := hf

/-! ## Histories -/

theorem additions_cons_add (id : Dhkey) (l : List NbOp) : additions (.add id :: l) = additions l + 1 := by simp [additions]
theorem additions_cons_age (l : List NbOp) : additions (.age :: l) = additions l := by simp [additions]
theorem agings_cons_add (id : Dhkey) (l : List NbOp) : agings (.add id :: l) = agings l := by simp [agings]
theorem agings_cons_age (l : List NbOp) : agings (.age :: l) = agings l + 1 := by simp [agings]

theorem run_total : ∀ (l : List NbOp) (f : Nb), NbInv f → additions l ≤ f.free →
    ∃ g, nbRun f l = some g ∧ NbInv g ∧ g.free = f.free - additions l := by
  intro l
  induction l with
  | nil => intro f hf _; exact ⟨f, rfl, hf, by simp [additions]⟩
  | cons op l ih =>
    intro f hf h
    cases op with
    | add id =>
      rw [additions_cons_add] at h ⊢
      rcases add_spec hf (by omega) id with ⟨g, hg, hi, hfr, _, _⟩
      rcases ih g hi (by omega) with ⟨k, hk, hki, hkf⟩
      exact ⟨k, by simp [nbRun, nbStep, hg, hk], hki, by omega⟩
    | age =>
      rw [additions_cons_age] at h ⊢
      rcases ih f.ageDecrement (age_inv hf) h with ⟨k, hk, hki, hkf⟩
      exact ⟨k, by simp [nbRun, nbStep, hk], hki, hkf⟩

theorem run_aborts : ∀ (l : List NbOp) (f : Nb), NbInv f → f.free < additions l → nbRun f l = none := by
  intro l
  induction l with
  | nil => intro f hf h; simp [additions] at h
  | cons op l ih =>
    intro f hf h
    cases op with
    | add id =>
      rw [additions_cons_add] at h
      by_cases h0 : f.free = 0
      · simp [nbRun, nbStep, add_full h0]
      · rcases add_spec hf (by omega) id with ⟨g, hg, hi, hfr, _, _⟩
        simp [nbRun, nbStep, hg, ih g hi (by omega)]
    | age =>
      rw [additions_cons_age] at h
      simp [nbRun, nbStep, ih f.ageDecrement (age_inv hf) h]

theorem run_append (l r : List NbOp) : ∀ f, nbRun f (l ++ r) = (nbRun f l).bind fun g => nbRun g r := by
  induction l with
  | nil => intro f; rfl
  | cons op l ih =>
    intro f
    simp only [List.cons_append, nbRun]
    cases nbStep f op with
    | none => rfl
    | some g => simp [ih]

/-- Ages fall by at most eight per aging. -/
theorem run_age_lower : ∀ (l : List NbOp) (f g : Nb) (m : Nat), NbInv f → nbRun f l = some g → m ≤ 16 → ∀ i, f.age i ≥ 8 * m →
    g.age i ≥ 8 * (m - agings l) ∧ g.count i ≥ f.count i := by
  intro l
  induction l with
  | nil => intro f g m _ h _ i ha; simp only [nbRun, Option.some.injEq] at h; subst h; exact ⟨by simpa [agings] using ha, Nat.le_refl _⟩
  | cons op l ih =>
    intro f g m hf h hm i ha
    simp only [nbRun, Option.bind_eq_some_iff] at h
    rcases h with ⟨k, hk, hr⟩
    cases op with
    | add id =>
      have h0 : 0 < f.free := by
        apply Nat.pos_of_ne_zero
        intro h0
        simp [nbStep, add_full h0] at hk
      rcases add_spec hf h0 id with ⟨k', hk', hi, _, hc, hag⟩
      have e : k = k' := by simp only [nbStep] at hk; rw [hk'] at hk; exact (Option.some.inj hk).symm
      subst e
      rw [agings_cons_add]
      have hx := ih k g m hi hr hm i (by rw [hag]; split <;> omega)
      exact ⟨hx.1, by have := hc i; omega⟩
    | age =>
      simp only [nbStep, Option.some.injEq] at hk
      subst hk
      rw [agings_cons_age]
      have hx := ih f.ageDecrement g (m - 1) (age_inv hf) hr (by omega) i (by simp only [Nb.ageDecrement]; split <;> omega)
      have hx1 := hx.1
      have hx2 : g.count i ≥ f.count i := hx.2
      exact ⟨by omega, hx2⟩

/-- Without additions they fall by eight per aging. -/
theorem run_age_upper : ∀ (l : List NbOp) (f g : Nb) (m : Nat), nbRun f l = some g → additions l = 0 → ∀ i, f.age i ≤ 8 * m →
    g.age i ≤ 8 * (m - agings l) := by
  intro l
  induction l with
  | nil => intro f g m h _ i ha; simp only [nbRun, Option.some.injEq] at h; subst h; simpa [agings] using ha
  | cons op l ih =>
    intro f g m h h0 i ha
    simp only [nbRun, Option.bind_eq_some_iff] at h
    rcases h with ⟨k, hk, hr⟩
    cases op with
    | add id => rw [additions_cons_add] at h0; omega
    | age =>
      simp only [nbStep, Option.some.injEq] at hk
      subst hk
      rw [agings_cons_age]
      rw [additions_cons_age] at h0
      have hx := ih f.ageDecrement g (m - 1) hr h0 i (by simp only [Nb.ageDecrement]; split <;> omega)
      omega

/-- Every age is a byte, and a cell that was never used has no age. -/
theorem run_bytes : ∀ (l : List NbOp) (f g : Nb), NbInv f → nbRun f l = some g → (∀ i, f.age i ≤ 255 ∧ (f.count i = 0 → f.age i = 0)) →
    ∀ i, g.age i ≤ 255 ∧ (g.count i = 0 → g.age i = 0) := by
  intro l
  induction l with
  | nil => intro f g _ h hb; simp only [nbRun, Option.some.injEq] at h; subst h; exact hb
  | cons op l ih =>
    intro f g hf h hb
    simp only [nbRun, Option.bind_eq_some_iff] at h
    rcases h with ⟨k, hk, hr⟩
    cases op with
    | add id =>
      have h0 : 0 < f.free := by
        apply Nat.pos_of_ne_zero
        intro h0
        simp [nbStep, add_full h0] at hk
      rcases add_spec hf h0 id with ⟨k', hk', hi, _, hc, hag⟩
      have e : k = k' := by simp only [nbStep] at hk; rw [hk'] at hk; exact (Option.some.inj hk).symm
      subst e
      refine ih k g hi hr ?_
      intro i
      rw [hag, hc]
      by_cases hm : i ∈ cellsOf id
      · have : 0 < (cellsOf id).count i := List.count_pos_iff.2 hm
        rw [if_pos hm]
        exact ⟨by omega, by omega⟩
      · rw [if_neg hm, List.count_eq_zero.2 hm]
        exact hb i
    | age =>
      simp only [nbStep, Option.some.injEq] at hk
      subst hk
      refine ih f.ageDecrement g (age_inv hf) hr ?_
      intro i
      have hx := hb i
      simp only [Nb.ageDecrement]
      refine ⟨by split <;> omega, fun h => ?_⟩
      have := hx.2 h
      split <;> omega

theorem check_iff (f : Nb) (id : Dhkey) : f.check id = true ↔ ∀ c ∈ cellsOf id, f.age c ≠ 0 ∧ f.count c ≠ 0 := by
  simp only [Nb.check, List.all_eq_true, decide_eq_true_eq]

theorem nodupless (id : Dhkey) : cellsOf id ≠ [] := by simp [cellsOf]

theorem run_inv {l : List NbOp} {f g : Nb} (hf : NbInv f) (h : nbRun f l = some g) : NbInv g ∧ additions l ≤ f.free ∧ g.free = f.free - additions l := by
  by_cases hl : additions l ≤ f.free
  · rcases run_total l f hf hl with ⟨k, hk, hi, hfr⟩
    rw [h] at hk
    cases hk
    exact ⟨hi, hl, hfr⟩
  · rw [run_aborts l f hf (by omega)] at h
    simp at h

/-! ## Policies -/

/-- The hashes a list of requirements, or of attributes, puts into a filter. -/
def reqHashes (h : Hash) : List (String × Option (List (BitVec 8))) → List Dhkey
  | [] => []
  | (k, none) :: r => h.key k :: reqHashes h r
  | (k, some v) :: r => h.key k :: h.value v :: reqHashes h r

def attrHashes (h : Hash) : List (String × List (BitVec 8)) → List Dhkey
  | [] => []
  | (k, v) :: r => h.key k :: h.key k :: h.value v :: attrHashes h r

theorem reqHashes_length (h : Hash) (p : List (String × Option (List (BitVec 8)))) : (reqHashes h p).length = entries p := by
  induction p with
  | nil => rfl
  | cons a p ih =>
    rcases a with ⟨k, _ | v⟩
    · simp only [reqHashes, entries, List.length_cons, ih]; omega
    · simp only [reqHashes, entries, List.length_cons, ih]; omega

theorem attrHashes_length (h : Hash) (p : List (String × List (BitVec 8))) : (attrHashes h p).length = 3 * p.length := by
  induction p with
  | nil => rfl
  | cons a p ih =>
    rcases a with ⟨k, v⟩
    simp only [attrHashes, List.length_cons, ih]; omega

theorem policyOf_run (h : Hash) : ∀ (p : List (String × Option (List (BitVec 8)))) (f : Nb),
    policyOf h f p = nbRun f ((reqHashes h p).map NbOp.add) := by
  intro p
  induction p with
  | nil => intro f; rfl
  | cons a p ih =>
    intro f
    rcases a with ⟨k, _ | v⟩
    · simp only [policyOf, setPolicy, setKey, reqHashes, List.map_cons, nbRun, nbStep]
      cases f.add (h.key k) with
      | none => rfl
      | some g => exact ih g
    · simp only [policyOf, setPolicy, setBin, setKey, reqHashes, List.map_cons, nbRun, nbStep]
      cases f.add (h.key k) with
      | none => rfl
      | some g =>
        simp only [Option.bind_some]
        cases g.add (h.value v) with
        | none => rfl
        | some g => exact ih g

theorem buildBloom_run (h : Hash) : ∀ (p : List (String × List (BitVec 8))) (f : Nb),
    buildBloom h f p = nbRun f ((attrHashes h p).map NbOp.add) := by
  intro p
  induction p with
  | nil => intro f; rfl
  | cons a p ih =>
    intro f
    rcases a with ⟨k, v⟩
    simp only [buildBloom, addAttribute, setBin, setKey, attrHashes, List.map_cons, nbRun, nbStep]
    cases f.add (h.key k) with
    | none => rfl
    | some g =>
      simp only [Option.bind_some]
      cases g.add (h.key k) with
      | none => rfl
      | some g =>
        simp only [Option.bind_some]
        cases g.add (h.value v) with
        | none => rfl
        | some g => exact ih g

theorem additions_map (l : List Dhkey) : additions (l.map NbOp.add) = l.length := by
  induction l with
  | nil => rfl
  | cons a l ih => rw [List.map_cons, additions_cons_add, ih]; rfl

/-- A cell is in use exactly if one of the added ids uses it. -/
theorem run_support : ∀ (l : List Dhkey) (f g : Nb), NbInv f → nbRun f (l.map NbOp.add) = some g →
    ∀ i, g.count i ≠ 0 ↔ f.count i ≠ 0 ∨ ∃ x ∈ l, i ∈ cellsOf x := by
  intro l
  induction l with
  | nil => intro f g _ h i; simp only [List.map_nil, nbRun, Option.some.injEq] at h; subst h; simp
  | cons a l ih =>
    intro f g hf h i
    simp only [List.map_cons, nbRun, Option.bind_eq_some_iff] at h
    rcases h with ⟨k, hk, hr⟩
    have h0 : 0 < f.free := by
      apply Nat.pos_of_ne_zero
      intro h0
      simp [nbStep, add_full h0] at hk
    rcases add_spec hf h0 a with ⟨k', hk', hi, _, hc, hag⟩
    have e : k = k' := by simp only [nbStep] at hk; rw [hk'] at hk; exact (Option.some.inj hk).symm
    subst e
    rw [ih k g hi hr i, hc]
    constructor
    · rintro (h | ⟨x, hx, hm⟩)
      · by_cases hm : i ∈ cellsOf a
        · exact Or.inr ⟨a, by simp, hm⟩
        · rw [List.count_eq_zero.2 hm] at h
          exact Or.inl (by omega)
      · exact Or.inr ⟨x, by simp [hx], hm⟩
    · rintro (h | ⟨x, hx, hm⟩)
      · exact Or.inl (by omega)
      · rcases List.mem_cons.1 hx with e | e
        · subst e
          have : 0 < (cellsOf x).count i := List.count_pos_iff.2 hm
          exact Or.inl (by omega)
        · exact Or.inr ⟨x, e, hm⟩

theorem compliant_hashes {h : Hash} {p : List (String × Option (List (BitVec 8)))} {a : List (String × List (BitVec 8))}
    (hc : Compliant p a) : ∀ x ∈ reqHashes h p, x ∈ attrHashes h a := by
  have hk : ∀ {k v}, (k, v) ∈ a → h.key k ∈ attrHashes h a ∧ h.value v ∈ attrHashes h a := by
    intro k v hm
    clear hc
    induction a with
    | nil => simp at hm
    | cons b a ih =>
      rcases b with ⟨k', v'⟩
      rcases List.mem_cons.1 hm with e | e
      · cases e; simp [attrHashes]
      · have := ih e
        simp [attrHashes, this]
  induction p with
  | nil => intro x hx; simp [reqHashes] at hx
  | cons r p ih =>
    intro x hx
    have hp : Compliant p a := fun y hy => hc y (by simp [hy])
    rcases r with ⟨k, _ | v⟩
    · have h1 : ∃ v, (k, v) ∈ a := hc (k, none) (by simp)
      rcases h1 with ⟨v, hv⟩
      simp only [reqHashes, List.mem_cons] at hx
      rcases hx with e | e
      · subst e; exact (hk hv).1
      · exact ih hp x e
    · have h1 : (k, v) ∈ a := hc (k, some v) (by simp)
      simp only [reqHashes, List.mem_cons] at hx
      rcases hx with e | e | e
      · subst e; exact (hk h1).1
      · subst e; exact (hk h1).2
      · exact ih hp x e

theorem same_iff (a b : Nb) : a.same b = true ↔ ∀ i < cells, (a.count i = 0 ↔ b.count i = 0) := by
  simp [Nb.same]

/-- The check, written out. -/
theorem check_eq (h : Hash) {reqs : List (String × Option (List (BitVec 8)))} {p : Nb} (hp : policyOf h Nb.create reqs = some p)
    {attrs : List (String × List (BitVec 8))} (hcap : entries reqs + 3 * attrs.length ≤ 64) :
    checkCompliance h (some p) (some attrs) =
      some (decide (∀ i < cells, (∃ x ∈ reqHashes h reqs, i ∈ cellsOf x) → ∃ x ∈ attrHashes h attrs, i ∈ cellsOf x)) := by
  rw [policyOf_run] at hp
  have hpi := run_inv create_inv hp
  have hps := run_support _ _ _ create_inv hp
  rw [additions_map, reqHashes_length] at hpi
  rcases run_total ((attrHashes h attrs).map NbOp.add) Nb.create create_inv
    (by rw [additions_map, attrHashes_length]; simp only [Nb.create, capacity]; omega) with ⟨all, hall, halli, hallf⟩
  have has := run_support _ _ _ create_inv hall
  rw [additions_map, attrHashes_length] at hallf
  have hcf : Nb.create.free = 64 := rfl
  have hc0 : ∀ i, Nb.create.count i = 0 := fun _ => rfl
  rw [hcf] at hpi hallf
  unfold checkCompliance
  by_cases hs : Nb.create.same p = true
  · simp only [hs, if_true]
    rw [same_iff] at hs
    refine congrArg some (Eq.symm (decide_eq_true ?_))
    intro i hi hx
    have h1 := (hps i).2 (Or.inr hx)
    exact absurd ((hs i hi).1 rfl) h1
  · simp only [hs, Bool.false_eq_true, if_false]
    rw [buildBloom_run, hall]
    simp only [Option.bind_some]
    have hu : Nb.create.union p = some (Nb.mk (fun i => min 255 (Nb.create.age i + p.age i))
        (fun i => (Nb.create.count i + p.count i) % 256) ((Nb.create.free + p.free - capacity) % 65536)) := by
      unfold Nb.union
      rw [if_pos (by simp only [hcf, capacity]; omega)]
    rw [hu]
    simp only [Option.bind_some, hcf, capacity]
    unfold Nb.intersectIgnoreAge
    rw [if_pos (by simp only [capacity]; omega)]
    simp only [Option.bind_some, Option.some.injEq, hc0, Nat.zero_add]
    rw [Bool.eq_iff_iff, same_iff]
    simp only [decide_eq_true_eq]
    have key : ∀ i, p.count i + all.count i < 256 ∧ p.count i < 256 := by
      intro i
      have h1 := hpi.1.2 i
      have h2 := halli.2 i
      omega
    constructor
    · intro hx i hi hr
      have h1 := (hps i).2 (Or.inr hr)
      have h2 := hx i hi
      have h3 := (has i).1
      rcases h3 (by
        intro h0
        rw [h0] at h2
        simp at h2
        exact h1 h2) with h | h
      · exact absurd (hc0 i) h
      · exact h
    · intro hx i hi
      have hk := key i
      constructor
      · intro h0; simp [h0]
      · intro h0
        apply Classical.byContradiction
        intro hne
        have h1 := hx i hi (by
          rcases (hps i).1 hne with h | h
          · exact absurd (hc0 i) h
          · exact h)
        have h2 := (has i).2 (Or.inr h1)
        have h3 : p.count i % 256 = p.count i := by omega
        rw [if_pos ⟨by omega, by omega⟩] at h0
        omega

theorem check_aborts (h : Hash) {reqs : List (String × Option (List (BitVec 8)))} {p : Nb} (hp : policyOf h Nb.create reqs = some p) (hne : reqs ≠ [])
    {attrs : List (String × List (BitVec 8))} (hcap : entries reqs + 3 * attrs.length > 64) :
    checkCompliance h (some p) (some attrs) = none := by
  rw [policyOf_run] at hp
  have hpi := run_inv create_inv hp
  have hps := run_support _ _ _ create_inv hp
  rw [additions_map, reqHashes_length] at hpi
  have hcf : Nb.create.free = 64 := rfl
  have hc0 : ∀ i, Nb.create.count i = 0 := fun _ => rfl
  rw [hcf] at hpi
  have hs : ¬ Nb.create.same p = true := by
    intro hs
    rw [same_iff] at hs
    have : ∃ x, x ∈ reqHashes h reqs := by
      cases reqs with
      | nil => exact absurd rfl hne
      | cons a r => rcases a with ⟨k, _ | v⟩ <;> exact ⟨_, List.mem_cons_self ..⟩
    rcases this with ⟨x, hx⟩
    have hc : cellOf 0 x.t0 ∈ cellsOf x := by simp [cellsOf]
    exact (hps _).2 (Or.inr ⟨x, hx, hc⟩) ((hs _ (cellsOf_lt x _ hc)).1 rfl)
  unfold checkCompliance
  simp only [hs, Bool.false_eq_true, if_false]
  rw [buildBloom_run]
  by_cases h3 : 3 * attrs.length ≤ 64
  · rcases run_total ((attrHashes h attrs).map NbOp.add) Nb.create create_inv
      (by rw [additions_map, attrHashes_length, hcf]; omega) with ⟨all, hall, halli, hallf⟩
    rw [additions_map, attrHashes_length, hcf] at hallf
    rw [hall]
    simp only [Option.bind_some]
    have hu : Nb.create.union p = some (Nb.mk (fun i => min 255 (Nb.create.age i + p.age i))
        (fun i => (Nb.create.count i + p.count i) % 256) ((Nb.create.free + p.free - capacity) % 65536)) := by
      unfold Nb.union
      rw [if_pos (by simp only [hcf, capacity]; omega)]
    rw [hu]
    simp only [Option.bind_some, hcf, capacity]
    unfold Nb.intersectIgnoreAge
    rw [if_neg (by simp only [capacity]; omega)]
    rfl
  · rw [run_aborts _ _ create_inv (by rw [additions_map, attrHashes_length, hcf]; omega)]
    rfl

end Np.Bloom
