import Verif.Bloom.Lemmas2

/-! # Properties of the bloom filters and attribute policies: C21, C22, C23, C63 -/
namespace Np.Bloom

open Np.Dhkey
open _root_.Np.Bloom.Spec

def idA : Dhkey := ⟨1, 2, 3, 4, 5, 6, 7, 8⟩
def idB : Dhkey := ⟨11, 12, 13, 14, 15, 16, 17, 18⟩

/-! ## C21 -/

/-- **C21.**  Whatever has been done to build a filter, additions, unions, intersections in any order and for any size, an id
that has been added is found: an addition and a union keep what is there, an intersection keeps what is in both. -/
theorem C21_no_false_negatives (size : Nat) (b : Build) (f : Std) (h : b.eval size = some f) (id : Dhkey) (hc : Contains b id) :
    f.check id = some true := by
  have hs := eval_spec h
  unfold Std.check
  rw [hs.1]
  exact checkBits_of_set (hs.2.2 id hc)

/-- Filters that are built without abort exist, and the three operations are covered. -/
example : ∃ f, (Build.union (.intersect (.add (.add .new idA) idB) (.add .new idB)) .new).eval 256 = some f ∧
    Contains (Build.union (.intersect (.add (.add .new idA) idB) (.add .new idB)) .new) idB ∧ f.check idB = some true ∧
    f.check idA = some false := by
  refine ⟨_, rfl, ?_, ?_, ?_⟩
  · exact Or.inl ⟨Or.inl rfl, Or.inl rfl⟩
  · decide +kernel
  · decide +kernel

/-- **C21.**  A filter whose size is a multiple of eight takes one sixteenth of its size in ids without aborting, and all of
them are found. -/
theorem C21_capacity (size : Nat) (hs : 0 < size) (h8 : size % 8 = 0) (hm : size < 1048576) (ids : List Dhkey)
    (hn : ids.length ≤ size / 16) : ∃ f, (addAll ids).eval size = some f ∧ ∀ id ∈ ids, f.check id = some true := by
  rcases addAll_total hs h8 (by omega) ids.length ids rfl hn with ⟨f, hf, _⟩
  exact ⟨f, hf, fun id hid => C21_no_false_negatives size _ f hf id (addAll_contains hid)⟩

example : (0 : Nat) < 256 ∧ 256 % 8 = 0 ∧ 256 < 1048576 ∧ [idA, idB].length ≤ 256 / 16 := by decide

/-- **C21, limits.**  The next addition aborts the process, and so does the first one if the size exceeds the 16-bit counter; a
size that is no multiple of eight is accepted by `create` and lets an addition write behind the array. -/
theorem C21_limits_refuted :
    (∀ size ids, 0 < size → size % 8 = 0 → size < 1048576 → ids.length = size / 16 → ∀ x, (addAll (ids ++ [x])).eval size = none) ∧
    (∀ x, (addAll [x]).eval 1048576 = none) ∧
    ∃ x, (addAll [x]).eval 28 = none ∧ (Std.create 28).free ≠ 0 := by
  refine ⟨?_, ?_, ⟨⟨27, 0, 0, 0, 0, 0, 0, 0⟩, by decide +kernel, by decide +kernel⟩⟩
  · intro size ids hs h8 hm hl x
    rcases addAll_total hs h8 (by omega) ids.length ids rfl (by omega) with ⟨f, hf, _, _, h3⟩
    rw [addAll_snoc]
    simp only [Build.eval, hf, Option.bind_some]
    unfold Std.add
    rw [if_pos (by omega)]
  · intro x
    show ((Std.create 1048576).add x) = none
    unfold Std.add
    rw [if_pos (show (Std.create 1048576).free = 0 from show 1048576 / 16 % 65536 = 0 by decide)]

/-! ## C22 -/

/-- **C22.**  Within the capacity of 64 additions an id is found until it has been aged sixteen times: up to fifteen agings
after its addition, whatever else is added before, in between and afterwards. -/
theorem C22_found (pre post : List NbOp) (id : Dhkey) (hcap : additions pre + 1 + additions post ≤ 64) (hage : agings post ≤ 15) :
    ∃ f, nbRun Nb.create (pre ++ .add id :: post) = some f ∧ f.check id = true := by
  rcases run_total pre Nb.create create_inv (by show _ ≤ 64; omega) with ⟨g, hg, hgi, hgf⟩
  have hcf : Nb.create.free = 64 := rfl
  rw [hcf] at hgf
  rcases add_spec hgi (by omega) id with ⟨k, hk, hki, hkf, hkc, hka⟩
  rcases run_total post k hki (by omega) with ⟨f, hf, hfi, _⟩
  refine ⟨f, ?_, ?_⟩
  · rw [run_append, hg]
    simp only [Option.bind_some, nbRun, nbStep, hk, hf]
  · rw [check_iff]
    intro c hc
    have h1 := run_age_lower post k f 16 hki hf (by omega) c (by rw [hka, if_pos hc]; omega)
    have h2 : 0 < (cellsOf id).count c := List.count_pos_iff.2 hc
    have h3 := hkc c
    exact ⟨by omega, by omega⟩

example : additions [.add idB, .age] + 1 + additions [.age, .add idB, .age] ≤ 64 ∧ agings [.age, .add idB, .age] ≤ 15 := by decide

/-- **C22, expiry.**  An id that was not in the filter when it was added is gone after sixteen agings without further
additions.  Missing from the full statement: ids that are added again while they are still found (see
`C22_refresh_refuted`), and ids whose cells are refreshed by other ids. -/
theorem C22_gone_partial (pre post : List NbOp) (id : Dhkey) (f g : Nb) (hpre : nbRun Nb.create pre = some f)
    (hnew : f.check id = false) (hadd : additions post = 0) (hage : 16 ≤ agings post)
    (hrun : nbRun Nb.create (pre ++ .add id :: post) = some g) : g.check id = false := by
  have hfi := run_inv create_inv hpre
  have hb := run_bytes pre Nb.create f create_inv hpre (by intro i; simp [Nb.create])
  rw [run_append, hpre] at hrun
  simp only [Option.bind_some, nbRun, Option.bind_eq_some_iff, nbStep] at hrun
  rcases hrun with ⟨k, hk, hr⟩
  have h0 : 0 < f.free := by
    apply Nat.pos_of_ne_zero
    intro h0
    rw [add_full h0] at hk
    simp at hk
  rcases add_spec hfi.1 h0 id with ⟨k', hk', hki, _, _, hka⟩
  rw [hk] at hk'
  cases hk'
  have hex : ∃ c ∈ cellsOf id, f.age c = 0 := by
    apply Classical.byContradiction
    intro hno
    have : f.check id = true := by
      rw [check_iff]
      intro c hc
      have h1 : f.age c ≠ 0 := fun h => hno ⟨c, hc, h⟩
      exact ⟨h1, fun h => h1 ((hb c).2 h)⟩
    rw [this] at hnew
    simp at hnew
  rcases hex with ⟨c, hc, hc0⟩
  have h1 := run_age_upper post k g 16 hr hadd c (by rw [hka, if_pos hc, hc0]; omega)
  cases hck : g.check id with
  | false => rfl
  | true =>
    rw [check_iff] at hck
    exact absurd (by omega) (hck c hc).1

/-- **C22, expiry.**  After thirty-two agings without additions nothing is found any more, whatever the history. -/
theorem C22_all_gone (pre post : List NbOp) (g : Nb) (hadd : additions post = 0) (hage : 32 ≤ agings post)
    (hrun : nbRun Nb.create (pre ++ post) = some g) (id : Dhkey) : g.check id = false := by
  rw [run_append, Option.bind_eq_some_iff] at hrun
  rcases hrun with ⟨f, hf, hr⟩
  have hb := run_bytes pre Nb.create f create_inv hf (by intro i; simp [Nb.create])
  have hc : cellOf 0 id.t0 ∈ cellsOf id := by simp [cellsOf]
  have h1 := run_age_upper post f g 32 hr hadd (cellOf 0 id.t0) (by have := (hb (cellOf 0 id.t0)).1; omega)
  cases hck : g.check id with
  | false => rfl
  | true =>
    rw [check_iff] at hck
    exact absurd (by omega) (hck _ hc).1

/-- The hypotheses are met. -/
example : ∃ f g, nbRun Nb.create [.add idA] = some f ∧ f.check idB = false ∧ additions (List.replicate 16 NbOp.age) = 0 ∧
    16 ≤ agings (List.replicate 16 NbOp.age) ∧ nbRun Nb.create ([.add idA] ++ .add idB :: List.replicate 16 .age) = some g ∧ g.check idB = false :=
  ⟨_, _, rfl, by decide +kernel, by decide +kernel, by decide +kernel, rfl, by decide +kernel⟩

example : additions (List.replicate 32 NbOp.age) = 0 ∧ 32 ≤ agings (List.replicate 32 NbOp.age) := by decide +kernel

/-- **C22 is false for ids that are added again.**  A refresh sets the highest bit of the age and leaves the rest: after two
additions with one aging between them the id survives sixteen agings, in fact thirty. -/
theorem C22_refresh_refuted : ∃ f, nbRun Nb.create ([.add idA, .age, .add idA] ++ List.replicate 16 .age) = some f ∧ f.check idA = true ∧
    ∃ g, nbRun Nb.create ([.add idA, .age, .add idA] ++ List.replicate 30 .age) = some g ∧ g.check idA = true :=
  ⟨_, rfl, by decide +kernel, _, rfl, by decide +kernel⟩

/-- **C22, capacity.**  A history aborts exactly if it contains more than 64 additions: agings give nothing back. -/
theorem C22_capacity (l : List NbOp) : nbRun Nb.create l = none ↔ 64 < additions l := by
  constructor
  · intro h
    apply Classical.byContradiction
    intro hn
    rcases run_total l Nb.create create_inv (by show _ ≤ 64; omega) with ⟨g, hg, _⟩
    rw [h] at hg
    simp at hg
  · exact fun h => run_aborts l Nb.create create_inv h

/-! ## C23 -/

/-- **C23.**  An absent policy, and one without any entry, admits every token, also one whose attributes cannot be read. -/
theorem C23_no_policy (h : Hash) (attrs : Option (List (String × List (BitVec 8)))) :
    checkCompliance h none attrs = some true ∧
    ∀ p, policyOf h Nb.create [] = some p → checkCompliance h (some p) attrs = some true := by
  refine ⟨rfl, ?_⟩
  intro p hp
  simp only [policyOf, Option.some.injEq] at hp
  subst hp
  unfold checkCompliance
  simp only []
  rw [if_pos ((same_iff _ _).2 fun _ _ => Iff.rfl)]

/-- **C23.**  A token carrying everything the policy requires passes, as long as the entries of the policy and three entries per
attribute fit into one filter.  Missing from the full statement: larger tokens, for which the check aborts
(`C23_large_token_refuted`). -/
theorem C23_compliant_partial (h : Hash) (policy : List (String × Option (List (BitVec 8)))) (attrs : List (String × List (BitVec 8)))
    (hc : Compliant policy attrs) (hcap : entries policy + 3 * attrs.length ≤ 64) :
    ∃ p, policyOf h Nb.create policy = some p ∧ checkCompliance h (some p) (some attrs) = some true := by
  rcases run_total ((reqHashes h policy).map NbOp.add) Nb.create create_inv
    (by rw [additions_map, reqHashes_length]; show _ ≤ 64; omega) with ⟨p, hp, _⟩
  refine ⟨p, by rw [policyOf_run]; exact hp, ?_⟩
  rw [check_eq h (by rw [policyOf_run]; exact hp) hcap]
  refine congrArg some (decide_eq_true ?_)
  rintro i _ ⟨x, hx, hm⟩
  exact ⟨x, compliant_hashes hc x hx, hm⟩

def samplePolicy : List (String × Option (List (BitVec 8))) := [("group", some [1, 2]), ("name", none)]
def sampleAttrs : List (String × List (BitVec 8)) := [("name", [7]), ("other", []), ("group", [1, 2])]

example : Compliant samplePolicy sampleAttrs ∧ entries samplePolicy + 3 * sampleAttrs.length ≤ 64 := by
  refine ⟨?_, by decide⟩
  intro r hr
  simp only [samplePolicy, List.mem_cons, List.not_mem_nil, or_false] at hr
  rcases hr with e | e
  · subst e; simp [Carries, sampleAttrs]
  · subst e; exact ⟨[7], by simp [sampleAttrs]⟩

/-- **C23 is false for large tokens.**  If the policy is not empty and its entries and three entries per attribute exceed 64, the
check aborts the process, whether the token is compliant or not and whatever the hash functions are: a peer sending a token with
22 attributes stops a node that has any policy. -/
theorem C23_large_token_refuted (h : Hash) (policy : List (String × Option (List (BitVec 8)))) (hne : policy ≠ []) (p : Nb)
    (hp : policyOf h Nb.create policy = some p) (attrs : List (String × List (BitVec 8))) (hbig : 22 ≤ attrs.length ∨ entries policy + 3 * attrs.length > 64) :
    checkCompliance h (some p) (some attrs) = none := by
  refine check_aborts h hp hne ?_
  rcases hbig with h | h
  · omega
  · exact h

/-- Such a token can be compliant. -/
example : Compliant [("k0", none)] ((List.range 22).map fun i => (s!"k{i}", [])) ∧ 22 ≤ ((List.range 22).map fun i => (s!"k{i}", ([] : List (BitVec 8)))).length := by
  refine ⟨?_, by simp⟩
  intro r hr
  rw [List.mem_singleton] at hr
  subst hr
  refine ⟨[], ?_⟩
  rw [List.mem_map]
  exact ⟨0, by simp, by decide +kernel⟩

/-! ## C63 -/

/-- The cells of the filter used by an id; two ids with common cells can be mistaken for each other. -/
def Covered (id : Dhkey) (by_ : List Dhkey) : Prop := ∀ c ∈ cellsOf id, ∃ x ∈ by_, c ∈ cellsOf x

/-- **C63, partial.**  If the check passes, then every cell of every required key and of every required value is also a cell of
some key or some value of the token.  Missing: that the value belongs to the key, which the filter does not express
(`C63_values_under_other_keys_refuted`), and collisions. -/
theorem C63_pass_partial (h : Hash) (policy : List (String × Option (List (BitVec 8)))) (p : Nb)
    (hp : policyOf h Nb.create policy = some p) (attrs : List (String × List (BitVec 8)))
    (hpass : checkCompliance h (some p) (some attrs) = some true) :
    ∀ r ∈ policy, Covered (h.key r.1) ((attrs.map fun a => h.key a.1) ++ attrs.map fun a => h.value a.2) ∧
      ∀ v, r.2 = some v → Covered (h.value v) ((attrs.map fun a => h.key a.1) ++ attrs.map fun a => h.value a.2) := by
  by_cases hne : policy = []
  · subst hne; simp
  by_cases hcap : entries policy + 3 * attrs.length ≤ 64
  · rw [check_eq h hp hcap] at hpass
    have hd := of_decide_eq_true (Option.some.inj hpass)
    have hattr : ∀ x ∈ attrHashes h attrs, x ∈ ((attrs.map fun a => h.key a.1) ++ attrs.map fun a => h.value a.2) := by
      clear hd hpass hcap
      induction attrs with
      | nil => intro x hx; simp [attrHashes] at hx
      | cons a r ih =>
        rcases a with ⟨k, v⟩
        intro x hx
        simp only [attrHashes, List.mem_cons] at hx
        simp only [List.map_cons, List.cons_append, List.mem_cons, List.mem_append]
        rcases hx with e | e | e | e
        · exact Or.inl e
        · exact Or.inl e
        · exact Or.inr (Or.inr (Or.inl e))
        · rcases List.mem_append.1 (ih x e) with h | h
          · exact Or.inr (Or.inl h)
          · exact Or.inr (Or.inr (Or.inr h))
    have hcov : ∀ x ∈ reqHashes h policy, Covered x ((attrs.map fun a => h.key a.1) ++ attrs.map fun a => h.value a.2) := by
      intro x hx c hc
      rcases hd c (cellsOf_lt x c hc) ⟨x, hx, hc⟩ with ⟨y, hy, hm⟩
      exact ⟨y, hattr y hy, hm⟩
    have hmem : ∀ r ∈ policy, h.key r.1 ∈ reqHashes h policy ∧ ∀ v, r.2 = some v → h.value v ∈ reqHashes h policy := by
      clear hcov hd hpass hcap hp hne
      induction policy with
      | nil => intro r hr; simp at hr
      | cons a l ih =>
        intro r hr
        rcases List.mem_cons.1 hr with e | e
        · subst e
          rcases r with ⟨k, _ | v⟩
          · exact ⟨by simp [reqHashes], by simp⟩
          · exact ⟨by simp [reqHashes], by intro w hw; cases hw; simp [reqHashes]⟩
        · have hi := ih r e
          rcases a with ⟨k, _ | v⟩
          · exact ⟨List.mem_cons_of_mem _ hi.1, fun w hw => List.mem_cons_of_mem _ (hi.2 w hw)⟩
          · exact ⟨List.mem_cons_of_mem _ (List.mem_cons_of_mem _ hi.1), fun w hw => List.mem_cons_of_mem _ (List.mem_cons_of_mem _ (hi.2 w hw))⟩
    exact fun r hr => ⟨hcov _ (hmem r hr).1, fun v hv => hcov _ ((hmem r hr).2 v hv)⟩
  · rw [check_aborts h hp hne (by omega)] at hpass
    simp at hpass

/-- **C63, refusal.**  A token that does not have the required keys in any form is refused: if some cell of a required key or
value is no cell of anything the token carries. -/
theorem C63_refused (h : Hash) (policy : List (String × Option (List (BitVec 8)))) (p : Nb)
    (hp : policyOf h Nb.create policy = some p) (attrs : List (String × List (BitVec 8))) (hcap : entries policy + 3 * attrs.length ≤ 64)
    (r : String × Option (List (BitVec 8))) (hr : r ∈ policy)
    (hmiss : ¬ Covered (h.key r.1) ((attrs.map fun a => h.key a.1) ++ attrs.map fun a => h.value a.2)) :
    checkCompliance h (some p) (some attrs) = some false := by
  cases hck : checkCompliance h (some p) (some attrs) with
  | none => rw [check_eq h hp hcap] at hck; simp at hck
  | some b =>
    cases b with
    | false => rfl
    | true => exact absurd (C63_pass_partial h policy p hp attrs hck r hr).1 hmiss

/-- A hash function for which the sample token lacks something. -/
def toyHash : Hash := { key := fun k => Dhkey.rep (BitVec.ofNat 32 k.length), value := fun v => Dhkey.rep (BitVec.ofNat 32 (100 + v.length)) }

example : ∃ p, policyOf toyHash Nb.create samplePolicy = some p ∧ checkCompliance toyHash (some p) (some [("name", [7])]) = some false :=
  ⟨_, rfl, by decide +kernel⟩

/-- **C63 is false.**  Keys and values go into the same filter, unconnected: a token with the values of two required attributes
exchanged passes, for all hash functions. -/
theorem C63_values_under_other_keys_refuted (h : Hash) : ∃ policy attrs p, policyOf h Nb.create policy = some p ∧
    checkCompliance h (some p) (some attrs) = some true ∧ ∃ r ∈ policy, ¬ Carries attrs r := by
  refine ⟨[("role", some [1]), ("level", some [9])], [("role", [9]), ("level", [1])], ?_⟩
  rcases run_total ((reqHashes h [("role", some [1]), ("level", some [9])]).map NbOp.add) Nb.create create_inv
    (by rw [additions_map, reqHashes_length]; show _ ≤ 64; decide) with ⟨p, hp, _⟩
  have hp' : policyOf h Nb.create [("role", some [1]), ("level", some [9])] = some p := by rw [policyOf_run]; exact hp
  refine ⟨p, hp', ?_, ("role", some [1]), by simp, ?_⟩
  · rw [check_eq h hp' (by decide)]
    refine congrArg some (decide_eq_true ?_)
    rintro i _ ⟨x, hx, hm⟩
    refine ⟨x, ?_, hm⟩
    simp only [reqHashes, List.mem_cons, List.not_mem_nil, or_false] at hx
    simp only [attrHashes, List.mem_cons, List.not_mem_nil, or_false]
    rcases hx with e | e | e | e
    · exact Or.inl e
    · exact Or.inr (Or.inr (Or.inr (Or.inr (Or.inr e))))
    · exact Or.inr (Or.inr (Or.inr (Or.inl e)))
    · exact Or.inr (Or.inr (Or.inl e))
  · simp [Carries]

end Np.Bloom
