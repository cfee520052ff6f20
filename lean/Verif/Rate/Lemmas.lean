import Verif.Rate.Spec

/-! # Lemmas on the limit of messages per second -/
set_option linter.unusedSimpArgs false
set_option linter.unusedVariables false
namespace Np.Rate

open Np.Dhkey
open _root_.Np.Rate.Spec

theorem bump_nodup (ps : List Nat) : ∀ c : Nat → BitVec 8, ps.Nodup → ∀ q, bump c ps q = if q ∈ ps then c q + 1 else c q := by
  induction ps with
  | nil => intro c _ q; simp [bump]
  | cons p ps ih =>
    intro c h q
    rw [List.nodup_cons] at h
    simp only [bump]
    rw [ih _ h.2 q]
    by_cases hq : q = p
    · subst hq
      rw [if_neg h.1]; simp
    · by_cases hm : q ∈ ps
      · rw [if_pos hm, if_neg hq, if_pos (List.mem_cons_of_mem _ hm)]
      · rw [if_neg hm, if_neg hq, if_neg (by simp [hq, hm])]

theorem positions_ne (id : Dhkey) : ∃ p ps, positions id = p :: ps := ⟨_, _, rfl⟩

theorem checkR_zero (c : Nat → BitVec 8) (ps : List Nat) (n : Nat) (h : ∀ p ∈ ps, c p = 0) : checkR c ps n = n := by
  cases ps with
  | nil => rfl
  | cons p ps => simp only [checkR]; rw [if_pos (Or.inl (h p (by simp)))]

theorem checkR_same (c : Nat → BitVec 8) (v : BitVec 8) (h0 : v ≠ 0) (h1 : v ≠ 255) (ps : List Nat) : ∀ n, n ≤ v.toNat → (∀ p ∈ ps, c p = v) →
    checkR c ps n = if ps = [] then n else v.toNat := by
  induction ps with
  | nil => intro n _ _; rfl
  | cons p ps ih =>
    intro n hn h
    have hp : c p = v := h p (by simp)
    simp only [checkR]
    rw [hp, if_neg (fun e => e.elim h0 h1)]
    have : (if v.toNat > n then v.toNat else n) = v.toNat := by split <;> omega
    rw [this, ih _ (Nat.le_refl _) (fun q hq => h q (by simp [hq]))]
    simp

theorem checkR_le (c : Nat → BitVec 8) (m : Nat) (ps : List Nat) : ∀ n, n ≤ m → (∀ p ∈ ps, c p ≠ 255 → (c p).toNat ≤ m) → checkR c ps n ≤ m := by
  induction ps with
  | nil => intro n hn _; exact hn
  | cons p ps ih =>
    intro n hn h
    simp only [checkR]
    split
    · exact hn
    · rename_i hp
      refine ih _ ?_ (fun q hq => h q (by simp [hq]))
      have := h p (by simp) (fun e => hp (Or.inr e))
      split <;> omega

theorem checkR_254 (c : Nat → BitVec 8) (ps : List Nat) : checkR c ps 0 ≤ 254 := by
  refine checkR_le c 254 ps 0 (by omega) (fun p _ hp => ?_)
  have h1 := (c p).isLt
  have h2 : (c p).toNat ≠ 255 := fun h => hp (BitVec.eq_of_toNat_eq (by simpa using h))
  omega

theorem ofNat_shift (n : Nat) (h : n < 256) : BitVec.ofNat 8 n >>> 1 = BitVec.ofNat 8 (n / 2) := by
  apply BitVec.eq_of_toNat_eq
  simp [BitVec.toNat_ushiftRight, Nat.shiftRight_eq_div_pow, Nat.mod_eq_of_lt h]
  omega

/-! ## The ideal limiter -/

/-- The cells of each address show its ideal counter. -/
def Shows (max : Nat) (as : List Dhkey) (f : Filter) (c : Dhkey → Nat) : Prop :=
  ∀ a ∈ as, c a ≤ max + 1 ∧ ∀ p ∈ positions a, f.cell p = BitVec.ofNat 8 (c a)

theorem shows_check {max : Nat} (hm : max ≤ 253) {as : List Dhkey} {f : Filter} {c : Dhkey → Nat} (h : Shows max as f c) {a : Dhkey}
    (ha : a ∈ as) : checkR f.cell (positions a) 0 = c a := by
  obtain ⟨h1, h2⟩ := h a ha
  have hn : (BitVec.ofNat 8 (c a)).toNat = c a := by rw [BitVec.toNat_ofNat]; omega
  by_cases h0 : c a = 0
  · rw [checkR_zero _ _ _ (fun p hp => by rw [h2 p hp, h0]; rfl), h0]
  · rw [checkR_same f.cell (BitVec.ofNat 8 (c a)) ?_ ?_ (positions a) 0 (by omega) h2, hn, if_neg (by simp [positions, Dhkey.words])]
    · intro e; rw [e] at hn; simp at hn; omega
    · intro e; rw [e] at hn; simp at hn; omega

theorem exact_run {max : Nat} (hm : max ≤ 253) {as : List Dhkey} (hp : Private as) (l : List Step) :
    ∀ (s : State) (c : Dhkey → Nat) (s' : State), (∀ a ∈ addresses l, a ∈ as) → Shows max as s.filter c → State.run max s l = some s' →
      s'.passed = s.passed ++ ideal max c l := by
  induction l with
  | nil => intro s c s' _ _ h; simp only [State.run, Option.some.injEq] at h; subst h; simp [ideal]
  | cons x l ih =>
    intro s c s' hs hsh h
    cases x with
    | packet a =>
      have ha : a ∈ as := hs a (by simp [addresses])
      have hl : ∀ b ∈ addresses l, b ∈ as := fun b hb => hs b (by simp [addresses, hb])
      have hc := shows_check hm hsh ha
      simp only [State.run, State.step, State.packet] at h
      rw [hc] at h
      by_cases hle : c a ≤ max
      · rw [if_neg (by omega)] at h
        simp only [ideal]
        rw [if_pos hle]
        simp only [Filter.add] at h
        by_cases hf : s.filter.free = 0
        · rw [if_pos hf] at h; simp at h
        · rw [if_neg hf] at h
          simp only [] at h
          have := ih _ (fun b => if b = a then c b + 1 else c b) s' hl ?_ h
          · rw [this]; simp
          · intro b hb
            obtain ⟨h1, h2⟩ := hsh b hb
            obtain ⟨hn, hd⟩ := hp a ha
            by_cases hba : b = a
            · subst hba
              simp only [if_true]
              refine ⟨by omega, fun p hpp => ?_⟩
              show bump s.filter.cell (positions b) p = _
              rw [bump_nodup _ _ hn, if_pos hpp, h2 p hpp, BitVec.ofNat_add]
              rfl
            · simp only [if_neg hba]
              refine ⟨h1, fun p hpp => ?_⟩
              show bump s.filter.cell (positions a) p = _
              rw [bump_nodup _ _ hn, if_neg (fun hin => hd b hb hba p hin hpp), h2 p hpp]
      · rw [if_pos (by omega)] at h
        simp only [ideal]
        rw [if_neg hle]
        exact ih s c s' hl hsh h
    | reset =>
      simp only [State.run, State.step] at h
      simp only [ideal]
      refine ih { s with filter := s.filter.clearR } (fun b => c b / 2) s' hs ?_ h
      intro b hb
      obtain ⟨h1, h2⟩ := hsh b hb
      refine ⟨by show c b / 2 ≤ max + 1; omega, fun p hpp => ?_⟩
      show s.filter.cell p >>> 1 = _
      rw [h2 p hpp, ofNat_shift _ (by omega)]

theorem ideal_bound (max : Nat) (a : Dhkey) (l : List Step) : ∀ c : Dhkey → Nat, c a ≤ max + 1 →
    (ideal max c l).count a ≤ (max + 1 - c a) + resets l * ((max + 2) / 2) := by
  induction l with
  | nil => intro c _; simp [ideal]
  | cons x l ih =>
    intro c h
    cases x with
    | packet b =>
      simp only [ideal, resets]
      by_cases hb : c b ≤ max
      · rw [if_pos hb, List.count_cons]
        have := ih (fun d => if d = b then c d + 1 else c d)
        by_cases hab : a = b
        · subst hab
          simp at this ⊢
          have := this (by omega)
          omega
        · simp only [if_neg hab] at this
          have := this h
          rw [if_neg (by simpa using fun e : b = a => hab e.symm)]
          omega
      · rw [if_neg hb]; exact ih c h
    | reset =>
      simp only [ideal, resets]
      have := ih (fun b => c b / 2) (by show c a / 2 ≤ max + 1; omega)
      rw [Nat.succ_mul]
      omega

/-- The counters of other addresses do not matter. -/
theorem ideal_only_congr (max : Nat) (a : Dhkey) (l : List Step) : ∀ c d : Dhkey → Nat, c a = d a →
    ideal max c (only a l) = ideal max d (only a l) := by
  induction l with
  | nil => intro c d _; rfl
  | cons x l ih =>
    intro c d hcd
    cases x with
    | reset => simp only [only, ideal]; exact ih _ _ (by simp only [hcd])
    | packet b =>
      simp only [only]
      by_cases hb : b = a
      · subst hb
        rw [if_pos rfl]
        simp only [ideal]
        rw [hcd]
        split
        · rw [ih (fun x => if x = b then c x + 1 else c x) (fun x => if x = b then d x + 1 else d x) (by simp [hcd])]
        · exact ih c d hcd
      · rw [if_neg hb]; exact ih c d hcd

theorem ideal_alone (max : Nat) (a : Dhkey) (l : List Step) : ∀ c : Dhkey → Nat, (ideal max c l).filter (· = a) = ideal max c (only a l) := by
  induction l with
  | nil => intro c; rfl
  | cons x l ih =>
    intro c
    cases x with
    | reset => simp only [ideal, only]; exact ih _
    | packet b =>
      simp only [only]
      by_cases hb : b = a
      · subst hb
        rw [if_pos rfl]
        simp only [ideal]
        split
        · rw [List.filter_cons_of_pos (by simp), ih]
        · exact ih c
      · rw [if_neg hb]
        simp only [ideal]
        split
        · rw [List.filter_cons_of_neg (by simpa using hb), ih]
          exact ideal_only_congr max a l _ _ (by simp [Ne.symm hb])
        · exact ih c

theorem only_sub (a : Dhkey) (l : List Step) : ∀ b ∈ addresses (only a l), b ∈ addresses l := by
  induction l with
  | nil => intro b hb; exact hb
  | cons x l ih =>
    intro b hb
    cases x with
    | reset => exact ih b hb
    | packet c =>
      simp only [only] at hb
      by_cases hc : c = a
      · rw [if_pos hc] at hb
        simp only [addresses, List.mem_cons] at hb ⊢
        exact hb.imp id (ih b)
      · rw [if_neg hc] at hb
        simp only [addresses, List.mem_cons]
        exact Or.inr (ih b hb)

/-! ## No packet dropped -/

theorem low_run {max : Nat} (l : List Step) : ∀ (s : State) (n : Nat) (s' : State), (∀ a ∈ addresses l, (positions a).Nodup) →
    (∀ p, (s.filter.cell p).toNat ≤ n) → Low max n l → State.run max s l = some s' → s'.passed = s.passed ++ addresses l := by
  induction l with
  | nil => intro s n s' _ _ _ h; simp only [State.run, Option.some.injEq] at h; subst h; simp [addresses]
  | cons x l ih =>
    intro s n s' hn hc hl h
    cases x with
    | packet a =>
      have hle : checkR s.filter.cell (positions a) 0 ≤ max :=
        Nat.le_trans (checkR_le _ n _ 0 (by omega) (fun p _ _ => hc p)) hl.1
      simp only [State.run, State.step, State.packet, Filter.add] at h
      rw [if_neg (by omega)] at h
      by_cases hf : s.filter.free = 0
      · rw [if_pos hf] at h; simp at h
      · rw [if_neg hf] at h
        simp only [] at h
        have := ih _ (n + 1) s' (fun b hb => hn b (by simp [addresses, hb])) ?_ hl.2 h
        · rw [this]; simp [addresses]
        · intro p
          show (bump s.filter.cell (positions a) p).toNat ≤ n + 1
          rw [bump_nodup _ _ (hn a (by simp [addresses]))]
          have := hc p
          split
          · rw [BitVec.toNat_add]
            have := Nat.mod_le ((s.filter.cell p).toNat + (1 : BitVec 8).toNat) (2 ^ 8)
            have h1 : (1 : BitVec 8).toNat = 1 := rfl
            omega
          · omega
    | reset =>
      simp only [State.run, State.step] at h
      refine ih { s with filter := s.filter.clearR } (n / 2) s' hn ?_ hl h
      intro p
      show (s.filter.cell p >>> 1).toNat ≤ n / 2
      have := hc p
      rw [BitVec.toNat_ushiftRight, Nat.shiftRight_eq_div_pow]
      omega

theorem high_run {max : Nat} (hm : 254 ≤ max) (l : List Step) : ∀ (s s' : State), State.run max s l = some s' →
    s'.passed = s.passed ++ addresses l := by
  induction l with
  | nil => intro s s' h; simp only [State.run, Option.some.injEq] at h; subst h; simp [addresses]
  | cons x l ih =>
    intro s s' h
    cases x with
    | packet a =>
      have hle := checkR_254 s.filter.cell (positions a)
      simp only [State.run, State.step, State.packet, Filter.add] at h
      rw [if_neg (by omega)] at h
      by_cases hf : s.filter.free = 0
      · rw [if_pos hf] at h; simp at h
      · rw [if_neg hf] at h
        simp only [] at h
        rw [ih _ _ h]; simp [addresses]
    | reset =>
      simp only [State.run, State.step] at h
      exact ih { s with filter := s.filter.clearR } _ h

/-! ## The budget -/

theorem burst_ok {max : Nat} (as : List Dhkey) : ∀ s : State, as.length ≤ s.filter.free → (State.run max s (as.map .packet)).isSome := by
  induction as with
  | nil => intro s _; rfl
  | cons a as ih =>
    intro s h
    simp only [List.length_cons] at h
    simp only [List.map_cons, State.run, State.step, State.packet, Filter.add]
    split
    · rename_i heq
      split at heq
      · simp at heq
      · rw [if_neg (by omega)] at heq; simp at heq
    · rename_i s1 heq
      refine ih s1 ?_
      split at heq
      · simp at heq; subst heq; omega
      · rw [if_neg (by omega)] at heq
        simp at heq; subst heq
        show as.length ≤ s.filter.free - 1
        omega

theorem flood {max : Nat} (hm : 254 ≤ max) (as : List Dhkey) : ∀ s : State, s.filter.free < as.length →
    State.run max s (as.map .packet) = none := by
  induction as with
  | nil => intro s h; simp at h
  | cons a as ih =>
    intro s h
    simp only [List.length_cons] at h
    have hle := checkR_254 s.filter.cell (positions a)
    simp only [List.map_cons, State.run, State.step, State.packet, Filter.add]
    rw [if_neg (by omega)]
    by_cases hf : s.filter.free = 0
    · rw [if_pos hf]
    · rw [if_neg hf]
      exact ih _ (by show s.filter.free - 1 < as.length; omega)

/-- One round of packets that touch every cell at most once. -/
theorem round_run {max : Nat} (as : List Dhkey) : ∀ (s : State) (rest : List Step), (∀ k, s.filter.cell k = 0 ∨ s.filter.cell k = 1) →
    (as.flatMap positions).Nodup → (∀ p ∈ as.flatMap positions, s.filter.cell p = 0) →
    (s.filter.free < as.length → State.run max s (as.map .packet ++ rest) = none) ∧
    (as.length ≤ s.filter.free → ∃ s1, State.run max s (as.map .packet ++ rest) = State.run max s1 rest ∧
      (∀ k, s1.filter.cell k = 0 ∨ s1.filter.cell k = 1) ∧ s1.filter.free = s.filter.free - as.length) := by
  induction as with
  | nil => intro s rest h _ _; exact ⟨fun h => by simp at h, fun _ => ⟨s, rfl, h, by simp⟩⟩
  | cons a as ih =>
    intro s rest h1 hn hz
    rw [List.flatMap_cons] at hn hz
    obtain ⟨hna, hnas, hd⟩ := List.nodup_append.1 hn
    have hck : checkR s.filter.cell (positions a) 0 = 0 := checkR_zero _ _ _ (fun p hp => hz p (by simp [hp]))
    have hstep : ¬ s.filter.free = 0 → State.run max s ((a :: as).map .packet ++ rest) =
        State.run max { filter := { cell := bump s.filter.cell (positions a), free := s.filter.free - 1 }, passed := s.passed ++ [a] }
          (as.map .packet ++ rest) := by
      intro hf
      simp only [List.map_cons, List.cons_append, State.run, State.step, State.packet, Filter.add]
      rw [hck, if_neg (by omega), if_neg hf]
    have hstep0 : s.filter.free = 0 → State.run max s ((a :: as).map .packet ++ rest) = none := by
      intro hf
      simp only [List.map_cons, List.cons_append, State.run, State.step, State.packet, Filter.add]
      rw [hck, if_neg (by omega), if_pos hf]
    have hb : ∀ k, bump s.filter.cell (positions a) k = if k ∈ positions a then s.filter.cell k + 1 else s.filter.cell k := bump_nodup _ _ hna
    have key := ih { filter := { cell := bump s.filter.cell (positions a), free := s.filter.free - 1 }, passed := s.passed ++ [a] } rest ?_ hnas ?_
    · refine ⟨fun hlt => ?_, fun hle => ?_⟩
      · by_cases hf : s.filter.free = 0
        · exact hstep0 hf
        · rw [hstep hf]
          exact key.1 (by simp only [List.length_cons] at hlt; show s.filter.free - 1 < as.length; omega)
      · simp only [List.length_cons] at hle
        rw [hstep (by omega)]
        obtain ⟨s1, h2, h3, h4⟩ := key.2 (by show as.length ≤ s.filter.free - 1; omega)
        refine ⟨s1, h2, h3, ?_⟩
        rw [h4]
        simp only [List.length_cons]
        omega
    · intro k
      show bump s.filter.cell (positions a) k = 0 ∨ bump s.filter.cell (positions a) k = 1
      rw [hb]
      split
      · rename_i hk
        right
        rw [hz k (by simp [hk])]; rfl
      · exact h1 k
    · intro p hp
      show bump s.filter.cell (positions a) p = 0
      rw [hb, if_neg (fun hin => hd p hin p hp rfl)]
      exact hz p (List.mem_append_right _ hp)

theorem itemCount_zero (c : Nat → BitVec 8) (h : ∀ k, c k = 0) : itemCount c = 0 := by
  unfold itemCount
  generalize List.range cells = r
  induction r with
  | nil => rfl
  | cons x r ih => rw [List.foldl_cons, h x]; simpa using ih

theorem quiet_run {max : Nat} (rounds : List (List Dhkey)) : ∀ s : State, (∀ k, s.filter.cell k = 0) → s.filter.free ≤ budget →
    (∀ r ∈ rounds, (r.flatMap positions).Nodup) → s.filter.free < (rounds.map List.length).sum →
    State.run max s (rounds.flatMap fun r => r.map .packet ++ [.reset]) = none := by
  induction rounds with
  | nil => intro s _ _ _ h; simp at h
  | cons r rounds ih =>
    intro s hz hb hn hlt
    simp only [List.map_cons, List.sum_cons] at hlt
    rw [List.flatMap_cons, List.append_assoc]
    have key := round_run (max := max) r s ([Step.reset] ++ rounds.flatMap fun r => r.map .packet ++ [.reset]) (fun k => Or.inl (hz k))
      (hn r (by simp)) (fun p _ => hz p)
    by_cases hf : s.filter.free < r.length
    · exact key.1 hf
    · obtain ⟨s1, h1, h2, h3⟩ := key.2 (by omega)
      rw [h1]
      simp only [List.singleton_append, State.run, State.step]
      have hsh : ∀ k, s1.filter.cell k >>> 1 = 0 := by
        intro k
        rcases h2 k with h | h <;> rw [h] <;> rfl
      have hfree : s1.filter.clearR.free = s1.filter.free := by
        simp only [Filter.clearR]
        rw [itemCount_zero _ hsh]
        simp only [Nat.zero_mul, Nat.mul_zero, Nat.add_zero]
        have : s1.filter.free % 65536 = s1.filter.free := Nat.mod_eq_of_lt (by simp only [budget] at hb; omega)
        rw [this, if_neg (by omega)]
      refine ih _ hsh ?_ (fun x hx => hn x (by simp [hx])) ?_
      · show s1.filter.clearR.free ≤ budget
        rw [hfree]; omega
      · show s1.filter.clearR.free < _
        rw [hfree]; omega

end Np.Rate
