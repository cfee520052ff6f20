import Verif.Rng.Lemmas

/-!
# Random numbers: the properties
-/
namespace Np.Rng
open _root_.Np.Rng.Spec

/-- Every generator that was seeded has an odd increment, and keeps it. -/
theorem seed_odd (a b : BitVec 64) : OddInc (seed a b) := by
  have e : (seed a b).inc = (b <<< 1) ||| 1#64 := by simp only [seed, advance]
  unfold OddInc
  rw [e, BitVec.toNat_or]
  have h : (1#64).toNat = 1 := rfl
  rw [h]
  have h2 := Nat.testBit_or (b <<< 1).toNat 1 0
  rw [Nat.testBit_zero, Nat.testBit_zero, Nat.testBit_zero] at h2
  simpa using h2

theorem after_odd (n : Nat) (r : State) (h : OddInc r) : OddInc (after n r) := by
  unfold OddInc
  rw [after_inc]
  exact h

/-! ## C138: a bounded random number is below its bound, and the call returns -/

/-- For every generator, and every bound but zero: the call returns after less than 2^64 draws, with a number below the bound; it does not
depend on how long one is willing to wait. -/
theorem C138_bounded_below_partial (r : State) (h : OddInc r) (bound : BitVec 32) (hb : bound ≠ 0) :
    ∃ v r', v < bound ∧ ∀ rounds, (2 ^ 64 ≤ rounds → nextBounded rounds r bound = .value v r') ∧
      (nextBounded rounds r bound = .value v r' ∨ nextBounded rounds r bound = .running) := by
  obtain ⟨n, h1, h2⟩ := after_reach r h (stOf (-1) 0)
  have h3 : threshold bound ≤ output (after n r).state := by
    rw [h2, stOf_output _ 0 (by decide), BitVec.le_def]
    have := (threshold bound).isLt
    have e : (-1 : BitVec 32).toNat = 2 ^ 32 - 1 := by decide
    rw [e]; omega
  obtain ⟨v, r', e⟩ := loop_ends bound (threshold bound) n r h3
  refine ⟨v, r', (loop_value bound _ hb _ _ _ _ e).1, fun rounds => ?_⟩
  unfold nextBounded
  rw [if_neg hb]
  refine ⟨fun hr => loop_mono' _ _ (n + 1) rounds (by omega) _ _ _ e, ?_⟩
  cases hh : boundedLoop bound (threshold bound) rounds r with
  | running => exact Or.inr rfl
  | crash =>
    have : ∀ k r, boundedLoop bound (threshold bound) k r ≠ .crash := by
      intro k
      induction k with
      | zero => intro r hc; simp [boundedLoop] at hc
      | succ k ih =>
        intro r hc
        rw [loop_succ] at hc
        split at hc
        · exact Outcome.noConfusion hc
        · exact ih _ hc
    exact absurd hh (this rounds r)
  | value w s =>
    refine Or.inl ?_
    have e1 := loop_mono' _ _ _ (max rounds (n + 1)) (by omega) _ _ _ hh
    have e2 := loop_mono' _ _ _ (max rounds (n + 1)) (by omega) _ _ _ e
    rw [← e1, ← e2]

example : OddInc (seed 42 54) ∧ OddInc initializer ∧ (257 : BitVec 32) ≠ 0 := ⟨seed_odd _ _, by unfold OddInc initializer; decide, by decide⟩

/-- A bound of zero divides by zero. -/
theorem C138_bounded_below_refuted (rounds : Nat) (r : State) : nextBounded rounds r 0 = .crash := by
  unfold nextBounded
  rw [if_pos rfl]

/-- The slot that ages is one of the table. -/
theorem C138_exhale_slot (rounds : Nat) (a b : BitVec 64) (n : Nat) (v : BitVec 32) (r' : State)
    (h : exhaleSlot rounds (after n (seed a b)) = .value v r') : v.toNat < 257 := by
  unfold exhaleSlot nextBounded at h
  rw [if_neg (by decide)] at h
  have := (loop_value 257 _ (by decide) _ _ _ _ h).1
  rwa [BitVec.lt_def] at this

/-! ## C139: all numbers below the bound are equally likely -/

theorem drawsFirst_iff (inc : BitVec 64) (bound v : BitVec 32) (hb : bound ≠ 0) (s : BitVec 64) :
    DrawsFirst inc bound v s ↔ threshold bound ≤ output s ∧ output s % bound = v := by
  unfold DrawsFirst nextBounded
  rw [if_neg hb, loop_succ]
  by_cases hc : threshold bound ≤ output s
  · rw [if_pos hc]
    constructor
    · rintro ⟨r', e⟩
      injection e with e1 e2
      exact ⟨hc, e1⟩
    · rintro ⟨_, rfl⟩
      exact ⟨_, rfl⟩
  · rw [if_neg hc]
    constructor
    · rintro ⟨r', e⟩
      simp [boundedLoop] at e
    · exact fun h => absurd h.1 hc

/-- Every number below the bound is the result of the same number of generator states (among those whose first draw is used). -/
theorem C139_bounded_uniform (inc : BitVec 64) (bound v : BitVec 32) (hb : bound ≠ 0) (hv : v < bound) :
    Exactly (2 ^ 32 / bound.toNat * 2 ^ 32) (DrawsFirst inc bound v) := by
  obtain ⟨p1, p2⟩ := accepted_exactly bound v hb hv
  refine ⟨fun i => stOf (pick bound v (i.val / 2 ^ 32)) (i.val % 2 ^ 32), ?_, ?_⟩
  · intro i j e
    have hi : i.val / 2 ^ 32 < 2 ^ 32 / bound.toNat := by
      rw [Nat.div_lt_iff_lt_mul (by decide)]; exact i.isLt
    have hj : j.val / 2 ^ 32 < 2 ^ 32 / bound.toNat := by
      rw [Nat.div_lt_iff_lt_mul (by decide)]; exact j.isLt
    have l1 : i.val % 2 ^ 32 < 2 ^ 32 := Nat.mod_lt _ (by decide)
    have l2 : j.val % 2 ^ 32 < 2 ^ 32 := Nat.mod_lt _ (by decide)
    have e1 := stOf_inj _ _ _ _ l1 l2 e
    have e2 := congrArg output e
    simp only [stOf_output _ _ l1, stOf_output _ _ l2] at e2
    have e3 := p1 _ _ hi hj e2
    apply Fin.ext
    omega
  · intro s
    rw [drawsFirst_iff inc bound v hb]
    constructor
    · intro h
      obtain ⟨i, hi, e⟩ := (p2 (output s)).1 h
      obtain ⟨j, hj, e2⟩ := stOf_surj s
      refine ⟨⟨i * 2 ^ 32 + j, ?_⟩, ?_⟩
      · have : (i + 1) * 2 ^ 32 ≤ 2 ^ 32 / bound.toNat * 2 ^ 32 := Nat.mul_le_mul_right _ hi
        omega
      · have e3 : (i * 2 ^ 32 + j) / 2 ^ 32 = i := by omega
        have e4 : (i * 2 ^ 32 + j) % 2 ^ 32 = j := by omega
        simp only [e3, e4, e]
        exact e2
    · rintro ⟨i, rfl⟩
      have hi : i.val / 2 ^ 32 < 2 ^ 32 / bound.toNat := by
        rw [Nat.div_lt_iff_lt_mul (by decide)]; exact i.isLt
      simp only []
      rw [stOf_output _ _ (Nat.mod_lt _ (by decide))]
      exact (p2 _).2 ⟨_, hi, rfl⟩

/-- The first draw is used unless it is one of the `2^32 mod bound` smallest numbers, which would make the small results more likely. -/
theorem C139_first_draw_used (inc : BitVec 64) (bound : BitVec 32) (hb : bound ≠ 0) (s : BitVec 64) :
    (∃ v, DrawsFirst inc bound v s) ↔ 2 ^ 32 % bound.toNat ≤ (output s).toNat := by
  rw [← threshold_toNat bound hb, ← BitVec.le_def]
  constructor
  · rintro ⟨v, h⟩
    exact ((drawsFirst_iff inc bound v hb s).1 h).1
  · intro h
    exact ⟨_, (drawsFirst_iff inc bound _ hb s).2 ⟨h, rfl⟩⟩

example : (2 ^ 32 / (257 : BitVec 32).toNat * 2 ^ 32 : Nat) = 16711935 * 2 ^ 32 ∧ (200 : BitVec 32) < 257 := by decide

/-! ## C140: the generator runs through all of its states before it repeats -/

/-- From every seed: every state is reached, none comes back before 2^64 draws, and each of the 32-bit numbers is the output of exactly
2^32 of the states. -/
theorem C140_full_period (a b : BitVec 64) :
    (∀ s, ∃ n, n < 2 ^ 64 ∧ (after n (seed a b)).state = s) ∧
    (∀ m n, m < n → n < m + 2 ^ 64 → (after m (seed a b)).state ≠ (after n (seed a b)).state) ∧
    (∀ v : BitVec 32, Exactly (2 ^ 32) fun s => output s = v) := by
  refine ⟨after_reach _ (seed_odd a b), ?_, ?_⟩
  · intro m n h1 h2 e
    have := after_fresh (after m (seed a b)) (after_odd m _ (seed_odd a b)) (n - m) (by omega) (by omega)
    rw [← after_add, show m + (n - m) = n by omega] at this
    exact this e.symm
  · intro v
    refine ⟨fun i => stOf v i.val, fun i j e => Fin.ext (stOf_inj _ _ _ _ i.isLt j.isLt e), fun s => ?_⟩
    constructor
    · rintro rfl
      obtain ⟨j, hj, e⟩ := stOf_surj s
      exact ⟨⟨j, hj⟩, e⟩
    · rintro ⟨i, rfl⟩
      exact stOf_output v i.val i.isLt

example : (after 3 (seed 42 54)).state ≠ (after 5 (seed 42 54)).state :=
  (C140_full_period 42 54).2.1 3 5 (by decide) (by decide)

/-! ## C141: generators with different seeds differ -/

theorem mult_cancel (x y : BitVec 64) (h : mult * x = mult * y) : x = y := by
  have hi : 13877824140714322085#64 * mult = 1#64 := by decide
  have : 13877824140714322085#64 * (mult * x) = 13877824140714322085#64 * (mult * y) := by rw [h]
  rwa [← BitVec.mul_assoc, ← BitVec.mul_assoc, hi, BitVec.one_mul, BitVec.one_mul] at this

/-- Different first seeds give different generators; different second seeds do unless they differ in the highest bit only. -/
theorem C141_seeds_differ_partial (a b a' b' : BitVec 64) (h : seed a b = seed a' b') : a = a' ∧ b <<< 1 = b' <<< 1 := by
  have hi : (b <<< 1) ||| 1#64 = (b' <<< 1) ||| 1#64 := by
    have := congrArg State.inc h
    simpa only [seed, advance] using this
  have hb : b <<< 1 = b' <<< 1 := by
    apply BitVec.eq_of_getLsbD_eq
    intro i hl
    cases i with
    | zero => simp
    | succ i =>
      have := congrArg (fun x => x.getLsbD (i + 1)) hi
      simpa [BitVec.getLsbD_one] using this
  refine ⟨?_, hb⟩
  have hs : mult * (mult * 0#64 + ((b <<< 1) ||| 1#64) + a) + ((b <<< 1) ||| 1#64) =
      mult * (mult * 0#64 + ((b' <<< 1) ||| 1#64) + a') + ((b' <<< 1) ||| 1#64) := by
    have := congrArg State.state h
    simpa only [seed, advance] using this
  rw [hb] at hs
  have h2 := (BitVec.add_left_inj _).1 hs
  exact (BitVec.add_right_inj _).1 (mult_cancel _ _ h2)

example : seed 1 7 ≠ seed 2 7 := fun e => absurd (C141_seeds_differ_partial _ _ _ _ e).1 (by decide)

/-- The highest bit of the second seed is lost. -/
theorem C141_seeds_differ_refuted (a b : BitVec 64) : seed a b = seed a (b + (1#64 <<< 63)) := by
  have : (b + (1#64 <<< 63)) <<< 1 = b <<< 1 := by
    apply BitVec.eq_of_toNat_eq
    have e : (1#64 <<< 63).toNat = 2 ^ 63 := by decide
    rw [BitVec.toNat_shiftLeft, BitVec.toNat_shiftLeft, BitVec.toNat_add, e, Nat.shiftLeft_eq, Nat.shiftLeft_eq]
    omega
  simp only [seed, this]

/-! ## C142: the lifetime of a node token is between the minimum and the maximum -/

/-- A new node token lives at least for the minimum, and for less than the sum of maximum and minimum. -/
theorem C142_node_lifetime_partial (rounds : Nat) (r : State) (ttl : Nat) (h : nodeTokenTtl rounds r = some ttl) :
    nodeMinTtl ≤ ttl ∧ ttl < nodeMaxTtl.toNat + nodeMinTtl := by
  unfold nodeTokenTtl nextBounded at h
  rw [if_neg (by decide)] at h
  cases hh : boundedLoop nodeMaxTtl (threshold nodeMaxTtl) rounds r with
  | crash => rw [hh] at h; cases h
  | running => rw [hh] at h; cases h
  | value v r' =>
    rw [hh] at h
    injection h with h
    have := (loop_value _ _ (by decide) _ _ _ _ hh).1
    rw [BitVec.lt_def] at this
    omega

example : nodeTokenTtl 1 initializer = some 174733 := by decide +kernel

/-- The maximum is exceeded by some of the generators in use: from every seed one comes to a token that lives longer than allowed. -/
theorem C142_node_lifetime_refuted (a b : BitVec 64) :
    ∃ n ttl, nodeTokenTtl 1 (after n (seed a b)) = some ttl ∧ nodeMaxTtl.toNat < ttl := by
  obtain ⟨n, _, h⟩ := after_reach (seed a b) (seed_odd a b) (stOf (pick nodeMaxTtl 196607 0) 0)
  have ho : output (after n (seed a b)).state = pick nodeMaxTtl 196607 0 := by rw [h, stOf_output _ 0 (by decide)]
  refine ⟨n, 196607 + 768, ?_, by decide⟩
  unfold nodeTokenTtl nextBounded
  rw [if_neg (by decide), loop_succ, ho]
  have h1 : threshold nodeMaxTtl ≤ pick nodeMaxTtl 196607 0 := by decide +kernel
  have h2 : (pick nodeMaxTtl 196607 0 % nodeMaxTtl).toNat + nodeMinTtl = 196607 + 768 := by decide +kernel
  rw [if_pos h1]
  exact congrArg some h2

end Np.Rng
