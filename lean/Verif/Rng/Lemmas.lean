import Verif.Rng.Spec
import Mathlib.Tactic.Ring

set_option linter.unusedSimpArgs false
set_option linter.unusedVariables false

namespace Np.Rng
open _root_.Np.Rng.Spec

/-! ## The sequence of states, without wrapping -/

def F (d c : Nat) (x : Nat) : Nat := (4 * d + 1) * x + c

def Fn (d c : Nat) : Nat → Nat → Nat
  | 0, x => x
  | n + 1, x => Fn d c n (F d c x)

theorem Fn_add (d c m n x : Nat) : Fn d c (m + n) x = Fn d c n (Fn d c m x) := by
  induction m generalizing x with
  | zero => simp [Fn]
  | succ m ih => rw [Nat.add_right_comm]; exact ih _

theorem Fn_pow (d c k : Nat) : ∃ u, u % 2 = 1 ∧ ∀ x, Fn d c (2 ^ k) x = x + 2 ^ k * (u * (4 * d * x + c)) := by
  induction k with
  | zero => exact ⟨1, rfl, fun x => by simp only [Nat.pow_zero, Fn, F]; ring⟩
  | succ k ih =>
    obtain ⟨u, h1, h2⟩ := ih
    refine ⟨u * (1 + 2 * (d * 2 ^ k * u)), ?_, ?_⟩
    · rw [Nat.mul_mod, h1]; omega
    · intro x
      rw [Nat.pow_succ, Nat.mul_two, Fn_add, h2, h2]
      ring

theorem odd_mul (a b : Nat) (ha : a % 2 = 1) (hb : b % 2 = 1) : (a * b) % 2 = 1 := by rw [Nat.mul_mod, ha, hb]

theorem Fn_pow_odd (d c k x : Nat) (hc : c % 2 = 1) : ∃ m, m % 2 = 1 ∧ Fn d c (2 ^ k) x = x + 2 ^ k * m := by
  obtain ⟨u, h1, h2⟩ := Fn_pow d c k
  refine ⟨u * (4 * d * x + c), odd_mul _ _ h1 ?_, h2 x⟩
  rw [Nat.mul_assoc]; omega

/-- Every number is reached, modulo every power of two. -/
theorem Fn_reach (d c : Nat) (hc : c % 2 = 1) (k x y : Nat) : ∃ n, n < 2 ^ k ∧ Fn d c n x % 2 ^ k = y % 2 ^ k := by
  induction k with
  | zero => exact ⟨0, by simp, by omega⟩
  | succ k ih =>
    obtain ⟨n, h1, h2⟩ := ih
    by_cases h : Fn d c n x % 2 ^ (k + 1) = y % 2 ^ (k + 1)
    · exact ⟨n, by rw [Nat.pow_succ]; omega, h⟩
    · refine ⟨n + 2 ^ k, by rw [Nat.pow_succ]; omega, ?_⟩
      rw [Fn_add]
      obtain ⟨m, hm, e⟩ := Fn_pow_odd d c k (Fn d c n x) hc
      rw [e]
      generalize Fn d c n x = z at *
      have hp : 0 < 2 ^ k := Nat.two_pow_pos k
      rw [Nat.pow_succ] at *
      generalize 2 ^ k = p at *
      have e1 : z % (p * 2) = z % p + p * (z / p % 2) := Nat.mod_mul
      have e2 : y % (p * 2) = y % p + p * (y / p % 2) := Nat.mod_mul
      have e3 : (z + p * m) % (p * 2) = (z + p * m) % p + p * ((z + p * m) / p % 2) := Nat.mod_mul
      rw [Nat.add_mul_mod_self_left, Nat.add_mul_div_left _ _ hp] at e3
      have h4 : z / p % 2 ≠ y / p % 2 := fun e => h (by rw [e1, e2, h2, e])
      have h5 : (z / p + m) % 2 = y / p % 2 := by omega
      rw [e3, e2, h2, h5]

theorem Fn_even (d c k i x : Nat) : Fn d c (2 ^ k * i) x % 2 ^ k = x % 2 ^ k := by
  induction i with
  | zero => simp [Fn]
  | succ i ih =>
    rw [Nat.mul_succ, Fn_add]
    obtain ⟨u, _, h⟩ := Fn_pow d c k
    rw [h, Nat.add_mul_mod_self_left, ih]

theorem two_pow_odd (n : Nat) (hn : 0 < n) : ∃ j i, n = 2 ^ j * (2 * i + 1) := by
  induction n using Nat.strongRecOn with
  | _ n ih =>
    by_cases h : n % 2 = 1
    · exact ⟨0, n / 2, by simp; omega⟩
    · obtain ⟨j, i, e⟩ := ih (n / 2) (by omega) (by omega)
      refine ⟨j + 1, i, ?_⟩
      rw [Nat.pow_succ]
      have : n = 2 * (n / 2) := by omega
      rw [this, e]; ring

/-- No number comes back early. -/
theorem Fn_fresh (d c : Nat) (hc : c % 2 = 1) (k n x : Nat) (h0 : 0 < n) (h1 : n < 2 ^ k) : Fn d c n x % 2 ^ k ≠ x % 2 ^ k := by
  obtain ⟨j, i, e⟩ := two_pow_odd n h0
  have hj : j + 1 ≤ k := by
    refine Classical.byContradiction fun hk => ?_
    have : 2 ^ k ≤ 2 ^ j := Nat.pow_le_pow_right (by decide) (by omega)
    have : 2 ^ j * 1 ≤ 2 ^ j * (2 * i + 1) := Nat.mul_le_mul_left _ (by omega)
    omega
  intro hh
  have h2 : Fn d c n x % 2 ^ (j + 1) = x % 2 ^ (j + 1) := by
    have hd : 2 ^ (j + 1) ∣ 2 ^ k := Nat.pow_dvd_pow 2 hj
    rw [← Nat.mod_mod_of_dvd _ hd, hh, Nat.mod_mod_of_dvd _ hd]
  have h3 : n = 2 ^ (j + 1) * i + 2 ^ j := by rw [e, Nat.pow_succ]; ring
  rw [h3, Fn_add] at h2
  obtain ⟨m, hm, e2⟩ := Fn_pow_odd d c j (Fn d c (2 ^ (j + 1) * i) x) hc
  have h4 := Fn_even d c (j + 1) i x
  rw [e2] at h2
  generalize Fn d c (2 ^ (j + 1) * i) x = z at *
  have hp : 0 < 2 ^ j := Nat.two_pow_pos j
  rw [← h4] at h2
  rw [Nat.pow_succ] at h2
  generalize 2 ^ j = p at *
  have e1 : z % (p * 2) = z % p + p * (z / p % 2) := Nat.mod_mul
  have e3 : (z + p * m) % (p * 2) = (z + p * m) % p + p * ((z + p * m) / p % 2) := Nat.mod_mul
  rw [Nat.add_mul_mod_self_left, Nat.add_mul_div_left _ _ hp] at e3
  rw [e1, e3] at h2
  have h6 : p * ((z / p + m) % 2) = p * (z / p % 2) := by omega
  have := Nat.eq_of_mul_eq_mul_left hp h6
  omega

/-! ## The generator -/

theorem mult_form : ∃ d, mult.toNat = 4 * d + 1 := ⟨1591034055961698251, by decide⟩

theorem F_mod (d c x m : Nat) : F d c (x % m) % m = F d c x % m := by
  simp only [F]
  rw [Nat.add_mod, Nat.mul_mod, Nat.mod_mod, ← Nat.mul_mod, ← Nat.add_mod]

theorem Fn_mod (d c n m : Nat) : ∀ x, Fn d c n (x % m) % m = Fn d c n x % m := by
  induction n with
  | zero => intro x; simp [Fn]
  | succ n ih =>
    intro x
    have e : ∀ z, Fn d c (n + 1) z = Fn d c n (F d c z) := fun _ => rfl
    rw [e, e, ← ih, F_mod, ih]

theorem advance_toNat (r : State) (d : Nat) (hm : mult.toNat = 4 * d + 1) (w : Nat) (hw : w = 2 ^ 64) :
    (advance r).state.toNat = F d r.inc.toNat r.state.toNat % w := by
  have e : (advance r).state = mult * r.state + r.inc := rfl
  rw [e, BitVec.toNat_add, BitVec.toNat_mul, hm, ← hw, Nat.mod_add_mod, F]

theorem after_succ (n : Nat) (r : State) : after (n + 1) r = after n (advance r) := by rw [after]

theorem advance_inc (r : State) : (advance r).inc = r.inc := by rw [advance]

theorem after_inc (n : Nat) : ∀ r, (after n r).inc = r.inc := by
  induction n with
  | zero => intro r; rfl
  | succ n ih => intro r; rw [after_succ, ih, advance_inc]

theorem after_toNat (d : Nat) (hm : mult.toNat = 4 * d + 1) (w : Nat) (hw : w = 2 ^ 64) (n : Nat) :
    ∀ r, (after n r).state.toNat = Fn d r.inc.toNat n r.state.toNat % w := by
  induction n with
  | zero =>
    intro r
    have := r.state.isLt
    rw [← hw] at this
    exact (Nat.mod_eq_of_lt this).symm
  | succ n ih =>
    intro r
    have e2 : ∀ z, Fn d r.inc.toNat (n + 1) z = Fn d r.inc.toNat n (F d r.inc.toNat z) := fun _ => rfl
    rw [after_succ, e2, ih, advance_toNat r d hm w hw, advance_inc, Fn_mod]

theorem after_reach (r : State) (h : OddInc r) (s : BitVec 64) : ∃ n, n < 2 ^ 64 ∧ (after n r).state = s := by
  obtain ⟨d, hm⟩ := mult_form
  obtain ⟨n, h1, h2⟩ := Fn_reach d r.inc.toNat h 64 r.state.toNat s.toNat
  refine ⟨n, h1, BitVec.eq_of_toNat_eq ?_⟩
  rw [after_toNat d hm _ rfl, h2]
  exact Nat.mod_eq_of_lt s.isLt

theorem after_fresh (r : State) (h : OddInc r) (n : Nat) (h0 : 0 < n) (h1 : n < 2 ^ 64) : (after n r).state ≠ r.state := by
  intro e
  obtain ⟨d, hm⟩ := mult_form
  have := Fn_fresh d r.inc.toNat h 64 n r.state.toNat h0 h1
  rw [← after_toNat d hm _ rfl, e] at this
  exact this (Nat.mod_eq_of_lt r.state.isLt).symm

theorem after_add (m n : Nat) : ∀ r, after (m + n) r = after n (after m r) := by
  induction m with
  | zero => intro r; simp [after]
  | succ m ih => intro r; rw [Nat.add_right_comm, after_succ, after_succ, ih]

/-! ## The output -/

theorem xs_inv (s : BitVec 64) :
    let y := (s >>> 18) ^^^ s
    y ^^^ (y >>> 18) ^^^ (y >>> 36) ^^^ (y >>> 54) = s := by
  apply BitVec.eq_of_getLsbD_eq
  intro i hi
  simp only [BitVec.getLsbD_xor, BitVec.getLsbD_ushiftRight]
  have a1 : 18 + (18 + i) = 36 + i := by omega
  have a2 : 18 + (36 + i) = 54 + i := by omega
  have a3 : s.getLsbD (18 + (54 + i)) = false := BitVec.getLsbD_of_ge _ _ (by omega)
  rw [a1, a2, a3]
  cases s.getLsbD i <;> cases s.getLsbD (18 + i) <;> cases s.getLsbD (36 + i) <;> cases s.getLsbD (54 + i) <;> rfl

theorem xs_inv2 (y : BitVec 64) :
    let s := y ^^^ (y >>> 18) ^^^ (y >>> 36) ^^^ (y >>> 54)
    (s >>> 18) ^^^ s = y := by
  apply BitVec.eq_of_getLsbD_eq
  intro i hi
  simp only [BitVec.getLsbD_xor, BitVec.getLsbD_ushiftRight]
  have a1 : 18 + (18 + i) = 36 + i := by omega
  have a2 : 36 + (18 + i) = 54 + i := by omega
  have a3 : y.getLsbD (54 + (18 + i)) = false := BitVec.getLsbD_of_ge _ _ (by omega)
  rw [a1, a2, a3]
  cases y.getLsbD i <;> cases y.getLsbD (18 + i) <;> cases y.getLsbD (36 + i) <;> cases y.getLsbD (54 + i) <;> rfl

def T (y : BitVec 64) : BitVec 64 := y ^^^ (y >>> 18) ^^^ (y >>> 36) ^^^ (y >>> 54)

theorem top_xs (s : BitVec 64) : ((s >>> 18) ^^^ s) >>> 59 = s >>> 59 := by
  apply BitVec.eq_of_getLsbD_eq
  intro i hi
  simp only [BitVec.getLsbD_xor, BitVec.getLsbD_ushiftRight]
  rw [BitVec.getLsbD_of_ge s (18 + (59 + i)) (by omega)]
  simp

theorem top_T (y : BitVec 64) : T y >>> 59 = y >>> 59 := by
  have h := top_xs (T y)
  have e : (T y >>> 18) ^^^ T y = y := xs_inv2 y
  rw [e] at h
  exact h.symm

/-- The inverse rotation. -/
def rotl (v : BitVec 32) (n : Nat) : BitVec 32 := (v <<< n) ||| (v >>> ((32 - n) % 32))

theorem neg_and (n : Nat) (h : n < 32) : ((-(BitVec.ofNat 32 n)) &&& 31#32).toNat = (32 - n) % 32 := by
  have : ∀ m ∈ List.range 32, ((-(BitVec.ofNat 32 m)) &&& 31#32).toNat = (32 - m) % 32 := by decide
  exact this n (List.mem_range.2 h)

theorem rotr_bits (v : BitVec 32) (n : Nat) (h : n < 32) (i : Nat) (hi : i < 32) :
    (rotr v (BitVec.ofNat 32 n)).getLsbD i = v.getLsbD ((i + n) % 32) := by
  have hn : (BitVec.ofNat 32 n).toNat = n := by rw [BitVec.toNat_ofNat]; exact Nat.mod_eq_of_lt (by omega)
  simp only [rotr, hn, neg_and n h, BitVec.getLsbD_or, BitVec.getLsbD_ushiftRight, BitVec.getLsbD_shiftLeft]
  by_cases h0 : n = 0
  · subst h0
    simp [hi, Nat.mod_eq_of_lt hi]
  · have e : (32 - n) % 32 = 32 - n := Nat.mod_eq_of_lt (by omega)
    rw [e]
    by_cases h1 : i + n < 32
    · rw [Nat.mod_eq_of_lt h1, Nat.add_comm n i]
      have : i < 32 - n := by omega
      simp [this]
    · have e2 : (i + n) % 32 = i + n - 32 := by omega
      have e3 : i - (32 - n) = i + n - 32 := by omega
      have h2 : ¬ i < 32 - n := by omega
      rw [BitVec.getLsbD_of_ge v (n + i) (by omega), e2, e3]
      simp [hi, h2]

theorem rotl_bits (v : BitVec 32) (n : Nat) (h : n < 32) (i : Nat) (hi : i < 32) :
    (rotl v n).getLsbD i = v.getLsbD ((i + (32 - n)) % 32) := by
  simp only [rotl, BitVec.getLsbD_or, BitVec.getLsbD_ushiftRight, BitVec.getLsbD_shiftLeft]
  by_cases h0 : n = 0
  · subst h0
    have : (i + 32) % 32 = i := by omega
    simp [hi, this]
  · have e : (32 - n) % 32 = 32 - n := Nat.mod_eq_of_lt (by omega)
    rw [e]
    by_cases h1 : i < n
    · have e1 : (i + (32 - n)) % 32 = 32 - n + i := by omega
      rw [e1]
      simp [h1]
    · have e1 : (i + (32 - n)) % 32 = i - n := by omega
      rw [e1, BitVec.getLsbD_of_ge v (32 - n + i) (by omega)]
      simp [h1, hi]

theorem rotr_rotl (v : BitVec 32) (n : Nat) (h : n < 32) : rotr (rotl v n) (BitVec.ofNat 32 n) = v := by
  apply BitVec.eq_of_getLsbD_eq
  intro i hi
  rw [rotr_bits _ n h i hi, rotl_bits v n h _ (Nat.mod_lt _ (by decide))]
  congr 1
  omega

theorem rotl_rotr (v : BitVec 32) (n : Nat) (h : n < 32) : rotl (rotr v (BitVec.ofNat 32 n)) n = v := by
  apply BitVec.eq_of_getLsbD_eq
  intro i hi
  rw [rotl_bits _ n h i hi, rotr_bits v n h _ (Nat.mod_lt _ (by decide))]
  congr 1
  omega

/-- The value before the rotation, and the state from it. -/
def yOf (r : BitVec 32) (j : Nat) : BitVec 64 :=
  BitVec.ofNat 64 (j / 2 ^ 27 * 2 ^ 59 + (rotl r (j / 2 ^ 27)).toNat * 2 ^ 27 + j % 2 ^ 27)

def stOf (r : BitVec 32) (j : Nat) : BitVec 64 := T (yOf r j)

theorem yOf_toNat (r : BitVec 32) (j : Nat) (hj : j < 2 ^ 32) :
    (yOf r j).toNat = j / 2 ^ 27 * 2 ^ 59 + (rotl r (j / 2 ^ 27)).toNat * 2 ^ 27 + j % 2 ^ 27 := by
  rw [yOf, BitVec.toNat_ofNat]
  apply Nat.mod_eq_of_lt
  have := (rotl r (j / 2 ^ 27)).isLt
  omega

theorem output_of (s : BitVec 64) :
    output s = rotr (BitVec.ofNat 32 (((s >>> 18) ^^^ s).toNat / 2 ^ 27)) (BitVec.ofNat 32 (((s >>> 18) ^^^ s).toNat / 2 ^ 59)) := by
  have e1 : (s >>> 59).setWidth 32 = BitVec.ofNat 32 (((s >>> 18) ^^^ s).toNat / 2 ^ 59) := by
    rw [← top_xs]
    apply BitVec.eq_of_toNat_eq
    rw [BitVec.toNat_setWidth, BitVec.toNat_ushiftRight, BitVec.toNat_ofNat, Nat.shiftRight_eq_div_pow]
  have e2 : (((s >>> 18) ^^^ s) >>> 27).setWidth 32 = BitVec.ofNat 32 (((s >>> 18) ^^^ s).toNat / 2 ^ 27) := by
    apply BitVec.eq_of_toNat_eq
    rw [BitVec.toNat_setWidth, BitVec.toNat_ushiftRight, BitVec.toNat_ofNat, Nat.shiftRight_eq_div_pow]
  rw [output, e1, e2]

theorem stOf_output (r : BitVec 32) (j : Nat) (hj : j < 2 ^ 32) : output (stOf r j) = r := by
  have e : (stOf r j >>> 18) ^^^ stOf r j = yOf r j := xs_inv2 (yOf r j)
  rw [output_of, e, yOf_toNat r j hj]
  have hl := (rotl r (j / 2 ^ 27)).isLt
  have e1 : (j / 2 ^ 27 * 2 ^ 59 + (rotl r (j / 2 ^ 27)).toNat * 2 ^ 27 + j % 2 ^ 27) / 2 ^ 59 = j / 2 ^ 27 := by omega
  have e2 : BitVec.ofNat 32 ((j / 2 ^ 27 * 2 ^ 59 + (rotl r (j / 2 ^ 27)).toNat * 2 ^ 27 + j % 2 ^ 27) / 2 ^ 27) = rotl r (j / 2 ^ 27) := by
    apply BitVec.eq_of_toNat_eq
    rw [BitVec.toNat_ofNat]
    omega
  rw [e1, e2]
  exact rotr_rotl r _ (by omega)

theorem stOf_inj (r r' : BitVec 32) (i j : Nat) (hi : i < 2 ^ 32) (hj : j < 2 ^ 32) (h : stOf r i = stOf r' j) : i = j := by
  have e : (stOf r i >>> 18) ^^^ stOf r i = yOf r i := xs_inv2 (yOf r i)
  have e' : (stOf r' j >>> 18) ^^^ stOf r' j = yOf r' j := xs_inv2 (yOf r' j)
  have h2 : yOf r i = yOf r' j := by rw [← e, ← e', h]
  have h3 := congrArg BitVec.toNat h2
  rw [yOf_toNat r i hi, yOf_toNat r' j hj] at h3
  have h4 := (rotl r (i / 2 ^ 27)).isLt
  have h5 := (rotl r' (j / 2 ^ 27)).isLt
  omega

theorem digits (y : Nat) (h : y < 2 ^ 64) : (y / 2 ^ 59 * 2 ^ 59 + y / 2 ^ 27 % 2 ^ 32 * 2 ^ 27 + y % 2 ^ 27) % 2 ^ 64 = y := by omega

theorem stOf_surj (s : BitVec 64) : ∃ j, j < 2 ^ 32 ∧ stOf (output s) j = s := by
  have hy := ((s >>> 18) ^^^ s).isLt
  have hT : T ((s >>> 18) ^^^ s) = s := xs_inv s
  have ho := output_of s
  generalize (s >>> 18) ^^^ s = y at hy hT ho
  refine ⟨y.toNat / 2 ^ 59 * 2 ^ 27 + y.toNat % 2 ^ 27, by omega, ?_⟩
  rw [stOf]
  have e1 : (y.toNat / 2 ^ 59 * 2 ^ 27 + y.toNat % 2 ^ 27) / 2 ^ 27 = y.toNat / 2 ^ 59 := by omega
  have e2 : (y.toNat / 2 ^ 59 * 2 ^ 27 + y.toNat % 2 ^ 27) % 2 ^ 27 = y.toNat % 2 ^ 27 := by omega
  have e3 : yOf (output s) (y.toNat / 2 ^ 59 * 2 ^ 27 + y.toNat % 2 ^ 27) = y := by
    rw [yOf, e1, e2, ho, rotl_rotr _ _ (by omega)]
    apply BitVec.eq_of_toNat_eq
    rw [BitVec.toNat_ofNat, BitVec.toNat_ofNat]
    exact digits _ hy
  rw [e3, hT]

/-! ## The bound -/

theorem threshold_toNat (b : BitVec 32) (h : b ≠ 0) : (threshold b).toNat = 2 ^ 32 % b.toNat := by
  have hb : 0 < b.toNat := Nat.pos_of_ne_zero fun e => h (BitVec.eq_of_toNat_eq (by simpa using e))
  have hl := b.isLt
  have hx : (2 ^ 32 - b.toNat) % 2 ^ 32 = 2 ^ 32 - b.toNat := Nat.mod_eq_of_lt (by omega)
  rw [threshold, BitVec.toNat_umod, BitVec.toNat_neg, hx]
  have : 2 ^ 32 = (2 ^ 32 - b.toNat) + b.toNat := by omega
  conv => rhs; rw [this]
  rw [Nat.add_mod_right]

theorem bound_pos (b : BitVec 32) (h : b ≠ 0) : 0 < b.toNat :=
  Nat.pos_of_ne_zero fun e => h (BitVec.eq_of_toNat_eq (by simpa using e))

/-- The i-th accepted number with the rest `v`. -/
def pick (b v : BitVec 32) (i : Nat) : BitVec 32 :=
  BitVec.ofNat 32 (2 ^ 32 % b.toNat + i * b.toNat + (v.toNat + b.toNat - 2 ^ 32 % b.toNat) % b.toNat)

theorem pick_toNat (b v : BitVec 32) (h : b ≠ 0) (i : Nat) (hi : i < 2 ^ 32 / b.toNat) :
    (pick b v i).toNat = 2 ^ 32 % b.toNat + i * b.toNat + (v.toNat + b.toNat - 2 ^ 32 % b.toNat) % b.toNat := by
  rw [pick, BitVec.toNat_ofNat]
  apply Nat.mod_eq_of_lt
  have hb := bound_pos b h
  have h1 := Nat.mod_lt (v.toNat + b.toNat - 2 ^ 32 % b.toNat) hb
  have h2 := Nat.div_add_mod (2 ^ 32) b.toNat
  have h3 : b.toNat * (i + 1) ≤ b.toNat * (2 ^ 32 / b.toNat) := Nat.mul_le_mul_left _ hi
  have h4 : b.toNat * (i + 1) = i * b.toNat + b.toNat := by rw [Nat.mul_succ, Nat.mul_comm]
  omega

theorem off_eq (t b v e : Nat) (ht : t < b) (hv : v < b) (he : e < b) : (t + e) % b = v ↔ e = (v + b - t) % b := by
  by_cases h1 : t + e < b
  · rw [Nat.mod_eq_of_lt h1]
    by_cases h2 : v < t
    · rw [Nat.mod_eq_of_lt (a := v + b - t) (by omega)]; omega
    · rw [show v + b - t = (v - t) + b by omega, Nat.add_mod_right, Nat.mod_eq_of_lt (by omega)]; omega
  · rw [show t + e = (t + e - b) + b by omega, Nat.add_mod_right, Nat.mod_eq_of_lt (by omega)]
    by_cases h2 : v < t
    · rw [Nat.mod_eq_of_lt (a := v + b - t) (by omega)]; omega
    · rw [show v + b - t = (v - t) + b by omega, Nat.add_mod_right, Nat.mod_eq_of_lt (by omega)]; omega

theorem accepted_exactly (b v : BitVec 32) (h : b ≠ 0) (hv : v < b) :
    (∀ i j, i < 2 ^ 32 / b.toNat → j < 2 ^ 32 / b.toNat → pick b v i = pick b v j → i = j) ∧
      (∀ r, (threshold b ≤ r ∧ r % b = v) ↔ ∃ i, i < 2 ^ 32 / b.toNat ∧ pick b v i = r) := by
  have hb := bound_pos b h
  have ht := Nat.mod_lt (2 ^ 32) hb
  have hv' : v.toNat < b.toNat := hv
  constructor
  · intro i j hi hj e
    have e2 := congrArg BitVec.toNat e
    rw [pick_toNat b v h i hi, pick_toNat b v h j hj] at e2
    have : i * b.toNat = j * b.toNat := by omega
    exact Nat.eq_of_mul_eq_mul_right hb this
  · intro r
    rw [BitVec.le_def, threshold_toNat b h]
    constructor
    · rintro ⟨h1, h2⟩
      have h3 := congrArg BitVec.toNat h2
      rw [BitVec.toNat_umod] at h3
      have hd := Nat.div_add_mod (r.toNat - 2 ^ 32 % b.toNat) b.toNat
      have hm := Nat.mod_lt (r.toNat - 2 ^ 32 % b.toNat) hb
      have hq := Nat.div_add_mod (2 ^ 32) b.toNat
      have hi : (r.toNat - 2 ^ 32 % b.toNat) / b.toNat < 2 ^ 32 / b.toNat := by
        rw [Nat.div_lt_iff_lt_mul hb]
        have := r.isLt
        rw [Nat.mul_comm]
        omega
      refine ⟨_, hi, BitVec.eq_of_toNat_eq ?_⟩
      rw [pick_toNat b v h _ hi]
      generalize (r.toNat - 2 ^ 32 % b.toNat) / b.toNat = i at *
      generalize he : (r.toNat - 2 ^ 32 % b.toNat) % b.toNat = e at *
      have hr : r.toNat = 2 ^ 32 % b.toNat + e + b.toNat * i := by omega
      rw [hr, Nat.add_mul_mod_self_left] at h3
      have := (off_eq _ _ _ _ ht hv' hm).1 h3
      rw [hr, ← this, Nat.mul_comm i]
      omega
    · rintro ⟨i, hi, rfl⟩
      rw [pick_toNat b v h i hi]
      refine ⟨by omega, BitVec.eq_of_toNat_eq ?_⟩
      rw [BitVec.toNat_umod, pick_toNat b v h i hi, Nat.add_right_comm, Nat.add_mul_mod_self_right]
      exact (off_eq _ _ _ _ ht hv' (Nat.mod_lt _ hb)).2 rfl

/-! ## The loop -/

theorem loop_succ (b t : BitVec 32) (k : Nat) (r : State) :
    boundedLoop b t (k + 1) r = if t ≤ output r.state then .value (output r.state % b) (advance r) else boundedLoop b t k (advance r) := by
  rw [boundedLoop]; rfl

theorem loop_value (b t : BitVec 32) (hb : b ≠ 0) (k : Nat) :
    ∀ r v r', boundedLoop b t k r = .value v r' → v < b ∧ ∃ n, n < k ∧ t ≤ output (after n r).state ∧
      v = output (after n r).state % b ∧ r' = after (n + 1) r ∧ ∀ m, m < n → output (after m r).state < t := by
  induction k with
  | zero => intro r v r' h; simp [boundedLoop] at h
  | succ k ih =>
    intro r v r' h
    rw [loop_succ] at h
    by_cases hc : t ≤ output r.state
    · rw [if_pos hc] at h
      injection h with h1 h2
      subst h1 h2
      refine ⟨?_, 0, by omega, hc, rfl, by rw [after_succ, after], fun m hm => by omega⟩
      rw [BitVec.lt_def, BitVec.toNat_umod]
      exact Nat.mod_lt _ (bound_pos b hb)
    · rw [if_neg hc] at h
      obtain ⟨h1, n, h2, h3, h4, h5, h6⟩ := ih _ _ _ h
      refine ⟨h1, n + 1, by omega, by rw [after_succ]; exact h3, by rw [after_succ]; exact h4, by rw [after_succ]; exact h5, ?_⟩
      intro m hm
      cases m with
      | zero => rw [after]; exact BitVec.not_le.1 hc
      | succ m => rw [after_succ]; exact h6 m (by omega)

theorem loop_mono (b t : BitVec 32) (k : Nat) : ∀ r v r', boundedLoop b t k r = .value v r' → boundedLoop b t (k + 1) r = .value v r' := by
  induction k with
  | zero => intro r v r' h; simp [boundedLoop] at h
  | succ k ih =>
    intro r v r' h
    rw [loop_succ] at h ⊢
    by_cases hc : t ≤ output r.state
    · rw [if_pos hc] at h ⊢; exact h
    · rw [if_neg hc] at h ⊢; exact ih _ _ _ h

theorem loop_mono' (b t : BitVec 32) (k m : Nat) (hkm : k ≤ m) (r : State) (v : BitVec 32) (r' : State)
    (h : boundedLoop b t k r = .value v r') : boundedLoop b t m r = .value v r' := by
  induction m with
  | zero => have : k = 0 := by omega
            subst this; exact h
  | succ m ih =>
    by_cases hk : k = m + 1
    · subst hk; exact h
    · exact loop_mono b t m r v r' (ih (by omega))

theorem loop_ends (b t : BitVec 32) (n : Nat) : ∀ r, t ≤ output (after n r).state → ∃ v r', boundedLoop b t (n + 1) r = .value v r' := by
  induction n with
  | zero =>
    intro r h
    rw [after] at h
    refine ⟨output r.state % b, advance r, ?_⟩
    rw [loop_succ]
    rw [if_pos h]
  | succ n ih =>
    intro r h
    rw [loop_succ]
    by_cases hc : t ≤ output r.state
    · exact ⟨_, _, by rw [if_pos hc]⟩
    · rw [after_succ] at h
      obtain ⟨v, r', e⟩ := ih _ h
      exact ⟨v, r', by rw [if_neg hc]; exact e⟩

end Np.Rng
