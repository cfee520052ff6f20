import Verif.Uuid.Spec
/-! # Lemmas on ids -/
namespace Np.Uuid
open _root_.Np.Uuid.Spec

theorem dec_length : ∀ (w n : Nat), (dec w n).length = w
  | 0, _ => rfl
  | w + 1, n => by simp [dec, dec_length w]

theorem dec_inj : ∀ (w n m : Nat), n < 10 ^ w → m < 10 ^ w → dec w n = dec w m → n = m
  | 0, n, m, hn, hm, _ => by simp at hn hm; omega
  | w + 1, n, m, hn, hm, h => by
    rw [Nat.pow_succ] at hn hm
    simp only [dec] at h
    obtain ⟨h1, h2⟩ := List.append_inj' h rfl
    have := dec_inj w (n / 10) (m / 10) (by omega) (by omega) h1
    simp at h2
    omega

theorem units_inj {t u : Nat} (h : units t = units u) : t = u := by
  have e : (5 : Nat) ^ 16 = 152587890625 := by decide
  unfold units at h
  simp only [e] at h
  split at h <;> split at h <;> omega

theorem units_lt {t : Nat} (h : Now t) : units t < 10 ^ 26 := by
  have e : (5 : Nat) ^ 16 = 152587890625 := by decide
  have e2 : (10 : Nat) ^ 26 = 100000000000000000000000000 := by decide
  obtain ⟨_, h⟩ := h
  have e3 : (2 : Nat) ^ 53 = 9007199254740992 := by decide
  rw [e3] at h
  unfold units
  simp only [e, e2]
  split <;> omega

theorem stamp_length (t : Nat) : (stamp t).length = 27 := by simp [stamp, dec_length]

theorem stamp_inj {t u : Nat} (ht : Now t) (hu : Now u) (h : stamp t = stamp u) : t = u := by
  unfold stamp at h
  obtain ⟨h1, h2⟩ := List.append_inj h (by simp [dec_length])
  obtain ⟨h3, _⟩ := List.append_inj h1 (by simp [dec_length])
  have lt := units_lt ht
  have lu := units_lt hu
  have e2 : (10 : Nat) ^ 26 = 10 ^ 10 * 10 ^ 16 := by decide
  rw [e2] at lt lu
  have a := dec_inj 10 _ _ (Nat.div_lt_of_lt_mul (by rw [Nat.mul_comm]; exact lt)) (Nat.div_lt_of_lt_mul (by rw [Nat.mul_comm]; exact lu)) h3
  have b := dec_inj 16 _ _ (Nat.mod_lt _ (by decide)) (Nat.mod_lt _ (by decide)) h2
  apply units_inj
  rw [← Nat.div_add_mod (units t) (10 ^ 16), ← Nat.div_add_mod (units u) (10 ^ 16), a, b]

theorem pad_length (t : Text) : (pad t).length = max 64 t.length := by
  simp [pad]; omega

/-- A name that is not too long is followed by the number and the time. -/
theorem block_inj {a b : Text} {n m t u : Nat} (ha : a.length ≤ 215) (hb : b.length ≤ 215) (hza : 0 ∉ a) (hzb : 0 ∉ b) (hn : n < 2 ^ 32) (hm : m < 2 ^ 32) (ht : Now t) (hu : Now u)
    (h : block a n t = block b m u) : pad a = pad b ∧ n = m ∧ t = u := by
  have full : ∀ (a : Text) (n t : Nat), a.length ≤ 215 → line a n t = pad a ++ [58] ++ dec 10 n ++ [58] ++ stamp t := by
    intro a n t ha
    unfold line
    apply List.take_of_length_le
    simp only [List.length_append, pad_length, dec_length, stamp_length, List.length_cons, List.length_nil]
    omega
  have decz : ∀ (w n : Nat), 0 ∉ dec w n := by
    intro w
    induction w with
    | zero => intro n; simp [dec]
    | succ w ih =>
      intro n h
      simp only [dec, List.mem_append, List.mem_singleton] at h
      rcases h with h | h
      · exact ih _ h
      · omega
  have nz : ∀ (a : Text) (n t : Nat), 0 ∉ a → 0 ∉ pad a ++ [58] ++ dec 10 n ++ [58] ++ stamp t := by
    intro a n t ha
    simp [pad, stamp, decz, ha]
  have strip : ∀ (x : Text) (k : Nat), 0 ∉ x → (x ++ List.replicate k 0).takeWhile (· ≠ 0) = x := by
    intro x k hx
    rw [List.takeWhile_append_of_pos]
    · cases k <;> simp [List.replicate_succ]
    · intro y hy
      simp only [decide_eq_true_eq, ne_eq]
      intro h0
      exact hx (h0 ▸ hy)
  unfold block at h
  rw [full a n t ha, full b m u hb] at h
  have h' := congrArg (List.takeWhile (· ≠ 0)) h
  rw [strip _ _ (nz a n t hza), strip _ _ (nz b m u hzb)] at h'
  obtain ⟨h1, h2⟩ := List.append_inj' h' (by rw [stamp_length, stamp_length])
  obtain ⟨h3, _⟩ := List.append_inj' h1 rfl
  obtain ⟨h4, h5⟩ := List.append_inj' h3 (by rw [dec_length, dec_length])
  obtain ⟨h6, _⟩ := List.append_inj' h4 rfl
  have b10 : (2 : Nat) ^ 32 ≤ 10 ^ 10 := by decide
  exact ⟨h6, dec_inj 10 n m (by omega) (by omega) h5, stamp_inj ht hu h2⟩

end Np.Uuid
