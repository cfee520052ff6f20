import Verif.Cbor.Model

set_option linter.unusedVariables false
set_option linter.unusedSimpArgs false

namespace Np.Cbor

theorem byte_toNat (n : Nat) : (byte n).toNat = n % 256 := by simp [byte]

theorem be_length (k n : Nat) : (be k n).length = k := by
  induction k generalizing n with
  | zero => rfl
  | succ k ih => simp [be, ih]

theorem unbe_append (l : List Byte) (b : Byte) : unbe (l ++ [b]) = unbe l * 256 + b.toNat := by simp [unbe]

theorem unbe_be (k n : Nat) : unbe (be k n) = n % 256 ^ k := by
  induction k generalizing n with
  | zero => simp [be, unbe, Nat.mod_one]
  | succ k ih =>
    rw [be, unbe_append, ih, byte_toNat, Nat.pow_succ, Nat.mul_comm (256 ^ k) 256, Nat.mod_mul]
    omega

theorem head_length (m n : Nat) : (head m n).length = if n < 24 then 1 else if n < 256 then 2 else if n < 65536 then 3 else if n < 4294967296 then 5 else 9 := by
  unfold head
  split
  · rfl
  · split
    · simp [be_length]
    · split
      · simp [be_length]
      · split <;> simp [be_length]

theorem head_pos (m n : Nat) : 0 < (head m n).length := by
  rw [head_length]
  repeat' split
  all_goals omega

theorem following_zero {a : Nat} (h : a < 24) : following a = some 0 := by simp [following, h]

/-- A head with an argument of `k` bytes. -/
theorem readHead_long {m k a : Nat} (hm : m < 8) (hk : 0 < k) (ha : following a = some k) (ha' : a < 32) (n : Nat) (hn : n < 256 ^ k) (r : List Byte) :
    readHead ((byte (m * 32 + a) :: be k n) ++ r) = some (m, n, r) := by
  have hb : (byte (m * 32 + a)).toNat = m * 32 + a := by rw [byte_toNat]; omega
  rw [List.cons_append]
  unfold readHead
  simp only []
  rw [hb]
  have h1 : (m * 32 + a) % 32 = a := by omega
  have h2 : (m * 32 + a) / 32 = m := by omega
  rw [h1, ha, h2]
  cases k with
  | zero => omega
  | succ k =>
    simp only []
    rw [if_neg (by rw [List.length_append, be_length]; omega)]
    rw [List.take_left' (be_length _ _), List.drop_left' (be_length _ _), unbe_be, Nat.mod_eq_of_lt hn]

theorem readHead_head {m n : Nat} (hm : m < 8) (hn : n < 18446744073709551616) (r : List Byte) : readHead (head m n ++ r) = some (m, n, r) := by
  unfold head
  split
  · rename_i h
    have hb : (byte (m * 32 + n)).toNat = m * 32 + n := by rw [byte_toNat]; omega
    rw [List.singleton_append]
    unfold readHead
    simp only []
    rw [hb]
    have h1 : (m * 32 + n) % 32 = n := by omega
    have h2 : (m * 32 + n) / 32 = m := by omega
    rw [h1, h2, following_zero h]
    rfl
  · split
    · exact readHead_long hm (by decide) rfl (by decide) n (by omega) r
    · split
      · exact readHead_long hm (by decide) rfl (by decide) n (by omega) r
      · split
        · exact readHead_long hm (by decide) rfl (by decide) n (by omega) r
        · exact readHead_long hm (by decide) rfl (by decide) n (by omega) r

theorem readHead_head4 {m n : Nat} (hm : m < 8) (hn : n < 4294967296) (r : List Byte) : readHead (head4 m n ++ r) = some (m, n, r) :=
  readHead_long hm (by decide) rfl (by decide) n (by omega) r

theorem head4_length (m n : Nat) : (head4 m n).length = 5 := by simp [head4, be_length]

/-! ## Items -/

theorem getItem_eq {b r : List Byte} {m n : Nat} (h : readHead b = some (m, n, r)) (fuel : Nat) (tag : Option Nat) :
    getItem fuel tag b =
      if m = 0 then some (if n < 9223372036854775808 then .int n else .other, tag, r)
      else if m = 1 then if n < 9223372036854775808 then some (.int (-1 - n), tag, r) else none
      else if m = 2 then if r.length < n then none else some (.bytes (r.take n), tag, r.drop n)
      else if m = 3 then if r.length < n then none else some (.text (r.take n), tag, r.drop n)
      else if m = 4 then some (.array n, tag, r)
      else if m = 6 then
        match fuel with
        | 0 => none
        | f + 1 => getItem f (some n) r
      else some (.other, tag, r) := by
  conv => lhs; unfold getItem
  rw [h]
  rfl

theorem getItem_uint {fuel : Nat} {tag : Option Nat} {b r : List Byte} {n : Nat} (h : readHead b = some (0, n, r)) (hn : n < 9223372036854775808) :
    getItem fuel tag b = some (.int n, tag, r) := by
  rw [getItem_eq h, if_pos rfl, if_pos hn]

theorem getItem_int {fuel : Nat} {tag : Option Nat} {v : Int} (h1 : -9223372036854775808 ≤ v) (h2 : v < 9223372036854775808) (r : List Byte) :
    getItem fuel tag (intItem v ++ r) = some (.int v, tag, r) := by
  unfold intItem
  split
  · rename_i h
    rw [getItem_uint (readHead_head (by decide) (by omega) r) (by omega)]
    congr 3
    omega
  · rename_i h
    rw [getItem_eq (readHead_head (by decide) (by omega) r), if_neg (by decide), if_pos rfl, if_pos (by omega)]
    congr 3
    omega

theorem getItem_bytes {fuel : Nat} {tag : Option Nat} {b : List Byte} (h : b.length < 18446744073709551616) (r : List Byte) :
    getItem fuel tag (head 2 b.length ++ (b ++ r)) = some (.bytes b, tag, r) := by
  rw [getItem_eq (readHead_head (by decide) h _), if_neg (by decide), if_neg (by decide), if_pos rfl, if_neg (by simp)]
  rw [List.take_left, List.drop_left]

theorem getItem_text {fuel : Nat} {tag : Option Nat} {b : List Byte} (h : b.length < 18446744073709551616) (r : List Byte) :
    getItem fuel tag (head 3 b.length ++ (b ++ r)) = some (.text b, tag, r) := by
  rw [getItem_eq (readHead_head (by decide) h _), if_neg (by decide), if_neg (by decide), if_neg (by decide), if_pos rfl, if_neg (by simp)]
  rw [List.take_left, List.drop_left]

theorem getItem_tag {fuel : Nat} {tag : Option Nat} {t : Nat} (h : t < 18446744073709551616) (r : List Byte) :
    getItem (fuel + 1) tag (head 6 t ++ r) = getItem fuel (some t) r := by
  rw [getItem_eq (readHead_head (by decide) h _), if_neg (by decide), if_neg (by decide), if_neg (by decide), if_neg (by decide), if_neg (by decide), if_pos rfl]

/-! ## Encoding into a buffer -/

theorem emit_fits {cap : Nat} {p : List (List Byte)} (h : p.flatten.length ≤ cap) : emit cap p = (p.flatten, true) := by
  induction p generalizing cap with
  | nil => rfl
  | cons x r ih =>
    simp only [List.flatten_cons, List.length_append] at h
    unfold emit
    rw [if_neg (by omega), ih (by omega)]
    rfl

theorem emit_length (cap : Nat) (p : List (List Byte)) : (emit cap p).1.length ≤ cap := by
  induction p generalizing cap with
  | nil => simp [emit]
  | cons x r ih =>
    unfold emit
    split
    · simp
    · have := ih (cap - x.length)
      simp only [List.length_append]
      omega

theorem emit_true {cap : Nat} {p : List (List Byte)} (h : (emit cap p).2 = true) : p.flatten.length ≤ cap := by
  induction p generalizing cap with
  | nil => simp
  | cons x r ih =>
    unfold emit at h
    split at h
    · simp at h
    · have := ih h
      simp only [List.flatten_cons, List.length_append]
      omega

/-! ## Reading makes progress -/

theorem readHead_shorter {b r : List Byte} {m n : Nat} (h : readHead b = some (m, n, r)) : r.length < b.length := by
  unfold readHead at h
  cases b with
  | nil => simp at h
  | cons x t =>
    simp only [] at h
    cases hf : following (x.toNat % 32) with
    | none => rw [hf] at h; simp at h
    | some k =>
      rw [hf] at h
      cases k with
      | zero => simp only [Option.some.injEq, Prod.mk.injEq] at h; rw [← h.2.2]; simp
      | succ k =>
        simp only [] at h
        split at h
        · simp at h
        · simp only [Option.some.injEq, Prod.mk.injEq] at h
          rw [← h.2.2]
          simp
          omega

theorem getItem_shorter {fuel : Nat} : ∀ {tag : Option Nat} {b : List Byte} {x : Item × Option Nat × List Byte},
    getItem fuel tag b = some x → x.2.2.length < b.length := by
  induction fuel with
  | zero =>
    intro tag b x h
    cases hh : readHead b with
    | none => unfold getItem at h; rw [hh] at h; simp at h
    | some y =>
      rcases y with ⟨m, n, r⟩
      have hs := readHead_shorter hh
      rw [getItem_eq hh] at h
      simp only [] at h
      repeat' split at h
      all_goals first
        | (simp at h; done)
        | (rw [← Option.some.inj h]; simp only []; omega)
        | (rw [← Option.some.inj h]; simp only [List.length_drop]; omega)
  | succ f ih =>
    intro tag b x h
    cases hh : readHead b with
    | none => unfold getItem at h; rw [hh] at h; simp at h
    | some y =>
      rcases y with ⟨m, n, r⟩
      have hs := readHead_shorter hh
      rw [getItem_eq hh] at h
      simp only [] at h
      repeat' split at h
      all_goals first
        | (simp at h; done)
        | (rw [← Option.some.inj h]; simp only []; omega)
        | (rw [← Option.some.inj h]; simp only [List.length_drop]; omega)
        | (have := ih h; omega)

end Np.Cbor
