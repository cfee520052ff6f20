import Verif.Addr.Spec
import Verif.Dhkey.Props

/-! # Texts of addresses -/
namespace Np.Addr

open Np.Dhkey
open _root_.Np.Addr.Spec

set_option linter.unusedSimpArgs false
set_option linter.unusedVariables false

theorem splitFirst_none : ∀ s : Str, splitFirst s = none ↔ ':' ∉ s
  | [] => by simp [splitFirst]
  | c :: cs => by
    have ih := splitFirst_none cs
    by_cases hc : c = ':'
    · simp [splitFirst, hc]
    · rw [splitFirst, if_neg hc]
      cases h : splitFirst cs with
      | none =>
        have := ih.mp h
        simp [this, Ne.symm hc]
      | some x =>
        have : ¬ ':' ∉ cs := fun hn => by rw [ih.mpr hn] at h; exact absurd h (by simp)
        simp only [List.mem_cons, not_or]
        simp [this]

theorem splitFirst_some : ∀ (s a b : Str), splitFirst s = some (a, b) ↔ s = a ++ ':' :: b ∧ ':' ∉ a
  | [], a, b => by simp [splitFirst]
  | c :: cs, a, b => by
    by_cases hc : c = ':'
    · subst hc
      rw [splitFirst, if_pos rfl]
      cases a with
      | nil => simp [eq_comm]
      | cons x xs =>
        simp only [Option.some.injEq, Prod.mk.injEq, List.cons_append, List.cons.injEq, List.mem_cons, not_or]
        constructor
        · rintro ⟨h, _⟩; exact absurd h (by simp)
        · rintro ⟨⟨h, _⟩, h', _⟩; exact absurd h h'
    · rw [splitFirst, if_neg hc]
      cases a with
      | nil =>
        constructor
        · intro h
          cases h' : splitFirst cs with
          | none => rw [h'] at h; exact absurd h (by simp)
          | some x => obtain ⟨x, y⟩ := x; rw [h'] at h; exact absurd h (by simp)
        · rintro ⟨h, _⟩
          simp only [List.nil_append, List.cons.injEq] at h
          exact absurd h.1 hc
      | cons x xs =>
        have ih := splitFirst_some cs xs b
        cases h' : splitFirst cs with
        | none =>
          rw [h'] at ih
          constructor
          · intro h; exact absurd h (by simp)
          · rintro ⟨h, hn⟩
            simp only [List.cons_append, List.cons.injEq] at h
            have := ih.mpr ⟨h.2, fun hm => hn (List.mem_cons_of_mem _ hm)⟩
            exact absurd this (by simp)
        | some y =>
          obtain ⟨y, z⟩ := y
          rw [h'] at ih
          simp only [Option.some.injEq, Prod.mk.injEq, List.cons.injEq, List.cons_append, List.mem_cons, not_or] at ih ⊢
          constructor
          · rintro ⟨⟨h1, h2⟩, h3⟩
            obtain ⟨h4, h5⟩ := ih.mp ⟨h2, h3⟩
            exact ⟨⟨h1, h4⟩, by rw [← h1]; exact Ne.symm hc, h5⟩
          · rintro ⟨⟨h1, h2⟩, h3, h4⟩
            obtain ⟨h5, h6⟩ := ih.mpr ⟨h2, h4⟩
            exact ⟨⟨h1, h5⟩, h6⟩

theorem splitLast_none : ∀ s : Str, splitLast s = none ↔ ':' ∉ s
  | [] => by simp [splitLast]
  | c :: cs => by
    have ih := splitLast_none cs
    rw [splitLast]
    cases h : splitLast cs with
    | none =>
      have := ih.mp h
      by_cases hc : c = ':'
      · simp [hc]
      · simp [hc, this, Ne.symm hc]
    | some x =>
      have : ¬ ':' ∉ cs := fun hn => by rw [ih.mpr hn] at h; exact absurd h (by simp)
      simp only [List.mem_cons, not_or]
      simp [this]

theorem splitLast_some : ∀ (s a b : Str), splitLast s = some (a, b) ↔ s = a ++ ':' :: b ∧ ':' ∉ b
  | [], a, b => by simp [splitLast]
  | c :: cs, a, b => by
    rw [splitLast]
    cases h' : splitLast cs with
    | none =>
      have hn := (splitLast_none cs).mp h'
      simp only
      cases a with
      | nil =>
        by_cases hc : c = ':'
        · subst hc
          rw [if_pos rfl]
          simp only [Option.some.injEq, Prod.mk.injEq, true_and, List.nil_append, List.cons.injEq]
          constructor
          · intro h; subst h; exact ⟨rfl, hn⟩
          · rintro ⟨h, _⟩; exact h
        · rw [if_neg hc]
          constructor
          · intro h; exact absurd h (by simp)
          · rintro ⟨h, _⟩
            simp only [List.nil_append, List.cons.injEq] at h
            exact absurd h.1 hc
      | cons x xs =>
        constructor
        · intro h
          split at h <;> simp at h
        · rintro ⟨h, _⟩
          simp only [List.cons_append, List.cons.injEq] at h
          exact absurd (by rw [h.2]; simp) hn
    | some y =>
      obtain ⟨y, z⟩ := y
      simp only
      cases a with
      | nil =>
        constructor
        · intro h; exact absurd h (by simp)
        · rintro ⟨h, hb⟩
          simp only [List.nil_append, List.cons.injEq] at h
          obtain ⟨rfl, rfl⟩ := h
          rw [(splitLast_none cs).mpr hb] at h'
          exact absurd h' (by simp)
      | cons x xs =>
        have ih := splitLast_some cs xs b
        rw [h'] at ih
        simp only [Option.some.injEq, Prod.mk.injEq, List.cons.injEq, List.cons_append] at ih ⊢
        constructor
        · rintro ⟨⟨h1, h2⟩, h3⟩
          obtain ⟨h4, h5⟩ := ih.mp ⟨h2, h3⟩
          exact ⟨⟨h1, h4⟩, h5⟩
        · rintro ⟨⟨h1, h2⟩, h3⟩
          obtain ⟨h5, h6⟩ := ih.mpr ⟨h2, h3⟩
          exact ⟨⟨h1, h5⟩, h6⟩

theorem details_iff (s : Str) (d : Details) :
    details s = some d ↔ s = fields d.dhkey d.protocol d.hostname d.port ∧ ':' ∉ d.dhkey ∧ ':' ∉ d.protocol ∧ ':' ∉ d.port := by
  obtain ⟨k, p, h, q⟩ := d
  simp only [fields, List.append_assoc, List.singleton_append, List.cons_append, List.nil_append]
  constructor
  · intro hd
    unfold details at hd
    cases h1 : splitFirst s with
    | none => rw [h1] at hd; exact absurd hd (by simp)
    | some x =>
      obtain ⟨k', r⟩ := x
      rw [h1] at hd
      simp only at hd
      cases h2 : splitFirst r with
      | none => rw [h2] at hd; exact absurd hd (by simp)
      | some y =>
        obtain ⟨p', r'⟩ := y
        rw [h2] at hd
        simp only at hd
        cases h3 : splitLast r' with
        | none => rw [h3] at hd; exact absurd hd (by simp)
        | some z =>
          obtain ⟨h', q'⟩ := z
          rw [h3] at hd
          simp only [Option.some.injEq, Details.mk.injEq] at hd
          obtain ⟨rfl, rfl, rfl, rfl⟩ := hd
          obtain ⟨e1, n1⟩ := (splitFirst_some _ _ _).mp h1
          obtain ⟨e2, n2⟩ := (splitFirst_some _ _ _).mp h2
          obtain ⟨e3, n3⟩ := (splitLast_some _ _ _).mp h3
          refine ⟨?_, n1, n2, n3⟩
          rw [e1, e2, e3]
  · rintro ⟨rfl, n1, n2, n3⟩
    unfold details
    rw [(splitFirst_some _ k (p ++ ':' :: (h ++ ':' :: q))).mpr ⟨rfl, n1⟩]
    simp only
    rw [(splitFirst_some _ p (h ++ ':' :: q)).mpr ⟨rfl, n2⟩]
    simp only
    rw [(splitLast_some _ h q).mpr ⟨rfl, n3⟩]

/-- The first four characters decide about a protocol. -/
theorem names_iff (b : Str) (p : Proto) : names b p ↔ b.take 4 = p.name.toList := by
  unfold names
  rw [List.prefix_iff_eq_take]
  cases p <;> exact eq_comm

theorem parse_iff (b : Str) (p : Proto) : parseProtocol b = p.code ↔ names b p := by
  rw [names_iff]
  unfold parseProtocol
  generalize b.take 4 = t
  constructor
  · intro h
    split at h
    · rename_i e; subst e; revert h; cases p <;> decide
    split at h
    · rename_i e; subst e; revert h; cases p <;> decide
    split at h
    · rename_i e; subst e; revert h; cases p <;> decide
    split at h
    · rename_i e; subst e; revert h; cases p <;> decide
    split at h
    · rename_i e; subst e; revert h; cases p <;> decide
    split at h
    · rename_i e; subst e; revert h; cases p <;> decide
    · exact absurd h (by cases p <;> decide)
  · intro h
    subst h
    cases p <;> decide

/-- A text that names no protocol is refused. -/
theorem parse_known (b : Str) : flagCmp (parseProtocol b) unknown = false ↔ ∃ p, names b p := by
  constructor
  · intro h
    simp only [names_iff]
    unfold parseProtocol at h
    split at h
    · exact ⟨.tcp4, by assumption⟩
    split at h
    · exact ⟨.tcp6, by assumption⟩
    split at h
    · exact ⟨.pas4, by assumption⟩
    split at h
    · exact ⟨.pas6, by assumption⟩
    split at h
    · exact ⟨.udp4, by assumption⟩
    split at h
    · exact ⟨.udp6, by assumption⟩
    · exact absurd h (by decide)
  · rintro ⟨p, h⟩
    rw [(parse_iff b p).mpr h]
    cases p <;> decide

theorem parse_unknown (b : Str) : parseProtocol b ≠ unknown ↔ ∃ p, names b p := by
  rw [← parse_known]
  unfold parseProtocol
  generalize b.take 4 = t
  repeat' split
  all_goals decide

theorem names_unique {b : Str} {p q : Proto} (h1 : names b p) (h2 : names b q) : p = q := by
  rw [names_iff] at h1 h2
  rw [h1] at h2
  revert h2
  cases p <;> cases q <;> decide

theorem proto_string (p : Proto) : protocolString p.code = p.name.toList := by cases p <;> decide

theorem names_self (p : Proto) (rest : Str) : names (p.name.toList ++ rest) p := List.prefix_append _ _

theorem name_no_colon (p : Proto) : ':' ∉ p.name.toList := by cases p <;> decide

theorem name_length (p : Proto) : p.name.toList.length = 4 := by cases p <;> decide

theorem active_iff (p : Proto) : flagCmp p.code passive = !p.active := by cases p <;> decide

theorem code_inj {p q : Proto} (h : p.code = q.code) : p = q := by revert h; cases p <;> cases q <;> decide

/-! ## Keys -/

theorem wordOf_wordBytes (w : BitVec 32) :
    wordOf (w.extractLsb' 0 8) (w.extractLsb' 8 8) (w.extractLsb' 16 8) (w.extractLsb' 24 8) = w := by
  unfold wordOf
  apply BitVec.eq_of_toNat_eq
  simp only [BitVec.toNat_append, BitVec.extractLsb'_toNat]
  have := w.isLt
  rw [Nat.shiftLeft_add_eq_or_of_lt (by omega) _ |>.symm, Nat.shiftLeft_add_eq_or_of_lt (by omega) _ |>.symm,
    Nat.shiftLeft_add_eq_or_of_lt (by omega) _ |>.symm]
  simp only [Nat.shiftLeft_eq, Nat.shiftRight_eq_div_pow]
  omega

theorem ofBytes_bytes (k : Dhkey) : ofBytes k.bytes = k := by
  obtain ⟨a, b, c, d, e, f, g, h⟩ := k
  simp only [bytes, words, wordBytes, List.flatMap_cons, List.flatMap_nil, List.cons_append, List.nil_append, ofBytes, wordOf_wordBytes,
    List.append_nil]

theorem keyText_length (k : Dhkey) : (keyText k).length = 64 := by rw [keyText, idStr_length, bytes_length]

theorem fromHash_keyText (k : Dhkey) (rest : Str) : fromHash (keyText k ++ rest) = k := by
  have ht : (keyText k ++ rest).take 64 = keyText k := by
    rw [List.take_append_of_le_length (by rw [keyText_length]; omega), List.take_of_length_le (by rw [keyText_length]; omega)]
  unfold fromHash
  rw [ht, if_pos (keyText_length k)]
  have h := hex2bin_idStr k.bytes []
  rw [bytes_length, List.append_nil] at h
  unfold keyText strId
  rw [h]
  simp only [ofBytes_bytes]

theorem fromHash_short {s : Str} (h : s.length < 64) : fromHash s = Dhkey.zero := by
  unfold fromHash
  rw [if_neg (by rw [List.length_take]; omega)]

theorem lower_no_colon {c : Char} (h : Np.Spec.isLowerHex c) : c ≠ ':' := by
  unfold Np.Spec.isLowerHex at h
  rintro rfl
  revert h
  decide

theorem keyText_chars (k : Dhkey) : ∀ c ∈ keyText k, Np.Spec.isLowerHex c := by
  intro c hc
  unfold keyText idStr at hc
  simp only [List.mem_flatMap] at hc
  obtain ⟨b, _, hb⟩ := hc
  have hl := b.isLt
  have h1 := hexDigit_lower ⟨b.toNat / 16, by omega⟩
  have h2 := hexDigit_lower ⟨b.toNat % 16, by omega⟩
  simp only [List.mem_cons, List.not_mem_nil, or_false] at hb
  rcases hb with rfl | rfl
  · exact h1
  · exact h2

theorem keyText_no_colon (k : Dhkey) : ':' ∉ keyText k := fun h => lower_no_colon (keyText_chars k _ h) rfl

/-! ## Ports -/

theorem digit_ok : ∀ n : Fin 10, digit n.val ≠ ':' ∧ digit n.val ≠ '\x00' := by decide

theorem digits_chars (f n : Nat) : ∀ c ∈ digits f n, c ≠ ':' ∧ c ≠ '\x00' := by
  induction f generalizing n with
  | zero => simp [digits]
  | succ f ih =>
    intro c hc
    rw [digits] at hc
    split at hc
    · rename_i h
      simp only [List.mem_singleton] at hc
      subst hc
      exact digit_ok ⟨n, h⟩
    · rw [List.mem_append, List.mem_singleton] at hc
      rcases hc with hc | rfl
      · exact ih (n / 10) c hc
      · exact digit_ok ⟨n % 10, by omega⟩

theorem decimal_chars (n : Nat) : ∀ c ∈ decimal n, c ≠ ':' ∧ c ≠ '\x00' := digits_chars 5 n

theorem digits_length (f n : Nat) : (digits f n).length ≤ f := by
  induction f generalizing n with
  | zero => simp [digits]
  | succ f ih =>
    rw [digits]
    split
    · simp
    · rw [List.length_append, List.length_singleton]
      have := ih (n / 10)
      omega

theorem digit_value : ∀ n : Fin 10, (digit n.val).toNat - 48 = n.val := by decide

theorem digits_value (f n : Nat) (h : n < 10 ^ f) : numeral (digits f n) = n := by
  induction f generalizing n with
  | zero => simp only [Nat.pow_zero] at h; simp [digits, numeral]; omega
  | succ f ih =>
    rw [digits]
    split
    · rename_i hn
      simp only [numeral, List.foldl_cons, List.foldl_nil]
      rw [digit_value ⟨n, hn⟩]
      simp
    · have := ih (n / 10) (by rw [Nat.pow_succ] at h; omega)
      unfold numeral at this ⊢
      rw [List.foldl_append, this]
      simp only [List.foldl_cons, List.foldl_nil]
      rw [digit_value ⟨n % 10, by omega⟩]
      simp only
      omega

theorem decimal_value (p : BitVec 16) : numeral (decimal p.toNat) = p.toNat := digits_value 5 _ (by have := p.isLt; omega)

theorem decimal_port (p : BitVec 16) : (decimal p.toNat).length ≤ 5 := digits_length 5 _

/-! ## Decoding -/

/-- The node the decoder builds for an address. -/
theorem decode_address {s k : Str} {p : Proto} {h q : Str} (hl : s.length ≤ 255) (ha : IsAddress s k p h q) :
    decode s = .ok (some ⟨if fromHash k = Dhkey.zero then ['*'] else k.take 64, p.code, h.take 40, q.take 5⟩) := by
  obtain ⟨b, hb, n1, n2, n3, rfl⟩ := ha
  unfold decode
  rw [if_neg (by simp [fields]), List.take_of_length_le hl, (details_iff _ ⟨k, b, h, q⟩).mpr ⟨rfl, n1, n2, n3⟩]
  simp only [(parse_iff b p).mpr hb]
  rw [if_neg (by cases p <;> decide)]
  rfl

/-- What the decoder accepts is an address. -/
theorem decode_some {s : Str} {n : Node} (h : decode s = .ok (some n)) :
    ∃ k p ho q, IsAddress (s.take 255) k p ho q ∧
      n = ⟨if fromHash k = Dhkey.zero then ['*'] else k.take 64, p.code, ho.take 40, q.take 5⟩ := by
  unfold decode at h
  split at h
  · exact absurd h (by simp)
  · cases hd : details (s.take 255) with
    | none => rw [hd] at h; exact absurd h (by simp)
    | some d =>
      rw [hd] at h
      simp only [Out.ok.injEq] at h
      split at h
      · exact absurd h (by simp)
      · rename_i hu
        obtain ⟨p, hp⟩ := (parse_known _).mp (by simpa using hu)
        obtain ⟨e, n1, n2, n3⟩ := (details_iff _ _).mp hd
        refine ⟨d.dhkey, p, d.hostname, d.port, ⟨d.protocol, hp, n1, n2, n3, e⟩, ?_⟩
        simp only [Option.some.injEq] at h
        rw [← h, (parse_iff _ _).mpr hp]
        rfl

theorem fields_length (a b c d : Str) : (fields a b c d).length = a.length + b.length + c.length + d.length + 3 := by
  simp only [fields, List.length_append, List.length_singleton]
  omega

/-- The address of an interface. -/
theorem connection_fields (n : Node) (p : Proto) (h : n.protocol = p.code) :
    connectionString n = fields n.hostKey p.name.toList n.ip n.port := by
  unfold connectionString fields
  rw [h, proto_string]
  simp

/-! ## The interface made for a token -/

theorem iface_of_token (k : Dhkey) (p : Proto) (ip port : Str) (hi : ip.length ≤ 40) (hp : port.length ≤ 5) (hc : ':' ∉ port) :
    nodeFromToken (hsToken k p.code ip port) = some ⟨keyText k, p.code, ip, port⟩ := by
  unfold nodeFromToken hsToken
  simp only
  rw [proto_string]
  have hlen : (urnPrefix ++ ':' :: p.name.toList ++ ':' :: ip ++ ':' :: port).length ≤ 253 := by
    simp only [List.length_append, List.length_cons, name_length, show urnPrefix.length = 11 from rfl]
    omega
  rw [List.take_of_length_le hlen]
  have hd : (urnPrefix ++ ':' :: p.name.toList ++ ':' :: ip ++ ':' :: port).drop (urnPrefix.length - 1) = fields ['e'] p.name.toList ip port := by
    simp [urnPrefix, fields]
  rw [hd, List.take_of_length_le (by rw [fields_length, name_length]; simp; omega),
    (details_iff _ ⟨['e'], p.name.toList, ip, port⟩).mpr ⟨rfl, by simp, name_no_colon p, hc⟩]
  simp only
  have hpar : parseProtocol p.name.toList = p.code := (parse_iff _ _).mpr (by simpa using names_self p [])
  rw [hpar, if_neg (by cases p <;> decide)]
  unfold update
  rw [List.take_of_length_le hi, List.take_of_length_le hp]
  have : (idStr k.bytes).take 64 = keyText k := List.take_of_length_le (Nat.le_of_eq (keyText_length k))
  rw [this]

end Np.Addr
