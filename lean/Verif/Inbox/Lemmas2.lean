import Verif.Inbox.Lemmas
import Verif.Ser.Props
import Verif.Chunk.Props
import Verif.Addr.Lemmas

set_option linter.unusedVariables false

namespace Np.Inbox

open Np.Ser (Val Ents Wrap Lib)
open Np.Tree (Name Tree)
open _root_.Np.Inbox.Spec

theorem slice_append {a b c : List Byte} {i n : Nat} (ha : a.length = i) (hb : b.length = n) : Chunk.slice i n (a ++ (b ++ c)) = b := by
  simp only [Chunk.slice]
  rw [List.drop_append_of_le_length (by omega), List.drop_eq_nil_of_le (by omega), List.nil_append, List.take_append_of_le_length (by omega),
    List.take_of_length_le (by omega)]

theorem split_parts {n m h b : List Byte} (hn : n.length = 12) (hm : m.length = 16) (hh : h.length = 96) : split (n ++ m ++ h ++ b) = ⟨n, m, h, b⟩ := by
  have e1 : n ++ m ++ h ++ b = n ++ (m ++ (h ++ b)) := by simp
  have e2 : n ++ m ++ h ++ b = (n ++ m) ++ (h ++ b) := by simp
  have hf : Chunk.FIXED = 124 := by decide
  unfold split
  congr 1
  · rw [e1, List.take_append_of_le_length (by omega), List.take_of_length_le (by omega)]
  · rw [e1]; exact slice_append hn hm
  · rw [e2]; exact slice_append (by rw [List.length_append]; omega) hh
  · rw [hf, List.drop_append_of_le_length (by simp only [List.length_append]; omega), List.drop_eq_nil_of_le (by simp only [List.length_append]; omega),
      List.nil_append]

theorem join_split (bin : List Byte) : (split bin).join = bin := by
  have hf : Chunk.FIXED = 124 := by decide
  simp only [split, Plain.join, Chunk.slice, hf]
  have e1 : bin.drop 12 = (bin.drop 12).take 16 ++ bin.drop 28 := by
    conv => lhs; rw [← List.take_append_drop 16 (bin.drop 12), List.drop_drop]
  have e2 : bin.drop 28 = (bin.drop 28).take 96 ++ bin.drop 124 := by
    conv => lhs; rw [← List.take_append_drop 96 (bin.drop 28), List.drop_drop]
  rw [List.append_assoc, ← e2, List.append_assoc, ← e1, List.take_append_drop]

theorem encrypt_parts (A : Aead) (k nonce : List Byte) {n m h b : List Byte} (hn : n.length = 12) (hm : m.length = 16) (hh : h.length = 96) :
    encrypt A k nonce (n ++ m ++ h ++ b) = nonce ++ (A.enc k nonce h b).2 ++ h ++ (A.enc k nonce h b).1 := by
  unfold encrypt
  simp only [split_parts hn hm hh]
  rfl

theorem decrypt_parts (A : Aead) (k : List Byte) {n m h b : List Byte} (hn : n.length = 12) (hm : m.length = 16) (hh : h.length = 96) :
    decrypt A k (n ++ m ++ h ++ b) = (A.dec k n h b m).map fun p => n ++ m ++ h ++ p := by
  unfold decrypt
  simp only [split_parts hn hm hh]
  rfl

theorem decrypt_encrypt {A : Aead} (hA : Authentic A) (k nonce : List Byte) {n m h b : List Byte} (hn : n.length = 12) (hm : m.length = 16) (hh : h.length = 96)
    (hno : nonce.length = 12) : decrypt A k (encrypt A k nonce (n ++ m ++ h ++ b)) = some (nonce ++ (A.enc k nonce h b).2 ++ h ++ b) := by
  rw [encrypt_parts A k nonce hn hm hh, decrypt_parts A k hno (hA.mac ..) hh, (hA.iff k nonce h b _ _).2 rfl]
  rfl

theorem audience_parts {n m h b : List Byte} (hn : n.length = 12) (hm : m.length = 16) (hh : h.length = 96) :
    audienceOf (n ++ m ++ h ++ b) = Addr.ofBytes ((h.drop 32).take 32) := by
  unfold audienceOf
  have e : n ++ m ++ h ++ b = (n ++ m ++ h.take 32) ++ (((h.drop 32).take 32) ++ (h.drop 64 ++ b)) := by
    have e1 : h = h.take 32 ++ ((h.drop 32).take 32 ++ h.drop 64) := by
      have : h.drop 32 = (h.drop 32).take 32 ++ h.drop 64 := by
        conv => lhs; rw [← List.take_append_drop 32 (h.drop 32), List.drop_drop]
      rw [← this, List.take_append_drop]
    conv => lhs; rw [e1]
    simp
  rw [e, slice_append (by simp only [List.length_append, List.length_take]; omega) (by simp only [List.length_take, List.length_drop]; omega)]

theorem readBody_parts {lib : Lib} {n m h b : List Byte} (hn : n.length = 12) (hm : m.length = 16) (hh : h.length = 96) (behind : List Byte) {t : Tree Val}
    {r : List Byte} (hr : Ser.read lib Tree.create (b ++ behind.take 124) = .ok (t, r)) : readBody lib (n ++ m ++ h ++ b) behind = .ok t := by
  refine readBody_of (r := r) (by simp only [List.length_append]; omega) ?_
  rw [List.drop_append_of_le_length (by simp only [List.length_append]; omega), List.drop_eq_nil_of_le (by simp only [List.length_append]; omega), List.nil_append]
  exact hr

theorem find_set (s : Sessions) (i j : Dhkey) (x : Session) : (s.set i x).find j = if j = i then some x else s.find j := by
  unfold Sessions.set Sessions.find
  by_cases h : j = i
  · subst h
    simp
  · rw [if_neg h]
    have h' : (i == j) = false := by
      rw [beq_eq_false_iff_ne]
      exact fun e => h e.symm
    rw [List.find?_cons]
    simp only [h']
    congr 1
    induction s with
    | nil => rfl
    | cons e es ih =>
      by_cases he : e.1 = i
      · rw [List.filter_cons_of_neg (by simp [he]), ih, List.find?_cons]
        have : (e.1 == j) = false := by
          rw [beq_eq_false_iff_ne, he]
          exact fun e => h e.symm
        simp only [this]
      · rw [List.filter_cons_of_pos (by simp [he]), List.find?_cons, List.find?_cons, ih]

end Np.Inbox
