import Verif.Ident.Spec
import Verif.Cbor.Lemmas
/-! # Lemmas: what the encoder wrote is what the decoder sees -/
set_option linter.unusedSimpArgs false
set_option linter.unusedVariables false
namespace Np.Ident
open Np.Cbor (head intItem readHead readHead_head readHead_long head_length be_length byte_toNat)
open Np.Token (UserTok)
open _root_.Np.Ident.Spec

variable {F : Floats}

theorem look_eq {b r : Bytes} {m n : Nat} (h : readHead b = some (m, n, r)) (fuel : Nat) (tag : Option Nat) :
    look F fuel tag b =
      (if m = 0 then some (if n < 9223372036854775808 then .int n else .other, tag, r)
      else if m = 1 then if n < 9223372036854775808 then some (.int (-1 - n), tag, r) else none
      else if m = 2 then if r.length < n then none else some (.bytes (r.take n), tag, r.drop n)
      else if m = 3 then if r.length < n then none else some (.text (r.take n), tag, r.drop n)
      else if m = 4 then some (.array n, tag, r)
      else if m = 5 then some (.map n, tag, r)
      else if m = 6 then
        match fuel with
        | 0 => none
        | f + 1 => look F f (some n) r
      else
        some (if 25 ≤ (b.headD 0#8).toNat % 32 ∧ (b.headD 0#8).toNat % 32 ≤ 27 then .dbl (F.dec ((b.headD 0#8).toNat % 32) n) else .other, tag, r)) := by
  conv => lhs; unfold look
  rw [h]
  rfl

theorem look_int {v : Int} (h1 : -9223372036854775808 ≤ v) (h2 : v < 9223372036854775808) (fuel : Nat) (tag : Option Nat) (r : Bytes) :
    look F fuel tag (intItem v ++ r) = some (.int v, tag, r) := by
  unfold intItem
  by_cases h : 0 ≤ v
  · rw [if_pos h, look_eq (readHead_head (by omega) (by omega) r), if_pos rfl, if_pos (by omega)]
    rw [show ((v.toNat : Nat) : Int) = v by omega]
  · rw [if_neg h, look_eq (readHead_head (by omega) (by omega) r), if_neg (by omega), if_pos rfl, if_pos (by omega)]
    rw [show (-1 - (((-1 - v).toNat : Nat) : Int)) = v by omega]

theorem look_bytes {b : Bytes} (h : b.length < 18446744073709551616) (fuel : Nat) (tag : Option Nat) (r : Bytes) :
    look F fuel tag (bytesItem b ++ r) = some (.bytes b, tag, r) := by
  unfold bytesItem
  rw [List.append_assoc, look_eq (readHead_head (by omega) h _)]
  simp

theorem look_text {b : Bytes} (h : b.length < 18446744073709551616) (fuel : Nat) (tag : Option Nat) (r : Bytes) :
    look F fuel tag (textItem b ++ r) = some (.text b, tag, r) := by
  unfold textItem
  rw [List.append_assoc, look_eq (readHead_head (by omega) h _)]
  simp

theorem look_array {n : Nat} (h : n < 18446744073709551616) (fuel : Nat) (tag : Option Nat) (r : Bytes) :
    look F fuel tag (head 4 n ++ r) = some (.array n, tag, r) := by
  rw [look_eq (readHead_head (by omega) h _)]
  simp

theorem look_map {n : Nat} (h : n < 18446744073709551616) (fuel : Nat) (tag : Option Nat) (r : Bytes) :
    look F fuel tag (head 5 n ++ r) = some (.map n, tag, r) := by
  rw [look_eq (readHead_head (by omega) h _)]
  simp

theorem look_tag {n : Nat} (h : n < 18446744073709551616) (fuel : Nat) (tag : Option Nat) (r : Bytes) :
    look F (fuel + 1) tag (head 6 n ++ r) = look F fuel (some n) r := by
  rw [look_eq (readHead_head (by omega) h _)]
  simp

theorem look_dbl (hF : FloatsOk F) (d : BitVec 64) (fuel : Nat) (tag : Option Nat) (r : Bytes) :
    look F fuel tag (dblItem F d ++ r) = some (.dbl d, tag, r) := by
  have aux : ∀ k a, (Cbor.following a = some k ∧ 0 < k ∧ (25 ≤ a ∧ a ≤ 27) ∧ a < 32) → (F.enc d).1 = a → (F.enc d).2 < 256 ^ k →
      look F fuel tag ((Cbor.byte (7 * 32 + a) :: Cbor.be k (F.enc d).2) ++ r) = some (.dbl d, tag, r) := by
    intro k a hk ha hn
    have h1 : Cbor.following a = some k := hk.1
    have hr := readHead_long (m := 7) (k := k) (a := a) (by omega) hk.2.1 h1 hk.2.2.2 (F.enc d).2 hn r
    rw [look_eq hr]
    have h2 : ((((Cbor.byte (7 * 32 + a) :: Cbor.be k (F.enc d).2) ++ r)).headD 0#8).toNat % 32 = a := by
      simp only [List.cons_append, List.headD_cons, byte_toNat]
      have := hk.2.2.2
      omega
    rw [h2]
    have h3 := hF.back d
    rw [ha] at h3
    have : 25 ≤ a ∧ a ≤ 27 := hk.2.2.1
    simp [this, h3]
  unfold dblItem
  rcases hF.width d with ⟨h, h'⟩ | ⟨h, h'⟩ | ⟨h, h'⟩
  · rw [h]; exact aux 2 25 (by decide) h h'
  · rw [h]; exact aux 4 26 (by decide) h h'
  · rw [h]; exact aux 8 27 (by decide) h h'

theorem skip_zero (b : Bytes) : skip F 0 b = some b := by
  unfold skip skipItems
  rfl

/-! ## Maps -/

/-- An entry as it was written: label, value, its bytes, and those of them behind the head of an array. -/
structure Piece where
  label : Elem
  value : Elem
  enc : Bytes
  body : Bytes

/-- The decoder sees that label and value, and steps over the rest. -/
def Piece.Ok (F : Floats) (p : Piece) : Prop :=
  ∀ rest, ∃ r r', (∃ t, look F 4 none (p.enc ++ rest) = some (p.label, t, r)) ∧ (∃ t, look F 4 none r = some (p.value, t, r')) ∧
    r' = p.body ++ rest ∧ skip F (inside p.value) r' = some rest

/-- What the decoder makes of the written entries. -/
def seen : List Piece → Bytes → List Entry
  | [], _ => []
  | p :: ps, rest => (p.label, p.value, p.body ++ ((ps.map (·.enc)).flatten ++ rest)) :: seen ps rest

theorem entries_seen (ps : List Piece) (h : ∀ p ∈ ps, p.Ok F) (rest : Bytes) :
    entries F ps.length ((ps.map (·.enc)).flatten ++ rest) = some (seen ps rest, rest) := by
  induction ps with
  | nil => simp [entries, seen]
  | cons p ps ih =>
    obtain ⟨r, r', ⟨t, h1⟩, ⟨t', h2⟩, h3, h4⟩ := h p (by simp) ((ps.map (·.enc)).flatten ++ rest)
    simp only [List.map_cons, List.flatten_cons, List.append_assoc, List.length_cons, entries, h1, h2, h4]
    rw [ih (fun q hq => h q (by simp [hq]))]
    simp [seen, h3]

theorem under_seen (ps : List Piece) (rest : Bytes) (l : Elem) :
    under (seen ps rest) l = (ps.filter fun p => p.label = l).map (·.value) := by
  induction ps with
  | nil => rfl
  | cons p ps ih =>
    unfold under at ih ⊢
    by_cases h : p.label = l
    · simp [seen, List.filter_cons, h] at ih ⊢
      exact ih
    · simp [seen, List.filter_cons, h] at ih ⊢
      exact ih

/-- Entries with an integer label. -/
def pieceN (l : Int) (v : Elem) (e : Bytes) : Piece := { label := .int l, value := v, enc := entryN l e, body := [] }
def pieceS (l : String) (v : Elem) (e : Bytes) : Piece := { label := .text (textBytes l), value := v, enc := entryS l e, body := [] }

/-- The decoder sees the value and nothing belongs to it behind its head. -/
def Atom (F : Floats) (v : Elem) (e : Bytes) : Prop := inside v = 0 ∧ ∀ rest, look F 4 none (e ++ rest) = some (v, none, rest)

theorem pieceN_ok {l : Int} {v : Elem} {e : Bytes} (h1 : -9223372036854775808 ≤ l) (h2 : l < 9223372036854775808) (h : Atom F v e) :
    (pieceN l v e).Ok F := by
  intro rest
  refine ⟨e ++ rest, rest, ⟨none, ?_⟩, ⟨none, h.2 rest⟩, rfl, ?_⟩
  · show look F 4 none ((intItem l ++ e) ++ rest) = _
    rw [List.append_assoc, look_int h1 h2]
    rfl
  · show skip F (inside v) rest = _
    rw [h.1, skip_zero]

theorem pieceS_ok {l : String} {v : Elem} {e : Bytes} (h1 : (textBytes l).length < 18446744073709551616) (h : Atom F v e) :
    (pieceS l v e).Ok F := by
  intro rest
  refine ⟨e ++ rest, rest, ⟨none, ?_⟩, ⟨none, h.2 rest⟩, rfl, ?_⟩
  · show look F 4 none ((textItem (textBytes l) ++ e) ++ rest) = _
    rw [List.append_assoc, look_text h1]
    rfl
  · show skip F (inside v) rest = _
    rw [h.1, skip_zero]

theorem atom_bytes {b : Bytes} (h : b.length < 18446744073709551616) : Atom F (.bytes b) (bytesItem b) := ⟨rfl, fun r => look_bytes h 4 none r⟩
theorem atom_text {b : Bytes} (h : b.length < 18446744073709551616) : Atom F (.text b) (textItem b) := ⟨rfl, fun r => look_text h 4 none r⟩
theorem atom_int {v : Int} (h1 : -9223372036854775808 ≤ v) (h2 : v < 9223372036854775808) : Atom F (.int v) (intItem v) :=
  ⟨rfl, fun r => look_int h1 h2 4 none r⟩
theorem atom_dbl (hF : FloatsOk F) (d : BitVec 64) : Atom F (.dbl d) (dblItem F d) := ⟨rfl, fun r => look_dbl hF d 4 none r⟩

/-- An optional entry. -/
def optPiece (id : Bytes) (p : Piece) : List Piece := if id = Token.zeroId then [] else [p]

theorem optPiece_enc (id : Bytes) (p : Piece) : (optPiece id p).map (·.enc) = idEntry id p.enc := by
  unfold optPiece idEntry
  split <;> rfl

theorem mapItem_pieces {ps : List Piece} {l : List Bytes} (h : ps.map (·.enc) = l) : mapItem l = head 5 ps.length ++ (ps.map (·.enc)).flatten := by
  rw [← h]
  simp [mapItem]

/-! ## Tokens -/

/-- The entries of a token. -/
def tokenPieces (F : Floats) (E : Token.Env) (t : UserTok) : List Piece :=
  optPiece t.issuer (pieceN 1 (.bytes t.issuer) (bytesItem t.issuer)) ++ [pieceN 2 (.text (t.subject.take 255)) (textItem (t.subject.take 255))] ++
  optPiece t.audience (pieceN 3 (.bytes t.audience) (bytesItem t.audience)) ++
  [pieceN 6 (.dbl t.expiresAt) (dblItem F t.expiresAt), pieceN 5 (.dbl t.notBefore) (dblItem F t.notBefore),
   pieceN 4 (.dbl t.issuedAt) (dblItem F t.issuedAt), pieceN 7 (.bytes (t.uuid.take 16)) (bytesItem (t.uuid.take 16))] ++
  optPiece t.realm (pieceS "np:realm" (.bytes t.realm) (bytesItem t.realm)) ++
  [pieceS "np:attr" (.bytes (t.attributes.take ((E.attrSize t.attributes).getD 0))) (bytesItem (t.attributes.take ((E.attrSize t.attributes).getD 0))),
   pieceS "np:pk" (.bytes (t.publicKey.take 32)) (bytesItem (t.publicKey.take 32))]

def signaturePieces (t : UserTok) : List Piece :=
  [pieceN 1 (.bytes (t.signature.take 64)) (bytesItem (t.signature.take 64)), pieceN 2 (.bytes (t.attrSignature.take 64)) (bytesItem (t.attrSignature.take 64))]

theorem tokenPieces_enc (E : Token.Env) (t : UserTok) : (tokenPieces F E t).map (·.enc) = tokenEntries F E t := by
  simp only [tokenPieces, List.map_append, optPiece_enc, tokenEntries]
  rfl

theorem mem_opt {id : Bytes} {p q : Piece} (h : q ∈ optPiece id p) : q = p := by
  unfold optPiece at h
  split at h <;> simp_all

theorem tokenPieces_ok (hF : FloatsOk F) {E : Token.Env} {t : UserTok} (h : Spec.Sized E t) : ∀ p ∈ tokenPieces F E t, p.Ok F := by
  have ls := h.subject
  have la := h.attributes
  intro p hp
  simp only [tokenPieces, List.mem_append, List.mem_cons, List.mem_nil_iff, or_false] at hp
  rcases hp with (((((hp | hp) | hp) | hp) | hp) | hp)
  · rw [mem_opt hp]; exact pieceN_ok (by omega) (by omega) (atom_bytes (by rw [h.issuer]; omega))
  · subst hp; exact pieceN_ok (by omega) (by omega) (atom_text (by rw [List.length_take]; omega))
  · rw [mem_opt hp]; exact pieceN_ok (by omega) (by omega) (atom_bytes (by rw [h.audience]; omega))
  · rcases hp with hp | hp | hp | hp <;> subst hp
    · exact pieceN_ok (by omega) (by omega) (atom_dbl hF _)
    · exact pieceN_ok (by omega) (by omega) (atom_dbl hF _)
    · exact pieceN_ok (by omega) (by omega) (atom_dbl hF _)
    · exact pieceN_ok (by omega) (by omega) (atom_bytes (by rw [List.length_take]; omega))
  · rw [mem_opt hp]; exact pieceS_ok (by decide) (atom_bytes (by rw [h.realm]; omega))
  · rcases hp with hp | hp <;> subst hp
    · exact pieceS_ok (by decide) (atom_bytes (by rw [List.length_take]; omega))
    · exact pieceS_ok (by decide) (atom_bytes (by rw [List.length_take]; omega))

theorem signaturePieces_ok (t : UserTok) : ∀ p ∈ signaturePieces t, p.Ok F := by
  intro p hp
  simp only [signaturePieces, List.mem_cons, List.mem_nil_iff, or_false] at hp
  rcases hp with hp | hp <;> subst hp
  · exact pieceN_ok (by omega) (by omega) (atom_bytes (by rw [List.length_take]; omega))
  · exact pieceN_ok (by omega) (by omega) (atom_bytes (by rw [List.length_take]; omega))

theorem readSignatures_written {t u : UserTok} (h1 : t.signature.length = 64) (h2 : t.attrSignature.length = 64) (rest : Bytes) :
    readSignatures F (mapItem (signatureEntries t) ++ rest) u = ({ u with signature := t.signature, attrSignature := t.attrSignature }, true) := by
  have e : mapItem (signatureEntries t) = head 5 (signaturePieces t).length ++ ((signaturePieces t).map (·.enc)).flatten := mapItem_pieces rfl
  unfold readSignatures
  rw [e, List.append_assoc, look_map (by show 2 < _; omega)]
  simp only []
  rw [entries_seen _ (signaturePieces_ok t)]
  simp only [findBytes, under_seen]
  have a1 : t.signature.take 64 = t.signature := List.take_of_length_le (by omega)
  have a2 : t.attrSignature.take 64 = t.attrSignature := List.take_of_length_le (by omega)
  simp [signaturePieces, pieceN, a1, a2, h1, h2]

end Np.Ident
