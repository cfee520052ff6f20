import Verif.Ident.Lemmas
/-! # Lemmas: round trips of tokens, keys and encrypted content -/
set_option linter.unusedSimpArgs false
set_option linter.unusedVariables false
namespace Np.Ident
open Np.Cbor (head intItem readHead readHead_head readHead_long head_length be_length byte_toNat)
open Np.Token (UserTok)
open _root_.Np.Ident.Spec

variable {F : Floats}

/-- An id that is missing in the file stays what it was. -/
def keepId (old new : Bytes) : Bytes := if new = Token.zeroId then old else new

theorem tb_ne1 : textBytes "np:realm" ≠ textBytes "np:attr" := by decide
theorem tb_ne2 : textBytes "np:realm" ≠ textBytes "np:pk" := by decide
theorem tb_ne3 : textBytes "np:attr" ≠ textBytes "np:pk" := by decide

theorem filter_opt (id : Bytes) (p : Piece) (l : Elem) :
    (optPiece id p).filter (fun q => q.label = l) = if p.label = l then optPiece id p else [] := by
  unfold optPiece
  by_cases h : id = Token.zeroId <;> by_cases h' : p.label = l <;> simp [h, h']

theorem opt_values (id : Bytes) (p : Piece) : (optPiece id p).map (·.value) = if id = Token.zeroId then [] else [p.value] := by
  unfold optPiece
  split <;> rfl

theorem readId_opt {old id : Bytes} (h : id.length = 32) (p : Piece) (hp : p.value = .bytes id) :
    readId old (match (if id = Token.zeroId then ([] : List Elem) else [p.value]) with
      | [] => .missing
      | [.bytes b] => .ok b
      | _ => .bad) = .ok (keepId old id) := by
  unfold keepId
  by_cases hz : id = Token.zeroId
  · simp [hz, readId]
  · simp [hz, hp, readId, h]
    exact List.take_of_length_le (by omega)

theorem readId_opt' {old id : Bytes} (h : id.length = 32) {f : Found Bytes}
    (hf : f = if id = Token.zeroId then .missing else .ok id) : readId old f = .ok (keepId old id) := by
  subst hf
  unfold keepId
  by_cases hz : id = Token.zeroId
  · simp [hz, readId]
  · simp [hz, readId, h]
    exact List.take_of_length_le (by omega)

theorem readToken_written (hF : FloatsOk F) {E : Token.Env} {t u : UserTok} (h : Spec.Sized E t) (rest : Bytes) :
    readToken F ((head 6 98 ++ mapItem (tokenEntries F E t)) ++ (mapItem (signatureEntries t) ++ rest)) u =
      .ok ({ uuid := t.uuid, subject := Token.overwrite u.subject t.subject, issuer := keepId u.issuer t.issuer,
             realm := keepId u.realm t.realm, audience := keepId u.audience t.audience, issuedAt := t.issuedAt,
             notBefore := t.notBefore, expiresAt := t.expiresAt, publicKey := t.publicKey, secretKey := u.secretKey,
             signature := t.signature,
             attributes := Token.overwrite u.attributes (t.attributes.take ((E.attrSize t.attributes).getD 0)),
             attrSignature := t.attrSignature }, true) := by
  have e : mapItem (tokenEntries F E t) = head 5 (tokenPieces F E t).length ++ ((tokenPieces F E t).map (·.enc)).flatten :=
    mapItem_pieces (tokenPieces_enc E t)
  have hl : (tokenPieces F E t).length < 18446744073709551616 := by
    simp only [tokenPieces, optPiece, List.length_append]
    split <;> split <;> split <;> simp
  have s1 : (t.subject.take 255).take 255 = t.subject := by rw [List.take_take, List.take_of_length_le (by have := h.subject; omega)]
  have s2 : t.uuid.take 16 = t.uuid := List.take_of_length_le (by have := h.uuid; omega)
  have s3 : t.publicKey.take 32 = t.publicKey := List.take_of_length_le (by have := h.publicKey; omega)
  have key : ∀ l, under (seen (tokenPieces F E t) (mapItem (signatureEntries t) ++ rest)) l = ((tokenPieces F E t).filter fun p => p.label = l).map (·.value) :=
    under_seen _ _
  have b1 : findBytes (seen (tokenPieces F E t) (mapItem (signatureEntries t) ++ rest)) (.int 1) = if t.issuer = Token.zeroId then .missing else .ok t.issuer := by
    simp only [findBytes, key]
    simp only [tokenPieces, List.filter_append, filter_opt, List.map_append, pieceN, pieceS]
    by_cases hz : t.issuer = Token.zeroId <;> simp [hz, opt_values, optPiece]
  have b2 : findText (seen (tokenPieces F E t) (mapItem (signatureEntries t) ++ rest)) (.int 2) = .ok (t.subject.take 255) := by
    simp only [findText, key]
    simp [tokenPieces, List.filter_append, filter_opt, pieceN, pieceS]
  have b3 : findBytes (seen (tokenPieces F E t) (mapItem (signatureEntries t) ++ rest)) (.int 3) = if t.audience = Token.zeroId then .missing else .ok t.audience := by
    simp only [findBytes, key]
    simp only [tokenPieces, List.filter_append, filter_opt, List.map_append, pieceN, pieceS]
    by_cases hz : t.audience = Token.zeroId <;> simp [hz, opt_values, optPiece]
  have b4 : findDbl (seen (tokenPieces F E t) (mapItem (signatureEntries t) ++ rest)) (.int 4) = .ok t.issuedAt := by
    simp only [findDbl, key]
    simp [tokenPieces, List.filter_append, filter_opt, pieceN, pieceS]
  have b5 : findDbl (seen (tokenPieces F E t) (mapItem (signatureEntries t) ++ rest)) (.int 5) = .ok t.notBefore := by
    simp only [findDbl, key]
    simp [tokenPieces, List.filter_append, filter_opt, pieceN, pieceS]
  have b6 : findDbl (seen (tokenPieces F E t) (mapItem (signatureEntries t) ++ rest)) (.int 6) = .ok t.expiresAt := by
    simp only [findDbl, key]
    simp [tokenPieces, List.filter_append, filter_opt, pieceN, pieceS]
  have b7 : findBytes (seen (tokenPieces F E t) (mapItem (signatureEntries t) ++ rest)) (.int 7) = .ok t.uuid := by
    simp only [findBytes, key]
    simp [tokenPieces, List.filter_append, filter_opt, pieceN, pieceS, s2]
  have b8 : findBytes (seen (tokenPieces F E t) (mapItem (signatureEntries t) ++ rest)) (.text (textBytes "np:realm")) =
      if t.realm = Token.zeroId then .missing else .ok t.realm := by
    simp only [findBytes, key]
    simp only [tokenPieces, List.filter_append, filter_opt, List.map_append, pieceN, pieceS]
    by_cases hz : t.realm = Token.zeroId <;> simp [hz, opt_values, optPiece, Ne.symm tb_ne1, Ne.symm tb_ne2]
  have b9 : findBytes (seen (tokenPieces F E t) (mapItem (signatureEntries t) ++ rest)) (.text (textBytes "np:attr")) =
      .ok (t.attributes.take ((E.attrSize t.attributes).getD 0)) := by
    simp only [findBytes, key]
    simp [tokenPieces, List.filter_append, filter_opt, pieceN, pieceS, tb_ne1, Ne.symm tb_ne3]
  have b10 : findBytes (seen (tokenPieces F E t) (mapItem (signatureEntries t) ++ rest)) (.text (textBytes "np:pk")) = .ok t.publicKey := by
    simp only [findBytes, key]
    simp [tokenPieces, List.filter_append, filter_opt, pieceN, pieceS, tb_ne2, tb_ne3, s3]
  unfold readToken
  rw [List.append_assoc, look_tag (by omega), e, List.append_assoc, look_map hl]
  simp only []
  rw [entries_seen _ (tokenPieces_ok hF h)]
  simp only []
  rw [readId_opt' h.issuer b1]
  simp only [b2, s1]
  rw [readId_opt' h.audience b3]
  simp only [readTimes, b4, b5, b6, b7]
  rw [if_neg (by have := h.uuid; omega), readId_opt' h.realm b8]
  simp only [readBody, b9, b10]
  rw [if_neg (by have := h.attributes; rw [List.length_take]; omega), if_neg (by have := h.publicKey; omega),
    readSignatures_written h.signature h.attrSignature, s2]

/-- What was written fits, the more so with 16 bytes more. -/
theorem token_length (hF : FloatsOk F) {E : Token.Env} {t : UserTok} (h : Spec.Sized E t) :
    ((head 6 98 ++ mapItem (tokenEntries F E t)) ++ mapItem (signatureEntries t)).length + 16 ≤ tokenCap := by
  have hd : ∀ d, (dblItem F d).length ≤ 9 := by
    intro d
    simp only [dblItem, List.length_cons, be_length]
    repeat' split
    all_goals omega
  have d1 := hd t.expiresAt
  have d2 := hd t.notBefore
  have d3 := hd t.issuedAt
  have o : ∀ id e, (idEntry id e).flatten.length ≤ e.length ∧ (idEntry id e).length ≤ 1 := by
    intro id e
    unfold idEntry
    split <;> simp
  have i1 : ∀ b : Bytes, (bytesItem b).length ≤ b.length + (if b.length < 24 then 1 else if b.length < 256 then 2 else if b.length < 65536 then 3 else 9) := by
    intro b
    simp only [bytesItem, List.length_append, head_length]
    repeat' split
    all_goals omega
  have i2 : ∀ b : Bytes, b.length ≤ 255 → (textItem b).length ≤ b.length + 2 := by
    intro b hb
    simp only [textItem, List.length_append, head_length]
    repeat' split
    all_goals omega
  have n1 : ∀ l : Int, 0 ≤ l → l < 24 → ∀ v, (entryN l v).length = v.length + 1 := by
    intro l h0 h1 v
    simp only [entryN, intItem, h0, if_true, List.length_append, head_length]
    rw [if_pos (by omega)]
    omega
  have t1 : ∀ v, (entryS "np:realm" v).length = v.length + 9 := by
    intro v; simp only [entryS, List.length_append]; rw [show (textItem (textBytes "np:realm")).length = 9 from by decide]; omega
  have t2 : ∀ v, (entryS "np:attr" v).length = v.length + 8 := by
    intro v; simp only [entryS, List.length_append]; rw [show (textItem (textBytes "np:attr")).length = 8 from by decide]; omega
  have t3 : ∀ v, (entryS "np:pk" v).length = v.length + 6 := by
    intro v; simp only [entryS, List.length_append]; rw [show (textItem (textBytes "np:pk")).length = 6 from by decide]; omega
  have o1 := o t.issuer (entryN 1 (bytesItem t.issuer))
  have o2 := o t.audience (entryN 3 (bytesItem t.audience))
  have o3 := o t.realm (entryS "np:realm" (bytesItem t.realm))
  rw [n1 1 (by omega) (by omega)] at o1
  rw [n1 3 (by omega) (by omega)] at o2
  rw [t1] at o3
  have l1 := i1 t.issuer
  have l2 := i1 t.audience
  have l3 := i1 t.realm
  rw [h.issuer] at l1
  rw [h.audience] at l2
  rw [h.realm] at l3
  simp at l1 l2 l3
  have l4 := i1 (t.uuid.take 16)
  have l5 := i1 (t.publicKey.take 32)
  have l6 := i1 (t.signature.take 64)
  have l7 := i1 (t.attrSignature.take 64)
  rw [List.length_take, h.uuid] at l4
  rw [List.length_take, h.publicKey] at l5
  rw [List.length_take, h.signature] at l6
  rw [List.length_take, h.attrSignature] at l7
  simp at l4 l5 l6 l7
  have l8 := i1 (t.attributes.take ((E.attrSize t.attributes).getD 0))
  have hal : (t.attributes.take ((E.attrSize t.attributes).getD 0)).length ≤ 10240 := by
    have := h.attributes
    rw [List.length_take]; omega
  have l9 := i2 (t.subject.take 255) (by rw [List.length_take]; omega)
  have hsl : (t.subject.take 255).length ≤ 255 := by rw [List.length_take]; omega
  have q1 : (head 6 98).length = 2 := by decide
  have q2 : (head 5 (tokenEntries F E t).length).length = 1 := by
    rw [head_length, if_pos]
    simp only [tokenEntries, List.length_append, List.length_cons, List.length_nil]
    omega
  have q3 : (mapItem (signatureEntries t)).length ≤ 1 + 2 * 67 := by
    simp only [mapItem, signatureEntries, List.length_append, List.flatten_cons, List.flatten_nil, List.length_cons, List.length_nil, List.append_nil,
      n1 1 (by omega) (by omega), n1 2 (by omega) (by omega)]
    rw [show (head 5 (0 + 1 + 1)).length = 1 from by decide]
    omega
  have q4 : (tokenEntries F E t).flatten.length ≤ 35 + 258 + 35 + 30 + 18 + 43 + (11 + 10240) + 40 := by
    simp only [tokenEntries, List.flatten_append, List.length_append, List.flatten_cons, List.flatten_nil, List.length_nil, List.append_nil,
      n1 2 (by omega) (by omega), n1 4 (by omega) (by omega), n1 5 (by omega) (by omega), n1 6 (by omega) (by omega), n1 7 (by omega) (by omega), t2, t3]
    have hx : (if (t.attributes.take ((E.attrSize t.attributes).getD 0)).length < 24 then 1
        else if (t.attributes.take ((E.attrSize t.attributes).getD 0)).length < 256 then 2
        else if (t.attributes.take ((E.attrSize t.attributes).getD 0)).length < 65536 then 3 else 9) ≤ 3 := by
      repeat' split
      all_goals omega
    omega
  simp only [List.length_append, mapItem, tokenCap]
  simp only [mapItem, List.length_append] at q3
  omega

theorem writeToken_eq (hF : FloatsOk F) {E : Token.Env} {t : UserTok} (h : Spec.Sized E t) :
    writeToken F E tokenCap t = some ((head 6 98 ++ mapItem (tokenEntries F E t)) ++ mapItem (signatureEntries t)) := by
  have := token_length hF h
  rw [List.length_append] at this
  unfold writeToken
  simp only []
  rw [if_neg (by omega), if_neg (by omega)]

end Np.Ident
