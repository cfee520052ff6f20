import Verif.Ident.Lemmas2
/-! # Lemmas: round trips of keys and encrypted content -/
set_option linter.unusedSimpArgs false
set_option linter.unusedVariables false
namespace Np.Ident
open Np.Cbor (head intItem readHead readHead_head readHead_long head_length be_length byte_toNat)
open Np.Token (UserTok)
open _root_.Np.Ident.Spec

variable {F : Floats}

def usagePiece : Piece :=
  { label := .int 4, value := .array 2, enc := entryN 4 (head 4 2 ++ (head 0 1 ++ head 0 2)), body := head 0 1 ++ head 0 2 }

theorem usage_looks (rest : Bytes) :
    look F 4 none (head 0 1 ++ head 0 2 ++ rest) = some (.int 1, none, head 0 2 ++ rest) ∧ look F 4 none (head 0 2 ++ rest) = some (.int 2, none, rest) := by
  rw [show head 0 1 = intItem 1 from rfl, show head 0 2 = intItem 2 from rfl, List.append_assoc]
  exact ⟨look_int (by omega) (by omega) 4 none _, look_int (by omega) (by omega) 4 none _⟩

theorem usage_ok : usagePiece.Ok F := by
  intro rest
  obtain ⟨h1, h2⟩ := usage_looks (F := F) rest
  refine ⟨head 4 2 ++ (head 0 1 ++ head 0 2 ++ rest), head 0 1 ++ head 0 2 ++ rest, ⟨none, ?_⟩, ⟨none, look_array (by omega) 4 none _⟩, rfl, ?_⟩
  · show look F 4 none ((intItem 4 ++ (head 4 2 ++ (head 0 1 ++ head 0 2))) ++ rest) = _
    rw [List.append_assoc, look_int (by omega) (by omega)]
    simp [usagePiece]
  · show skip F 2 _ = _
    unfold skip
    rw [show (head 0 1 ++ head 0 2 ++ rest).length + 1 = (rest.length + 1) + 1 + 1 by
      simp only [List.length_append, show (head 0 1).length = 1 from rfl, show (head 0 2).length = 1 from rfl]; omega]
    rw [skipItems, h1]
    simp only [inside, Nat.add_zero]
    rw [skipItems, h2]
    simp only [inside, Nat.add_zero]
    rw [skipItems]

def keyPieces (sk pk identifier : Bytes) : List Piece :=
  [pieceN 1 (.int 1) (intItem 1)] ++ optPiece identifier (pieceN 2 (.bytes identifier) (bytesItem identifier)) ++
  [usagePiece, pieceN (-1) (.int 6) (intItem 6)] ++ optPiece (pk.take 32) (pieceN (-2) (.bytes (pk.take 32)) (bytesItem (pk.take 32))) ++
  optPiece (sk.take 32) (pieceN (-4) (.bytes (sk.take 32)) (bytesItem (sk.take 32)))

/-- What `writeKey` writes. -/
def keyBytes (sk pk identifier : Bytes) : Bytes :=
  mapItem ([entryN 1 (intItem 1)] ++ idEntry identifier (entryN 2 (bytesItem identifier)) ++
    [entryN 4 (head 4 2 ++ (head 0 1 ++ head 0 2)), entryN (-1) (intItem 6)] ++ idEntry (pk.take 32) (entryN (-2) (bytesItem (pk.take 32))) ++
    idEntry (sk.take 32) (entryN (-4) (bytesItem (sk.take 32))))

theorem keyPieces_enc (sk pk identifier : Bytes) : mapItem ((keyPieces sk pk identifier).map (·.enc)) = keyBytes sk pk identifier := by
  unfold keyBytes
  simp only [keyPieces, List.map_append, optPiece_enc]
  rfl

theorem keyPieces_ok {sk pk identifier : Bytes} (h : identifier.length = 32) : ∀ p ∈ keyPieces sk pk identifier, p.Ok F := by
  intro p hp
  simp only [keyPieces, List.mem_append, List.mem_cons, List.mem_nil_iff, or_false] at hp
  rcases hp with ((((hp | hp) | hp) | hp) | hp)
  · subst hp; exact pieceN_ok (by omega) (by omega) (atom_int (by omega) (by omega))
  · rw [mem_opt hp]; exact pieceN_ok (by omega) (by omega) (atom_bytes (by rw [h]; omega))
  · rcases hp with hp | hp <;> subst hp
    · exact usage_ok
    · exact pieceN_ok (by omega) (by omega) (atom_int (by omega) (by omega))
  · rw [mem_opt hp]; exact pieceN_ok (by omega) (by omega) (atom_bytes (by rw [List.length_take]; omega))
  · rw [mem_opt hp]; exact pieceN_ok (by omega) (by omega) (atom_bytes (by rw [List.length_take]; omega))

theorem keyPieces_length (sk pk identifier : Bytes) : (keyPieces sk pk identifier).length ≤ 6 := by
  simp only [keyPieces, optPiece, List.length_append]
  split <;> split <;> split <;> simp

theorem keyBytes_length {sk pk identifier : Bytes} (h : identifier.length = 32) : (keyBytes sk pk identifier).length ≤ 200 := by
  have o : ∀ id e, (idEntry id e).flatten.length ≤ e.length ∧ (idEntry id e).length ≤ 1 := by
    intro id e
    unfold idEntry
    split <;> simp
  have i1 : ∀ b : Bytes, b.length ≤ 32 → (bytesItem b).length ≤ 41 := by
    intro b hb
    simp only [bytesItem, List.length_append, head_length]
    repeat' split
    all_goals omega
  have n1 : ∀ (l : Int) v, (entryN l v).length = (intItem l).length + v.length := by
    intro l v; simp [entryN]
  have o1 := o identifier (entryN 2 (bytesItem identifier))
  have o2 := o (pk.take 32) (entryN (-2) (bytesItem (pk.take 32)))
  have o3 := o (sk.take 32) (entryN (-4) (bytesItem (sk.take 32)))
  have l1 := i1 identifier (by omega)
  have l2 := i1 (pk.take 32) (by rw [List.length_take]; omega)
  have l3 := i1 (sk.take 32) (by rw [List.length_take]; omega)
  rw [n1, show (intItem 2).length = 1 from by decide] at o1
  rw [n1, show (intItem (-2)).length = 1 from by decide] at o2
  rw [n1, show (intItem (-4)).length = 1 from by decide] at o3
  have e1 : (entryN 1 (intItem 1)).length = 2 := by decide
  have e2 : (entryN 4 (head 4 2 ++ (head 0 1 ++ head 0 2))).length = 4 := by decide
  have e3 : (entryN (-1) (intItem 6)).length = 2 := by decide
  simp only [keyBytes, mapItem, List.length_append, List.flatten_append, List.flatten_cons, List.flatten_nil, List.append_nil, List.length_cons, List.length_nil,
    head_length, e1, e2, e3]
  repeat' split
  all_goals omega

theorem writeKey_eq {sk pk identifier : Bytes} (h : identifier.length = 32) : writeKey 512 sk pk true identifier = some (keyBytes sk pk identifier) := by
  have := keyBytes_length (sk := sk) (pk := pk) h
  unfold writeKey
  simp only [if_true]
  unfold keyBytes at this ⊢
  rw [if_neg (by omega)]

theorem readKey_written {sk pk identifier : Bytes} (hi : identifier.length = 32) (hp : pk.length = 32) (hs : 32 ≤ sk.length)
    (hp0 : pk ≠ Token.zeroId) (hs0 : sk.take 32 ≠ Token.zeroId) (k : KeyOut) (hk : k.sk.length = 64) (rest : Bytes) :
    readKey F (keyBytes sk pk identifier ++ rest) k =
      .ok ({ identifier := keepId k.identifier identifier, sk := sk.take 32 ++ pk, pk := pk }, true) := by
  have p1 : pk.take 32 = pk := List.take_of_length_le (by omega)
  have e : keyBytes sk pk identifier = head 5 (keyPieces sk pk identifier).length ++ ((keyPieces sk pk identifier).map (·.enc)).flatten := by
    rw [← keyPieces_enc]; exact mapItem_pieces rfl
  have hl := keyPieces_length sk pk identifier
  have key : ∀ l, under (seen (keyPieces sk pk identifier) rest) l = ((keyPieces sk pk identifier).filter fun p => p.label = l).map (·.value) :=
    under_seen _ _
  have b1 : findInt (seen (keyPieces sk pk identifier) rest) (.int 1) = .ok 1 := by
    simp only [findInt, key]
    simp [keyPieces, List.filter_append, filter_opt, pieceN, usagePiece]
  have b2 : findBytes (seen (keyPieces sk pk identifier) rest) (.int 2) = if identifier = Token.zeroId then .missing else .ok identifier := by
    simp only [findBytes, key]
    simp only [keyPieces, List.filter_append, filter_opt, List.map_append, pieceN, usagePiece]
    by_cases hz : identifier = Token.zeroId <;> simp [hz, optPiece]
  have b3 : findBytes (seen (keyPieces sk pk identifier) rest) (.int (-2)) = .ok pk := by
    simp only [findBytes, key]
    simp only [keyPieces, List.filter_append, filter_opt, List.map_append, pieceN, usagePiece, p1]
    simp [hp0, optPiece]
  have b4 : findBytes (seen (keyPieces sk pk identifier) rest) (.int (-4)) = .ok (sk.take 32) := by
    simp only [findBytes, key]
    simp only [keyPieces, List.filter_append, filter_opt, List.map_append, pieceN, usagePiece, p1]
    simp [hs0, optPiece]
  have b5 : under (seen (keyPieces sk pk identifier) rest) (.int 4) = [.array 2] := by
    simp only [key]
    simp only [keyPieces, List.filter_append, filter_opt, List.map_append, pieceN, usagePiece, p1]
    simp [optPiece]
  have b6 : ∃ r1 r2 tl, (seen (keyPieces sk pk identifier) rest).dropWhile (fun e => e.1 ≠ .int 4) =
      (.int 4, .array 2, head 0 1 ++ head 0 2 ++ r1) :: (.int (-1), .int 6, r2) :: tl := by
    let T := optPiece (pk.take 32) (pieceN (-2) (.bytes (pk.take 32)) (bytesItem (pk.take 32))) ++
      optPiece (sk.take 32) (pieceN (-4) (.bytes (sk.take 32)) (bytesItem (sk.take 32)))
    have ek : keyPieces sk pk identifier = pieceN 1 (.int 1) (intItem 1) :: (optPiece identifier (pieceN 2 (.bytes identifier) (bytesItem identifier)) ++
        usagePiece :: pieceN (-1) (.int 6) (intItem 6) :: T) := by
      simp [keyPieces, T]
    refine ⟨((pieceN (-1) (.int 6) (intItem 6) :: T).map (·.enc)).flatten ++ rest, [] ++ ((T.map (·.enc)).flatten ++ rest), seen T rest, ?_⟩
    rw [ek]
    by_cases hz : identifier = Token.zeroId
    · simp only [optPiece, hz, if_true, List.nil_append, seen]
      simp [List.dropWhile, pieceN, usagePiece]
    · simp only [optPiece, hz, if_false, List.singleton_append, seen]
      simp [List.dropWhile, pieceN, usagePiece]
  have b7 : curveOk F (seen (keyPieces sk pk identifier) rest) = true := by
    obtain ⟨r1, r2, tl, hd⟩ := b6
    unfold curveOk
    rw [b5, hd]
    simp only [(usage_looks (F := F) r1).1, (usage_looks (F := F) r1).2]
    rfl
  unfold readKey
  rw [e, List.append_assoc, look_map (by omega)]
  simp only []
  rw [entries_seen _ (keyPieces_ok hi)]
  simp only [b1]
  rw [if_neg (by omega), readId_opt' hi b2]
  simp only [b7, if_true, b3, b4, readPk, readSk]
  rw [if_neg (by omega)]
  simp only []
  rw [if_neg (by rw [List.length_take]; omega)]
  simp only [Bool.or_self, p1, List.take_take, Nat.min_self]
  congr 3
  rw [List.drop_append_of_le_length (by rw [List.length_take]; omega), List.drop_eq_nil_of_le (by rw [List.length_take]; omega), List.nil_append]

/-! ## Encrypted content -/

/-- What `writeEncrypted` writes. -/
def sealed (nonce m : Bytes) : Bytes := head 6 16 ++ (head 4 3 ++ (bytesItem [] ++ (mapItem [entryN 6 (bytesItem nonce)] ++ bytesItem m)))

theorem sealed_length {nonce m : Bytes} (h : nonce.length = 24) : (sealed nonce m).length ≤ m.length + 40 := by
  simp only [sealed, mapItem, entryN, bytesItem, List.length_append, List.flatten_cons, List.flatten_nil, List.append_nil, List.length_cons, List.length_nil, h,
    show (head 6 16).length = 1 from by decide, show (head 4 3).length = 1 from by decide, show (head 2 0).length = 1 from by decide,
    show (head 5 (0 + 1)).length = 1 from by decide, show (intItem 6).length = 1 from by decide, show (head 2 24).length = 2 from by decide]
  rw [head_length]
  repeat' split
  all_goals omega

theorem writeEncrypted_eq {nonce m : Bytes} (h : nonce.length = 24) : writeEncrypted (m.length + 48) nonce m = some (sealed nonce m) := by
  have := sealed_length (m := m) h
  unfold writeEncrypted
  unfold sealed at this ⊢
  simp only []
  rw [if_neg (by omega)]

theorem readEncrypted_sealed {nonce m : Bytes} (h : nonce.length = 24) (hm : m.length < 18446744073709551616) {cap : Nat} (hc : m.length ≤ cap) (rest : Bytes) :
    readEncrypted F (sealed nonce m ++ rest) cap = some (nonce, m) := by
  have e : mapItem [entryN 6 (bytesItem nonce)] = head 5 1 ++ ([pieceN 6 (.bytes nonce) (bytesItem nonce)].map (·.enc)).flatten :=
    mapItem_pieces (ps := [pieceN 6 (.bytes nonce) (bytesItem nonce)]) rfl
  have ok : ∀ p ∈ [pieceN 6 (.bytes nonce) (bytesItem nonce)], p.Ok F := by
    intro p hp
    rw [List.mem_singleton.mp hp]
    exact pieceN_ok (by omega) (by omega) (atom_bytes (by rw [h]; omega))
  unfold readEncrypted sealed
  rw [e]
  simp only [List.append_assoc]
  rw [look_tag (by omega), look_array (by omega)]
  simp only []
  rw [look_bytes (by decide)]
  simp only [inside, ne_eq, not_true_eq_false, if_false]
  rw [look_map (by omega)]
  simp only []
  have es := entries_seen (F := F) [pieceN 6 (.bytes nonce) (bytesItem nonce)] ok (bytesItem m ++ rest)
  rw [show [pieceN 6 (.bytes nonce) (bytesItem nonce)].length = 1 from rfl] at es
  rw [es]
  simp only [findBytes, under_seen]
  simp only [pieceN, List.filter_cons, decide_true, if_true, List.filter_nil, List.map_cons, List.map_nil, h]
  rw [look_bytes hm]
  simp only [ne_eq, not_true_eq_false, if_false]
  rw [if_neg (by omega), show 3 - 3 = 0 from rfl, skip_zero]

theorem readEncrypted_cap {b nonce c : Bytes} {cap : Nat} (h : readEncrypted F b cap = some (nonce, c)) : c.length ≤ cap ∧ nonce.length = 24 := by
  unfold readEncrypted at h
  repeat' split at h
  all_goals first
    | (cases h; done)
    | (simp only [Option.some.injEq, Prod.mk.injEq] at h
       obtain ⟨h1, h2⟩ := h
       subst h1 h2
       constructor <;> omega)

end Np.Ident
