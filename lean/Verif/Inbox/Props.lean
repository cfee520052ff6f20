import Verif.Inbox.Lemmas2

set_option linter.unusedVariables false

/-! # C105 – C110: what a node does with the bytes it receives -/
namespace Np.Inbox

open Np.Ser (Val Ents Wrap Lib unary treeOf)
open Np.Tree (Name Tree)
open _root_.Np.Inbox.Spec

/-! ## C105: one packet of a stranger does not end the process -/

/-- C105: a packet whose subject is not that of the handshake has no effect, whatever its bytes are. -/
theorem C105_other_subject (lib : Lib) (W : World) (J : Judge) (subject packet behind : List Byte) (h : (packet.drop 38).take 32 ≠ subject) :
    extract lib W J subject packet behind = .ok [] := by
  unfold extract
  simp only []
  rw [subject_eq, if_neg h]

/-- The body of the message in a packet of full length. -/
theorem packet_body {packet : List Byte} (hl : packet.length = 1046) :
    124 ≤ ((Chunk.parsePacket packet).nonce ++ (Chunk.parsePacket packet).mac ++ (Chunk.parsePacket packet).header ++ (Chunk.parsePacket packet).body).length ∧
    ((Chunk.parsePacket packet).nonce ++ (Chunk.parsePacket packet).mac ++ (Chunk.parsePacket packet).header ++ (Chunk.parsePacket packet).body).drop 124 = (packet.drop 134).take 900 := by
  have h1 : (Chunk.parsePacket packet).nonce.length = 12 := by
    simp only [Chunk.parsePacket, Chunk.slice, List.length_take, List.length_drop, hl, Chunk.INSTR, Chunk.MAC, Chunk.HEADER, Chunk.BODY, Chunk.FIXED, Chunk.NONCE]
    decide
  have h2 : (Chunk.parsePacket packet).mac.length = 16 := by
    simp only [Chunk.parsePacket, Chunk.slice, List.length_take, List.length_drop, hl, Chunk.INSTR, Chunk.MAC, Chunk.HEADER, Chunk.BODY, Chunk.FIXED, Chunk.NONCE]
    decide
  have h3 : (Chunk.parsePacket packet).header.length = 96 := by
    simp only [Chunk.parsePacket, Chunk.slice, List.length_take, List.length_drop, hl, Chunk.INSTR, Chunk.MAC, Chunk.HEADER, Chunk.BODY, Chunk.FIXED, Chunk.NONCE]
    decide
  refine ⟨by simp only [List.length_append, h1, h2, h3]; omega, ?_⟩
  rw [List.drop_append_of_le_length (by simp only [List.length_append, h1, h2, h3]; omega)]
  rw [List.drop_eq_nil_of_le (by simp only [List.length_append, h1, h2, h3]; omega), List.nil_append]
  rfl

/-- C105, partial: a handshake packet in one part does no harm, if its body cannot be read or carries a token whose entries are of the right types and
lengths: whatever the values are, and whatever is missing. Missing: all other handshake packets; the theorems below show that they end the process. -/
theorem C105_handshake_partial (lib : Lib) (W : World) (J : Judge) (subject packet behind : List Byte) (hl : packet.length = 1046)
    (hs : (packet.drop 38).take 32 = subject) (hp : (Chunk.num16 ((packet.drop 130).take 2)).toNat = 1)
    (hb : Ser.read lib Tree.create ((packet.drop 134).take 900 ++ behind.take 124) = .error .reported ∨
      ∃ t r, Ser.read lib Tree.create ((packet.drop 134).take 900 ++ behind.take 124) = .ok (t, r) ∧ ∃ v, value t urnHandshake = some v ∧ IsTree GoodToken v) :
    ∃ acts, extract lib W J subject packet behind = .ok acts := by
  obtain ⟨h124, hbody⟩ := packet_body hl
  rw [extract_one behind hs, parts_eq, hp, if_neg (by decide), if_pos rfl]
  rcases hb with hb | ⟨t, r, hr, v, hv, hg⟩
  · refine ⟨[], ?_⟩
    unfold readBody
    rw [buffer_eq h124, hbody, hb]
    rfl
  · rw [readBody_of h124 (by rw [hbody]; exact hr)]
    unfold withBody inHandshake
    simp only [hv]
    obtain ⟨o, ho⟩ := readToken_fine (W := W) (J := J) hg
    rw [ho]
    cases o with
    | none => exact ⟨_, rfl⟩
    | some f =>
      simp only []
      split
      · exact ⟨_, rfl⟩
      · exact ⟨_, rfl⟩

/-- C105 fails for every handshake packet that does not say that it is the only part of its message: with zero parts memory behind the table of parts is
written, with two or more an assertion fails. No key and no signature is needed. -/
theorem C105_parts_refuted (lib : Lib) (W : World) (J : Judge) (subject packet behind : List Byte) (hs : (packet.drop 38).take 32 = subject)
    (hp : (Chunk.num16 ((packet.drop 130).take 2)).toNat ≠ 1) :
    extract lib W J subject packet behind = .error (if (Chunk.num16 ((packet.drop 130).take 2)).toNat = 0 then .over else .abort) := by
  rw [extract_one behind hs, parts_eq, if_neg hp]
  split <;> rfl

/-- C105 fails for every handshake packet with a body that can be read and has no token: a null pointer is followed. -/
theorem C105_no_token_refuted (lib : Lib) (W : World) (J : Judge) (subject packet behind : List Byte) (hl : packet.length = 1046)
    (hs : (packet.drop 38).take 32 = subject) (hp : (Chunk.num16 ((packet.drop 130).take 2)).toNat = 1) (t : Tree Val) (r : List Byte)
    (hr : Ser.read lib Tree.create ((packet.drop 134).take 900 ++ behind.take 124) = .ok (t, r)) (hv : value t urnHandshake = none) :
    extract lib W J subject packet behind = .error .null := by
  obtain ⟨h124, hbody⟩ := packet_body hl
  rw [extract_one behind hs, parts_eq, hp, if_neg (by decide), if_pos rfl, readBody_of h124 (by rw [hbody]; exact hr)]
  unfold withBody inHandshake
  simp only [hv]

/-- A packet on the wire: a handshake with this number of parts and this body. The subject is that of seven in all bytes. -/
def stranger (parts : Byte) (body : List Byte) : List Byte :=
  List.replicate 38 0 ++ List.replicate 32 7 ++ List.replicate 60 0 ++ [parts, 0, 0, 0] ++ (body ++ List.replicate (900 - body.length) 0) ++ List.replicate 12 0

/-- A token with all entries, and one with a text of one character as realm. -/
def tokenList (realm subject : List Byte) : List (Name × Val) :=
  [(key "np.t.u", .bin (List.replicate 16 1)), (key "np.t.type", .ushort 4), (key "np.t.r", .str realm), (key "np.t.i", .str [105, 105]), (key "np.t.s", .str subject),
    (key "np.t.p", .bin (List.replicate 32 2)), (key "np.t.ex", .dbl 9), (key "np.t.si", .bin (List.replicate 64 3))]

/-- The body of a message: one tree under one key. -/
def bodyOf (n : Name) (v : Val) : List Byte := (Ser.write unary (treeOf [(n, v)])).getD []

/-- A tree as a value. -/
def asTree (l : List (Name × Val)) : Val := .tree .plain (.of (Tree.Spec.entries (treeOf l)))

/-- Every key is good, every token is valid. -/
def anyWorld : World := ⟨fun _ => [], fun _ => true⟩
def anyJudge : Judge := ⟨fun _ _ => true, fun _ => Dhkey.zero, fun _ => none, fun _ => false⟩

/-- What came out: the number of effects, or the fault. -/
def outcome (x : Out (List Act)) : Nat ⊕ Fault :=
  match x with
  | .ok l => .inl l.length
  | .error f => .inr f

/-- Packets as they are sent: a token leads to its effect, bytes that cannot be read to nothing; two parts, no part, the number 0 as body, a token that is a
number, a binary that is too short and a realm of one character end the process. -/
theorem C105_packets_refuted :
    outcome (extract unary anyWorld anyJudge (List.replicate 32 7) (stranger 1 (bodyOf urnHandshake (asTree (tokenList [114, 114] [115, 115])))) []) = .inl 1 ∧
    outcome (extract unary anyWorld anyJudge (List.replicate 32 7) (stranger 1 (List.replicate 900 28)) []) = .inl 0 ∧
    outcome (extract unary anyWorld anyJudge (List.replicate 32 7) (stranger 2 []) []) = .inr .abort ∧
    outcome (extract unary anyWorld anyJudge (List.replicate 32 7) (stranger 0 []) []) = .inr .over ∧
    outcome (extract unary anyWorld anyJudge (List.replicate 32 7) (stranger 1 []) []) = .inr .null ∧
    outcome (extract unary anyWorld anyJudge (List.replicate 32 7) (stranger 1 (bodyOf urnHandshake (.ulong 1))) []) = .inr .wild ∧
    outcome (extract unary anyWorld anyJudge (List.replicate 32 7) (stranger 1 (bodyOf urnHandshake (asTree [(key "np.t.u", .bin [1])]))) []) = .inr .over ∧
    outcome (extract unary anyWorld anyJudge (List.replicate 32 7) (stranger 1 (bodyOf urnHandshake (asTree (tokenList [114] [115, 115])))) []) = .inr .dangling ∧
    outcome (extract unary anyWorld anyJudge (List.replicate 32 7) (stranger 1 (bodyOf urnHandshake (asTree (tokenList [114, 114] [])))) []) = .inr .abort := by
  decide +kernel

/-- The hypotheses of `C105_handshake_partial` are met by such a packet. -/
example : ∃ t r, Ser.read unary Tree.create (((stranger 1 (bodyOf urnHandshake (asTree (tokenList [114, 114] [115, 115])))).drop 134).take 900 ++ List.take 124 []) = .ok (t, r) := by
  have h : (match Ser.read unary Tree.create (((stranger 1 (bodyOf urnHandshake (asTree (tokenList [114, 114] [115, 115])))).drop 134).take 900 ++ List.take 124 []) with
    | .ok _ => true
    | .error _ => false) = true := by decide +kernel
  cases hr : Ser.read unary Tree.create (((stranger 1 (bodyOf urnHandshake (asTree (tokenList [114, 114] [115, 115])))).drop 134).take 900 ++ List.take 124 []) with
  | ok p => exact ⟨p.1, p.2, rfl⟩
  | error s => rw [hr] at h; cases h

/-- A token of the right shape. -/
example : GoodToken (.of (tokenList [114, 114] [115, 115])) := by
  refine ⟨?_, ?_, ?_, ?_, ?_, ?_, ?_, ?_, ?_⟩ <;>
  · intro v hv
    simp [tokenList, Ents.of, look, key] at hv
    try (subst hv; simp [Holds, Text, LongText, cText])

/-! ## C106: system messages do not end the process -/

/-- C106, partial: a system message whose body is as its senders write it (`Proper`: entries may be missing, but those that are there have the right types
and lengths) is handled without a fault, whatever the values are. Missing: other bodies, see the theorems below. -/
theorem C106_proper_partial (W : World) (J : Judge) (hJ : GoodPartners J) (k : Kind) (t : Tree Val) (h : Proper k t) : ∃ acts, handle W J k t = .ok acts := by
  cases k with
  | ping => exact ⟨_, rfl⟩
  | ack => exact ⟨_, rfl⟩
  | piggy =>
    simp only [handle, inPiggy]
    obtain ⟨ns, hns⟩ := decodeNodes_fine (W := W) (List.range (t.size % 65536)) fun i hi => h i (by simpa using hi)
    rw [hns]
    exact ⟨_, rfl⟩
  | leave =>
    simp only [handle, inLeave]
    cases hv : value t urnNode with
    | none => exact ⟨_, rfl⟩
    | some v =>
      obtain ⟨o, ho⟩ := readToken_fine (W := W) (J := J) (h v hv)
      simp only [ho]
      cases o <;> exact ⟨_, rfl⟩
  | join =>
    simp only [handle, inJoin]
    cases hv : value t urnNode with
    | none => exact ⟨_, rfl⟩
    | some v =>
      obtain ⟨o, ho⟩ := readToken_fine (W := W) (J := J) (h.1 v hv)
      simp only [ho]
      cases o with
      | none => exact ⟨_, rfl⟩
      | some node =>
        simp only []
        split
        · exact ⟨_, rfl⟩
        cases hw : value t urnIdentity with
        | none => exact ⟨_, rfl⟩
        | some w =>
          obtain ⟨o, ho⟩ := readToken_fine (W := W) (J := J) (h.2 w hw)
          simp only [ho]
          cases o with
          | none => exact ⟨_, rfl⟩
          | some ident =>
            obtain ⟨p, hp⟩ := partnerFp_fine hJ ident
            obtain ⟨q, hq⟩ := partnerFp_fine hJ node
            simp only [hp, hq]
            repeat' split
            all_goals exact ⟨_, rfl⟩
  | update =>
    obtain ⟨v, hv, w, es, rfl, hg⟩ := h
    simp only [handle, inUpdate, hv, subtree]
    obtain ⟨o, ho⟩ := decode_fine (W := W) hg
    rw [ho]
    cases o with
    | none => exact ⟨_, rfl⟩
    | some f =>
      simp only []
      repeat' split
      all_goals exact ⟨_, rfl⟩
  | availableSender =>
    simp only [handle, inAvailable]
    cases hv : value t urnIntent with
    | none => exact ⟨_, rfl⟩
    | some v =>
      obtain ⟨w, es, rfl, hg, hn⟩ := h v hv
      obtain ⟨o, ho⟩ := readToken_fine (W := W) (J := J) ⟨w, es, rfl, hg⟩
      simp only [ho]
      cases o with
      | none => exact ⟨_, rfl⟩
      | some f =>
        obtain ⟨w', es', e, hd, _⟩ := readToken_some ho
        cases e
        obtain ⟨s, hs, hf, _⟩ := good_subject hg hd
        have := hn s hs
        rw [← hf] at this
        simp only [announce]
        cases hc : strId (chars f.subject) with
        | none => rw [hc] at this; cases this
        | some id => exact ⟨_, rfl⟩
  | availableReceiver =>
    simp only [handle, inAvailable]
    obtain ⟨v, hv, w, es, rfl, hg, hn⟩ := h
    obtain ⟨o, ho⟩ := readToken_fine (W := W) (J := J) ⟨w, es, rfl, hg⟩
    simp only [hv, ho]
    cases o with
    | none => exact ⟨_, rfl⟩
    | some f =>
      obtain ⟨w', es', e, hd, _⟩ := readToken_some ho
      cases e
      obtain ⟨s, hs, hf, _⟩ := good_subject hg hd
      have := hn s hs
      rw [← hf] at this
      simp only [announce]
      cases hc : strId (chars f.subject) with
      | none => rw [hc] at this; cases this
      | some id => exact ⟨_, rfl⟩

/-- C106 fails for an update and for an intent of a receiver without the token, and for a piggy message that lacks one of its numbers: a null pointer is
followed. -/
theorem C106_missing_refuted (W : World) (J : Judge) (t : Tree Val) :
    (value t urnNode = none → handle W J .update t = .error .null) ∧ (value t urnIntent = none → handle W J .availableReceiver t = .error .null) ∧
    (t.size % 65536 ≠ 0 → value t (.int 0) = none → handle W J .piggy t = .error .null) := by
  refine ⟨?_, ?_, ?_⟩
  · intro h; simp only [handle, inUpdate, h]
  · intro h; simp only [handle, inAvailable, h]; rfl
  · intro hs h
    obtain ⟨k, hk⟩ : ∃ k, t.size % 65536 = k + 1 := ⟨t.size % 65536 - 1, by omega⟩
    have hf : Tree.find t (.int 0) = none := by
      unfold value at h
      cases hf : Tree.find t (.int 0) with
      | none => rfl
      | some e => rw [hf] at h; cases h
    simp only [handle, inPiggy, hk, List.range_succ_eq_map]
    unfold decodeNodes
    rw [show (BitVec.ofNat 16 0) = 0 from rfl, hf]

/-- C106 fails if the entry is not a tree but a number: its bits are followed as a pointer. -/
theorem C106_number_refuted (W : World) (J : Judge) (t : Tree Val) (v : BitVec 32) :
    (value t urnNode = some (.ulong v) → handle W J .leave t = .error .wild ∧ handle W J .join t = .error .wild ∧ handle W J .update t = .error .wild) ∧
    (value t urnIntent = some (.ulong v) → handle W J .availableSender t = .error .wild ∧ handle W J .availableReceiver t = .error .wild) := by
  refine ⟨?_, ?_⟩
  · intro h
    refine ⟨?_, ?_, ?_⟩
    · simp only [handle, inLeave, h, readToken, subtree]
    · simp only [handle, inJoin, h, readToken, subtree]
    · simp only [handle, inUpdate, h, subtree]
  · intro h
    refine ⟨?_, ?_⟩ <;> simp only [handle, inAvailable, h, readToken, subtree]

/-- C106 fails for an intent that is valid in every respect but whose subject is not an id: an assertion fails. Anyone can sign such a token, since nothing
but its own signature is asked for. -/
theorem C106_subject_refuted (W : World) (J : Judge) (t : Tree Val) (w : Wrap) (es : Ents) (f : Fields) (hv : value t urnIntent = some (.tree w es))
    (hd : decode W es = .ok (some f)) (hok : J.valid f 0 = true) (hl : 1 < f.subject.length) (hs : strId (chars f.subject) = none) :
    handle W J .availableSender t = .error .abort ∧ handle W J .availableReceiver t = .error .abort := by
  have hr : readToken W J (.tree w es) = .ok (some f) := by
    unfold readToken
    simp only [subtree, hd]
    rw [if_pos (by exact hok), if_pos hl]
  constructor <;> simp only [handle, inAvailable, hv, hr, announce, hs]

/-- A binary message with this body. -/
def message (body : List Byte) : List Byte := List.replicate 124 0 ++ body ++ List.replicate (900 - body.length) 0

/-- C106 fails for these bodies: messages as they are received. The first two are handled; an intent for subject "ss" ends the process, and so do an update
and an intent of a receiver without token, a piggy message with an unknown key, and a token with a realm of one character. -/
theorem C106_messages_refuted :
    outcome (receive unary anyWorld anyJudge .leave (message (bodyOf urnNode (asTree (tokenList [114, 114] [115, 115])))) []) = .inl 1 ∧
    outcome (receive unary anyWorld anyJudge .availableSender (message (bodyOf urnIntent (asTree (tokenList [114, 114] (List.replicate 64 97))))) []) = .inl 1 ∧
    outcome (receive unary anyWorld anyJudge .availableSender (message (bodyOf urnIntent (asTree (tokenList [114, 114] [115, 115])))) []) = .inr .abort ∧
    outcome (receive unary anyWorld anyJudge .update (message []) []) = .inr .null ∧
    outcome (receive unary anyWorld anyJudge .availableReceiver (message []) []) = .inr .null ∧
    outcome (receive unary anyWorld anyJudge .piggy (message (bodyOf (.int 1) (asTree []))) []) = .inr .null ∧
    outcome (receive unary anyWorld anyJudge .join (message (bodyOf urnNode (asTree (tokenList [114] [115, 115])))) []) = .inr .dangling := by
  decide +kernel

/-- A node of the right shape, and trees that meet the hypotheses. -/
example : GoodNode (.of [(key "np.n.pr", .uint 1), (key "np.n.d", .str [97, 98]), (key "np.n.p", .str [51, 49])]) ∧ Proper .update (treeOf [(urnNode, .tree .plain (.of (tokenList [114, 114] [115, 115])))]) ∧
    GoodPartners anyJudge := by
  refine ⟨⟨?_, ?_, ?_⟩, ⟨.tree .plain (.of (tokenList [114, 114] [115, 115])), rfl, .plain, _, rfl, ?_⟩, fun f b h => by cases h⟩
  · intro v hv; simp [Ents.of, look, key] at hv; subst hv; trivial
  · intro v hv; simp [Ents.of, look, key] at hv; subst hv; trivial
  · intro v hv; simp [Ents.of, look, key] at hv
  · refine ⟨?_, ?_, ?_, ?_, ?_, ?_, ?_, ?_, ?_⟩ <;>
    · intro v hv
      simp [tokenList, Ents.of, look, key] at hv
      try (subst hv; simp [Holds, Text, LongText, cText])

/-! ## C107: system messages have effects only for valid tokens they carry -/

/-- C107: every effect of a system message or of a handshake is about a token that is in the message and valid for its purpose. -/
theorem C107_backed (W : World) (J : Judge) (t : Tree Val) :
    (∀ k acts, handle W J k t = .ok acts → ∀ a ∈ acts, Backed W J t a) ∧ (∀ acts, inHandshake W J t = .ok acts → ∀ a ∈ acts, Backed W J t a) := by
  constructor
  · intro k acts h a ha
    cases k with
    | ping => cases h; cases ha
    | ack => cases h; cases ha
    | piggy =>
      simp only [handle, inPiggy] at h
      cases hd : decodeNodes W t (List.range (t.size % 65536)) with
      | error f => rw [hd] at h; cases h
      | ok ns =>
        rw [hd] at h
        cases h
        obtain ⟨n, _, rfl⟩ := List.mem_map.1 ha
        trivial
    | leave =>
      simp only [handle, inLeave] at h
      cases hv : value t urnNode with
      | none => rw [hv] at h; cases h; cases ha
      | some v =>
        rw [hv] at h
        simp only [] at h
        cases hr : readToken W J v with
        | error f => rw [hr] at h; cases h
        | ok o =>
          rw [hr] at h
          cases o with
          | none => cases h; cases ha
          | some f =>
            cases h
            simp only [List.mem_singleton] at ha
            subst ha
            obtain ⟨w, es, rfl, hd, hok⟩ := readToken_some hr
            exact ⟨⟨w, es, hv, hd⟩, hok⟩
    | join =>
      simp only [handle, inJoin] at h
      cases hv : value t urnNode with
      | none => rw [hv] at h; cases h; cases ha
      | some v =>
        rw [hv] at h
        simp only [] at h
        cases hr : readToken W J v with
        | error f => rw [hr] at h; cases h
        | ok o =>
          rw [hr] at h
          cases o with
          | none => cases h; cases ha
          | some node =>
            obtain ⟨w, es, rfl, hd, _⟩ := readToken_some hr
            simp only [] at h
            split at h
            · cases h; cases ha
            rename_i hok
            have hok : J.valid node 2 = true := by simpa [tNode] using hok
            cases hw : value t urnIdentity with
            | none =>
              rw [hw] at h
              simp only [joinEnd, Except.ok.injEq] at h
              subst h
              split at ha
              · simp only [List.mem_singleton] at ha
                subst ha
                exact Or.inl ⟨⟨w, es, hv, hd⟩, hok⟩
              · cases ha
            | some x =>
              rw [hw] at h
              simp only [] at h
              cases hr2 : readToken W J x with
              | error f => rw [hr2] at h; cases h
              | ok o =>
                rw [hr2] at h
                cases o with
                | none => cases h; cases ha
                | some ident =>
                  obtain ⟨w2, es2, rfl, hd2, _⟩ := readToken_some hr2
                  simp only [] at h
                  split at h
                  · cases h; cases ha
                  rename_i hok2
                  have hok2 : J.valid ident 1 = true := by simpa [tIdentity] using hok2
                  cases hp : partnerFp J ident with
                  | error f => rw [hp] at h; cases h
                  | ok p =>
                    rw [hp] at h
                    simp only [] at h
                    split at h
                    · cases h; cases ha
                    cases hq : partnerFp J node with
                    | error f => rw [hq] at h; cases h
                    | ok q =>
                      rw [hq] at h
                      simp only [] at h
                      split at h
                      · cases h; cases ha
                      simp only [joinEnd, Except.ok.injEq] at h
                      subst h
                      split at ha
                      · simp only [List.mem_cons, List.not_mem_nil, or_false] at ha
                        rcases ha with rfl | rfl
                        · exact ⟨⟨w, es, hv, hd⟩, hok⟩
                        · exact Or.inr ⟨⟨w2, es2, hw, hd2⟩, hok2⟩
                      · cases ha
    | update =>
      simp only [handle, inUpdate] at h
      cases hv : value t urnNode with
      | none => rw [hv] at h; cases h
      | some v =>
        rw [hv] at h
        simp only [] at h
        cases v <;> simp only [subtree, reduceCtorEq] at h
        rename_i w es
        cases hd : decode W es with
        | error f => rw [hd] at h; cases h
        | ok o =>
          rw [hd] at h
          cases o with
          | none => cases h; cases ha
          | some f =>
            simp only [] at h
            split at h
            · cases h; cases ha
            rename_i hok
            split at h
            · cases h; cases ha
            cases h
            simp only [List.mem_singleton] at ha
            subst ha
            exact ⟨⟨w, es, hv, hd⟩, by simpa [tHandshake] using hok⟩
    | availableSender =>
      simp only [handle, inAvailable] at h
      cases hv : value t urnIntent with
      | none => rw [hv] at h; cases h; cases ha
      | some v =>
        rw [hv] at h
        simp only [] at h
        cases hr : readToken W J v with
        | error f => rw [hr] at h; cases h
        | ok o =>
          rw [hr] at h
          cases o with
          | none => cases h; cases ha
          | some f =>
            obtain ⟨w, es, rfl, hd, hok⟩ := readToken_some hr
            simp only [announce] at h
            cases hs : strId (chars f.subject) with
            | none => rw [hs] at h; cases h
            | some id =>
              rw [hs] at h
              cases h
              simp only [List.mem_singleton] at ha
              subst ha
              exact ⟨⟨w, es, hv, hd⟩, hok, hs⟩
    | availableReceiver =>
      simp only [handle, inAvailable] at h
      cases hv : value t urnIntent with
      | none => rw [hv] at h; simp at h
      | some v =>
        rw [hv] at h
        simp only [] at h
        cases hr : readToken W J v with
        | error f => rw [hr] at h; cases h
        | ok o =>
          rw [hr] at h
          cases o with
          | none => cases h; cases ha
          | some f =>
            obtain ⟨w, es, rfl, hd, hok⟩ := readToken_some hr
            simp only [announce] at h
            cases hs : strId (chars f.subject) with
            | none => rw [hs] at h; cases h
            | some id =>
              rw [hs] at h
              cases h
              simp only [List.mem_singleton] at ha
              subst ha
              exact ⟨⟨w, es, hv, hd⟩, hok, hs⟩
  · intro acts h a ha
    simp only [inHandshake] at h
    cases hv : value t urnHandshake with
    | none => rw [hv] at h; cases h
    | some v =>
      rw [hv] at h
      simp only [] at h
      cases hr : readToken W J v with
      | error f => rw [hr] at h; cases h
      | ok o =>
        rw [hr] at h
        cases o with
        | none => cases h; cases ha
        | some f =>
          obtain ⟨w, es, rfl, hd, _⟩ := readToken_some hr
          simp only [] at h
          split at h
          · rename_i hok
            cases h
            simp only [List.mem_singleton] at ha
            subst ha
            exact ⟨⟨w, es, hv, hd⟩, by simpa [tHandshake] using hok⟩
          · cases h; cases ha

/-- The kind of an effect. -/
def Act.name : Act → Nat
  | .shutdown _ => 0
  | .authenticate _ => 1
  | .store _ => 2
  | .intent _ _ _ => 3
  | .handshake _ => 4
  | .introduce _ => 5
  | .node _ => 6

/-- C107: a valid token has its effect: the intent of a sender reaches the channel of its subject. -/
theorem C107_effect (W : World) (J : Judge) (t : Tree Val) (w : Wrap) (es : Ents) (f : Fields) (id : List Byte) (hv : value t urnIntent = some (.tree w es))
    (hd : decode W es = .ok (some f)) (hok : J.valid f 0 = true) (hl : 1 < f.subject.length) (hs : strId (chars f.subject) = some id) :
    handle W J .availableSender t = .ok [.intent true id f] ∧ handle W J .availableReceiver t = .ok [.intent false id f] := by
  have hr : readToken W J (.tree w es) = .ok (some f) := by
    unfold readToken
    simp only [subtree, hd]
    rw [if_pos (by exact hok), if_pos hl]
  constructor <;> simp only [handle, inAvailable, hv, hr, announce, hs]

/-- There are messages with effects. -/
example : (match handle anyWorld anyJudge .leave (treeOf [(urnNode, asTree (tokenList [114, 114] [115, 115]))]) with
    | .ok l => l.map Act.name
    | .error _ => []) = [0] ∧
    (match handle anyWorld anyJudge .update (treeOf [(urnNode, asTree (tokenList [114, 114] [115, 115]))]) with
    | .ok l => l.map Act.name
    | .error _ => []) = [5] := by decide +kernel

/-- A partner fingerprint that is not zero comes from the attribute of the token. -/
theorem partnerFp_some {J : Judge} {f : Fields} {p : Dhkey} (h : partnerFp J f = .ok p) (hp : p ≠ Dhkey.zero) : ∃ b, J.partner f = some b ∧ b.length = 32 ∧ Addr.ofBytes b = p := by
  unfold partnerFp at h
  cases hb : J.partner f with
  | none => rw [hb] at h; cases h; exact absurd rfl hp
  | some b =>
    rw [hb] at h
    simp only [] at h
    split at h
    · rename_i hl
      cases h
      exact ⟨b, rfl, hl, rfl⟩
    · cases h

/-- C107: a node and an identity join together only if each of the two tokens names the fingerprint of the other as its partner. -/
theorem C107_pair (W : World) (J : Judge) (t : Tree Val) (acts : List Act) (node : Fields) (h : handle W J .join t = .ok acts) (hs : Act.store node ∈ acts) :
    ∃ ident b c, acts = [.store node, .authenticate ident] ∧ J.partner ident = some b ∧ b.length = 32 ∧ Addr.ofBytes b = J.fingerprint node ∧
      J.fingerprint node ≠ Dhkey.zero ∧ J.partner node = some c ∧ c.length = 32 ∧ Addr.ofBytes c = J.fingerprint ident ∧ J.fingerprint ident ≠ Dhkey.zero := by
  simp only [handle] at h
  unfold inJoin at h
  split at h
  · cases h; cases hs
  split at h
  · cases h
  · cases h; cases hs
  split at h
  · cases h; cases hs
  split at h
  · unfold joinEnd at h
    simp only [] at h
    split at h <;> cases h <;> simp at hs
  split at h
  · cases h
  · cases h; cases hs
  split at h
  · cases h; cases hs
  split at h
  · cases h
  rename_i p hp
  split at h
  · cases h; cases hs
  rename_i h1
  split at h
  · cases h
  rename_i q hq
  split at h
  · cases h; cases hs
  rename_i h2
  have p0 : p ≠ Dhkey.zero := fun e => h1 (Or.inl e)
  have p1 := Classical.not_not.1 (fun e => h1 (Or.inr e))
  have q0 : q ≠ Dhkey.zero := fun e => h2 (Or.inl e)
  have q1 := Classical.not_not.1 (fun e => h2 (Or.inr e))
  obtain ⟨b, b1, b2, b3⟩ := partnerFp_some hp p0
  obtain ⟨c, c1, c2, c3⟩ := partnerFp_some hq q0
  unfold joinEnd at h
  split at h
  · simp only [Except.ok.injEq] at h
    subst h
    simp only [List.mem_cons, Act.store.injEq, List.not_mem_nil, or_false, reduceCtorEq] at hs
    subst hs
    exact ⟨_, b, c, rfl, b1, b2, by rw [b3, p1], by rw [p1]; exact p0, c1, c2, by rw [c3, q1], by rw [q1]; exact q0⟩
  · cases h; cases hs

/-- Tokens with two fingerprints, told apart by their subject, each with the other as its partner. -/
def paired : Judge where
  valid _ _ := true
  fingerprint f := if f.subject = [110, 110] then ⟨1, 0, 0, 0, 0, 0, 0, 0⟩ else ⟨2, 0, 0, 0, 0, 0, 0, 0⟩
  partner f := some (if f.subject = [110, 110] then (⟨2, 0, 0, 0, 0, 0, 0, 0⟩ : Dhkey).bytes else (⟨1, 0, 0, 0, 0, 0, 0, 0⟩ : Dhkey).bytes)
  known _ := true

/-- A node joins with an identity. -/
example : (match handle anyWorld paired .join (treeOf [(urnNode, asTree (tokenList [114, 114] [110, 110])), (urnIdentity, asTree (tokenList [114, 114] [105, 105]))]) with
    | .ok acts => acts.map Act.name
    | .error _ => []) = [2, 1] := by decide +kernel

/-! ## C108: the body of a message is read from the message only -/

/-- C108, partial: if the item at the beginning of the body ends within the message, the tree that is read does not depend on the memory behind the message.
Missing: bodies whose item runs over the end, see below. -/
theorem C108_own_bytes_partial (lib : Lib) (hl : ReadsOwn lib) (bin behind : List Byte) (h : 124 ≤ bin.length) (t : Tree Val) (r : List Byte)
    (hr : Ser.read lib Tree.create (bin.drop 124) = .ok (t, r)) : readBody lib bin behind = .ok t :=
  readBody_of h (read_more hl hr _)

/-- The texts in a tree. -/
def texts (x : Except Ser.Stop (Tree Val)) : List (List Byte) :=
  match x with
  | .error _ => []
  | .ok t => (Tree.Spec.entries t).filterMap fun e => match e.2 with
    | .str s => some s
    | _ => none

/-- A message of one part whose body is a map with a text of 894 characters, of which 890 are in the message. -/
def leaking : List Byte :=
  List.replicate 124 0 ++ (Ser.tag 20 ++ (Cbor.head 5 1 ++ (Cbor.head 3 2 ++ [97, 97] ++ (Cbor.head 3 894 ++ List.replicate 890 65))))

/-- C108 fails for a message whose last text runs over its end: four bytes from behind the message are part of the text that is read. -/
theorem C108_over_refuted : leaking.length = 1024 ∧ texts (readBody unary leaking (List.replicate 124 1)) = [List.replicate 890 65 ++ [1, 1, 1, 1]] ∧
    texts (readBody unary leaking (List.replicate 124 2)) = [List.replicate 890 65 ++ [2, 2, 2, 2]] := by decide +kernel

/-- There is a library that reads its own bytes only, and a message whose body is read from itself. -/
example : ReadsOwn ⟨fun _ => [250], fun _ => [251], fun _ => none⟩ ∧
    texts (readBody ⟨fun _ => [250], fun _ => [251], fun _ => none⟩ (message (bodyOf (key "aa") (.str [66, 67]))) [1, 2, 3]) = [[66, 67]] := by
  refine ⟨fun b x v r h => (by cases h), by decide +kernel⟩

/-! ## C109: what is encrypted for a partner is what the partner reads -/

section EndToEnd

open Np.Ser.Spec (Faithful Travels KeyTravels valueOf)
open Np.Tree (Op)
open Np.Tree.Spec (Kind Op.name Built entries)
open Np.Chunk (packets create num16)
open Np.Chunk.Spec (Message Arrival Complete bytesOf)

/-- C109: a tree with values that arrive (`Travels`) is written, padded and encrypted with the key of a session; the receiver that has the session under the
audience in the header reads the same entries. -/
theorem C109_arrives {A : Aead} (hA : Authentic A) {lib : Lib} (hf : Faithful lib) {K : Tree.Spec.Kind} {ops : List (Op Val)} {t : Tree Val} (h : Built false ops t)
    (ho : ∀ o ∈ ops, K.Admits (Op.name o) ∧ KeyTravels (Op.name o)) (hv : ∀ o ∈ ops, ∀ v ∈ valueOf o, Travels v) {data : List Byte} (hw : Ser.write lib t = some data)
    (n0 m0 hdr pad nonce k behind : List Byte) (hn : n0.length = 12) (hm : m0.length = 16) (hh : hdr.length = 96) (hno : nonce.length = 12)
    (s : Sessions) (type : SessionType) (hs : s.find (Addr.ofBytes ((hdr.drop 32).take 32)) = some ⟨k, type⟩) (ht : type ≠ .initial) :
    ∃ t', incoming A lib s (encrypt A k nonce (n0 ++ m0 ++ hdr ++ (data ++ pad))) behind = .ok ⟨s, some t'⟩ ∧ entries t' = entries t := by
  obtain ⟨t', hr, he, _⟩ := Ser.C43_roundtrip_partial hf h ho hv hw (pad ++ behind.take 124)
  refine ⟨t', ?_, he⟩
  unfold incoming
  have ha : audienceOf (encrypt A k nonce (n0 ++ m0 ++ hdr ++ (data ++ pad))) = Addr.ofBytes ((hdr.drop 32).take 32) := by
    rw [encrypt_parts A k nonce hn hm hh, audience_parts hno (hA.mac ..) hh]
  rw [ha, hs]
  simp only [decrypt_encrypt hA k nonce hn hm hh hno]
  rw [readBody_parts hno (hA.mac ..) hh behind (r := pad ++ behind.take 124) (by rw [List.append_assoc]; exact hr)]
  simp only []
  rw [if_neg ht]

/-- What arrives on the wire: one of the packets the sender makes of a binary message. -/
def wire (bin : List Byte) (a : Arrival) : List Byte := ((packets a.instr bin).getD []).getD a.chunk []

/-- C109, partial: the same from end to end: the message is made (`create`), encrypted, cut into packets, the packets arrive each once and in any order, the
message is put together when the last one arrives, and is read as it was written. Missing: the counter of the parts, which is part of the mac, must not
overflow (C19), and duplicates (C20). -/
theorem C109_end_to_end_partial {A : Aead} (hA : Authentic A) {lib : Lib} (hf : Faithful lib) {K : Tree.Spec.Kind} {ops : List (Op Val)} {t : Tree Val}
    (h : Built false ops t) (ho : ∀ o ∈ ops, K.Admits (Op.name o) ∧ KeyTravels (Op.name o)) (hv : ∀ o ∈ ops, ∀ v ∈ valueOf o, Travels v) {data : List Byte}
    (hw : Ser.write lib t = some data) (n0 m0 hdr pad nonce k behind : List Byte) (hn : n0.length = 12) (hm : m0.length = 16) (hh : hdr.length = 96)
    (hno : nonce.length = 12) (hd : 1 ≤ data.length) (hd2 : data.length ≤ 64800) (hp : data.length + pad.length = (data.length + 899) / 900 * 900)
    (hc : (num16 ((encrypt A k nonce (create n0 m0 hdr data pad)).drop 12)).toNat + (data.length + 899) / 900 ≤ 65536)
    (s : Sessions) (type : SessionType) (hs : s.find (Addr.ofBytes ((hdr.drop 32).take 32)) = some ⟨k, type⟩) (ht : type ≠ .initial)
    (as : List Arrival) (valid : ∀ a ∈ as, a.msg = 0 ∧ a.instr.length = 22 ∧ a.chunk < (data.length + 899) / 900) (once : (as.map fun a => a.chunk).Nodup)
    (all : ∀ i, i < (data.length + 899) / 900 → ∃ a ∈ as, a.chunk = i) :
    ∃ n os e t', Chunk.receiveAll Chunk.Node.init (as.map (wire (encrypt A k nonce (create n0 m0 hdr data pad)))) = some (n, os) ∧
      os[as.length - 1]? = some (some e) ∧ incoming A lib s e behind = .ok ⟨s, some t'⟩ ∧ entries t' = entries t := by
  obtain ⟨h1, h2⟩ := Chunk.created_header n0 m0 hdr data pad hh
  have hk : (Chunk.created n0 m0 hdr data pad).k = (data.length + 899) / 900 := by
    show Chunk.calculateChunking _ = _
    rw [Chunk.chunking_value]; omega
  let H := (Chunk.created n0 m0 hdr data pad).header
  have hH : H.length = 96 := h1
  have hbin : create n0 m0 hdr data pad = n0 ++ m0 ++ H ++ (data ++ pad) := Chunk.created_binary ..
  let c := A.enc k nonce H (data ++ pad)
  have henc : encrypt A k nonce (create n0 m0 hdr data pad) = nonce ++ c.2 ++ H ++ c.1 := by rw [hbin, encrypt_parts A k nonce hn hm hH]
  have haud : (H.drop 32).take 32 = (hdr.drop 32).take 32 := by
    show ((hdr.take 92 ++ _).drop 32).take 32 = _
    rw [List.drop_append_of_le_length (by rw [List.length_take]; omega), List.take_append_of_le_length (by rw [List.length_drop, List.length_take]; omega),
      List.drop_take, List.take_take]
    rfl
  let m : Message := { nonce := nonce, mac := c.2, header := H, body := c.1, k := (data.length + 899) / 900 }
  have hmb : m.binary = encrypt A k nonce (create n0 m0 hdr data pad) := henc.symm
  have hmac : c.2.length = 16 := hA.mac ..
  have hbody : c.1.length = 900 * ((data.length + 899) / 900) := by
    rw [hA.body, List.length_append]; omega
  have hstart : (num16 c.2).toNat + (data.length + 899) / 900 ≤ 65536 := by
    have e : (encrypt A k nonce (create n0 m0 hdr data pad)).drop 12 = c.2 ++ (H ++ c.1) := by
      rw [henc, show nonce ++ c.2 ++ H ++ c.1 = nonce ++ (c.2 ++ (H ++ c.1)) from by simp, List.drop_append_of_le_length (by omega),
        List.drop_eq_nil_of_le (by omega), List.nil_append]
    rw [e] at hc
    have : num16 (c.2 ++ (H ++ c.1)) = num16 c.2 := by
      match hx : c.2, hmac with
      | a :: b :: l, _ => rfl
    rw [this] at hc
    exact hc
  have wf : m.WF := ⟨hno, hmac, hH, hbody, by show 1 ≤ (data.length + 899) / 900; omega, h2.trans hk, hstart⟩
  have hpk : ∀ instr, packets instr m.binary = some ((List.range m.k).map (m.packet instr)) := by
    intro instr
    rw [packets, Chunk.serialize_binary m hno hmac hH m.k wf.parts (Nat.le_of_eq wf.body.symm)]
    simp only [Option.map_some, List.map_map]
    rfl
  have hwire : as.map (wire (encrypt A k nonce (create n0 m0 hdr data pad))) = as.map (bytesOf [m]) := by
    refine List.map_congr_left fun a ha => ?_
    obtain ⟨v1, v2, v3⟩ := valid a ha
    have v3' : a.chunk < m.k := v3
    unfold wire bytesOf
    rw [← hmb, hpk, v1]
    simp [v3']
  have hne : as ≠ [] := by
    intro e
    obtain ⟨a, ha, _⟩ := all 0 (by omega)
    rw [e] at ha; cases ha
  have hpos : 0 < as.length := List.length_pos_iff.2 hne
  obtain ⟨n, os, g1, g2, g3⟩ := Chunk.C19_every_order [m] (by intro x hx; simp only [List.mem_singleton] at hx; rw [hx]; exact wf) (by simp) as
    (by
      intro a ha
      obtain ⟨v1, v2, v3⟩ := valid a ha
      exact ⟨v2, m, by rw [v1]; rfl, v3⟩)
    (by
      have : (as.map fun a => (a.msg, a.chunk)) = (as.map fun a => a.chunk).map fun i => (0, i) := by
        rw [List.map_map]
        refine List.map_congr_left fun a ha => ?_
        simp [(valid a ha).1]
      rw [this]
      exact List.Pairwise.map _ (fun a b hab e => hab (by simpa using e)) once)
  obtain ⟨a, hlast⟩ : ∃ a, as[as.length - 1]? = some a := ⟨as[as.length - 1]'(by omega), List.getElem?_eq_getElem (by omega)⟩
  have ha0 : a.msg = 0 := (valid a (List.mem_of_getElem? hlast)).1
  have g := g3 (as.length - 1) a m hlast (by rw [ha0]; rfl)
  have hcomp : Complete m.k a.msg (as.take (as.length - 1 + 1)) := by
    rw [show as.length - 1 + 1 = as.length from by omega, List.take_length]
    intro i hi
    obtain ⟨b, hb, hbi⟩ := all i hi
    exact ⟨b, hb, by rw [ha0]; exact (valid b hb).1, hbi⟩
  rw [if_pos hcomp] at g
  obtain ⟨t', hr, he, _⟩ := Ser.C43_roundtrip_partial hf h ho hv hw (pad ++ behind.take 124)
  obtain ⟨t', hi, he⟩ := C109_arrives hA hf h ho hv hw n0 m0 H pad nonce k behind hn hm hH hno s type (by rw [haud]; exact hs) ht
  refine ⟨n, os, m.binary, t', by rw [hwire]; exact g1, g, ?_, he⟩
  rw [hmb, hbin]
  exact hi

/-- C109: whatever is delivered was encrypted with the key of the session that the channel has for the audience in the header, together with that very
header, and is read from the text that was encrypted. -/
theorem C109_authentic {A : Aead} (hA : Authentic A) (lib : Lib) (s s' : Sessions) (bin behind : List Byte) (hl : 124 ≤ bin.length) (t : Tree Val)
    (h : incoming A lib s bin behind = .ok ⟨s', some t⟩) :
    ∃ x body, s.find (audienceOf bin) = some x ∧ x.type ≠ .initial ∧ bin = encrypt A x.readKey (bin.take 12) (bin.take 124 ++ body) ∧
      ∃ r, Ser.read lib Tree.create (body ++ behind.take 124) = .ok (t, r) := by
  unfold incoming at h
  cases hx : s.find (audienceOf bin) with
  | none => rw [hx] at h; cases h
  | some x =>
    rw [hx] at h
    simp only [] at h
    have hb := join_split bin
    have hs1 : (split bin).nonce.length = 12 := by simp only [split, List.length_take]; omega
    have hs2 : (split bin).mac.length = 16 := by simp only [split, Chunk.slice, List.length_take, List.length_drop]; omega
    have hs3 : (split bin).header.length = 96 := by simp only [split, Chunk.slice, List.length_take, List.length_drop]; omega
    have h124 : bin.take 124 = (split bin).nonce ++ (split bin).mac ++ (split bin).header := by
      conv => lhs; rw [← hb]
      simp only [Plain.join]
      rw [List.take_append_of_le_length (by simp only [List.length_append]; omega), List.take_of_length_le (by simp only [List.length_append]; omega)]
    cases hd : decrypt A x.readKey bin with
    | none => rw [hd] at h; cases h
    | some plain =>
      rw [hd] at h
      simp only [] at h
      unfold decrypt at hd
      simp only [] at hd
      cases hdec : A.dec x.readKey (split bin).nonce (split bin).header (split bin).body (split bin).mac with
      | none => rw [hdec] at hd; cases hd
      | some p =>
        rw [hdec] at hd
        simp only [Option.map_some, Option.some.injEq] at hd
        have henc := (hA.iff _ _ _ _ _ _).1 hdec
        refine ⟨x, p, rfl, ?_, ?_, ?_⟩
        · intro e
          cases hrb : readBody lib plain behind with
          | error st => rw [hrb] at h; cases st <;> cases h
          | ok t1 =>
            rw [hrb] at h
            simp only [] at h
            rw [if_pos e] at h
            cases hi : importSession s (entries t1) with
            | error f => rw [hi] at h; cases h
            | ok s1 => rw [hi] at h; cases h
        · have e12 : bin.take 12 = (split bin).nonce := rfl
          rw [h124, e12, encrypt_parts A _ _ hs1 hs2 hs3, henc]
          exact hb.symm
        · cases hrb : readBody lib plain behind with
          | error st => rw [hrb] at h; cases st <;> cases h
          | ok t1 =>
            rw [hrb] at h
            simp only [] at h
            split at h
            · cases hi : importSession s (entries t1) with
              | error f => rw [hi] at h; cases h
              | ok s1 => rw [hi] at h; cases h
            · simp only [Except.ok.injEq, Result.mk.injEq, Option.some.injEq] at h
              obtain ⟨_, rfl⟩ := h
              unfold readBody at hrb
              have hpl : 124 ≤ plain.length := by
                rw [← hd]
                simp only [Plain.join, List.length_append]
                omega
              have hdrop : plain.drop 124 = p := by
                rw [← hd]
                simp only [Plain.join]
                rw [List.drop_append_of_le_length (by simp only [List.length_append]; omega),
                  List.drop_eq_nil_of_le (by simp only [List.length_append]; omega), List.nil_append]
              rw [buffer_eq hpl, hdrop] at hrb
              cases hrr : Ser.read lib Tree.create (p ++ behind.take 124) with
              | error st => rw [hrr] at hrb; cases hrb
              | ok q =>
                rw [hrr] at hrb
                obtain ⟨t2, r⟩ := q
                simp only [Except.ok.injEq] at hrb
                subst hrb
                exact ⟨r, rfl⟩

/-- C109 fails if anyone sends a message with the same uuid first, for the same session and with any mac that is wrong: the uuid is noted before the mac is
looked at, and the genuine message is dropped. -/
theorem C109_forged_first_refuted (A : Aead) (lib : Lib) (c : Channel) (forged genuine b1 b2 : List Byte) (x : Session)
    (hx : c.sessions.find (audienceOf forged) = some x) (hf : decrypt A x.readKey forged = none) (hu : uuidOf genuine = uuidOf forged)
    (hn : c.seen.contains (uuidOf forged) = false) :
    ∃ c', c.step A lib forged b1 = .ok (c', none) ∧ c'.step A lib genuine b2 = .ok (c', none) := by
  refine ⟨⟨c.sessions, uuidOf forged :: c.seen⟩, ?_, ?_⟩
  · unfold Channel.step
    rw [hx]
    simp only [hn, Bool.false_eq_true, if_false]
    have : incoming A lib c.sessions forged b1 = .ok ⟨c.sessions, none⟩ := by
      unfold incoming
      rw [hx]
      simp only [hf]
    rw [this]
  · unfold Channel.step
    cases hg : c.sessions.find (audienceOf genuine) with
    | none => rfl
    | some y =>
      simp only []
      rw [if_pos (by rw [hu]; simp)]

/-- One message: the uuid is noted, nothing noted is forgotten, and what is delivered was not noted before. -/
theorem step_seen {A : Aead} {lib : Lib} {c c' : Channel} {bin behind : List Byte} {d : Option (Tree Val)} (h : c.step A lib bin behind = .ok (c', d)) :
    (∀ u ∈ c.seen, u ∈ c'.seen) ∧ (d ≠ none → uuidOf bin ∉ c.seen ∧ uuidOf bin ∈ c'.seen) := by
  unfold Channel.step at h
  cases hx : c.sessions.find (audienceOf bin) with
  | none => rw [hx] at h; cases h; exact ⟨fun _ hu => hu, fun hd => absurd rfl hd⟩
  | some x =>
    rw [hx] at h
    simp only [] at h
    split at h
    · cases h; exact ⟨fun _ hu => hu, fun hd => absurd rfl hd⟩
    · rename_i hn
      cases hi : incoming A lib c.sessions bin behind with
      | error f => rw [hi] at h; cases h
      | ok r =>
        rw [hi] at h
        cases h
        exact ⟨fun _ hu => List.mem_cons_of_mem _ hu, fun _ => ⟨by simpa using hn, List.mem_cons_self ..⟩⟩

/-- Over a history: no uuid twice, and none that was noted before. -/
theorem run_fresh {A : Aead} {lib : Lib} : ∀ (ms : List (List Byte × List Byte)) (c c' : Channel) (ds : List (List Byte × Tree Val)), c.run A lib ms = .ok (c', ds) →
    (ds.map fun d => uuidOf d.1).Nodup ∧ ∀ d ∈ ds, uuidOf d.1 ∉ c.seen
  | [], c, c', ds, h => by
    cases h
    exact ⟨List.nodup_nil, by simp⟩
  | (bin, behind) :: ms, c, c', ds, h => by
    unfold Channel.run at h
    cases hs : c.step A lib bin behind with
    | error f => rw [hs] at h; cases h
    | ok q =>
      obtain ⟨c1, d⟩ := q
      rw [hs] at h
      simp only [] at h
      cases hr : c1.run A lib ms with
      | error f => rw [hr] at h; cases h
      | ok q =>
        obtain ⟨c2, ds'⟩ := q
        rw [hr] at h
        simp only [Except.ok.injEq, Prod.mk.injEq] at h
        obtain ⟨rfl, rfl⟩ := h
        obtain ⟨h1, h2⟩ := run_fresh ms c1 _ _ hr
        obtain ⟨g1, g2⟩ := step_seen hs
        cases d with
        | none => exact ⟨h1, fun d hd hc => h2 d hd (g1 _ hc)⟩
        | some t =>
          obtain ⟨f1, f2⟩ := g2 (by simp)
          refine ⟨?_, ?_⟩
          · simp only [Option.map_some, Option.toList_some, List.singleton_append, List.map_cons, List.nodup_cons]
            refine ⟨?_, h1⟩
            intro hm
            obtain ⟨d, hd, he⟩ := List.mem_map.1 hm
            exact h2 d hd (by rw [he]; exact f2)
          · intro d hd
            simp only [Option.map_some, Option.toList_some, List.singleton_append, List.mem_cons] at hd
            rcases hd with rfl | hd
            · exact f1
            · exact fun hc => h2 d hd (g1 _ hc)

/-- C109: whatever sequence of messages arrives, copies and recordings among them, no two that are delivered have the same uuid. The 16 bytes of the uuid
are at offset 92 of a message. -/
theorem C109_no_replay (A : Aead) (lib : Lib) (c c' : Channel) (ms : List (List Byte × List Byte)) (ds : List (List Byte × Tree Val))
    (h : c.run A lib ms = .ok (c', ds)) : (ds.map fun d => (d.1.drop 92).take 16).Nodup := (run_fresh ms c c' ds h).1

/-- C109: a message with an uuid that was not seen is delivered if it decrypts to a body, on a private or shared session. -/
theorem C109_fresh_delivered {A : Aead} {lib : Lib} (c : Channel) (bin behind : List Byte) (x : Session) (plain : List Byte) (t : Tree Val)
    (hx : c.sessions.find (audienceOf bin) = some x) (hi : x.type ≠ .initial) (hn : (bin.drop 92).take 16 ∉ c.seen) (hd : decrypt A x.readKey bin = some plain)
    (hr : readBody lib plain behind = .ok t) :
    c.step A lib bin behind = .ok (⟨c.sessions, (bin.drop 92).take 16 :: c.seen⟩, some t) := by
  unfold Channel.step
  rw [hx]
  simp only []
  rw [if_neg (by simpa [uuidOf, Chunk.slice] using hn)]
  unfold incoming
  rw [hx]
  simp only [hd, hr]
  rw [if_neg hi]
  rfl

/-- An encryption that only proves the key. -/
def sealing : Aead where
  enc k _ _ p := (p, (k ++ List.replicate 16 0).take 16)
  dec k _ _ c m := if m = (k ++ List.replicate 16 0).take 16 then some c else none

/-- There is an encryption with these properties. -/
theorem sealing_authentic : Authentic sealing := by
  refine ⟨?_, fun _ _ _ _ => rfl, ?_⟩
  · intro k n a p c m
    simp only [sealing]
    constructor
    · intro h
      split at h
      · rename_i e
        simp only [Option.some.injEq] at h
        rw [h, e]
      · cases h
    · intro h
      simp only [Prod.mk.injEq] at h
      rw [if_pos h.2.symm, h.1]
  · intro k n a p
    simp only [sealing, List.length_take, List.length_append, List.length_replicate]
    omega

/-- The texts that are delivered. -/
def heard (x : Out (Channel × Option (Tree Val))) : List (List Byte) :=
  match x with
  | .ok (_, some t) => texts (.ok t)
  | _ => []

/-- A message for the zero id with the text "BC", encrypted with the key 5…5. -/
def sealed : List Byte := encrypt sealing (List.replicate 32 5) (List.replicate 12 9) (message (bodyOf (key "aa") (.str [66, 67])))

/-- A channel with a session for the zero id delivers the message; one with another key does not. -/
example : heard (Channel.step sealing unary ⟨[(Dhkey.zero, ⟨List.replicate 32 5, .priv⟩)], []⟩ sealed []) = [[66, 67]] ∧
    heard (Channel.step sealing unary ⟨[(Dhkey.zero, ⟨List.replicate 32 6, .priv⟩)], []⟩ sealed []) = [] := by decide +kernel

/-- The same message twice is delivered once. -/
example : (match Channel.run sealing unary ⟨[(Dhkey.zero, ⟨List.replicate 32 5, .priv⟩)], []⟩ [(sealed, []), (sealed, [])] with
    | .ok (_, ds) => ds.length
    | .error _ => 7) = 1 := by decide +kernel

/-- A text of 1000 bytes, made into a message of two parts and encrypted, meets the hypotheses on sizes and on the counter. -/
example : let data := bodyOf (key "aa") (.str (List.replicate 1000 66))
    let pad := List.replicate (1800 - data.length) 0
    900 < data.length ∧ data.length ≤ 1800 ∧ data.length + pad.length = (data.length + 899) / 900 * 900 ∧
      (num16 ((encrypt sealing (List.replicate 32 5) (List.replicate 12 9) (create (List.replicate 12 0) (List.replicate 16 0) (List.replicate 96 0) data pad)).drop 12)).toNat +
        (data.length + 899) / 900 ≤ 65536 := by decide +kernel

/-! ## C110: a session belongs to the two partners that agreed on it -/

/-- Importing keys leaves the sessions that are not named. -/
theorem import_other : ∀ (es : List (Name × Val)) (s s' : Sessions) (id : Dhkey), importSession s es = .ok s' → (∀ e ∈ es, idOf e.1 ≠ id) → s'.find id = s.find id
  | [], s, s', id, h, _ => by cases h; rfl
  | (n, v) :: es, s, s', id, h, hid => by
    unfold importSession at h
    cases hc : copy 32 v with
    | error f => rw [hc] at h; cases h
    | ok k =>
      rw [hc] at h
      rw [import_other es _ s' id h fun e he => hid e (by simp [he]), find_set, if_neg (fun e => hid (n, v) (by simp) e.symm)]

/-- C110, partial: a message changes the session of an id only if it is encrypted with the key of an initial session, and its body names the id. Missing: that
the sender of such a message must not name the sessions of others, see below. -/
theorem C110_unnamed_partial {A : Aead} (hA : Authentic A) (lib : Lib) (s : Sessions) (bin behind : List Byte) (hl : 124 ≤ bin.length) (r : Result) (id : Dhkey)
    (h : incoming A lib s bin behind = .ok r) (hne : r.sessions.find id ≠ s.find id) :
    ∃ x plain t, s.find (audienceOf bin) = some x ∧ x.type = .initial ∧ decrypt A x.readKey bin = some plain ∧ readBody lib plain behind = .ok t ∧
      ∃ e ∈ entries t, idOf e.1 = id := by
  unfold incoming at h
  cases hx : s.find (audienceOf bin) with
  | none => rw [hx] at h; cases h; exact absurd rfl hne
  | some x =>
    rw [hx] at h
    simp only [] at h
    cases hd : decrypt A x.readKey bin with
    | none => rw [hd] at h; cases h; exact absurd rfl hne
    | some plain =>
      rw [hd] at h
      simp only [] at h
      cases hrb : readBody lib plain behind with
      | error st =>
        rw [hrb] at h
        cases st <;> cases h
        exact absurd rfl hne
      | ok t =>
        rw [hrb] at h
        simp only [] at h
        split at h
        · rename_i hi
          cases him : importSession s (entries t) with
          | error f => rw [him] at h; cases h
          | ok s' =>
            rw [him] at h
            cases h
            refine ⟨x, plain, t, rfl, hi, hd, hrb, ?_⟩
            refine Classical.byContradiction fun hno => hne ?_
            exact import_other _ _ _ id him fun e he hid => hno ⟨e, he, hid⟩
        · cases h
          exact absurd rfl hne

/-- The header of a message for this audience. -/
def headerFor (id : Dhkey) : List Byte := List.replicate 32 0 ++ id.bytes ++ List.replicate 32 0

/-- C110 fails: a partner that has an initial session can set the key of any session of the channel, among them the private sessions of the other senders.
After that it can send messages that are delivered as if they came from the other sender, with any content, and it knows the key. -/
theorem C110_takeover_refuted {A : Aead} (hA : Authentic A) {lib : Lib} (hf : Faithful lib) (s : Sessions) (mine victim : Dhkey) (myKey k : List Byte)
    (hmine : s.find mine = some ⟨myKey, .initial⟩) (hk : k.length = 32) {K : Tree.Spec.Kind} {ops : List (Op Val)} {t : Tree Val} (h : Built false ops t)
    (ho : ∀ o ∈ ops, K.Admits (Op.name o) ∧ KeyTravels (Op.name o)) (hv : ∀ o ∈ ops, ∀ v ∈ valueOf o, Travels v) {data : List Byte} (hw : Ser.write lib t = some data) :
    ∃ attack forged, audienceOf forged = victim ∧ ∀ behind, ∃ s' t', incoming A lib s attack behind = .ok ⟨s', none⟩ ∧ s'.find victim = some ⟨k, .shared⟩ ∧
      incoming A lib s' forged behind = .ok ⟨s', some t'⟩ ∧ entries t' = entries t := by
  have hlen : ∀ id : Dhkey, (headerFor id).length = 96 := by
    intro id
    simp only [headerFor, List.length_append, List.length_replicate, bytes_length]
  have haud : ∀ id : Dhkey, Addr.ofBytes (((headerFor id).drop 32).take 32) = id := by
    intro id
    have : ((headerFor id).drop 32).take 32 = id.bytes := by
      have hb : id.bytes.length = 32 := bytes_length id
      unfold headerFor
      rw [List.append_assoc, List.drop_append_of_le_length (by simp), List.drop_eq_nil_of_le (by simp), List.nil_append,
        List.take_append_of_le_length (by omega), List.take_of_length_le (by omega)]
    rw [this, Addr.ofBytes_bytes]
  obtain ⟨q, hq⟩ := Ser.rebuild (K := .ids) (l := [(.dhkey victim, .bin k)]) ⟨by intro p hp; simp only [List.mem_singleton] at hp; subst hp; exact ⟨trivial, trivial⟩, by simp⟩
  have hq1 : Built false (Ser.inserts [(.dhkey victim, .bin k)]) q := hq.1
  have hops : ∀ o ∈ Ser.inserts [(Name.dhkey victim, Val.bin k)], (Tree.Spec.Kind.ids).Admits (Op.name o) ∧ KeyTravels (Op.name o) := by
    intro o ho'
    simp only [Ser.inserts, List.map_cons, List.map_nil, List.mem_singleton] at ho'
    subst ho'
    exact ⟨trivial, trivial⟩
  obtain ⟨d, hd⟩ := Ser.C43_written (lib := lib) hq1 (fun o ho' => (hops o ho').1) (by
    intro o ho' v hv'
    simp only [Ser.inserts, List.map_cons, List.map_nil, List.mem_singleton] at ho'
    subst ho'
    simp only [valueOf, List.mem_singleton] at hv'
    subst hv'
    exact ⟨trivial, by simp [Ser.Spec.levels]⟩) (by rw [hq.2.2.1]; simp)
  have z12 : (List.replicate 12 (0 : Byte)).length = 12 := by simp
  have z16 : (List.replicate 16 (0 : Byte)).length = 16 := by simp
  refine ⟨encrypt A myKey (List.replicate 12 0) (List.replicate 12 0 ++ List.replicate 16 0 ++ headerFor mine ++ (d ++ [])),
    encrypt A k (List.replicate 12 0) (List.replicate 12 0 ++ List.replicate 16 0 ++ headerFor victim ++ (data ++ [])), ?_, ?_⟩
  · rw [encrypt_parts A k _ z12 z16 (hlen victim), audience_parts z12 (hA.mac ..) (hlen victim), haud]
  intro behind
  have hset : (s.set victim ⟨k, .shared⟩).find victim = some ⟨k, .shared⟩ := by rw [find_set, if_pos rfl]
  obtain ⟨t', h1, h2⟩ := C109_arrives hA hf h ho hv hw (List.replicate 12 0) (List.replicate 16 0) (headerFor victim) [] (List.replicate 12 0) k behind z12 z16
    (hlen victim) z12 (s.set victim ⟨k, .shared⟩) .shared (by rw [haud]; exact hset) (by decide)
  refine ⟨s.set victim ⟨k, .shared⟩, t', ?_, hset, h1, h2⟩
  obtain ⟨q', hr, he, _⟩ := Ser.C43_roundtrip_partial hf hq1 hops (by
    intro o ho' v hv'
    simp only [Ser.inserts, List.map_cons, List.map_nil, List.mem_singleton] at ho'
    subst ho'
    simp only [valueOf, List.mem_singleton] at hv'
    subst hv'
    simp only [Travels, hk]
    decide) hd ([] ++ behind.take 124)
  unfold incoming
  rw [encrypt_parts A myKey _ z12 z16 (hlen mine), audience_parts z12 (hA.mac ..) (hlen mine), haud, hmine]
  simp only []
  rw [← encrypt_parts A myKey (List.replicate 12 0) z12 z16 (hlen mine), decrypt_encrypt hA myKey _ z12 z16 (hlen mine) z12]
  simp only []
  rw [readBody_parts z12 (hA.mac ..) (hlen mine) behind (r := [] ++ behind.take 124) (by rw [List.append_assoc]; exact hr)]
  simp only [if_true]
  rw [he, hq.2.1]
  simp only [importSession, copy, memory, idOf]
  rw [if_neg (by omega), List.take_of_length_le (by omega)]

/-- A channel with the private session of one sender and the initial session of another meets the hypothesis. -/
example : Sessions.find [(⟨1, 0, 0, 0, 0, 0, 0, 0⟩, ⟨List.replicate 32 1, .priv⟩), (⟨2, 0, 0, 0, 0, 0, 0, 0⟩, ⟨List.replicate 32 2, .initial⟩)] ⟨2, 0, 0, 0, 0, 0, 0, 0⟩ =
    some ⟨List.replicate 32 2, .initial⟩ := by decide +kernel

end EndToEnd

end Np.Inbox
