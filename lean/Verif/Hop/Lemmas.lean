import Verif.Hop.Spec
import Verif.Chunk.Props
/-! # Lemmas about the way of a packet -/
namespace Np.Hop
open Np.Chunk
open _root_.Np.Hop.Spec

theorem bytes16_length (x : BitVec 16) : (bytes16 x).length = 2 := by rw [bytes16, put16_length]; rfl

theorem num16_bytes16 (x : BitVec 16) : num16 (bytes16 x) = x := num16_put16 _ _ (by simp)

theorem drop_front {α : Type} (a b : List α) (n : Nat) (h : a.length = n) : (a ++ b).drop n = b := by
  rw [← h, List.drop_append_of_le_length (Nat.le_refl _), List.drop_of_length_le (Nat.le_refl _), List.nil_append]

theorem take_front {α : Type} (a b : List α) (n : Nat) (h : a.length = n) : (a ++ b).take n = a := by
  rw [← h, List.take_append_of_le_length (Nat.le_refl _), List.take_of_length_le (Nat.le_refl _)]

/-- A packet without its instructions. -/
def tail (p : Part) : List Byte :=
  put16 p.mac (num16 p.mac + BitVec.ofNat 16 p.chunkOffset) ++ p.header ++ p.body ++ (if p.chunkOffset > 0 then put16 p.nonce (num16 p.nonce - BitVec.ofNat 16 p.chunkOffset) else p.nonce)

theorem build_eq (instr : List Byte) (p : Part) : buildPacket instr p = instr ++ tail p := by
  simp only [buildPacket, tail, List.append_assoc]

theorem tail_length (p : Part) (h : Sized p) : (tail p).length = 1024 := by
  have : (if p.chunkOffset > 0 then put16 p.nonce (num16 p.nonce - BitVec.ofNat 16 p.chunkOffset) else p.nonce).length = 12 := by
    split
    · rw [put16_length, h.nonce]
    · exact h.nonce
  simp only [tail, List.length_append, put16_length, h.mac, h.header, h.body, this]

/-- Encrypting and decrypting gives the packet back, but for the mac of the link. -/
theorem open_close {K : Type} (c : Cipher K) (hc : Lawful c) (k : K) (pkt : List Byte) (hp : pkt.length = 1046) :
    ∃ m, m.length = 16 ∧ openLink c k (closeLink c k pkt) = some (m ++ pkt.drop 16) := by
  have h1 := hc.mac k (pkt.drop 1034) [] (slice 16 1018 pkt)
  have h2 := hc.length k (pkt.drop 1034) [] (slice 16 1018 pkt)
  have hs : (slice 16 1018 pkt).length = 1018 := by simp [slice, hp]
  have hi := hc.inverse k (pkt.drop 1034) [] (slice 16 1018 pkt)
  generalize hr : c.enc k (pkt.drop 1034) [] (slice 16 1018 pkt) = r at h1 h2 hi
  refine ⟨r.1, h1, ?_⟩
  have e : closeLink c k pkt = r.1 ++ r.2 ++ pkt.drop 1034 := by simp only [closeLink, hr]
  have e1 : (closeLink c k pkt).drop 1034 = pkt.drop 1034 := by
    rw [e]; exact drop_front _ _ _ (by rw [List.length_append]; omega)
  have e2 : (closeLink c k pkt).take 16 = r.1 := by
    rw [e, List.append_assoc]; exact take_front _ _ _ h1
  have e3 : slice 16 1018 (closeLink c k pkt) = r.2 := by
    rw [slice, e, List.append_assoc, drop_front _ _ _ h1]; exact take_front _ _ _ (by omega)
  rw [openLink, e1, e2, e3, hi]
  simp only [Option.map_some, slice, Option.some.injEq]
  rw [List.append_assoc]
  congr 1
  rw [show pkt.drop 1034 = (pkt.drop 16).drop 1018 by rw [List.drop_drop], List.take_append_drop]

theorem header_build (instr : List Byte) (p : Part) (h : Sized p) (hi : instr.length = 22) : (parsePacket (buildPacket instr p)).header = p.header := by
  simp only [parsePacket, slice, INSTR, MAC, HEADER]
  rw [build_eq, show (22 + 16 : Nat) = 22 + 16 from rfl, ← List.drop_drop, drop_front _ _ 22 hi, tail, List.append_assoc, List.append_assoc,
    drop_front _ _ 16 (by rw [put16_length, h.mac])]
  exact take_front _ _ _ h.header

theorem receive_close {K : Type} (c : Cipher K) (hc : Lawful c) (deadline : List Byte → Nat) (k : K) (now : Nat) (p : Part) (h : Sized p) (old sh : List Byte) (ho : old.length = 16)
    (hs : sh.length = 6) : ∃ m, m.length = 16 ∧ receive c deadline k now (closeLink c k (buildPacket (old ++ sh) p)) =
      if now > deadline p.header then none else some (buildPacket (m ++ sh) p) := by
  obtain ⟨m, h1, h2⟩ := open_close c hc k (buildPacket (old ++ sh) p) (by
    rw [build_eq, List.length_append, tail_length p h, List.length_append]; omega)
  have e : m ++ (buildPacket (old ++ sh) p).drop 16 = buildPacket (m ++ sh) p := by
    rw [build_eq, build_eq, List.append_assoc, drop_front _ _ _ ho, List.append_assoc]
  rw [e] at h2
  refine ⟨m, h1, ?_⟩
  have hx : expired deadline now (buildPacket (m ++ sh) p) = decide (now > deadline p.header) := by
    rw [expired, header_build _ _ h (by rw [List.length_append]; omega)]
  rw [receive, h2]
  simp only [hx, decide_eq_true_eq]

theorem stamp_build (m sq seq : List Byte) (hop hop' : BitVec 16) (p : Part) (hm : m.length = 16) (hs : sq.length = 4) :
    stamp seq hop' (buildPacket (m ++ (sq ++ bytes16 hop)) p) = buildPacket (m ++ (seq ++ bytes16 hop')) p ∧ hopOf (buildPacket (m ++ (sq ++ bytes16 hop)) p) = hop := by
  have hb := bytes16_length hop
  constructor
  · rw [stamp, build_eq, build_eq]
    rw [drop_front _ _ 22 (by simp only [List.length_append]; omega)]
    rw [List.append_assoc m, take_front _ _ 16 hm]
    simp only [List.append_assoc]
  · rw [hopOf, slice, build_eq, ← List.append_assoc m, List.append_assoc _ _ (tail p), drop_front _ _ 20 (by simp only [List.length_append]; omega), take_front _ _ 2 hb, num16_bytes16]

theorem way_ok {K : Type} (c : Cipher K) (hc : Lawful c) (deadline : List Byte → Nat) (p : Part) (h : Sized p) (last : Nat) : ∀ (l : List (Stop K)) (k : K) (old seq : List Byte)
    (hop : BitVec 16), old.length = 16 → seq.length = 4 → (∀ s ∈ l, s.seq.length = 4) →
    if (∀ s ∈ l, s.now ≤ deadline p.header) ∧ last ≤ deadline p.header then
      ∃ m sq, m.length = 16 ∧ sq.length = 4 ∧ way c deadline k (closeLink c k (buildPacket (old ++ (seq ++ bytes16 hop)) p)) last l =
        some (buildPacket (m ++ (sq ++ bytes16 (hop + BitVec.ofNat 16 l.length))) p)
    else way c deadline k (closeLink c k (buildPacket (old ++ (seq ++ bytes16 hop)) p)) last l = none := by
  intro l
  induction l with
  | nil =>
    intro k old seq hop ho hs _
    obtain ⟨m, h1, h2⟩ := receive_close c hc deadline k last p h old (seq ++ bytes16 hop) ho (by rw [List.length_append, bytes16_length]; omega)
    rw [way, h2]
    by_cases hd : last ≤ deadline p.header
    · rw [if_pos ⟨by simp, hd⟩, if_neg (by omega)]
      refine ⟨m, seq, h1, hs, ?_⟩
      simp
    · rw [if_neg (fun x => hd x.2), if_pos (by omega)]
  | cons s l ih =>
    intro k old seq hop ho hs hl
    obtain ⟨m, h1, h2⟩ := receive_close c hc deadline k s.now p h old (seq ++ bytes16 hop) ho (by rw [List.length_append, bytes16_length]; omega)
    rw [way, h2]
    by_cases hd : s.now ≤ deadline p.header
    · rw [if_neg (show ¬ s.now > deadline p.header by omega)]
      obtain ⟨e1, e2⟩ := stamp_build m seq s.seq hop (hop + 1) p h1 hs
      have := ih s.key m s.seq (hop + 1) h1 (hl s (List.mem_cons_self ..)) fun x hx => hl x (List.mem_cons_of_mem _ hx)
      simp only [forward, e2, e1]
      by_cases hq : (∀ s ∈ l, s.now ≤ deadline p.header) ∧ last ≤ deadline p.header
      · rw [if_pos hq] at this
        have hall : ∀ x ∈ s :: l, x.now ≤ deadline p.header := by
          intro x hx
          rcases List.mem_cons.1 hx with r | r
          · exact r ▸ hd
          · exact hq.1 x r
        rw [if_pos ⟨hall, hq.2⟩]
        obtain ⟨m', sq, a1, a2, a3⟩ := this
        refine ⟨m', sq, a1, a2, ?_⟩
        rw [a3]
        have : hop + 1 + BitVec.ofNat 16 l.length = hop + BitVec.ofNat 16 (s :: l).length := by
          rw [List.length_cons, BitVec.ofNat_add, BitVec.add_assoc, BitVec.add_comm (BitVec.ofNat 16 l.length)]
          rfl
        rw [this]
      · rw [if_neg hq] at this
        rw [if_neg (fun x => hq ⟨fun y hy => x.1 y (List.mem_cons_of_mem _ hy), x.2⟩)]
        exact this
    · rw [if_pos (show s.now > deadline p.header by omega), if_neg (fun x => hd (x.1 s (List.mem_cons_self ..)))]

theorem nonce_build (instr : List Byte) (p : Part) (h : Sized p) (hi : instr.length = 22) :
    nonceOf (buildPacket instr p) = if p.chunkOffset > 0 then put16 p.nonce (num16 p.nonce - BitVec.ofNat 16 p.chunkOffset) else p.nonce := by
  rw [nonceOf, buildPacket]
  exact drop_front _ _ _ (by simp only [List.length_append, put16_length, h.mac, h.header, h.body, hi])

theorem put16_drop (l : List Byte) (x : BitVec 16) : (put16 l x).drop 2 = l.drop 2 := by
  match l with
  | [] => rfl
  | [_] => rfl
  | _ :: _ :: _ => rfl

theorem packet_sized (m : Np.Chunk.Spec.Message) (w : m.WF) (i : Nat) (h : i < m.k) : Sized { mac := m.mac, header := m.header, body := (m.body.drop (900 * i)).take 900, nonce := m.nonce, chunkOffset := i } :=
  ⟨w.mac, w.header, body_length m w i h, w.nonce⟩

theorem nonce_packet (m : Np.Chunk.Spec.Message) (w : m.WF) (instr : List Byte) (hi : instr.length = 22) (i : Nat) (h : i < m.k) :
    nonceOf (m.packet instr i) = if i > 0 then put16 m.nonce (num16 m.nonce - BitVec.ofNat 16 i) else m.nonce :=
  nonce_build instr _ (packet_sized m w i h) hi

theorem nonce_drop (m : Np.Chunk.Spec.Message) (w : m.WF) (instr : List Byte) (hi : instr.length = 22) (i : Nat) (h : i < m.k) : (nonceOf (m.packet instr i)).drop 2 = m.nonce.drop 2 := by
  rw [nonce_packet m w instr hi i h]
  split
  · exact put16_drop _ _
  · rfl

theorem nonce_send {K : Type} (c : Cipher K) (hc : Lawful c) (k : K) (old seq : List Byte) (p : Part) (h : Sized p) (ho : old.length = 16) (hs : seq.length = 4) :
    nonceOf (send c k old seq p) = if p.chunkOffset > 0 then put16 p.nonce (num16 p.nonce - BitVec.ofNat 16 p.chunkOffset) else p.nonce := by
  have hi : (old ++ seq ++ bytes16 0).length = 22 := by simp only [List.length_append, bytes16_length]; omega
  rw [← nonce_build _ p h hi]
  have m := hc.mac k ((buildPacket (old ++ seq ++ bytes16 0) p).drop 1034) [] (slice 16 1018 (buildPacket (old ++ seq ++ bytes16 0) p))
  have g := hc.length k ((buildPacket (old ++ seq ++ bytes16 0) p).drop 1034) [] (slice 16 1018 (buildPacket (old ++ seq ++ bytes16 0) p))
  have hl : (slice 16 1018 (buildPacket (old ++ seq ++ bytes16 0) p)).length = 1018 := by
    rw [slice, List.length_take, List.length_drop, build_eq, List.length_append, tail_length p h]; omega
  rw [nonceOf, nonceOf, send, closeLink]
  exact drop_front _ _ _ (by rw [List.length_append]; omega)

theorem send_blob {K : Type} (c : Cipher K) (k : K) (old old' seq : List Byte) (p : Part) (ho : old.length = 16) (ho' : old'.length = 16) : send c k old seq p = send c k old' seq p := by
  have e : ∀ n, (buildPacket (old ++ seq ++ bytes16 0) p).drop (16 + n) = (buildPacket (old' ++ seq ++ bytes16 0) p).drop (16 + n) := by
    intro n
    rw [← List.drop_drop, ← List.drop_drop, build_eq, build_eq]
    simp only [List.append_assoc]
    rw [drop_front _ _ _ ho, drop_front _ _ _ ho']
  have e1 := e 1018
  have e2 := e 0
  simp only [Nat.add_zero, show 16 + 1018 = 1034 from rfl] at e1 e2
  simp only [send, closeLink, slice, e1, e2]

theorem put16_num16 (l : List Byte) : put16 l (num16 l) = l := by
  match l with
  | [] => rfl
  | [_] => rfl
  | a :: b :: r =>
    simp only [put16, num16]
    congr 1
    · ext i hi
      rw [BitVec.getElem_extractLsb']
      refine (BitVec.getLsbD_append (x := b) (y := a) (i := 0 + i)).trans ?_
      rw [Nat.zero_add, if_pos hi, BitVec.getLsbD_eq_getElem hi]
    · congr 1
      ext i hi
      rw [BitVec.getElem_extractLsb']
      refine (BitVec.getLsbD_append (x := b) (y := a) (i := 8 + i)).trans ?_
      rw [if_neg (by omega), Nat.add_sub_cancel_left, BitVec.getLsbD_eq_getElem hi]

/-- The packets of a message of the system: as many as its data needs, in the order of their offsets. -/
theorem system_wire {K : Type} (c : Cipher K) (k : K) (blob seq : Nat → List Byte) (old hdr data pad : List Byte) (ho : 28 ≤ old.length) (hh : hdr.length = 96) (hd : 1 ≤ data.length)
    (hd2 : data.length ≤ 64800) (hp : data.length + pad.length = (data.length + 899) / 900 * 900) :
    ∃ p ps, Sized p ∧ p.chunkOffset = 0 ∧ p.nonce = old.take 12 ∧ p.mac = slice 12 16 old ∧ serializeChunked (create old hdr data pad) = some (p :: ps) ∧
      wire c k blob seq (create old hdr data pad) = some (send c k (blob 0) (seq 0) p :: ps.map fun p => send c k (blob p.chunkOffset) (seq p.chunkOffset) p) := by
  have hn : (slice 0 12 old).length = 12 := by simp [slice]; omega
  have hm : (slice 12 16 old).length = 16 := by simp [slice]; omega
  obtain ⟨h1, h2⟩ := created_header (slice 0 12 old) (slice 12 16 old) hdr data pad hh
  have hk : (created (slice 0 12 old) (slice 12 16 old) hdr data pad).k = (data.length + 899) / 900 := by
    show calculateChunking _ = _
    rw [chunking_value]; omega
  have hbl : (created (slice 0 12 old) (slice 12 16 old) hdr data pad).body.length = 900 * (created (slice 0 12 old) (slice 12 16 old) hdr data pad).k := by
    rw [hk]; show (data ++ pad).length = _
    rw [List.length_append]; omega
  have hser : serializeChunked (create old hdr data pad) = some ((List.range (created (slice 0 12 old) (slice 12 16 old) hdr data pad).k).map fun i =>
      Part.mk (slice 12 16 old) (created (slice 0 12 old) (slice 12 16 old) hdr data pad).header
        (((created (slice 0 12 old) (slice 12 16 old) hdr data pad).body.drop (900 * i)).take 900) (slice 0 12 old) i) := by
    rw [create, created_binary, serialize_binary _ hn hm h1 _ h2 (by omega)]
    rfl
  obtain ⟨k', hk'⟩ : ∃ k', (data.length + 899) / 900 = k' + 1 := ⟨(data.length + 899) / 900 - 1, by omega⟩
  rw [hk, hk', List.range_succ_eq_map, List.map_cons] at hser
  have hb9 : (List.take 900 (List.drop (900 * 0) (created (slice 0 12 old) (slice 12 16 old) hdr data pad).body)).length = 900 := by
    rw [List.length_take, List.length_drop, hbl, hk]; omega
  refine ⟨_, _, ⟨hm, h1, hb9, hn⟩, rfl, ?_, rfl, hser, ?_⟩
  · show slice 0 12 old = _
    simp [slice]
  · rw [wire, hser]
    rfl

end Np.Hop
