import Verif.Hop.Lemmas
/-! # Properties C216–C218: the way of a packet from node to node -/
namespace Np.Hop
open Np.Chunk
open _root_.Np.Hop.Spec

/-- A cipher that satisfies the assumptions, for the examples. -/
def toy : Cipher Byte where
  enc k _ _ p := (List.replicate 16 k, p.map (· ^^^ k))
  dec k _ _ _ p := some (p.map (· ^^^ k))

theorem toy_lawful : Lawful toy where
  inverse k n a p := by
    simp only [toy, List.map_map, Option.some.injEq]
    conv => rhs; rw [← List.map_id p]
    apply List.map_congr_left
    intro b _
    simp only [Function.comp, id, BitVec.xor_assoc, BitVec.xor_self, BitVec.xor_zero]
  mac k n a p := by simp [toy]
  length k n a p := by simp [toy]

theorem toy_streams : Streams toy := ⟨fun k _ _ => k, fun k n a p i => by simp [toy]⟩

/-- C216: a packet that reaches every node in time arrives at the last one as it was sent, but for the instructions of the link; these show how many nodes have passed it
on, modulo 65536. -/
theorem C216_arrives {K : Type} (c : Cipher K) (hc : Lawful c) (deadline : List Byte → Nat) (p : Part) (h : Sized p) (k : K) (blob seq : List Byte) (hb : blob.length = 16)
    (hs : seq.length = 4) (l : List (Stop K)) (hl : ∀ s ∈ l, s.seq.length = 4) (last : Nat) (ht : ∀ s ∈ l, s.now ≤ deadline p.header) (ht2 : last ≤ deadline p.header) :
    ∃ instr : List Byte, instr.length = 22 ∧ way c deadline k (send c k blob seq p) last l = some (buildPacket instr p) ∧
      (hopOf (buildPacket instr p)).toNat = l.length % 65536 := by
  have := way_ok c hc deadline p h last l k blob seq 0 hb hs hl
  rw [if_pos ⟨ht, ht2⟩] at this
  obtain ⟨m, sq, h1, h2, h3⟩ := this
  refine ⟨m ++ (sq ++ bytes16 (0 + BitVec.ofNat 16 l.length)), ?_, ?_, ?_⟩
  · simp only [List.length_append, bytes16_length]; omega
  · rw [send, List.append_assoc]; exact h3
  · rw [(stamp_build m sq seq _ 0 p h1 h2).2]
    simp

/-- C216: and a packet that reaches a node too late does not arrive. -/
theorem C216_late {K : Type} (c : Cipher K) (hc : Lawful c) (deadline : List Byte → Nat) (p : Part) (h : Sized p) (k : K) (blob seq : List Byte) (hb : blob.length = 16)
    (hs : seq.length = 4) (l : List (Stop K)) (hl : ∀ s ∈ l, s.seq.length = 4) (last : Nat) (ht : (∃ s ∈ l, deadline p.header < s.now) ∨ deadline p.header < last) :
    way c deadline k (send c k blob seq p) last l = none := by
  have := way_ok c hc deadline p h last l k blob seq 0 hb hs hl
  rw [if_neg (by
    rintro ⟨a, b⟩
    rcases ht with ⟨s, m, g⟩ | g
    · have := a s m; omega
    · omega)] at this
  rw [send, List.append_assoc]
  exact this

/-- C216: a message whose packets take ways of their own, through any nodes and in any order, comes together at the last node byte for byte (with C19). -/
theorem C216_message {K : Type} (c : Cipher K) (hc : Lawful c) (deadline : List Byte → Nat) (m : Np.Chunk.Spec.Message) (w : m.WF) (order : List Nat) (ho : order.Perm (List.range m.k))
    (k : Nat → K) (blob seq : Nat → List Byte) (hb : ∀ i, (blob i).length = 16) (hs : ∀ i, (seq i).length = 4) (l : Nat → List (Stop K)) (hl : ∀ i, ∀ s ∈ l i, s.seq.length = 4)
    (last : Nat → Nat) (ht : ∀ i, ∀ s ∈ l i, s.now ≤ deadline m.header) (ht2 : ∀ i, last i ≤ deadline m.header) :
    ∃ (arrived : List (List Byte)) (n : Node) (os : List (Option (List Byte))),
      order.map (fun i => way c deadline (k i) (send c (k i) (blob i) (seq i) ⟨m.mac, m.header, (m.body.drop (900 * i)).take 900, m.nonce, i⟩) (last i) (l i)) = arrived.map some ∧
      receiveAll Node.init arrived = some (n, os) ∧ os = List.replicate (m.k - 1) none ++ [some m.binary] := by
  have hmem : ∀ i ∈ order, i < m.k := fun i hi => List.mem_range.1 (ho.mem_iff.1 hi)
  have key : ∀ i ∈ order, ∃ instr : List Byte, instr.length = 22 ∧
      way c deadline (k i) (send c (k i) (blob i) (seq i) ⟨m.mac, m.header, (m.body.drop (900 * i)).take 900, m.nonce, i⟩) (last i) (l i) = some (m.packet instr i) := by
    intro i hi
    obtain ⟨instr, a, b, _⟩ := C216_arrives c hc deadline _ (packet_sized m w i (hmem i hi)) (k i) (blob i) (seq i) (hb i) (hs i) (l i) (hl i) (last i) (ht i) (ht2 i)
    exact ⟨instr, a, b⟩
  have : ∃ f : Nat → List Byte, ∀ i ∈ order, (f i).length = 22 ∧
      way c deadline (k i) (send c (k i) (blob i) (seq i) ⟨m.mac, m.header, (m.body.drop (900 * i)).take 900, m.nonce, i⟩) (last i) (l i) = some (m.packet (f i) i) := by
    refine ⟨fun i => if hi : i ∈ order then (key i hi).choose else [], fun i hi => ?_⟩
    simp only [hi, dif_pos]
    exact (key i hi).choose_spec
  obtain ⟨f, hf⟩ := this
  have nd : order.Nodup := ho.symm.nodup List.nodup_range
  have hlen : order.length = m.k := by rw [ho.length_eq, List.length_range]
  obtain ⟨n, os, g1, g2, g3⟩ := C19_every_order [m] (by simpa using w) (by simp) (order.map fun i => ⟨0, i, f i⟩)
    (by
      intro a ha
      obtain ⟨i, hi, rfl⟩ := List.mem_map.1 ha
      exact ⟨(hf i hi).1, m, by simp, hmem i hi⟩)
    (by
      rw [List.map_map]
      exact nd.map (fun a b e => by simpa [Function.comp] using e))
  refine ⟨order.map fun i => m.packet (f i) i, n, os, ?_, ?_, ?_⟩
  · rw [List.map_map]
    exact List.map_congr_left fun i hi => (hf i hi).2
  · rw [← g1, List.map_map]
    congr 1
  · have hol : os.length = m.k := by rw [g2, List.length_map, hlen]
    have hpos := w.pos
    apply List.ext_getElem?
    intro t
    by_cases htk : t < m.k
    · have hto : t < order.length := by omega
      have := g3 t ⟨0, order[t], f order[t]⟩ m (by simp [List.getElem?_eq_getElem hto]) (by simp)
      rw [this]
      by_cases hlast : t = m.k - 1
      · have hC : Np.Chunk.Spec.Complete m.k 0 ((order.map fun i => (⟨0, i, f i⟩ : Np.Chunk.Spec.Arrival)).take (t + 1)) := by
          intro i hi
          rw [List.take_of_length_le (by rw [List.length_map]; omega)]
          exact ⟨⟨0, i, f i⟩, List.mem_map.2 ⟨i, ho.mem_iff.2 (List.mem_range.2 hi), rfl⟩, rfl, rfl⟩
        rw [if_pos hC, List.getElem?_append_right (by simp; omega)]
        simp [hlast]
      · have hC : ¬ Np.Chunk.Spec.Complete m.k 0 ((order.map fun i => (⟨0, i, f i⟩ : Np.Chunk.Spec.Arrival)).take (t + 1)) := by
          intro hC
          have hlt : t + 1 < order.length := by omega
          obtain ⟨a, ha, _, e⟩ := hC order[t + 1] (hmem _ (List.getElem_mem hlt))
          obtain ⟨s, hs⟩ := List.mem_iff_getElem?.1 ha
          rw [List.getElem?_take] at hs
          split at hs
          · next hst =>
            have hso : s < order.length := by omega
            rw [List.getElem?_map, List.getElem?_eq_getElem hso] at hs
            simp only [Option.map_some, Option.some.injEq] at hs
            rw [← hs] at e
            have := (List.Nodup.getElem_inj_iff nd).1 e
            omega
          · cases hs
        rw [if_neg hC, List.getElem?_append_left (by simp; omega), List.getElem?_replicate, if_pos (by omega)]
    · rw [List.getElem?_eq_none (by omega), List.getElem?_eq_none (by simp; omega)]

/-- The assumptions of C216 can be met: two nodes on the way. -/
example : Sized ⟨List.replicate 16 1, List.replicate 96 2, List.replicate 900 3, List.replicate 12 4, 0⟩ ∧
    (∀ s ∈ [(⟨5, 7, [0, 0, 0, 1]⟩ : Stop Byte), ⟨6, 8, [0, 0, 0, 2]⟩], s.seq.length = 4 ∧ s.now ≤ 10) ∧ Lawful toy :=
  ⟨⟨List.length_replicate .., List.length_replicate .., List.length_replicate .., List.length_replicate ..⟩, by simp, toy_lawful⟩

/-- C217, for messages of users, whose nonces are random: if the nonces of the messages differ in more than the first two bytes, no two packets that are sent for them are
encrypted under the same nonce. -/
theorem C217_distinct_partial (ms : List Np.Chunk.Spec.Message) (w : ∀ m ∈ ms, m.WF) (hd : ms.Pairwise fun a b => a.nonce.drop 2 ≠ b.nonce.drop 2) (instr : Nat → Nat → List Byte)
    (hi : ∀ i j, (instr i j).length = 22) : ((sent ms instr).map nonceOf).Nodup := by
  rw [sent, List.map_flatten, List.map_map, List.nodup_flatten]
  constructor
  · intro x hx
    obtain ⟨⟨m, j⟩, hm, rfl⟩ := List.mem_map.1 hx
    have hmw := w m (List.fst_mem_of_mem_zipIdx hm)
    simp only [Function.comp, List.map_map]
    rw [List.Nodup, List.pairwise_map]
    refine List.Pairwise.imp_of_mem ?_ (List.nodup_range (n := m.k))
    intro a b ha hb hne
    have e : ∀ i, i < m.k → nonceOf (m.packet (instr j i) i) = nonceOf (m.packet (instr 0 0) i) := by
      intro i h
      rw [nonce_packet m hmw _ (hi j i) i h, nonce_packet m hmw _ (hi 0 0) i h]
    simp only [Function.comp]
    rw [e a (List.mem_range.1 ha), e b (List.mem_range.1 hb)]
    exact C53_nonces_distinct m hmw (instr 0 0) (hi 0 0) a b (List.mem_range.1 ha) (List.mem_range.1 hb) hne
  · rw [List.pairwise_map]
    have hp : ms.zipIdx.Pairwise fun a b => a.1.nonce.drop 2 ≠ b.1.nonce.drop 2 := by
      have : (ms.zipIdx.map Prod.fst).Pairwise fun a b => a.nonce.drop 2 ≠ b.nonce.drop 2 := by rw [List.zipIdx_map_fst]; exact hd
      exact (List.pairwise_map (f := Prod.fst) (R := fun a b : Np.Chunk.Spec.Message => a.nonce.drop 2 ≠ b.nonce.drop 2)).1 this
    refine List.Pairwise.imp_of_mem ?_ hp
    intro a b ha hb hne x hxa hxb
    have haw := w a.1 (List.fst_mem_of_mem_zipIdx ha)
    have hbw := w b.1 (List.fst_mem_of_mem_zipIdx hb)
    simp only [Function.comp, List.map_map, List.mem_map, List.mem_range] at hxa hxb
    obtain ⟨i, h1, rfl⟩ := hxa
    obtain ⟨j, h2, h3⟩ := hxb
    apply hne
    rw [← nonce_drop a.1 haw _ (hi a.2 i) i h1, ← nonce_drop b.1 hbw _ (hi b.2 j) j h2, h3]

/-- C217 fails for the messages of the system: two messages that are made in memory with the same old content go out under the same nonce, whatever they say. -/
theorem C217_system_refuted {K : Type} (c : Cipher K) (hc : Lawful c) (k : K) (blob seq : Nat → List Byte) (hb : ∀ i, (blob i).length = 16) (hs : ∀ i, (seq i).length = 4)
    (old hdr data pad hdr' data' pad' : List Byte) (ho : 28 ≤ old.length)
    (hh : hdr.length = 96) (hd : 1 ≤ data.length) (hd2 : data.length ≤ 64800) (hp : data.length + pad.length = (data.length + 899) / 900 * 900)
    (hh' : hdr'.length = 96) (hd' : 1 ≤ data'.length) (hd2' : data'.length ≤ 64800) (hp' : data'.length + pad'.length = (data'.length + 899) / 900 * 900) :
    ∃ q qs q' qs', wire c k blob seq (create old hdr data pad) = some (q :: qs) ∧ wire c k blob seq (create old hdr' data' pad') = some (q' :: qs') ∧ nonceOf q = nonceOf q' := by
  obtain ⟨p, ps, a1, a2, a3, _, _, a4⟩ := system_wire c k blob seq old hdr data pad ho hh hd hd2 hp
  obtain ⟨p', ps', b1, b2, b3, _, _, b4⟩ := system_wire c k blob seq old hdr' data' pad' ho hh' hd' hd2' hp'
  refine ⟨_, _, _, _, a4, b4, ?_⟩
  rw [nonce_send c hc k _ _ p a1 (hb 0) (hs 0), nonce_send c hc k _ _ p' b1 (hb 0) (hs 0), a2, b2, a3, b3]

/-- What this means: from two packets on a link with the same nonce anyone learns, byte for byte, the sum of what they say. -/
theorem C217_leak_refuted {K : Type} (c : Cipher K) (hc : Lawful c) (hst : Streams c) (k : K) (a b : List Byte) (ha : a.length = 1046) (hb : b.length = 1046)
    (hn : nonceOf a = nonceOf b) (i : Nat) (h1 : 16 ≤ i) (h2 : i < 1034) :
    (closeLink c k a)[i]?.getD 0 ^^^ (closeLink c k b)[i]?.getD 0 = a[i]?.getD 0 ^^^ b[i]?.getD 0 := by
  obtain ⟨s, hs⟩ := hst
  have e : ∀ x : List Byte, x.length = 1046 → (closeLink c k x)[i]?.getD 0 = x[i]?.getD 0 ^^^ s k (nonceOf x) (i - 16) := by
    intro x hx
    have m := hc.mac k (x.drop 1034) [] (slice 16 1018 x)
    have g := hc.length k (x.drop 1034) [] (slice 16 1018 x)
    have hsl : (slice 16 1018 x).length = 1018 := by simp [slice, hx]
    simp only [closeLink, List.append_assoc]
    rw [List.getElem?_append_right (by omega), List.getElem?_append_left (by omega), m, hs]
    have : (slice 16 1018 x)[i - 16]? = x[i]? := by
      rw [slice, List.getElem?_take, if_pos (by omega), List.getElem?_drop]; congr 1; omega
    rw [this, List.getElem?_eq_getElem (by omega)]
    rfl
  rw [e a ha, e b hb, hn]
  generalize a[i]?.getD 0 = x
  generalize b[i]?.getD 0 = y
  generalize s k (nonceOf b) (i - 16) = z
  ext j hj
  simp only [BitVec.getElem_xor]
  cases x[j] <;> cases y[j] <;> cases z[j] <;> rfl

/-- C218, for messages of users: what goes out does not depend on what was in the memory before, neither that of the message nor that of the packets. -/
theorem C218_user_partial {K : Type} (c : Cipher K) (k e : K) (seq : Nat → List Byte) (rnd hdr data pad old old' : List Byte) (blob blob' : Nat → List Byte) (ho : 28 ≤ old.length)
    (ho' : 28 ≤ old'.length) (hb : ∀ i, (blob i).length = 16) (hb' : ∀ i, (blob' i).length = 16) :
    wire c k blob seq (encryptPayload c e rnd (create old hdr data pad)) = wire c k blob' seq (encryptPayload c e rnd (create old' hdr data pad)) := by
  have h1 : encryptPayload c e rnd (create old hdr data pad) = encryptPayload c e rnd (create old' hdr data pad) := by
    have g : ∀ o : List Byte, 28 ≤ o.length → ∀ r, (create o hdr data pad).drop (28 + r) = ((hdr.take PARTS_OFF ++ put16 (hdr.drop PARTS_OFF) (BitVec.ofNat 16
        (calculateChunking (binaryLength data.length)))) ++ data ++ pad).drop r := by
      intro o ho r
      rw [← List.drop_drop]
      congr 1
      simp only [create, Np.Chunk.create, List.append_assoc]
      rw [← List.append_assoc (slice 0 12 o)]
      exact drop_front _ _ _ (by simp [slice]; omega)
    simp only [encryptPayload, slice]
    rw [show (124 : Nat) = 28 + 96 from rfl, g old ho 96, g old' ho' 96, show (28 : Nat) = 28 + 0 from rfl, g old ho 0, g old' ho' 0]
  rw [h1, wire, wire]
  congr 1
  funext ps
  apply List.map_congr_left
  intro p _
  exact send_blob c k _ _ _ p (hb _) (hb' _)

/-- C218 fails for the messages of the system: the first packet of each shows the first twelve bytes of the old memory to anyone on the link; and if it is not encrypted
for the link (a handshake), also the sixteen bytes that follow. -/
theorem C218_system_refuted {K : Type} (c : Cipher K) (hc : Lawful c) (k : K) (blob seq : Nat → List Byte) (hb : ∀ i, (blob i).length = 16) (hs : ∀ i, (seq i).length = 4)
    (old hdr data pad : List Byte) (ho : 28 ≤ old.length) (hh : hdr.length = 96) (hd : 1 ≤ data.length) (hd2 : data.length ≤ 64800)
    (hp : data.length + pad.length = (data.length + 899) / 900 * 900) :
    (∃ q qs, wire c k blob seq (create old hdr data pad) = some (q :: qs) ∧ q.drop 1034 = old.take 12) ∧
    ∀ instr : List Byte, instr.length = 22 → ∃ q qs, packets instr (create old hdr data pad) = some (q :: qs) ∧ q.drop 1034 = old.take 12 ∧ slice 22 16 q = slice 12 16 old := by
  obtain ⟨p, ps, a1, a2, a3, a5, a6, a4⟩ := system_wire c k blob seq old hdr data pad ho hh hd hd2 hp
  constructor
  · refine ⟨_, _, a4, ?_⟩
    have := nonce_send c hc k _ _ p a1 (hb 0) (hs 0)
    rw [a2, if_neg (by omega), a3] at this
    exact this
  · intro instr hi
    refine ⟨buildPacket instr p, ps.map (buildPacket instr), ?_, ?_, ?_⟩
    · rw [packets, a6]; rfl
    · have := nonce_build instr p a1 hi
      rw [a2, if_neg (by omega), a3] at this
      exact this
    · rw [slice, build_eq, drop_front _ _ 22 hi, tail, List.append_assoc, List.append_assoc, take_front _ _ 16 (by rw [put16_length, a1.mac]), a2, ← a5]
      have : num16 p.mac + BitVec.ofNat 16 0 = num16 p.mac := by simp
      rw [this]
      exact put16_num16 _

/-- The assumptions of C217 and C218 can be met. -/
example : (∀ i : Nat, ((fun _ => List.replicate 16 0 : Nat → List Byte) i).length = 16) ∧ 28 ≤ (List.replicate 30 (7 : Byte)).length ∧ (List.replicate 96 (0 : Byte)).length = 96 ∧
    1 ≤ (List.replicate 50 (1 : Byte)).length ∧ (List.replicate 50 (1 : Byte)).length + (List.replicate 850 (2 : Byte)).length = ((List.replicate 50 (1 : Byte)).length + 899) / 900 * 900 ∧
    Lawful toy ∧ Streams toy := by
  simp only [List.length_replicate]
  simp [toy_lawful, toy_streams]

end Np.Hop
