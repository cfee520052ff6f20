import Verif.Chunk.Lemmas3
/-! # C18, C19, C20, C52, C53: chunking and reassembly -/
namespace Np.Chunk
open Spec

/-- C18, proved part: for a serialized payload of up to 64800 bytes the message is cut into `⌈n / 900⌉` chunks of 900 bytes whose bodies, one
after the other, are the payload followed by the padding. Missing: longer payloads, for which the claim is false (`C18_large_refuted`). -/
theorem C18_covers_partial (nonce mac hdr data pad : List Byte) (hn : nonce.length = 12) (hm : mac.length = 16) (hh : hdr.length = 96)
    (hd : data.length ≤ 64800) (hp : data.length + pad.length = (data.length + 899) / 900 * 900) :
    ∃ ps, serializeChunked (create nonce mac hdr data pad) = some ps ∧ ps.length = (data.length + 899) / 900 ∧
      (∀ p ∈ ps, p.body.length = 900) ∧ ps.flatMap (fun p => p.body) = data ++ pad := by
  obtain ⟨h1, h2⟩ := created_header nonce mac hdr data pad hh
  have hk : (created nonce mac hdr data pad).k = (data.length + 899) / 900 := by
    show calculateChunking _ = _
    rw [chunking_value]; omega
  rw [hk] at h2
  have hbl : (created nonce mac hdr data pad).body.length = 900 * ((data.length + 899) / 900) := by
    show (data ++ pad).length = _
    rw [List.length_append]; omega
  rw [created_binary, serialize_binary _ hn hm h1 _ h2 (by omega)]
  refine ⟨_, rfl, by simp, ?_, ?_⟩
  · intro p hp
    simp only [List.mem_map, List.mem_range] at hp
    obtain ⟨i, hi, rfl⟩ := hp
    rw [List.length_take, List.length_drop, hbl]; omega
  · have := flatMap_slices (created nonce mac hdr data pad).body ((data.length + 899) / 900) 0 (by rw [hbl]; omega)
    rw [List.flatMap_map]
    simp only [Nat.zero_add, List.drop_zero] at this
    exact this

/-- C18 is violated for every payload of more than 64800 bytes: the length is cut to 16 bits, too few chunks are made (lines 150-156). -/
theorem C18_large_refuted (nonce mac hdr data pad : List Byte) (hn : nonce.length = 12) (hm : mac.length = 16) (hh : hdr.length = 96)
    (hd : 64800 < data.length) (hp : data.length + pad.length = (data.length + 899) / 900 * 900) :
    ∃ ps, serializeChunked (create nonce mac hdr data pad) = some ps ∧ (ps.flatMap (fun p => p.body)).length < data.length := by
  obtain ⟨h1, h2⟩ := created_header nonce mac hdr data pad hh
  have hk : (created nonce mac hdr data pad).k = (data.length + 899) / 900 * 900 % 65536 / 900 := by
    show calculateChunking _ = _
    rw [chunking_value]
  rw [hk] at h2
  have hbl : (created nonce mac hdr data pad).body.length = 900 * ((data.length + 899) / 900) := by
    show (data ++ pad).length = _
    rw [List.length_append]; omega
  rw [created_binary, serialize_binary _ hn hm h1 _ h2 (by omega)]
  refine ⟨_, rfl, ?_⟩
  rw [List.length_flatMap, List.map_map]
  have : ∀ (l : List Nat) (f : Nat → Nat), (∀ i, f i ≤ 900) → (l.map f).sum ≤ 900 * l.length := by
    intro l f hf
    induction l with
    | nil => simp
    | cons x l ih => simp; have := hf x; omega
  have h3 := this (List.range ((data.length + 899) / 900 * 900 % 65536 / 900))
    ((fun p => p.body.length) ∘ fun i => Part.mk mac (created nonce mac hdr data pad).header
      (((created nonce mac hdr data pad).body.drop (900 * i)).take 900) nonce i)
    (by intro i; simp only [Function.comp]; rw [List.length_take]; omega)
  rw [List.length_range] at h3
  refine Nat.lt_of_le_of_lt h3 ?_
  omega

/-- C18: the first payload sizes above the limit lose everything: no chunk is made at all. -/
theorem C18_nothing_sent_refuted (nonce mac hdr data pad : List Byte) (hn : nonce.length = 12) (hm : mac.length = 16) (hh : hdr.length = 96)
    (hd : 64800 < data.length) (hd2 : data.length ≤ 65700) :
    serializeChunked (create nonce mac hdr data pad) = some [] := by
  obtain ⟨h1, h2⟩ := created_header nonce mac hdr data pad hh
  have hk : (created nonce mac hdr data pad).k = 0 := by
    show calculateChunking _ = _
    rw [chunking_value]; omega
  rw [hk] at h2
  rw [created_binary, serialize_binary _ hn hm h1 _ h2 (by omega)]
  rfl

/-- C19, C20: messages made by the sender satisfy what the theorems below assume of a message, as long as the chunk counter fits; and what is sent
for a message are its packets. -/
theorem C19_sender (nonce mac hdr data pad instr : List Byte) (hn : nonce.length = 12) (hm : mac.length = 16) (hh : hdr.length = 96)
    (hd : 1 ≤ data.length) (hd2 : data.length ≤ 64800) (hp : data.length + pad.length = (data.length + 899) / 900 * 900)
    (hc : (num16 mac).toNat + (data.length + 899) / 900 ≤ 65536) :
    ∃ m : Message, m.WF ∧ m.binary = create nonce mac hdr data pad ∧ m.k = (data.length + 899) / 900 ∧
      packets instr m.binary = some ((List.range m.k).map (m.packet instr)) := by
  obtain ⟨h1, h2⟩ := created_header nonce mac hdr data pad hh
  have hk : (created nonce mac hdr data pad).k = (data.length + 899) / 900 := by
    show calculateChunking _ = _
    rw [chunking_value]; omega
  have hbl : (created nonce mac hdr data pad).body.length = 900 * (created nonce mac hdr data pad).k := by
    rw [hk]; show (data ++ pad).length = _
    rw [List.length_append]; omega
  refine ⟨created nonce mac hdr data pad, ⟨hn, hm, h1, hbl, by rw [hk]; omega, h2, by rw [hk]; exact hc⟩, (created_binary ..).symm, hk, ?_⟩
  rw [packets, serialize_binary _ hn hm h1 _ h2 (by omega)]
  simp only [Option.map_some, List.map_map]
  rfl

/-- C19: any number of messages, their packets arriving once each, interleaved in any order: at every arrival the message the packet belongs to
is handed on exactly if this was its last missing packet, and what is handed on is the message byte for byte. -/
theorem C19_every_order (ms : List Message) (wf : ∀ m ∈ ms, m.WF) (ids : (ms.map Message.id).Nodup) (as : List Arrival)
    (valid : ∀ a ∈ as, a.instr.length = 22 ∧ ∃ m, ms[a.msg]? = some m ∧ a.chunk < m.k)
    (once : (as.map fun a => (a.msg, a.chunk)).Nodup) :
    ∃ n os, receiveAll Node.init (as.map (bytesOf ms)) = some (n, os) ∧ os.length = as.length ∧
      ∀ (t : Nat) (a : Arrival) (m : Message), as[t]? = some a → ms[a.msg]? = some m →
        os[t]? = some (if Complete m.k a.msg (as.take (t + 1)) then some m.binary else none) := by
  have hnew : ∀ (t : Nat) (a : Arrival), as[t]? = some a → ∀ b ∈ as.take t, ¬ (b.msg = a.msg ∧ b.chunk = a.chunk) := by
    intro t a ha b hb ⟨e1, e2⟩
    obtain ⟨s, hs⟩ := List.mem_iff_getElem?.1 hb
    rw [List.getElem?_take] at hs
    split at hs
    · next hlt =>
      have h1 : (as.map fun a => (a.msg, a.chunk))[s]? = some (a.msg, a.chunk) := by simp [hs, e1, e2]
      have h2 : (as.map fun a => (a.msg, a.chunk))[t]? = some (a.msg, a.chunk) := by simp [ha]
      have : s = t := (List.getElem?_inj (List.getElem?_eq_some_iff.1 h1).1 once).1 (h1.trans h2.symm)
      omega
    · cases hs
  obtain ⟨n, os, g1, g2, g3⟩ := receive_all False ms wf ids as [] Node.init valid (ninv_init _ ms wf) (by intro t a _ hE; exact hE.elim)
    (fun t a ha => Or.inr (by simpa using hnew t a ha))
  refine ⟨n, os, g1, g2, ?_⟩
  intro t a m ha hm
  rw [g3 t a m ha hm]
  simp only [List.nil_append]
  congr 1
  have hnc : ¬ Complete m.k a.msg (as.take t) := by
    intro hc
    obtain ⟨m', hm', hlt⟩ := (valid a (List.mem_of_getElem? ha)).2
    rw [hm] at hm'; simp at hm'; subst hm'
    obtain ⟨b, hb, h1, h2⟩ := hc a.chunk hlt
    exact hnew t a ha b hb ⟨h1, h2⟩
  simp [hnc]

/-- Where the counter starts and how many chunks the message of the refutations has; all other bytes are zero except the bodies. -/
def sample (start k : Nat) : Message :=
  { nonce := List.replicate 12 0, mac := put16 (List.replicate 16 0) (BitVec.ofNat 16 start),
    header := List.replicate 92 0 ++ put16 [0, 0] (BitVec.ofNat 16 k) ++ [0, 0],
    body := (List.range k).flatMap fun i => List.replicate 900 (BitVec.ofNat 8 i), k := k }

def sampleArrivals (l : List Nat) : List Arrival := l.map fun i => ⟨0, i, List.replicate 22 0⟩

/-- C19 without the bound on the chunk counter is violated: if the random start value plus the number of chunks exceeds 65536, a chunk wraps to
a small counter, becomes the base, and the old base is written far outside the chunk table (lines 229-245, 259, 294). -/
theorem C19_counter_wrap_refuted : receiveAll Node.init ((sampleArrivals [0, 1]).map (bytesOf [sample 65535 2])) = none := by
  decide +kernel

/-- C20, proved part: duplicates in any number and at any time do no harm provided that the first packet to arrive of each message is its
first chunk: a message is handed on exactly once, exactly when its last missing chunk arrives, and unchanged. Missing: duplicates after
a later chunk came first (`C20_refuted`). -/
theorem C20_duplicates_partial (ms : List Message) (wf : ∀ m ∈ ms, m.WF) (ids : (ms.map Message.id).Nodup) (as : List Arrival)
    (valid : ∀ a ∈ as, a.instr.length = 22 ∧ ∃ m, ms[a.msg]? = some m ∧ a.chunk < m.k)
    (first : ∀ (t : Nat) (a : Arrival), as[t]? = some a → (∀ b ∈ as.take t, b.msg ≠ a.msg) → a.chunk = 0) :
    ∃ n os, receiveAll Node.init (as.map (bytesOf ms)) = some (n, os) ∧ os.length = as.length ∧
      ∀ (t : Nat) (a : Arrival) (m : Message), as[t]? = some a → ms[a.msg]? = some m →
        os[t]? = some (if Complete m.k a.msg (as.take (t + 1)) ∧ ¬ Complete m.k a.msg (as.take t) then some m.binary else none) := by
  obtain ⟨n, os, g1, g2, g3⟩ := receive_all True ms wf ids as [] Node.init valid (ninv_init _ ms wf)
    (fun t a ha _ hb => first t a ha (by simpa using hb)) (fun _ _ _ => Or.inl trivial)
  refine ⟨n, os, g1, g2, ?_⟩
  intro t a m ha hm
  rw [g3 t a m ha hm]; simp

/-- C20 is violated: chunks 2, 3, 0, 3 of a message with 4 chunks complete it although chunk 1 never arrived; chunk 3 is counted twice, once at a
place it got before the base changed. What is handed on is not the message, and chunk 1 is discarded afterwards. -/
theorem C20_refuted : ∃ n b, receiveAll Node.init ((sampleArrivals [2, 3, 0, 3, 1]).map (bytesOf [sample 0 4])) =
    some (n, [none, none, none, some b, none]) ∧ b ≠ (sample 0 4).binary := by
  have h : (receiveAll Node.init ((sampleArrivals [2, 3, 0, 3, 1]).map (bytesOf [sample 0 4]))).map (fun r => r.2) =
      some [none, none, none, some ((sample 0 4).nonce ++ (sample 0 4).mac ++ (sample 0 4).header ++
        (List.replicate 900 0 ++ List.replicate 900 3 ++ List.replicate 900 2 ++ List.replicate 900 3)), none] := by decide +kernel
  cases hr : receiveAll Node.init ((sampleArrivals [2, 3, 0, 3, 1]).map (bytesOf [sample 0 4])) with
  | none => rw [hr] at h; cases h
  | some r =>
    rw [hr] at h
    simp only [Option.map_some, Option.some.injEq] at h
    refine ⟨r.1, _, by rw [← h], ?_⟩
    decide +kernel

/-- C52, proved part: whatever packets of well-formed messages arrive, in any order and with any repetition, reassembly stays inside its chunk
tables and terminates. Missing: packets not made by a correct sender (`C52_memory_safe_refuted`) and a wrapping chunk counter. -/
theorem C52_memory_safe_partial (ms : List Message) (wf : ∀ m ∈ ms, m.WF) (ids : (ms.map Message.id).Nodup) (as : List Arrival)
    (valid : ∀ a ∈ as, a.instr.length = 22 ∧ ∃ m, ms[a.msg]? = some m ∧ a.chunk < m.k) :
    receiveAll Node.init (as.map (bytesOf ms)) ≠ none := by
  obtain ⟨n, os, h⟩ := nw_all ms wf ids as Node.init valid (by intro j m msg _ hf; cases hf)
  rw [h]; simp

/-- C52 is violated: two packets of the right size, the first announcing two chunks, the second with a counter five higher, write outside the
chunk table (no check at lines 259, 294); so does a single packet announcing zero chunks (lines 185-187). -/
theorem C52_memory_safe_refuted :
    (¬ ∀ bufs : List (List Byte), (∀ b ∈ bufs, b.length = 1046) → receiveAll Node.init bufs ≠ none) ∧
    (∃ b : List Byte, b.length = 1046 ∧ receiveAll Node.init [b] = none) := by
  constructor
  · intro h
    apply h [(sample 0 2).packet (List.replicate 22 0) 0, (sample 5 2).packet (List.replicate 22 0) 0]
    · decide +kernel
    · decide +kernel
  · exact ⟨List.replicate 1046 0, by decide +kernel, by decide +kernel⟩

/-- C53: no two packets of a message carry the same nonce. -/
theorem C53_nonces_distinct (m : Message) (wf : m.WF) (instr : List Byte) (hi : instr.length = 22) (i j : Nat) (h1 : i < m.k) (h2 : j < m.k)
    (hne : i ≠ j) : (m.packet instr i).drop 1034 ≠ (m.packet instr j).drop 1034 := by
  have hk := k_le m wf
  have hlen : ∀ i, i < m.k → (instr ++ put16 m.mac (num16 m.mac + BitVec.ofNat 16 i) ++ m.header ++ (m.body.drop (900 * i)).take 900).length = 1034 := by
    intro i h
    simp only [List.length_append, put16_length, wf.mac, wf.header, body_length m wf i h, hi]
  have hd : ∀ i, i < m.k → (m.packet instr i).drop 1034 =
      if i > 0 then put16 m.nonce (num16 m.nonce - BitVec.ofNat 16 i) else m.nonce := by
    intro i h
    simp only [Message.packet, buildPacket]
    rw [← hlen i h, List.drop_append_of_le_length (Nat.le_refl _), List.drop_of_length_le (Nat.le_refl _)]
    rfl
  have hnum : ∀ i, i < m.k → num16 ((m.packet instr i).drop 1034) = num16 m.nonce - BitVec.ofNat 16 i := by
    intro i h
    rw [hd i h]
    split
    · rw [num16_put16 _ _ (by rw [wf.nonce]; omega)]
    · have : i = 0 := by omega
      subst this; simp
  intro e
  have := hnum i h1
  rw [e, hnum j h2] at this
  have h4 := congrArg BitVec.toNat this
  simp only [BitVec.toNat_ofNat, BitVec.toNat_sub] at h4
  have := (num16 m.nonce).isLt
  omega

example : (sample 7 3).WF := ⟨by decide, by decide, by decide, by decide +kernel, by decide, by decide +kernel, by decide +kernel⟩
example : ((receiveAll Node.init ((sampleArrivals [2, 0, 1]).map (bytesOf [sample 7 3]))).map fun r => r.2) =
    some [none, none, some (sample 7 3).binary] := by decide +kernel
example : ((receiveAll Node.init ((sampleArrivals [0, 2, 2, 0, 1, 1]).map (bytesOf [sample 7 3]))).map fun r => r.2) =
    some [none, none, none, none, some (sample 7 3).binary, none] := by decide +kernel

end Np.Chunk
