import Verif.Chunk.Lemmas2
set_option linter.unusedSimpArgs false
set_option linter.unusedVariables false
/-! # Lemmas: memory safety with duplicates, chunking -/
namespace Np.Chunk
open Spec

/-- Every chunk stored lies in the table, not behind its place. -/
structure W (pk : Nat → Pkt) (n : Nat) (m : Msg) (lo : Nat) : Prop where
  len : m.chunks.length = n
  head : m.chunks[0]? = some (some (pk lo))
  pos : ∀ (p : Nat) (d : Pkt), m.chunks[p]? = some (some d) → ∃ j, j < n ∧ d = pk j ∧ p + lo ≤ j
  lon : lo < n

theorem W.shape {pk n m lo} (h : W pk n m lo) : ∃ rest, m.chunks = some (pk lo) :: rest := by
  have := h.head
  cases hc : m.chunks with
  | nil => rw [hc] at this; simp at this
  | cons x r => rw [hc] at this; simp at this; exact ⟨r, by rw [this]⟩

theorem w_set {pk n m lo} (h : W pk n m lo) (i cnt : Nat) (hlo : lo < i) (hn : i < n) :
    W pk n ⟨m.chunks.set (i - lo) (some (pk i)), cnt⟩ lo := by
  have hlt : i - lo < m.chunks.length := by rw [h.len]; omega
  refine ⟨by simp [h.len], ?_, ?_, h.lon⟩
  · simp only []; rw [List.getElem?_set_ne (by omega)]; exact h.head
  · intro p d hp
    simp only [] at hp
    by_cases hpe : p = i - lo
    · subst hpe
      rw [List.getElem?_set_self hlt] at hp
      simp at hp
      exact ⟨i, hn, hp.symm, by omega⟩
    · rw [List.getElem?_set_ne (by omega)] at hp
      exact h.pos p d hp

theorem wplace {pk n B} (F : Fam pk n B) (lo : Nat) : ∀ (f : Nat) (m : Msg) (i : Nat), W pk n m lo → lo < i →
    i < n → n - i < f → ∃ m' b, addChunk f m (pk i) = some (m', b) ∧ W pk n m' lo
  | 0, m, i, h, hlo, hn, hf => by omega
  | f + 1, m, i, h, hlo, hn, hf => by
    obtain ⟨rest, hr⟩ := h.shape
    have hctr := F.ctr i hn
    have hctr0 := F.ctr lo h.lon
    have hidx : (pk i).ctr - (pk lo).ctr = i - lo := by omega
    rw [addChunk_step f m (pk i) (pk lo) rest hr, if_neg (by omega), if_neg (by omega), hidx]
    have hlt : i - lo < m.chunks.length := by rw [h.len]; omega
    have hget : m.chunks[i - lo]? = some m.chunks[i - lo] := List.getElem?_eq_getElem hlt
    cases hs : m.chunks[i - lo] with
    | none =>
      rw [hs] at hget
      exact ⟨_, _, by rw [hget], w_set h i _ hlo hn⟩
    | some d =>
      rw [hs] at hget
      obtain ⟨j, hjn, rfl, hjp⟩ := h.pos _ d hget
      simp only [hget]
      by_cases hji : j = i
      · subst hji; rw [if_pos rfl]; exact ⟨_, _, rfl, h⟩
      · rw [if_neg (F.macNe hn hjn (Ne.symm hji))]
        obtain ⟨m', b, e1, e2⟩ := wplace F lo f _ j (w_set h i m.counter hlo hn) (by omega) hjn (by omega)
        exact ⟨m', true, by rw [e1]; rfl, e2⟩

theorem wadd {pk n B} (F : Fam pk n B) (m : Msg) (lo i : Nat) (h : W pk n m lo) (hn : i < n) :
    ∃ m' b lo', addChunk FUEL m (pk i) = some (m', b) ∧ W pk n m' lo' := by
  have hle := F.le
  obtain ⟨rest, hr⟩ := h.shape
  have hctr := F.ctr i hn
  have hctr0 := F.ctr lo h.lon
  rcases Nat.lt_trichotomy i lo with hl | hl | hl
  · have hw : W pk n { m with chunks := some (pk i) :: rest } i := by
      refine ⟨by have := h.len; rw [hr] at this; simpa using this, by simp, ?_, hn⟩
      intro p d hp
      cases p with
      | zero => simp at hp; exact ⟨i, hn, hp.symm, by omega⟩
      | succ p =>
        obtain ⟨j, h1, h2, h3⟩ := h.pos (p + 1) d (by rw [hr]; simpa using hp)
        exact ⟨j, h1, h2, by omega⟩
    obtain ⟨m', b, e1, e2⟩ := wplace F i (FUEL - 1) _ lo hw hl h.lon (by unfold FUEL; omega)
    refine ⟨m', true, i, ?_, e2⟩
    have : FUEL = (FUEL - 1) + 1 := rfl
    rw [this, addChunk_step _ m (pk i) (pk lo) rest hr, if_neg (by omega), if_pos (by omega), e1]
    rfl
  · subst hl
    refine ⟨m, false, i, ?_, h⟩
    show addChunk (65537 + 1) _ _ = _
    rw [addChunk_step _ m (pk i) (pk i) rest hr, if_pos rfl]
  · obtain ⟨m', b, e1, e2⟩ := wplace F lo FUEL m i h hl hn (by unfold FUEL; omega)
    exact ⟨m', b, lo, e1, e2⟩

theorem wfirst {pk n B} (F : Fam pk n B) (i : Nat) (hn : i < n) :
    ∃ m', addChunk FUEL Msg.new (pk i) = some (m', true) ∧ W pk n m' i := by
  obtain ⟨m', e1, e2, _⟩ := addFirst F i hn
  refine ⟨m', e1, e2.len, e2.head, ?_, hn⟩
  intro p d hp
  obtain ⟨j, _, h1, h2, h3⟩ := e2.slot F p d hp
  exact ⟨j, h2, h1, h3⟩

theorem find_finish_self (n : Node) (k : List Byte × List Byte) : (n.finish k).find k = none := by
  simp [Node.find, Node.finish]

def NW (ms : List Message) (n : Node) : Prop :=
  ∀ (j : Nat) (m : Message) (msg : Msg), ms[j]? = some m → n.find m.id = some msg → ∃ lo, W (pkt m) m.k msg lo

theorem nw_store {ms : List Message} {n : Node} (hids : (ms.map Message.id).Nodup) (h : NW ms n) (j : Nat) (m : Message) (hm : ms[j]? = some m)
    (msg : Msg) (lo : Nat) (hw : W (pkt m) m.k msg lo) : NW ms (n.store m.id msg) := by
  intro j' m' msg' hm' hf
  rw [find_store] at hf
  by_cases he : m'.id = m.id
  · rw [if_pos he] at hf; simp at hf; subst hf
    have h1 : (ms.map Message.id)[j]? = some m.id := by simp [hm]
    have h2 : (ms.map Message.id)[j']? = some m.id := by simp [hm', he]
    have hl := (List.getElem?_eq_some_iff.1 h1).1
    have : j = j' := (List.getElem?_inj hl hids).1 (h1.trans h2.symm)
    subst this
    rw [hm] at hm'; simp at hm'; subst hm'
    exact ⟨lo, hw⟩
  · rw [if_neg he] at hf; exact h j' m' msg' hm' hf

theorem nw_finish {ms : List Message} {n : Node} (h : NW ms n) (k : List Byte × List Byte) : NW ms (n.finish k) := by
  intro j' m' msg' hm' hf
  by_cases he : m'.id = k
  · rw [he, find_finish_self] at hf; cases hf
  · rw [find_finish _ _ _ he] at hf; exact h j' m' msg' hm' hf

theorem nw_step (ms : List Message) (wf : ∀ m ∈ ms, m.WF) (hids : (ms.map Message.id).Nodup) (n : Node) (a : Arrival) (hv : Valid ms a)
    (h : NW ms n) : ∃ n' o, receive n (bytesOf ms a) = some (n', o) ∧ NW ms n' := by
  obtain ⟨hin, m, hm, hch⟩ := hv
  have w := wf m (List.mem_of_getElem? hm)
  have F := fam m w
  have hparse : parsePacket (bytesOf ms a) = pkt m a.chunk := by
    simp only [bytesOf, hm]; exact parse_packet m w _ hin _ hch
  have hkey := pkt_key m a.chunk
  have hparts := pkt_parts m w a.chunk
  simp only [receive, hparse, checkMsgpartCache, hkey, hparts]
  split
  · exact ⟨_, _, rfl, h⟩
  · split
    · split
      · next msg hf =>
        obtain ⟨lo, hw⟩ := h _ m msg hm hf
        obtain ⟨m', b, lo', e1, e2⟩ := wadd F msg lo a.chunk hw hch
        rw [e1]
        simp only [Option.bind_eq_bind, Option.bind_some]
        split
        · exact ⟨_, _, rfl, nw_store hids h _ m hm m' lo' e2⟩
        · exact ⟨_, _, rfl, nw_finish h _⟩
      · obtain ⟨m', e1, e2⟩ := wfirst F a.chunk hch
        rw [e1]
        exact ⟨_, _, rfl, nw_store hids h _ m hm m' _ e2⟩
    · obtain ⟨m', e1, e2⟩ := wfirst F a.chunk hch
      rw [e1]
      exact ⟨_, _, rfl, h⟩

theorem nw_all (ms : List Message) (wf : ∀ m ∈ ms, m.WF) (hids : (ms.map Message.id).Nodup) :
    ∀ (as : List Arrival) (n : Node), (∀ a ∈ as, Valid ms a) → NW ms n → ∃ n' os, receiveAll n (as.map (bytesOf ms)) = some (n', os)
  | [], n, _, _ => ⟨_, _, rfl⟩
  | a :: as, n, hv, h => by
    obtain ⟨n1, o, e1, e2⟩ := nw_step ms wf hids n a (hv a (by simp)) h
    obtain ⟨n', os, g⟩ := nw_all ms wf hids as n1 (fun b hb => hv b (by simp [hb])) e2
    exact ⟨n', o :: os, by simp only [List.map_cons, receiveAll, e1, Option.bind_eq_bind, Option.bind_some, g]; rfl⟩

/-! ## Chunking -/

theorem slice_append_left (a b : List Byte) (off len : Nat) (h : off + len ≤ a.length) : slice off len (a ++ b) = slice off len a := by
  simp only [slice]
  rw [List.drop_append_of_le_length (by omega), List.take_append_of_le_length (by simp; omega)]

theorem binParts_binary (m : Message) (hn : m.nonce.length = 12) (hm : m.mac.length = 16) (hh : m.header.length = 96) :
    binParts m.binary = (num16 (m.header.drop 92)).toNat := by
  have e : slice (NONCE + MAC + PARTS_OFF) 2 m.binary = (m.header.drop 92).take 2 := by
    have h1 : m.binary = (m.nonce ++ m.mac ++ m.header.take 92) ++ (m.header.drop 92).take 2 ++ ((m.header.drop 94) ++ m.body) := by
      have h2 : m.header = m.header.take 92 ++ ((m.header.drop 92).take 2 ++ m.header.drop 94) := by
        have : m.header.drop 94 = (m.header.drop 92).drop 2 := by rw [List.drop_drop]
        rw [this, List.take_append_drop, List.take_append_drop]
      show m.nonce ++ m.mac ++ m.header ++ m.body = _
      conv => lhs; rw [h2]
      simp [List.append_assoc]
    rw [h1]
    apply slice_mid
    · simp [hn, hm, hh, NONCE, MAC, PARTS_OFF]
    · simp [hh]
  rw [binParts, e, num16_take]

theorem serialize_binary (m : Message) (hn : m.nonce.length = 12) (hm : m.mac.length = 16) (hh : m.header.length = 96) (k : Nat)
    (hk : (num16 (m.header.drop 92)).toNat = k) (hb : 900 * k ≤ m.body.length) :
    serializeChunked m.binary = some ((List.range k).map fun i =>
      { mac := m.mac, header := m.header, body := (m.body.drop (900 * i)).take 900, nonce := m.nonce, chunkOffset := i }) := by
  have hp := binParts_binary m hn hm hh
  have hl : m.binary.length = 124 + m.body.length := by simp [Message.binary, hn, hm, hh]; omega
  rw [serializeChunked, hp, hk, if_pos (by simp [FIXED, BODY, NONCE, MAC, HEADER]; omega)]
  congr 1
  apply List.map_congr_left
  intro i hi
  simp at hi
  have e1 : slice NONCE MAC m.binary = m.mac := by
    show slice 12 16 (m.nonce ++ m.mac ++ m.header ++ m.body) = _
    rw [List.append_assoc]; exact slice_mid _ _ _ _ _ hn hm
  have e2 : slice (NONCE + MAC) HEADER m.binary = m.header :=
    slice_mid (m.nonce ++ m.mac) m.header m.body _ _ (by simp [hn, hm, NONCE, MAC]) hh
  have e3 : slice (FIXED + BODY * i) BODY m.binary = (m.body.drop (900 * i)).take 900 := by
    show (List.take 900 (List.drop (124 + 900 * i) (m.nonce ++ m.mac ++ m.header ++ m.body))) = _
    have : 124 + 900 * i = (m.nonce ++ m.mac ++ m.header).length + 900 * i := by simp [hn, hm, hh]
    rw [this, List.drop_append, List.drop_of_length_le (by omega), Nat.add_sub_cancel_left]; rfl
  have e4 : slice 0 NONCE m.binary = m.nonce := by
    have := slice_mid [] m.nonce (m.mac ++ m.header ++ m.body) 0 12 rfl hn
    simpa [Message.binary, NONCE] using this
  rw [e1, e2, e3, e4]

/-- The message `_np_message_create` builds. -/
def created (nonce mac hdr data pad : List Byte) : Message :=
  { nonce, mac, header := hdr.take 92 ++ put16 (hdr.drop 92) (BitVec.ofNat 16 (calculateChunking (binaryLength data.length))),
    body := data ++ pad, k := calculateChunking (binaryLength data.length) }

theorem created_binary (nonce mac hdr data pad : List Byte) : create nonce mac hdr data pad = (created nonce mac hdr data pad).binary := by
  simp [create, created, Message.binary, PARTS_OFF]

theorem chunking_value (len : Nat) : calculateChunking (binaryLength len) = (len + 899) / 900 * 900 % 65536 / 900 := by
  have : binaryLength len = (len + 899) / 900 * 900 + 124 := by
    show (if len % 900 = 0 then len / 900 else len / 900 + 1) * 900 + 124 = _
    split <;> omega
  rw [this]
  show ((len + 899) / 900 * 900 + 124 - 124) % 65536 / 900 = _
  rw [Nat.add_sub_cancel]

theorem created_header (nonce mac hdr data pad : List Byte) (hh : hdr.length = 96) :
    (created nonce mac hdr data pad).header.length = 96 ∧
    (num16 ((created nonce mac hdr data pad).header.drop 92)).toNat = (created nonce mac hdr data pad).k := by
  have hl : (hdr.take 92).length = 92 := by simp [hh]
  constructor
  · simp [created, put16_length, hh]
  · have : (created nonce mac hdr data pad).header.drop 92 = put16 (hdr.drop 92) (BitVec.ofNat 16 (calculateChunking (binaryLength data.length))) := by
      show List.drop 92 (hdr.take 92 ++ _) = _
      rw [List.drop_append_of_le_length (by omega), List.drop_of_length_le (by omega)]; rfl
    rw [this, num16_put16 _ _ (by simp [hh]), BitVec.toNat_ofNat]
    show calculateChunking _ % 65536 = calculateChunking _
    rw [chunking_value]; omega

end Np.Chunk
