import Verif.Chunk.Lemmas
set_option linter.unusedSimpArgs false
set_option linter.unusedVariables false
/-! # Lemmas on packets as bytes and on the reassembly cache -/
namespace Np.Chunk
open Spec

/-! ## Bytes -/

theorem slice_mid (a b c : List Byte) (off len : Nat) (h1 : a.length = off) (h2 : b.length = len) : slice off len (a ++ b ++ c) = b := by
  subst h1; subst h2; simp [slice]

theorem num16_put16 (l : List Byte) (x : BitVec 16) (h : 2 ≤ l.length) : num16 (put16 l x) = x := by
  match l, h with
  | a :: b :: r, _ =>
    simp only [put16, num16]
    ext i hi
    simp only [BitVec.getElem_append, BitVec.getElem_extractLsb']
    split
    · rw [BitVec.getLsbD_eq_getElem (by omega)]; simp
    · rw [BitVec.getLsbD_eq_getElem (by omega)]; congr 1; omega

theorem put16_num16 (l : List Byte) : put16 l (num16 l) = l := by
  match l with
  | [] => rfl
  | [a] => rfl
  | a :: b :: r =>
    simp only [put16, num16]
    congr 1
    · ext i hi
      rw [BitVec.getElem_extractLsb', BitVec.getLsbD_append, if_pos (by omega)]; simp [BitVec.getLsbD_eq_getElem hi]
    · congr 1
      ext i hi
      rw [BitVec.getElem_extractLsb', BitVec.getLsbD_append, if_neg (by omega)]
      simp [BitVec.getLsbD_eq_getElem hi]

theorem put16_length (l : List Byte) (x : BitVec 16) : (put16 l x).length = l.length := by
  match l with
  | [] => rfl
  | [a] => rfl
  | a :: b :: r => rfl

theorem put16_drop (l : List Byte) (x : BitVec 16) : (put16 l x).drop 2 = l.drop 2 := by
  match l with
  | [] => rfl
  | [a] => rfl
  | a :: b :: r => rfl

theorem num16_take (l : List Byte) : num16 (l.take 2) = num16 l := by
  match l with
  | [] => rfl
  | [a] => rfl
  | a :: b :: r => rfl

/-! ## Packets -/

/-- Packet `i` of a message as received. -/
def pkt (m : Message) (i : Nat) : Pkt :=
  { mac := put16 m.mac (num16 m.mac + BitVec.ofNat 16 i), header := m.header, body := (m.body.drop (900 * i)).take 900,
    nonce := if i > 0 then put16 m.nonce (num16 m.nonce - BitVec.ofNat 16 i) else m.nonce }

theorem body_length (m : Message) (w : m.WF) (i : Nat) (h : i < m.k) : ((m.body.drop (900 * i)).take 900).length = 900 := by
  have := w.body; simp; omega

theorem parse_packet (m : Message) (w : m.WF) (instr : List Byte) (hi : instr.length = 22) (i : Nat) (h : i < m.k) :
    parsePacket (m.packet instr i) = pkt m i := by
  have hb := body_length m w i h
  have hm : (put16 m.mac (num16 m.mac + BitVec.ofNat 16 i)).length = 16 := by rw [put16_length, w.mac]
  have hh := w.header
  have hn : (if i > 0 then put16 m.nonce (num16 m.nonce - BitVec.ofNat 16 i) else m.nonce).length = 12 := by
    split
    · rw [put16_length, w.nonce]
    · exact w.nonce
  simp only [parsePacket, Message.packet, buildPacket, pkt, Pkt.mk.injEq]
  refine ⟨?_, ?_, ?_, ?_⟩
  · rw [List.append_assoc, List.append_assoc]
    exact slice_mid _ _ _ _ _ hi hm
  · rw [List.append_assoc]
    refine slice_mid _ _ _ _ _ ?_ hh
    rw [List.length_append, hi, hm]; rfl
  · refine slice_mid _ _ _ _ _ ?_ hb
    rw [List.length_append, List.length_append, hi, hm, hh]; rfl
  · have := slice_mid (instr ++ put16 m.mac (num16 m.mac + BitVec.ofNat 16 i) ++ m.header ++ (m.body.drop (900 * i)).take 900)
      (if i > 0 then put16 m.nonce (num16 m.nonce - BitVec.ofNat 16 i) else m.nonce) [] (INSTR + MAC + HEADER + BODY) NONCE
      (by rw [List.length_append, List.length_append, List.length_append, hi, hm, hh, hb]; rfl) hn
    rw [List.append_nil] at this
    exact this

theorem k_le (m : Message) (w : m.WF) : m.k ≤ 65535 := by
  have := w.parts
  have h2 := (num16 (m.header.drop 92)).isLt
  omega

theorem pkt_parts (m : Message) (w : m.WF) (i : Nat) : (pkt m i).parts = m.k := by
  have h := w.parts
  show (num16 ((m.header.drop 92).take 2)).toNat = m.k
  rw [num16_take]; exact h

theorem fam (m : Message) (w : m.WF) : Fam (pkt m) m.k m.start where
  ctr i hi := by
    have := w.fits
    simp only [Pkt.ctr, pkt]
    rw [num16_put16 _ _ (by rw [w.mac]; omega), BitVec.toNat_add, BitVec.toNat_ofNat]
    simp only [Message.start] at this ⊢
    omega
  parts i _ := pkt_parts m w i
  pos := w.pos
  le := k_le m w

theorem pkt_key (m : Message) (i : Nat) : (pkt m i).key = m.id := by
  simp only [Pkt.key, pkt, Message.id, put16_drop, slice]

theorem flatMap_slices (b : List Byte) : ∀ (k off : Nat), b.length = off + 900 * k →
    ((List.range k).flatMap fun i => (b.drop (off + 900 * i)).take 900) = b.drop off
  | 0, off, h => by
    simp
    omega
  | k + 1, off, h => by
    rw [List.range_succ_eq_map, List.flatMap_cons, List.flatMap_map]
    have ih := flatMap_slices b k (off + 900) (by omega)
    have e : (fun i => (b.drop (off + 900 * Nat.succ i)).take 900) = fun i => (b.drop (off + 900 + 900 * i)).take 900 := by
      funext i; congr 2; omega
    simp only [Nat.succ_eq_add_one] at e ⊢
    rw [e, ih]
    simp only [Nat.mul_zero, Nat.add_zero]
    have : b.drop (off + 900) = (b.drop off).drop 900 := by rw [List.drop_drop]
    rw [this, List.take_append_drop]

theorem full_binary (m : Message) (w : m.WF) (msg : Msg) (S : List Nat) (lo : Nat) (h : Inv (pkt m) m.k msg S lo) (hl : S.length = m.k) :
    deserializeChunks msg = some m.binary ∧ msg.counter = msg.parts := by
  have hf := full (fam m w) h hl
  obtain ⟨e1, e2⟩ := deserialize_full (fam m w) msg hf
  refine ⟨?_, by rw [h.cnt, e2, hl]⟩
  rw [e1]
  have : (List.range m.k).flatMap (fun i => (pkt m i).body) = m.body := by
    have := flatMap_slices m.body m.k 0 (by rw [w.body]; omega)
    simpa [pkt] using this
  rw [this]
  simp [pkt, Message.binary, put16_num16]

theorem all_mem (n : Nat) (S : List Nat) (nd : S.Nodup) (lt : ∀ i ∈ S, i < n) : (∀ i, i < n → i ∈ S) ↔ S.length = n := by
  have hs : S.Subset (List.range n) := fun i hi => by simpa using lt i hi
  have hle := (nd.subperm hs).length_le
  simp at hle
  constructor
  · intro h
    have : (List.range n).Subset S := fun i hi => h i (by simpa using hi)
    have := (List.nodup_range.subperm this).length_le
    simp at this; omega
  · intro h i hi
    have hp : S.Perm (List.range n) := (nd.subperm hs).perm_of_length_le (by simp [h])
    rw [hp.mem_iff]; simpa using hi

/-! ## The cache -/

theorem find_store (n : Node) (k k' : List Byte × List Byte) (m : Msg) :
    (n.store k m).find k' = if k' = k then some m else n.find k' := by
  simp only [Node.find, Node.store, List.find?_cons]
  by_cases h : k' = k
  · subst h; simp
  · have h' : (k == k') = false := by simp; exact fun e => h e.symm
    rw [h', if_neg h]
    simp only []
    congr 1
    induction n.cache with
    | nil => rfl
    | cons e l ih =>
      simp only [List.filter_cons, List.find?_cons]
      by_cases he : e.1 = k
      · have : (e.1 == k') = false := by rw [he]; exact h'
        simp [he, this, ih, h']
      · simp [he]
        rw [List.find?_cons]
        cases e.1 == k' <;> simp [ih]

theorem find_finish (n : Node) (k k' : List Byte × List Byte) (h : k' ≠ k) : (n.finish k).find k' = n.find k' := by
  simp only [Node.find, Node.finish]
  congr 1
  have h' : (k == k') = false := by simp; exact fun e => h e.symm
  induction n.cache with
  | nil => rfl
  | cons e l ih =>
    simp only [List.filter_cons, List.find?_cons]
    by_cases he : e.1 = k
    · have : (e.1 == k') = false := by rw [he]; exact h'
      simp [he, this, ih, h']
    · simp [he]
      rw [List.find?_cons]
      cases e.1 == k' <;> simp [ih]

/-! ## Many messages -/

/-- The arrival is a packet of one of the messages. -/
def Valid (ms : List Message) (a : Arrival) : Prop := a.instr.length = 22 ∧ ∃ m, ms[a.msg]? = some m ∧ a.chunk < m.k

def NInv (E : Prop) (ms : List Message) (done : List Arrival) (n : Node) : Prop :=
  ∀ (j : Nat) (m : Message), ms[j]? = some m →
    (Complete m.k j done ∧ m.id ∈ n.seen) ∨
    (¬ Complete m.k j done ∧ m.id ∉ n.seen ∧ (∀ a ∈ done, a.msg ≠ j) ∧ n.find m.id = none) ∨
    (¬ Complete m.k j done ∧ m.id ∉ n.seen ∧ ∃ msg S lo, n.find m.id = some msg ∧ Inv (pkt m) m.k msg S lo ∧
      (∀ i, i ∈ S ↔ ∃ a ∈ done, a.msg = j ∧ a.chunk = i) ∧ (E → lo = 0 ∧ Exact (pkt m) m.k msg))

theorem complete_other (k j : Nat) (done : List Arrival) (a : Arrival) (h : a.msg ≠ j) : Complete k j (done ++ [a]) ↔ Complete k j done := by
  constructor
  · intro hc i hi
    obtain ⟨b, hb, h1, h2⟩ := hc i hi
    rcases List.mem_append.1 hb with hb | hb
    · exact ⟨b, hb, h1, h2⟩
    · simp at hb; subst hb; exact absurd h1 h
  · intro hc i hi
    obtain ⟨b, hb, h1, h2⟩ := hc i hi
    exact ⟨b, by simp [hb], h1, h2⟩

theorem ninv_other (E : Prop) (ms : List Message) (done : List Arrival) (n n' : Node) (a : Arrival) (m : Message) (hm : ms[a.msg]? = some m)
    (hids : (ms.map Message.id).Nodup) (h : NInv E ms done n)
    (hfind : ∀ k, k ≠ m.id → n'.find k = n.find k) (hseen : ∀ k, k ≠ m.id → (k ∈ n'.seen ↔ k ∈ n.seen))
    (hself : (Complete m.k a.msg (done ++ [a]) ∧ m.id ∈ n'.seen) ∨
      (¬ Complete m.k a.msg (done ++ [a]) ∧ m.id ∉ n'.seen ∧ ∃ msg S lo, n'.find m.id = some msg ∧ Inv (pkt m) m.k msg S lo ∧
      (∀ i, i ∈ S ↔ ∃ b ∈ done ++ [a], b.msg = a.msg ∧ b.chunk = i) ∧ (E → lo = 0 ∧ Exact (pkt m) m.k msg))) :
    NInv E ms (done ++ [a]) n' := by
  intro j m' hm'
  by_cases hj : a.msg = j
  · subst hj
    rw [hm] at hm'; simp at hm'; subst hm'
    rcases hself with h1 | h1
    · exact Or.inl h1
    · exact Or.inr (Or.inr h1)
  · have hne : m'.id ≠ m.id := by
      intro e
      apply hj
      have h1 : (ms.map Message.id)[a.msg]? = some m.id := by simp [hm]
      have h2 : (ms.map Message.id)[j]? = some m.id := by simp [hm', e]
      have hl := (List.getElem?_eq_some_iff.1 h1).1
      exact (List.getElem?_inj hl hids).1 (by rw [h1, h2])
    rw [complete_other _ _ _ _ hj, hfind _ hne, hseen _ hne]
    have hmem : ∀ i, (∃ b ∈ done ++ [a], b.msg = j ∧ b.chunk = i) ↔ ∃ b ∈ done, b.msg = j ∧ b.chunk = i := by
      intro i
      constructor
      · rintro ⟨b, hb, h1, h2⟩
        rcases List.mem_append.1 hb with hb | hb
        · exact ⟨b, hb, h1, h2⟩
        · simp at hb; subst hb; exact absurd h1 hj
      · rintro ⟨b, hb, h1, h2⟩; exact ⟨b, by simp [hb], h1, h2⟩
    rcases h j m' hm' with h1 | ⟨h1, h2, h3, h4⟩ | ⟨h1, h2, msg, S, lo, h3, h4, h5, h6⟩
    · exact Or.inl h1
    · refine Or.inr (Or.inl ⟨h1, h2, ?_, h4⟩)
      intro b hb
      rcases List.mem_append.1 hb with hb | hb
      · exact h3 b hb
      · simp at hb; subst hb; exact hj
    · exact Or.inr (Or.inr ⟨h1, h2, msg, S, lo, h3, h4, fun i => (h5 i).trans (hmem i).symm, h6⟩)

theorem node_step (E : Prop) (ms : List Message) (wf : ∀ m ∈ ms, m.WF) (hids : (ms.map Message.id).Nodup) (done : List Arrival) (n : Node)
    (a : Arrival) (hv : Valid ms a) (h : NInv E ms done n)
    (hfirst : E → (∀ b ∈ done, b.msg ≠ a.msg) → a.chunk = 0)
    (hnew : E ∨ ∀ b ∈ done, ¬ (b.msg = a.msg ∧ b.chunk = a.chunk)) (m : Message) (hm : ms[a.msg]? = some m) :
    ∃ n', receive n (bytesOf ms a) = some (n', if Complete m.k a.msg (done ++ [a]) ∧ ¬ Complete m.k a.msg done then some m.binary else none) ∧
      NInv E ms (done ++ [a]) n' := by
  obtain ⟨hin, m0, hm0, hch⟩ := hv
  rw [hm] at hm0; simp at hm0; subst hm0
  have w := wf m (List.mem_of_getElem? hm)
  have F := fam m w
  have hparse : parsePacket (bytesOf ms a) = pkt m a.chunk := by
    simp only [bytesOf, hm]; exact parse_packet m w _ hin _ hch
  have hkey := pkt_key m a.chunk
  have hparts := pkt_parts m w a.chunk
  have hmono : Complete m.k a.msg done → Complete m.k a.msg (done ++ [a]) := by
    intro hc i hi
    obtain ⟨b, hb, h1, h2⟩ := hc i hi
    exact ⟨b, by simp [hb], h1, h2⟩
  rcases h a.msg m hm with ⟨h1, h2⟩ | ⟨h1, h2, h3, h4⟩ | ⟨h1, h2, msg, S, lo, h3, h4, h5, h6⟩
  · refine ⟨n, ?_, ?_⟩
    · rw [if_neg (by simp [h1])]
      simp only [receive, hparse, checkMsgpartCache, hkey]
      rw [if_pos (by simpa using h2)]; simp
    · exact ninv_other E ms done n n a m hm hids h (fun _ _ => rfl) (fun _ _ => Iff.rfl) (Or.inl ⟨hmono h1, h2⟩)
  · obtain ⟨msg', e1, e2, e3⟩ := addFirst F a.chunk hch
    have hmem : ∀ i, i ∈ [a.chunk] ↔ ∃ b ∈ done ++ [a], b.msg = a.msg ∧ b.chunk = i := by
      intro i
      constructor
      · intro hi; simp at hi; subst hi; exact ⟨a, by simp, rfl, rfl⟩
      · rintro ⟨b, hb, hb1, hb2⟩
        rcases List.mem_append.1 hb with hb | hb
        · exact absurd hb1 (h3 b hb)
        · simp at hb; subst hb; simp [hb2]
    have hcomp : Complete m.k a.msg (done ++ [a]) ↔ m.k = 1 := by
      unfold Complete
      simp only [← hmem]
      rw [all_mem m.k [a.chunk] e2.nd e2.lt]; simp; exact eq_comm
    by_cases hk : m.k = 1
    · have hfb := full_binary m w msg' _ _ e2 (by simp [hk])
      refine ⟨{ n with seen := m.id :: n.seen }, ?_, ?_⟩
      · rw [if_pos ⟨hcomp.2 hk, h1⟩]
        simp only [receive, hparse, checkMsgpartCache, hkey, hparts]
        rw [if_neg (by simpa using h2), if_neg (by omega), e1]
        simp [hfb.1]
      · refine ninv_other E ms done n _ a m hm hids h (fun _ _ => rfl) ?_ (Or.inl ⟨hcomp.2 hk, by simp⟩)
        intro k hk'; simp [hk']
    · have hpos := w.pos
      refine ⟨n.store m.id msg', ?_, ?_⟩
      · rw [if_neg (by rw [hcomp]; simp [hk])]
        simp only [receive, hparse, checkMsgpartCache, hkey, hparts]
        rw [if_neg (by simpa using h2), if_pos (by omega), h4]
        simp only [e1]; rfl
      · refine ninv_other E ms done n _ a m hm hids h ?_ ?_ (Or.inr ⟨by rw [hcomp]; exact hk, h2, msg', [a.chunk], a.chunk, ?_, e2, hmem, ?_⟩)
        · intro k hk'; rw [find_store, if_neg hk']
        · intro k hk'; rfl
        · rw [find_store, if_pos rfl]
        · intro hE; exact ⟨hfirst hE h3, e3 (hfirst hE h3)⟩
  · have hlo := h4.loMem F
    have hk : 1 < m.k := by
      have hpos := w.pos
      rcases Nat.lt_or_ge 1 m.k with hk | hk
      · exact hk
      · exfalso; apply h1
        intro i hi
        apply (h5 i).1
        have := h4.lt lo hlo
        have : i = lo := by omega
        rw [this]; exact hlo
    by_cases hi : a.chunk ∈ S
    · have hE : E := by
        rcases hnew with hE | hnew
        · exact hE
        · obtain ⟨b, hb, hb1, hb2⟩ := (h5 _).1 hi
          exact absurd ⟨hb1, hb2⟩ (hnew b hb)
      obtain ⟨hl0, hex⟩ := h6 hE
      subst hl0
      have hdup := addDup F msg S a.chunk h4 hex hi
      have hmem : ∀ i, i ∈ S ↔ ∃ b ∈ done ++ [a], b.msg = a.msg ∧ b.chunk = i := by
        intro i
        rw [h5]
        constructor
        · rintro ⟨b, hb, hb1⟩; exact ⟨b, by simp [hb], hb1⟩
        · rintro ⟨b, hb, hb1, hb2⟩
          rcases List.mem_append.1 hb with hb | hb
          · exact ⟨b, hb, hb1, hb2⟩
          · simp at hb; subst hb; rw [hb2] at hi; exact (h5 i).1 hi
      have hcomp : ¬ Complete m.k a.msg (done ++ [a]) := by
        intro hc; apply h1
        intro i hi'
        exact (h5 i).1 ((hmem i).2 (hc i hi'))
      have hlen : S.length ≠ m.k := by
        intro e
        apply h1
        intro i hi'
        exact (h5 i).1 ((all_mem m.k S h4.nd h4.lt).2 e i hi')
      refine ⟨n.store m.id msg, ?_, ?_⟩
      · rw [if_neg (by simp [hcomp])]
        simp only [receive, hparse, checkMsgpartCache, hkey, hparts]
        rw [if_neg (by simpa using h2), if_pos (by omega), h3]
        simp only [hdup, Option.bind_eq_bind, Option.bind_some]
        rw [if_pos (by rw [h4.cnt, parts_of_inv F h4]; exact hlen)]
        rfl
      · refine ninv_other E ms done n _ a m hm hids h ?_ ?_ (Or.inr ⟨hcomp, h2, msg, S, 0, ?_, h4, hmem, fun _ => ⟨rfl, hex⟩⟩)
        · intro k hk'; rw [find_store, if_neg hk']
        · intro k hk'; rfl
        · rw [find_store, if_pos rfl]
    · obtain ⟨msg', e1, ⟨lo', e2, e2'⟩, e3⟩ := addNew F msg S lo a.chunk h4 hi hch
      have hmem : ∀ i, i ∈ a.chunk :: S ↔ ∃ b ∈ done ++ [a], b.msg = a.msg ∧ b.chunk = i := by
        intro i
        rw [List.mem_cons, h5]
        constructor
        · rintro (rfl | ⟨b, hb, hb1⟩)
          · exact ⟨a, by simp, rfl, rfl⟩
          · exact ⟨b, by simp [hb], hb1⟩
        · rintro ⟨b, hb, hb1, hb2⟩
          rcases List.mem_append.1 hb with hb | hb
          · exact Or.inr ⟨b, hb, hb1, hb2⟩
          · simp at hb; subst hb; exact Or.inl hb2.symm
      have hcomp : Complete m.k a.msg (done ++ [a]) ↔ (a.chunk :: S).length = m.k := by
        rw [← all_mem m.k _ e2.nd e2.lt]
        unfold Complete
        simp only [← hmem]
      by_cases hl : (a.chunk :: S).length = m.k
      · have hfb := full_binary m w msg' _ _ e2 hl
        refine ⟨n.finish m.id, ?_, ?_⟩
        · rw [if_pos ⟨hcomp.2 hl, h1⟩]
          simp only [receive, hparse, checkMsgpartCache, hkey, hparts]
          rw [if_neg (by simpa using h2), if_pos (by omega), h3]
          simp only [e1, Option.bind_eq_bind, Option.bind_some]
          rw [if_neg (by simp [hfb.2])]
          simp [hfb.1]
        · refine ninv_other E ms done n _ a m hm hids h ?_ ?_ (Or.inl ⟨hcomp.2 hl, by simp [Node.finish]⟩)
          · intro k hk'; exact find_finish n _ _ hk'
          · intro k hk'; simp [Node.finish, hk']
      · refine ⟨n.store m.id msg', ?_, ?_⟩
        · rw [if_neg (by rw [hcomp]; simp only [hl]; simp)]
          simp only [receive, hparse, checkMsgpartCache, hkey, hparts]
          rw [if_neg (by simpa using h2), if_pos (by omega), h3]
          simp only [e1, Option.bind_eq_bind, Option.bind_some]
          rw [if_pos (by rw [e2.cnt, parts_of_inv F e2]; exact hl)]
          rfl
        · refine ninv_other E ms done n _ a m hm hids h ?_ ?_ (Or.inr ⟨by rw [hcomp]; exact hl, h2, msg', _, lo', ?_, e2, hmem, ?_⟩)
          · intro k hk'; rw [find_store, if_neg hk']
          · intro k hk'; rfl
          · rw [find_store, if_pos rfl]
          · intro hE
            obtain ⟨g1, g2⟩ := h6 hE
            exact ⟨by omega, e3 g1 g2⟩

theorem receive_all (E : Prop) (ms : List Message) (wf : ∀ m ∈ ms, m.WF) (hids : (ms.map Message.id).Nodup) :
    ∀ (as done : List Arrival) (n : Node), (∀ a ∈ as, Valid ms a) → NInv E ms done n →
      (∀ (t : Nat) a, as[t]? = some a → E → (∀ b ∈ done ++ as.take t, b.msg ≠ a.msg) → a.chunk = 0) →
      (∀ (t : Nat) a, as[t]? = some a → E ∨ ∀ b ∈ done ++ as.take t, ¬ (b.msg = a.msg ∧ b.chunk = a.chunk)) →
      ∃ n' os, receiveAll n (as.map (bytesOf ms)) = some (n', os) ∧ os.length = as.length ∧
        ∀ (t : Nat) a m, as[t]? = some a → ms[a.msg]? = some m →
          os[t]? = some (if Complete m.k a.msg (done ++ as.take (t + 1)) ∧ ¬ Complete m.k a.msg (done ++ as.take t) then some m.binary else none)
  | [], done, n, _, _, _, _ => ⟨n, [], rfl, rfl, by simp⟩
  | a :: as, done, n, hv, h, hf, hn => by
    obtain ⟨_, m, hm, _⟩ := hv a (by simp)
    obtain ⟨n1, e1, e2⟩ := node_step E ms wf hids done n a (hv a (by simp)) h
      (fun hE hd => hf 0 a rfl hE (by simpa using hd)) (by have := hn 0 a rfl; simpa using this) m hm
    have hsplit : ∀ t, done ++ [a] ++ as.take t = done ++ (a :: as).take (t + 1) := by intro t; simp
    obtain ⟨n', os, g1, g2, g3⟩ := receive_all E ms wf hids as (done ++ [a]) n1 (fun b hb => hv b (by simp [hb])) e2
      (fun t b hb hE hd => hf (t + 1) b (by simpa using hb) hE (by rw [← hsplit]; exact hd))
      (fun t b hb => by rw [hsplit]; exact hn (t + 1) b (by simpa using hb))
    refine ⟨n', _ :: os, by simp only [List.map_cons, receiveAll, e1, Option.bind_eq_bind, Option.bind_some, g1]; rfl, by simp [g2], ?_⟩
    intro t b m' hb hm'
    cases t with
    | zero =>
      simp at hb; subst hb
      rw [hm] at hm'; simp at hm'; subst hm'
      simp
    | succ t =>
      have := g3 t b m' (by simpa using hb) hm'
      rw [hsplit, hsplit] at this
      simpa using this

theorem ninv_init (E : Prop) (ms : List Message) (wf : ∀ m ∈ ms, m.WF) : NInv E ms [] Node.init := by
  intro j m hm
  refine Or.inr (Or.inl ⟨?_, by simp [Node.init], by simp, rfl⟩)
  intro hc
  have := hc 0 (by have := (wf m (List.mem_of_getElem? hm)).pos; omega)
  simp at this

end Np.Chunk
