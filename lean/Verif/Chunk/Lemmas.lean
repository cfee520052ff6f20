import Verif.Chunk.Spec
import Mathlib.Data.List.Nodup
import Mathlib.Data.List.Perm.Subperm
set_option linter.unusedSimpArgs false
set_option linter.unusedVariables false
/-! # Lemmas on reassembly of one message -/
namespace Np.Chunk
open Spec

/-! ## Lists of slots -/

theorem filterMap_set_none {α} (c : α) : ∀ (l : List (Option α)) (p : Nat), l[p]? = some none →
    ((l.set p (some c)).filterMap id).Perm (c :: l.filterMap id)
  | [], p, h => by simp at h
  | x :: l, 0, h => by simp at h; subst h; simp
  | x :: l, p + 1, h => by
    simp at h
    have ih := filterMap_set_none c l p h
    cases x with
    | none => simpa using ih
    | some d =>
      simp
      exact (List.Perm.cons d ih).trans (List.Perm.swap c d _)

theorem filterMap_set_some {α} (c d : α) : ∀ (l : List (Option α)) (p : Nat), l[p]? = some (some d) →
    (d :: (l.set p (some c)).filterMap id).Perm (c :: l.filterMap id)
  | [], p, h => by simp at h
  | x :: l, 0, h => by simp at h; subst h; simp; exact List.Perm.swap c d _
  | x :: l, p + 1, h => by
    simp at h
    have ih := filterMap_set_some c d l p h
    cases x with
    | none => simpa using ih
    | some e =>
      simp
      exact (List.Perm.swap e d _).trans ((List.Perm.cons e ih).trans (List.Perm.swap c e _))

theorem mem_slots {α} (c : α) (l : List (Option α)) : c ∈ l.filterMap id ↔ ∃ p : Nat, l[p]? = some (some c) := by
  rw [List.mem_filterMap]
  simp only [id_eq, exists_eq_right]
  exact List.mem_iff_getElem?

/-! ## The packets of one message -/

/-- `pk` are the packets of a message with `n` chunks and counter start `B`. -/
structure Fam (pk : Nat → Pkt) (n B : Nat) : Prop where
  ctr : ∀ i, i < n → (pk i).ctr = B + i
  parts : ∀ i, i < n → (pk i).parts = n
  pos : 0 < n
  le : n ≤ 65535

theorem Fam.inj {pk n B} (F : Fam pk n B) {i j : Nat} (hi : i < n) (hj : j < n) (h : (pk i).ctr = (pk j).ctr) : i = j := by
  rw [F.ctr i hi, F.ctr j hj] at h; omega

theorem Fam.inj' {pk n B} (F : Fam pk n B) {i j : Nat} (hi : i < n) (hj : j < n) (h : pk i = pk j) : i = j :=
  F.inj hi hj (by rw [h])

theorem Fam.macNe {pk n B} (F : Fam pk n B) {i j : Nat} (hi : i < n) (hj : j < n) (h : i ≠ j) : (pk i).mac ≠ (pk j).mac := by
  intro e
  exact h (F.inj hi hj (by simp [Pkt.ctr, e]))

structure Inv (pk : Nat → Pkt) (n : Nat) (m : Msg) (S : List Nat) (lo : Nat) : Prop where
  len : m.chunks.length = n
  perm : (m.chunks.filterMap id).Perm (S.map pk)
  cnt : m.counter = S.length
  head : m.chunks[0]? = some (some (pk lo))
  pos : ∀ (p i : Nat), i < n → m.chunks[p]? = some (some (pk i)) → p + lo ≤ i
  nd : S.Nodup
  lt : ∀ i ∈ S, i < n
  lon : lo < n

def Exact (pk : Nat → Pkt) (n : Nat) (m : Msg) : Prop := ∀ (p i : Nat), i < n → m.chunks[p]? = some (some (pk i)) → p = i

theorem Inv.congr {pk n m S S' lo} (h : Inv pk n m S lo) (hp : S.Perm S') : Inv pk n m S' lo :=
  ⟨h.len, h.perm.trans (hp.map pk), by rw [h.cnt, hp.length_eq], h.head, h.pos, hp.nodup_iff.1 h.nd,
    fun i hi => h.lt i (hp.mem_iff.2 hi), h.lon⟩

theorem Inv.loMem {pk n B m S lo} (F : Fam pk n B) (h : Inv pk n m S lo) : lo ∈ S := by
  have : pk lo ∈ m.chunks.filterMap id := (mem_slots _ _).2 ⟨0, h.head⟩
  rw [h.perm.mem_iff] at this
  obtain ⟨j, hj, e⟩ := List.mem_map.1 this
  rw [← F.inj' (h.lt j hj) h.lon e]; exact hj

theorem Inv.shape {pk n m S lo} (h : Inv pk n m S lo) : ∃ rest, m.chunks = some (pk lo) :: rest := by
  have := h.head
  cases hc : m.chunks with
  | nil => rw [hc] at this; simp at this
  | cons x r => rw [hc] at this; simp at this; exact ⟨r, by rw [this]⟩

theorem Inv.slot {pk n B m S lo} (F : Fam pk n B) (h : Inv pk n m S lo) (p : Nat) (d : Pkt) (hd : m.chunks[p]? = some (some d)) :
    ∃ j ∈ S, d = pk j ∧ j < n ∧ p + lo ≤ j := by
  have : d ∈ m.chunks.filterMap id := (mem_slots _ _).2 ⟨p, hd⟩
  rw [h.perm.mem_iff] at this
  obtain ⟨j, hj, e⟩ := List.mem_map.1 this
  exact ⟨j, hj, e.symm, h.lt j hj, h.pos p j (h.lt j hj) (by rw [e]; exact hd)⟩

theorem addChunk_step (f : Nat) (m : Msg) (c base : Pkt) (rest : List (Option Pkt)) (hm : m.chunks = some base :: rest) :
    addChunk (f + 1) m c =
      if c.ctr = base.ctr then some (m, false)
      else if c.ctr < base.ctr then (addChunk f { m with chunks := some c :: rest } base).map fun r => (r.1, true)
      else match m.chunks[c.ctr - base.ctr]? with
        | none => none
        | some (some d) =>
          if c.mac = d.mac then some (m, false)
          else (addChunk f { m with chunks := m.chunks.set (c.ctr - base.ctr) (some c) } d).map fun r => (r.1, true)
        | some none => some (⟨m.chunks.set (c.ctr - base.ctr) (some c), m.counter + 1⟩, true) := by
  rw [addChunk, hm]
  simp only []
  congr 1
  congr 1
  · cases addChunk f _ base <;> rfl
  · congr 1
    funext d
    congr 1
    cases addChunk f _ d <;> rfl

theorem place {pk n B} (F : Fam pk n B) (lo : Nat) : ∀ (f : Nat) (m : Msg) (S : List Nat) (i : Nat), Inv pk n m S lo → i ∉ S → lo < i →
    i < n → n - i < f → ∃ m', addChunk f m (pk i) = some (m', true) ∧ Inv pk n m' (i :: S) lo ∧
      (lo = 0 → Exact pk n m → Exact pk n m')
  | 0, m, S, i, h, hi, hlo, hn, hf => by omega
  | f + 1, m, S, i, h, hi, hlo, hn, hf => by
    obtain ⟨rest, hr⟩ := h.shape
    have hctr := F.ctr i hn
    have hctr0 := F.ctr lo h.lon
    have hidx : (pk i).ctr - (pk lo).ctr = i - lo := by omega
    rw [addChunk_step f m (pk i) (pk lo) rest hr, if_neg (by omega), if_neg (by omega), hidx]
    have hlt : i - lo < m.chunks.length := by rw [h.len]; omega
    have hget : m.chunks[i - lo]? = some m.chunks[i - lo] := List.getElem?_eq_getElem hlt
    cases hs : m.chunks[i - lo] with
    | none =>
      rw [hs] at hget
      refine ⟨_, by rw [hget], ⟨?_, ?_, ?_, ?_, ?_, ?_, ?_, h.lon⟩, ?_⟩
      · simp [h.len]
      · exact (filterMap_set_none (pk i) m.chunks _ hget).trans (List.Perm.cons _ h.perm)
      · simp [h.cnt]
      · rw [List.getElem?_set_ne (by omega)]; exact h.head
      · intro p j hj hp
        by_cases hpe : p = i - lo
        · subst hpe
          rw [List.getElem?_set_self hlt] at hp
          have := F.inj' hn hj (by simpa using hp)
          omega
        · rw [List.getElem?_set_ne (by omega)] at hp
          exact h.pos p j hj hp
      · exact List.nodup_cons.2 ⟨hi, h.nd⟩
      · intro j hj
        rcases List.mem_cons.1 hj with rfl | hj
        · exact hn
        · exact h.lt j hj
      · intro h0 hex p j hj hp
        by_cases hpe : p = i - lo
        · subst hpe
          rw [List.getElem?_set_self hlt] at hp
          have := F.inj' hn hj (by simpa using hp)
          omega
        · rw [List.getElem?_set_ne (by omega)] at hp
          exact hex p j hj hp
    | some d =>
      rw [hs] at hget
      obtain ⟨j, hj, rfl, hjn, hjp⟩ := h.slot F _ d hget
      have hji : j ≠ i := fun e => hi (e ▸ hj)
      simp only [hget]
      rw [if_neg (F.macNe hn hjn (Ne.symm hji))]
      have hinv : Inv pk n { m with chunks := m.chunks.set (i - lo) (some (pk i)) } (i :: S.erase j) lo := by
        refine ⟨?_, ?_, ?_, ?_, ?_, ?_, ?_, h.lon⟩
        · simp [h.len]
        · have h1 := filterMap_set_some (pk i) (pk j) m.chunks _ hget
          have h2 : (S.map pk).Perm (pk j :: (S.erase j).map pk) := (List.perm_cons_erase hj).map pk
          have h3 := h1.trans ((List.Perm.cons (pk i) (h.perm.trans h2)).trans (List.Perm.swap (pk j) (pk i) _))
          exact h3.cons_inv
        · have := List.length_erase_of_mem hj
          have := List.length_pos_of_mem hj
          simp [h.cnt]; omega
        · simp only []; rw [List.getElem?_set_ne (by omega)]; exact h.head
        · intro p q hq hp
          by_cases hpe : p = i - lo
          · subst hpe
            simp only [] at hp
            rw [List.getElem?_set_self hlt] at hp
            have := F.inj' hn hq (by simpa using hp)
            omega
          · simp only [] at hp
            rw [List.getElem?_set_ne (by omega)] at hp
            exact h.pos p q hq hp
        · exact List.nodup_cons.2 ⟨fun e => hi (List.mem_of_mem_erase e), h.nd.erase j⟩
        · intro q hq
          rcases List.mem_cons.1 hq with rfl | hq
          · exact hn
          · exact h.lt q (List.mem_of_mem_erase hq)
      obtain ⟨m', e1, e2, e3⟩ := place F lo f _ _ j hinv (by
        intro e
        rcases List.mem_cons.1 e with e | e
        · exact hji e
        · exact (List.Nodup.mem_erase_iff h.nd).1 e |>.1 rfl) (by omega) hjn (by omega)
      refine ⟨m', by rw [e1]; rfl, e2.congr ?_, ?_⟩
      · exact (List.Perm.swap i j _).trans (List.Perm.cons i (List.perm_cons_erase hj).symm)
      · intro h0 hex
        exfalso
        have := hex _ j hjn hget
        omega

theorem addNew {pk n B} (F : Fam pk n B) (m : Msg) (S : List Nat) (lo i : Nat) (h : Inv pk n m S lo) (hi : i ∉ S) (hn : i < n) :
    ∃ m', addChunk FUEL m (pk i) = some (m', true) ∧ (∃ lo', Inv pk n m' (i :: S) lo' ∧ lo' ≤ lo) ∧
      (lo = 0 → Exact pk n m → Exact pk n m') := by
  have hle := F.le
  have hlo := h.loMem F
  rcases Nat.lt_trichotomy i lo with hl | hl | hl
  · obtain ⟨rest, hr⟩ := h.shape
    have hctr := F.ctr i hn
    have hctr0 := F.ctr lo h.lon
    have hinv : Inv pk n { m with chunks := some (pk i) :: rest } (i :: S.erase lo) i := by
      have hp := h.perm
      rw [hr] at hp
      simp at hp
      have h2 : (S.map pk).Perm (pk lo :: (S.erase lo).map pk) := (List.perm_cons_erase hlo).map pk
      refine ⟨?_, ?_, ?_, ?_, ?_, ?_, ?_, hn⟩
      · have := h.len; rw [hr] at this; simpa using this
      · simp
        exact (hp.trans h2).cons_inv
      · have := List.length_erase_of_mem hlo
        have := List.length_pos_of_mem hlo
        simp [h.cnt]; omega
      · simp
      · intro p q hq hpq
        cases p with
        | zero => simp at hpq; have := F.inj' hn hq hpq; omega
        | succ p =>
          have := h.pos (p + 1) q hq (by rw [hr]; simpa using hpq)
          omega
      · exact List.nodup_cons.2 ⟨fun e => hi (List.mem_of_mem_erase e), h.nd.erase lo⟩
      · intro q hq
        rcases List.mem_cons.1 hq with rfl | hq
        · exact hn
        · exact h.lt q (List.mem_of_mem_erase hq)
    obtain ⟨m', e1, e2, _⟩ := place F i (FUEL - 1) _ _ lo hinv (by
        intro e
        rcases List.mem_cons.1 e with e | e
        · omega
        · exact (List.Nodup.mem_erase_iff h.nd).1 e |>.1 rfl) hl h.lon (by unfold FUEL; omega)
    refine ⟨m', ?_, ⟨i, e2.congr ((List.Perm.swap i lo _).trans (List.Perm.cons i (List.perm_cons_erase hlo).symm)), by omega⟩, by omega⟩
    have : FUEL = (FUEL - 1) + 1 := rfl
    rw [this, addChunk_step _ m (pk i) (pk lo) rest hr, if_neg (by omega), if_pos (by omega), e1]
    rfl
  · subst hl; exact absurd hlo hi
  · obtain ⟨m', e1, e2, e3⟩ := place F lo FUEL m S i h hi hl hn (by unfold FUEL; omega)
    exact ⟨m', e1, ⟨lo, e2, Nat.le_refl _⟩, e3⟩

theorem addFirst {pk n B} (F : Fam pk n B) (i : Nat) (hn : i < n) :
    ∃ m', addChunk FUEL Msg.new (pk i) = some (m', true) ∧ Inv pk n m' [i] i ∧ (i = 0 → Exact pk n m') := by
  have hp := F.parts i hn
  have hpos := F.pos
  refine ⟨⟨some (pk i) :: List.replicate (n - 1) none, 1⟩, ?_, ⟨?_, ?_, ?_, ?_, ?_, ?_, ?_, hn⟩, ?_⟩
  · show addChunk (65537 + 1) _ _ = _
    simp only [addChunk, Msg.new, hp]
    rw [if_neg (by omega)]
  · simp; omega
  · simp
  · simp
  · simp
  · intro p q hq h
    cases p with
    | zero => simp at h; have := F.inj' hn hq h; omega
    | succ p => simp [List.getElem?_replicate] at h
  · simp
  · simpa using hn
  · intro h0 p q hq h
    cases p with
    | zero => simp at h; have := F.inj' hn hq h; omega
    | succ p => simp [List.getElem?_replicate] at h

theorem addDup {pk n B} (F : Fam pk n B) (m : Msg) (S : List Nat) (i : Nat) (h : Inv pk n m S 0) (hex : Exact pk n m) (hi : i ∈ S) :
    addChunk FUEL m (pk i) = some (m, false) := by
  have hn := h.lt i hi
  have : pk i ∈ m.chunks.filterMap id := by rw [h.perm.mem_iff]; exact List.mem_map.2 ⟨i, hi, rfl⟩
  obtain ⟨p, hp⟩ := (mem_slots _ _).1 this
  have := hex p i hn hp
  subst this
  obtain ⟨rest, hr⟩ := h.shape
  have hctr := F.ctr p hn
  have hctr0 := F.ctr 0 h.lon
  show addChunk (65537 + 1) _ _ = _
  rw [addChunk_step _ m (pk p) (pk 0) rest hr]
  by_cases h0 : p = 0
  · subst h0; rw [if_pos rfl]
  · rw [if_neg (by omega), if_neg (by omega)]
    have : (pk p).ctr - (pk 0).ctr = p := by omega
    rw [this, hp]; simp

/-! ## The complete message -/

theorem full {pk n B m S lo} (F : Fam pk n B) (h : Inv pk n m S lo) (hl : S.length = n) :
    m.chunks = (List.range n).map (fun i => some (pk i)) := by
  have hcount : (m.chunks.filterMap id).length = m.chunks.length := by
    rw [h.perm.length_eq, List.length_map, h.len, hl]
  have hall : ∀ x ∈ m.chunks, x ≠ none := by
    have aux : ∀ l : List (Option Pkt), (l.filterMap id).length = l.length → ∀ x ∈ l, x ≠ none := by
      intro l
      induction l with
      | nil => simp
      | cons x l ih =>
        intro hlen y hy
        have hle := List.length_filterMap_le id l
        cases x with
        | none =>
          have hc : ((none :: l).filterMap id) = l.filterMap id := rfl
          rw [hc, List.length_cons] at hlen; omega
        | some d =>
          have hc : ((some d :: l).filterMap id) = d :: l.filterMap id := rfl
          rw [hc, List.length_cons, List.length_cons] at hlen
          rcases List.mem_cons.1 hy with rfl | hy
          · simp
          · exact ih (by omega) y hy
    exact aux _ hcount
  have hsl : ∀ p, p < n → ∃ j, j < n ∧ p ≤ j ∧ m.chunks[p]? = some (some (pk j)) := by
    intro p hp
    have hlt : p < m.chunks.length := by rw [h.len]; exact hp
    have hget := List.getElem?_eq_getElem hlt
    cases hs : m.chunks[p] with
    | none => exact absurd hs (hall _ (List.getElem_mem hlt))
    | some d =>
      rw [hs] at hget
      obtain ⟨j, hj, rfl, hjn, hjp⟩ := h.slot F p d hget
      exact ⟨j, hjn, by omega, hget⟩
  -- two slots never hold the same packet
  have hdist : ∀ (p q j : Nat), j < n → m.chunks[p]? = some (some (pk j)) → m.chunks[q]? = some (some (pk j)) → p = q := by
    intro p q j hj hp hq
    have hnd : (m.chunks.filterMap id).Nodup := by
      rw [h.perm.nodup_iff]
      exact List.Nodup.map_on (fun a ha b hb e => F.inj' (h.lt a ha) (h.lt b hb) e) h.nd
    have aux : ∀ (l : List (Option Pkt)) (c : Pkt), (l.filterMap id).Nodup → ∀ p q : Nat, l[p]? = some (some c) → l[q]? = some (some c) → p = q := by
      intro l c
      induction l with
      | nil => simp
      | cons x l ih =>
        intro hnd p q hp hq
        have hnd' : (l.filterMap id).Nodup := by
          cases x with
          | none => simpa using hnd
          | some d => simp at hnd; exact hnd.2
        cases p with
        | zero =>
          simp at hp; subst hp
          simp at hnd
          cases q with
          | zero => rfl
          | succ q => simp at hq; exact absurd (List.mem_iff_getElem?.2 ⟨q, hq⟩) hnd.1
        | succ p =>
          cases q with
          | zero =>
            simp at hq; subst hq
            simp at hnd hp
            exact absurd (List.mem_iff_getElem?.2 ⟨p, hp⟩) hnd.1
          | succ q => rw [ih hnd' p q (by simpa using hp) (by simpa using hq)]
    exact aux _ _ hnd p q hp hq
  have hdown : ∀ d p, p < n → n - 1 - p ≤ d → m.chunks[p]? = some (some (pk p)) := by
    intro d
    induction d with
    | zero =>
      intro p hp hd
      obtain ⟨j, hj, hpj, hs⟩ := hsl p hp
      have : j = p := by omega
      rw [this] at hs; exact hs
    | succ d ih =>
      intro p hp hd
      obtain ⟨j, hj, hpj, hs⟩ := hsl p hp
      rcases Nat.lt_or_ge p j with hlt | hge
      · have := ih j hj (by omega)
        have := hdist p j j hj hs this
        omega
      · have : j = p := by omega
        rw [this] at hs; exact hs
  apply List.ext_getElem?
  intro p
  by_cases hp : p < n
  · rw [hdown n p hp (by omega)]
    simp [hp]
  · rw [List.getElem?_eq_none (by rw [h.len]; omega), List.getElem?_eq_none (by simp; omega)]

theorem bodies_map (pk : Nat → Pkt) : ∀ (l : List Nat) (n : Nat), l.length = n →
    bodies n (l.map fun i => some (pk i)) = some (l.flatMap fun i => (pk i).body)
  | [], n, h => by simp at h; subst h; rfl
  | i :: l, n, h => by
    obtain ⟨n, rfl⟩ : ∃ k, n = k + 1 := ⟨l.length, by simpa using h.symm⟩
    simp at h
    simp [bodies, bodies_map pk l n h]

theorem deserialize_full {pk n B} (F : Fam pk n B) (m : Msg) (h : m.chunks = (List.range n).map (fun i => some (pk i))) :
    deserializeChunks m = some ((pk 0).nonce ++ (pk 0).mac ++ (pk 0).header ++ (List.range n).flatMap fun i => (pk i).body) ∧ m.parts = n := by
  have hpos := F.pos
  obtain ⟨k, rfl⟩ : ∃ k, n = k + 1 := ⟨n - 1, by omega⟩
  have h' : m.chunks = some (pk 0) :: (List.range k).map (fun i => some (pk (i + 1))) := by
    rw [h, List.range_succ_eq_map]; simp [Function.comp_def]
  constructor
  · have hb := bodies_map pk (List.range (k + 1)) (k + 1) (by simp)
    rw [← h] at hb
    simp only [deserializeChunks, h']
    rw [← h', F.parts 0 hpos, hb]
    simp
  · simp only [Msg.parts, h']; exact F.parts 0 hpos

theorem parts_of_inv {pk n B m S lo} (F : Fam pk n B) (h : Inv pk n m S lo) : m.parts = n := by
  obtain ⟨rest, hr⟩ := h.shape
  simp only [Msg.parts, hr]
  exact F.parts lo h.lon

theorem cnt_lt {pk n m S lo} (h : Inv pk n m S lo) : S.length ≤ n := by
  have hs : S.Subset (List.range n) := by
    intro i hi; simpa using h.lt i hi
  have := (h.nd.subperm hs).length_le
  simpa using this

end Np.Chunk
