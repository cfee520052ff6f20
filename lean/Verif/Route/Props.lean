import Verif.Route.Lemmas3

set_option linter.unusedVariables false

/-! # C37, C38, C40, C61, C62: routing

The state of the routing module is a `State`; `run (State.init me cap) ops` is the state after any history of peers joining
and leaving the table and the leafset. -/
namespace Np.Route

open Np.Dhkey _root_.Np.Route.Spec

/-! ## Sample ids -/

def id' (a b : BitVec 32) : Dhkey := ⟨a, b, 0, 0, 0, 0, 0, 0⟩

/-- Three peers of the node `0` in one cell, and one in another. -/
def pA : Dhkey := id' 0x10#32 1
def pB : Dhkey := id' 0x10#32 2
def pC : Dhkey := id' 0x10#32 3
def pD : Dhkey := id' 0x20#32 4

/-- A history with a replacement, a leave and a return. -/
def sampleOps : List Op :=
  [.joinTable pA (fun _ _ => false) (fun _ _ => false), .joinTable pB (fun _ _ => false) (fun _ _ => false),
   .joinLeaf pA, .joinLeaf pD, .joinTable pD (fun _ _ => false) (fun _ _ => false), .leaveTable pA,
   .joinTable pB (fun _ _ => false) (fun _ _ => false), .joinTable pA (fun _ _ => false) (fun _ _ => false)]

/-! ## C37 -/

/-- C37: after every history of joins and leaves no peer is in the table twice, and the own id is not in it. -/
theorem C37_at_most_once (me : Dhkey) (cap : Nat) (ops : List Op) :
    (peers (run (State.init me cap) ops)).Nodup ∧ me ∉ peers (run (State.init me cap) ops) := by
  have h := run_inv ops (inv_init me cap)
  have hm : (run (State.init me cap) ops).leaf.me = me := run_me ops _
  constructor
  · unfold peers
    refine List.Pairwise.filterMap _ ?_ List.nodup_range
    intro a a' hne b hb b' hb' e
    subst e
    exact hne (h.table.once a a' b hb hb')
  · intro hx
    obtain ⟨i, hi⟩ := (mem_peers h me).1 hx
    have := (h.table.place i me hi).1
    rw [hm] at this
    exact this rfl

/-- C37: every peer in the table is in the row and column that belong to its id, inside the table. -/
theorem C37_right_place (me : Dhkey) (cap : Nat) (ops : List Op) (i : Nat) (x : Dhkey)
    (hi : (run (State.init me cap) ops).table i = some x) : RightPlace me x i ∧ i < 3072 := by
  have h := run_inv ops (inv_init me cap)
  have hm : (run (State.init me cap) ops).leaf.me = me := run_me ops _
  obtain ⟨hne, base, hs, h1, h2⟩ := h.table.place i x hi
  rw [hm] at hne hs
  have hb := slot_lt hne hs
  obtain ⟨col, s1, hc, hr, ht, _⟩ := slot_some hne
  rw [hs] at s1
  simp only [Option.some.injEq] at s1
  refine ⟨⟨index me x, col, i - base, C06_index_is_common_prefix me x, ht, hc, by omega, by omega⟩, by omega⟩

/-- C37: after a leave the peer is no longer in the table, and nobody else is affected. -/
theorem C37_gone_after_leave (me : Dhkey) (cap : Nat) (ops : List Op) (x : Dhkey) :
    x ∉ peers (step (run (State.init me cap) ops) (.leaveTable x)) ∧
    ∀ y, y ≠ x → (y ∈ peers (step (run (State.init me cap) ops) (.leaveTable x)) ↔ y ∈ peers (run (State.init me cap) ops)) := by
  have h := run_inv ops (inv_init me cap)
  have h' := step_inv h (.leaveTable x)
  generalize run (State.init me cap) ops = s at h h'
  constructor
  · rw [mem_peers h', ← h'.table.flag]
    simp only [step]
    by_cases hx : s.inTable x = true
    · simp only [if_pos hx]
      obtain ⟨i, hi⟩ := (h.table.flag x).1 hx
      obtain ⟨hne, base, hs, h1, h2⟩ := h.table.place i x hi
      rcases tableLeave_cases s.leaf.me s.table x with ⟨_, h3⟩ | ⟨b, k, _, _, _, _, e⟩
      · rcases h3 with h3 | ⟨b, hb, h3⟩
        · exact absurd h3 hne
        · rw [hs] at hb
          simp only [Option.some.injEq] at hb
          have := h3 (i - base) (by omega)
          rw [show b + (i - base) = i by omega] at this
          exact absurd hi this
      · rw [e]; simp [setFlag]
    · simp only [if_neg hx]
      exact hx
  · intro y hy
    rw [mem_peers h', mem_peers h, ← h'.table.flag, ← h.table.flag]
    simp only [step]
    by_cases hx : s.inTable x = true
    · simp only [if_pos hx]
      rcases tableLeave_cases s.leaf.me s.table x with ⟨e, _⟩ | ⟨b, k, _, _, _, _, e⟩ <;> rw [e] <;> simp [setFlag, hy]
    · simp only [if_neg hx]

/-- C37: a peer that joins displaces nobody but one peer of its own cell which is slower, and is then in the table itself; with
a free entry in its cell it is always taken in. -/
theorem C37_join (me : Dhkey) (cap : Nat) (ops : List Op) (x : Dhkey) (slower faster : Dhkey → Dhkey → Bool) (y : Dhkey)
    (hy : y ≠ x) :
    (y ∈ peers (step (run (State.init me cap) ops) (.joinTable x slower faster)) → y ∈ peers (run (State.init me cap) ops)) ∧
    (y ∈ peers (run (State.init me cap) ops) → y ∉ peers (step (run (State.init me cap) ops) (.joinTable x slower faster)) →
      faster x y = true ∧ x ∈ peers (step (run (State.init me cap) ops) (.joinTable x slower faster)) ∧
      index me y = index me x ∧ hexalphaAt y (index me x) = hexalphaAt x (index me x)) := by
  have h := run_inv ops (inv_init me cap)
  have hm : (run (State.init me cap) ops).leaf.me = me := run_me ops _
  have h' := step_inv h (.joinTable x slower faster)
  generalize run (State.init me cap) ops = s at h h' hm
  simp only [mem_peers h, mem_peers h', ← h.table.flag, ← h'.table.flag]
  simp only [step]
  by_cases hx : s.inTable x = true
  · simp only [if_pos hx]
    exact ⟨fun e => e, fun e e' => absurd e e'⟩
  · simp only [if_neg hx]
    rcases tableJoin_cases s.leaf.me s.table slower faster x with ⟨e, _⟩ | ⟨b, k, _, _, _, _, e⟩ |
      ⟨b, k, z, hne, hs, hk, ht, hzx, hf, _, e⟩
    · rw [e]; simp only [setFlag]
      exact ⟨fun e => e, fun e e' => absurd e e'⟩
    · rw [e]; simp only [setFlag, hy, if_false]
      exact ⟨fun e => e, fun e e' => absurd e e'⟩
    · rw [e]
      by_cases hyz : y = z
      · subst hyz
        simp only [setFlag, if_true, Bool.false_eq_true, false_implies, not_false_eq_true, true_implies, true_and]
        intro _
        refine ⟨hf, by simp [Ne.symm hy], ?_⟩
        obtain ⟨hne', b', hb', h1, h2⟩ := h.table.place _ y ht
        rw [hm] at hne' hb' hs hne
        obtain ⟨c1, s1, l1, _, _, d1⟩ := slot_some hne'
        obtain ⟨c2, s2, l2, _, _, d2⟩ := slot_some hne
        rw [hb'] at s1
        rw [hs] at s2
        simp only [Option.some.injEq] at s1 s2
        have hi : index me y = index me x := by omega
        have hc : c1 = c2 := by omega
        refine ⟨hi, ?_⟩
        rw [← hi, d1, hi, d2, hc]
      · simp only [setFlag, hyz, if_false, hy]
        exact ⟨fun e => e, fun e e' => absurd e e'⟩

/-- C37: with a free entry in its cell a peer is taken in. -/
theorem C37_taken_in (me : Dhkey) (cap : Nat) (ops : List Op) (x : Dhkey) (slower faster : Dhkey → Dhkey → Bool) (i : Nat)
    (hx : x ≠ me) (hi : RightPlace me x i) (hfree : (run (State.init me cap) ops).table i = none) :
    x ∈ peers (step (run (State.init me cap) ops) (.joinTable x slower faster)) := by
  have h := run_inv ops (inv_init me cap)
  have hm : (run (State.init me cap) ops).leaf.me = me := run_me ops _
  have h' := step_inv h (.joinTable x slower faster)
  generalize run (State.init me cap) ops = s at h h' hm hfree
  rw [mem_peers h', ← h'.table.flag]
  simp only [step]
  by_cases hfx : s.inTable x = true
  · simp only [if_pos hfx]; exact hfx
  · simp only [if_neg hfx]
    obtain ⟨row, col, e, hr, ht, hc, he, hie⟩ := hi
    obtain ⟨c, s1, l1, hrow, t1, _⟩ := slot_some (Ne.symm hx)
    rw [C06_index_is_common_prefix, ← hr] at s1 t1
    have hcc : c = col := by
      rw [t1] at ht
      have hinj : ∀ a < 16, ∀ b < 16, hexDigit a = hexDigit b → a = b := by decide
      exact hinj c l1 col hc (by simpa using ht)
    rcases tableJoin_cases s.leaf.me s.table slower faster x with ⟨_, h3⟩ | ⟨b, k, _, _, _, _, e'⟩ |
      ⟨b, k, z, hne, hs, hk, _, hzx, hf, hall, e'⟩
    · rcases h3 with h3 | ⟨b, k, hb, hk, _, h3⟩
      · exact absurd (hm ▸ h3).symm hx
      · rcases h3 with h3 | h3
        · exact absurd ((h.table.flag x).2 ⟨_, h3⟩) hfx
        · rw [hm, s1] at hb
          simp only [Option.some.injEq] at hb
          have := h3 e he
          rw [show b + e = i by omega] at this
          exact absurd hfree this
    · rw [e']; simp [setFlag]
    · rw [hm, s1] at hs
      simp only [Option.some.injEq] at hs
      obtain ⟨w, hw, _⟩ := hall e he
      rw [show b + e = i by omega, hfree] at hw
      simp at hw

/-- The sample history fills the table with three peers in two cells. -/
example : (run (State.init zero 7) sampleOps).table (3 * 1) = some pA ∧ (run (State.init zero 7) sampleOps).table (3 * 1 + 1) = some pB ∧
    (run (State.init zero 7) sampleOps).table (3 * 2) = some pD := by decide +kernel

/-- Without the flags of the nodes the table itself would not prevent duplicates: the search stops at the first free entry.
After `A` and `B` joined and `A` left, a further join of `B` enters it a second time. -/
theorem C37_needs_flags : ∃ t : Table, t (3 * 1 + 1) = some pB ∧
    (tableJoin zero t (fun _ _ => false) (fun _ _ => false) pB).1 (3 * 1) = some pB ∧
    (tableJoin zero t (fun _ _ => false) (fun _ _ => false) pB).1 (3 * 1 + 1) = some pB :=
  ⟨fun i => if i = 4 then some pB else none, by decide +kernel, by decide +kernel, by decide +kernel⟩

/-! ## C38 -/

/-- C38: after every history each side of the leafset is sorted by distance to the own id, is not longer than configured, and
no peer is in it twice, on one side or on both; the own id is not in it. -/
theorem C38_sorted_bounded_unique (me : Dhkey) (cap : Nat) (ops : List Op) :
    NearestFirst me (run (State.init me cap) ops).leaf.left ∧ NearestFirst me (run (State.init me cap) ops).leaf.right ∧
    (run (State.init me cap) ops).leaf.left.length ≤ cap ∧ (run (State.init me cap) ops).leaf.right.length ≤ cap ∧
    ((run (State.init me cap) ops).leaf.left ++ (run (State.init me cap) ops).leaf.right).Nodup ∧
    me ∉ (run (State.init me cap) ops).leaf.left ++ (run (State.init me cap) ops).leaf.right := by
  have h := (run_inv ops (inv_init me cap)).leaf
  have hm : (run (State.init me cap) ops).leaf.me = me := run_me ops _
  have hc : (run (State.init me cap) ops).leaf.cap = cap := run_cap ops _
  generalize run (State.init me cap) ops = s at h hm hc
  have hl := h.left
  have hr := h.right
  rw [hm, hc] at hl hr
  refine ⟨hl.sorted, hr.sorted, hl.len, hr.len, ?_, ?_⟩
  · rw [List.nodup_append]
    exact ⟨hl.nodup, hr.nodup, fun a ha b hb e => h.disj a ha (e ▸ hb)⟩
  · rw [List.mem_append]
    rintro (e | e)
    · exact hl.notMe e
    · exact hr.notMe e

/-- What a join does to a side that loses a peer. -/
theorem insertSide_evicts {me : Dhkey} {cap : Nat} {room : Bool} {side : List Dhkey} {x y : Dhkey} (hl : side.length ≤ cap)
    (hy : y ∈ side) (hn : y ∉ (insertSide me cap room side x).1) :
    (∀ z ∈ (insertSide me cap room side x).1, dist me z ≤ dist me y) ∧ side.length = cap ∧
    (∀ z ∈ side, z ≠ y → z ∈ (insertSide me cap room side x).1) := by
  have hp := sortKd_dist me (x :: side)
  rcases insertSide_cases me cap room side x hl with ⟨_, e⟩ | ⟨_, _, e⟩ | ⟨_, hcap, a, w, h3, e⟩
  · rw [e] at hn; exact absurd hy hn
  · rw [e] at hn
    exact absurd (hp.1.mem_iff.2 (List.mem_cons_of_mem _ hy)) hn
  · rw [e] at hn ⊢
    have hmem : ∀ v, v ∈ side → v ∈ a ∨ v = w := by
      intro v hv
      have := hp.1.mem_iff.2 (List.mem_cons_of_mem x hv)
      rw [h3] at this
      simpa using this
    have hyw : y = w := (hmem y hy).resolve_left hn
    subst hyw
    refine ⟨?_, hcap, fun z hz hzy => (hmem z hz).resolve_right hzy⟩
    intro z hz
    have hs := hp.2
    rw [h3] at hs
    exact (List.pairwise_append.1 hs).2.2 z hz y (by simp)

/-- C38: a join removes at most one peer, from a full side, and one that is at least as far as all that remain there. -/
theorem C38_evicts_farthest (me : Dhkey) (cap : Nat) (ops : List Op) (x y : Dhkey) :
    let s := run (State.init me cap) ops
    let s' := step s (.joinLeaf x)
    (y ∈ s.leaf.right → y ∉ s'.leaf.right →
      (∀ z ∈ s'.leaf.right, dist me z ≤ dist me y) ∧ s.leaf.right.length = cap ∧ s'.leaf.left = s.leaf.left ∧
      ∀ z ∈ s.leaf.right, z ≠ y → z ∈ s'.leaf.right) ∧
    (y ∈ s.leaf.left → y ∉ s'.leaf.left →
      (∀ z ∈ s'.leaf.left, dist me z ≤ dist me y) ∧ s.leaf.left.length = cap ∧ s'.leaf.right = s.leaf.right ∧
      ∀ z ∈ s.leaf.left, z ≠ y → z ∈ s'.leaf.left) := by
  intro s s'
  have h := (run_inv ops (inv_init me cap)).leaf
  have hm : s.leaf.me = me := run_me ops _
  have hc : s.leaf.cap = cap := run_cap ops _
  have hl := h.left
  have hr := h.right
  have e1 : s' = step s (.joinLeaf x) := rfl
  simp only [step] at e1
  by_cases hx : s.inLeaf x = true
  · rw [if_pos hx] at e1
    rw [e1]
    exact ⟨fun a b => absurd a b, fun a b => absurd a b⟩
  · rw [if_neg hx] at e1
    have e2 : s'.leaf = (s.leaf.join x).1 := by rw [e1]
    rw [e2]
    rcases join_cases s.leaf x with ⟨_, e⟩ | ⟨_, e⟩ | ⟨_, hxr, hxl, ⟨room, _, e⟩ | ⟨room, _, e⟩⟩
    · rw [e]; exact ⟨fun a b => absurd a b, fun a b => absurd a b⟩
    · rw [e]; exact ⟨fun a b => absurd a b, fun a b => absurd a b⟩
    · rw [e]
      have hf := finish_fields { s.leaf with right := (insertSide s.leaf.me s.leaf.cap room s.leaf.right x).1 }
        (insertSide s.leaf.me s.leaf.cap room s.leaf.right x).2.1 (insertSide s.leaf.me s.leaf.cap room s.leaf.right x).2.2
      rw [hf.2.2.1, hf.2.2.2]
      refine ⟨?_, fun a b => absurd a b⟩
      intro hy hn
      have := insertSide_evicts hr.len hy hn
      rw [hm, hc] at this
      rw [hm, hc]
      exact ⟨this.1, this.2.1, rfl, this.2.2⟩
    · rw [e]
      have hf := finish_fields { s.leaf with left := (insertSide s.leaf.me s.leaf.cap room s.leaf.left x).1 }
        (insertSide s.leaf.me s.leaf.cap room s.leaf.left x).2.1 (insertSide s.leaf.me s.leaf.cap room s.leaf.left x).2.2
      rw [hf.2.2.1, hf.2.2.2]
      refine ⟨fun a b => absurd a b, ?_⟩
      intro hy hn
      have := insertSide_evicts hl.len hy hn
      rw [hm, hc] at this
      rw [hm, hc]
      exact ⟨this.1, this.2.1, rfl, this.2.2⟩

/-- C38: a peer that joins is taken in when both sides have room, and nobody else enters. -/
theorem C38_taken_in (me : Dhkey) (cap : Nat) (ops : List Op) (x : Dhkey) (hx : x ≠ me) :
    let s := run (State.init me cap) ops
    let s' := step s (.joinLeaf x)
    (s.leaf.left.length < cap → s.leaf.right.length < cap → x ∈ s'.leaf.left ∨ x ∈ s'.leaf.right) ∧
    ∀ y, y ≠ x → (y ∈ s'.leaf.left → y ∈ s.leaf.left) ∧ (y ∈ s'.leaf.right → y ∈ s.leaf.right) := by
  intro s s'
  have h0 := run_inv ops (inv_init me cap)
  have h := h0.leaf
  have hm : s.leaf.me = me := run_me ops _
  have hc : s.leaf.cap = cap := run_cap ops _
  have e1 : s' = step s (.joinLeaf x) := rfl
  simp only [step] at e1
  by_cases hfx : s.inLeaf x = true
  · rw [if_pos hfx] at e1
    rw [e1]
    exact ⟨fun _ _ => (h0.leafFlag x).1 hfx, fun y _ => ⟨fun e => e, fun e => e⟩⟩
  · rw [if_neg hfx] at e1
    have e2 : s'.leaf = (s.leaf.join x).1 := by rw [e1]
    rw [e2]
    have hin : ∀ (room : Bool) (side : List Dhkey), side.length < s.leaf.cap → room = true →
        x ∈ (insertSide s.leaf.me s.leaf.cap room side x).1 := by
      intro room side hlen hroom
      rcases insertSide_cases s.leaf.me s.leaf.cap room side x (by omega) with ⟨e, _⟩ | ⟨_, _, e⟩ | ⟨_, e, _⟩
      · rw [hroom] at e; exact absurd e (by simp)
      · rw [e]
        exact (sortKd_dist s.leaf.me (x :: side)).1.mem_iff.2 List.mem_cons_self
      · omega
    rcases join_cases s.leaf x with ⟨e, _⟩ | ⟨e, _⟩ | ⟨hne, hxr, hxl, ⟨room, hroom, e⟩ | ⟨room, hroom, e⟩⟩
    · exact absurd (e.trans hm) hx
    · exact absurd ((h0.leafFlag x).2 e.symm) hfx
    · rw [e]
      have hf := finish_fields { s.leaf with right := (insertSide s.leaf.me s.leaf.cap room s.leaf.right x).1 }
        (insertSide s.leaf.me s.leaf.cap room s.leaf.right x).2.1 (insertSide s.leaf.me s.leaf.cap room s.leaf.right x).2.2
      rw [hf.2.2.1, hf.2.2.2]
      refine ⟨fun _ hr => Or.inr (hin room _ (by rw [hc]; exact hr) (hroom (by rw [hc]; exact hr))), ?_⟩
      intro y hy
      exact ⟨fun e => e, fun hyr => ((h.right.insert room hxr hne).2 y hyr).resolve_left hy⟩
    · rw [e]
      have hf := finish_fields { s.leaf with left := (insertSide s.leaf.me s.leaf.cap room s.leaf.left x).1 }
        (insertSide s.leaf.me s.leaf.cap room s.leaf.left x).2.1 (insertSide s.leaf.me s.leaf.cap room s.leaf.left x).2.2
      rw [hf.2.2.1, hf.2.2.2]
      refine ⟨fun hl _ => Or.inl (hin room _ (by rw [hc]; exact hl) (hroom (by rw [hc]; exact hl))), ?_⟩
      intro y hy
      exact ⟨fun hyl => ((h.left.insert room hxl hne).2 y hyl).resolve_left hy, fun e => e⟩

/-- C38: after a leave the peer is no longer in the leafset, and nobody else is affected. -/
theorem C38_gone_after_leave (me : Dhkey) (cap : Nat) (ops : List Op) (x : Dhkey) :
    let s := run (State.init me cap) ops
    let s' := step s (.leaveLeaf x)
    x ∉ s'.leaf.left ∧ x ∉ s'.leaf.right ∧
    ∀ y, y ≠ x → (y ∈ s'.leaf.left ↔ y ∈ s.leaf.left) ∧ (y ∈ s'.leaf.right ↔ y ∈ s.leaf.right) := by
  intro s s'
  have h0 := run_inv ops (inv_init me cap)
  have h := h0.leaf
  have e1 : s' = step s (.leaveLeaf x) := rfl
  simp only [step] at e1
  by_cases hfx : s.inLeaf x = true
  · rw [if_pos hfx] at e1
    have e2 : s'.leaf = (s.leaf.leave x).1 := by rw [e1]
    rw [e2]
    rcases leave_cases s.leaf x with ⟨hx, e⟩ | ⟨_, hx, e⟩ | ⟨_, hxr, hx, e⟩ | ⟨_, hxr, hxl, e⟩
    · rw [e]
      rw [hx]
      exact ⟨h.left.notMe, h.right.notMe, fun y _ => ⟨Iff.rfl, Iff.rfl⟩⟩
    · rw [e]
      refine ⟨fun hx' => h.disj x hx' hx, h.right.nodup.not_mem_erase, ?_⟩
      intro y hy
      exact ⟨Iff.rfl, List.mem_erase_of_ne hy⟩
    · rw [e]
      refine ⟨h.left.nodup.not_mem_erase, hxr, ?_⟩
      intro y hy
      exact ⟨List.mem_erase_of_ne hy, Iff.rfl⟩
    · rw [e]
      exact ⟨hxl, hxr, fun y _ => ⟨Iff.rfl, Iff.rfl⟩⟩
  · rw [if_neg hfx] at e1
    rw [e1]
    exact ⟨fun e => hfx ((h0.leafFlag x).2 (Or.inl e)), fun e => hfx ((h0.leafFlag x).2 (Or.inr e)),
      fun y _ => ⟨Iff.rfl, Iff.rfl⟩⟩

/-- A leafset of size 1 from which a peer is evicted. -/
example : pA ∈ (run (State.init zero 1) [.joinLeaf pA]).leaf.right ∧
    pA ∉ (step (run (State.init zero 1) [.joinLeaf pA]) (.joinLeaf (id' 0 5))).leaf.right := by decide +kernel

def meR : Dhkey := id' 0 1
def xR : Dhkey := id' 1 0
def yR : Dhkey := id' 1 1

/-- The title of C38 claims more, that the nearest peers are kept.  That fails: whether a full side admits a peer is decided
by the position between the own id and the outermost member, not by the distance, and the two disagree because the distance
of ids is computed word by word.  Here `Y` is nearer than `X`, and `X` is kept. -/
theorem C38_nearest_refuted : dist meR yR < dist meR xR ∧
    xR ∈ (run (State.init meR 1) [.joinLeaf xR, .joinLeaf yR]).leaf.right ∧
    yR ∉ (run (State.init meR 1) [.joinLeaf xR, .joinLeaf yR]).leaf.right ∧
    (run (State.init meR 1) [.joinLeaf yR]).leaf.right = [yR] := by decide +kernel

/-! ## C40 -/

/-- C40: the closest key is an element of the list at minimal distance; there is none only in an empty list. -/
theorem C40_closest (key : Dhkey) (l : List Dhkey) :
    (closest key l = none ↔ l = []) ∧
    ∀ m, closest key l = some m → m ∈ l ∧ ∀ x ∈ l, Np.Spec.num (distance key m) ≤ Np.Spec.num (distance key x) := by
  rcases closest_spec key l with ⟨h1, h2⟩ | ⟨m, h1, h2, h3⟩
  · refine ⟨⟨fun _ => h2, fun _ => h1⟩, ?_⟩
    intro m hm
    rw [h1] at hm
    exact absurd hm (by simp)
  · refine ⟨⟨fun e => absurd (h1.symm.trans e) (by simp), fun e => ?_⟩, ?_⟩
    · rw [e] at h2; simp at h2
    · intro m' hm
      rw [h1] at hm
      simp only [Option.some.injEq] at hm
      subst hm
      exact ⟨h2, h3⟩

/-- C40: sorting by distance is a permutation, nearest first. -/
theorem C40_sort_by_distance (key : Dhkey) (l : List Dhkey) : (sortKd key l).Perm l ∧ NearestFirst key (sortKd key l) :=
  sortKd_spec key l

/-- C40: sorting by common prefix is a permutation; a longer common prefix of the printed ids comes first, and among equal
ones the smaller distance. -/
theorem C40_sort_by_prefix (key : Dhkey) (l : List Dhkey) : (sortCpm key l).Perm l ∧
    (sortCpm key l).Pairwise fun a b =>
      Np.Spec.commonPrefix (idStr key.bytes) (idStr b.bytes) < Np.Spec.commonPrefix (idStr key.bytes) (idStr a.bytes) ∨
      (Np.Spec.commonPrefix (idStr key.bytes) (idStr a.bytes) = Np.Spec.commonPrefix (idStr key.bytes) (idStr b.bytes) ∧
        dist key a ≤ dist key b) := by
  have h := sortCpm_spec key l
  simp only [C06_index_is_common_prefix] at h
  exact h

example : sortKd zero [pD, pB, pA, pC] = [pA, pB, pC, pD] ∧ closest zero [pD, pB, pA, pC] = some pA ∧
    sortCpm pB [pD, pC, zero, pA, pB] = [pB, pA, pC, pD, zero] := by decide +kernel

/-! ## C61 -/

/-- C61: after every history the route count is the number of peers in the table. -/
theorem C61_route_count (me : Dhkey) (cap : Nat) (ops : List Op) :
    (run (State.init me cap) ops).count = (peers (run (State.init me cap) ops)).length := by
  have h := run_inv ops (inv_init me cap)
  rw [h.table.count]
  unfold occupied peers
  rw [List.length_filterMap_eq_countP]

/-- C61: a node reports to have joined exactly while it has a peer in its table or leafset. -/
theorem C61_has_joined (me : Dhkey) (cap : Nat) (ops : List Op) :
    hasConnection (run (State.init me cap) ops) = true ↔ ∃ x, x ∈ known (run (State.init me cap) ops) := by
  have hc := C61_route_count me cap ops
  generalize run (State.init me cap) ops = s at hc
  unfold hasConnection
  rw [hc]
  have hlen : (known s).length = (peers s).length + (s.leaf.left.length + s.leaf.right.length) := by
    simp [known]
  rw [← hlen]
  simp only [gt_iff_lt, decide_eq_true_eq]
  rw [List.length_pos_iff_exists_mem]

example : (run (State.init zero 7) sampleOps).count = 3 ∧ hasConnection (run (State.init zero 7) sampleOps) = true ∧
    hasConnection (run (State.init zero 7) [.joinLeaf pA, .leaveLeaf pA]) = false := by decide +kernel

/-! ## C62 -/

/-- C62: for a target other than the node itself the selection of a next hop does not abort; it yields at most one peer, which
is in the table or the leafset and is not the node itself. -/
theorem C62_next_hop (me : Dhkey) (cap : Nat) (ops : List Op) (good : Dhkey → Bool) (worse : Dhkey → Dhkey → Bool)
    (key : Dhkey) (count : Nat) (hk : key ≠ me) (hc : 1 ≤ count) :
    ∃ l, lookup (run (State.init me cap) ops) good worse key count = some l ∧ l.length ≤ 1 ∧
      ∀ x ∈ l, x ∈ known (run (State.init me cap) ops) ∧ x ≠ me := by
  have h := run_inv ops (inv_init me cap)
  have hm : (run (State.init me cap) ops).leaf.me = me := run_me ops _
  generalize run (State.init me cap) ops = s at h hm
  have htab : ∀ x i, s.table i = some x → x ∈ known s ∧ x ≠ me := by
    intro x i hi
    refine ⟨?_, fun e => (h.table.place i x hi).1 (hm.trans e.symm)⟩
    unfold known
    simp only [List.mem_append]
    exact Or.inl (Or.inl ((mem_peers h x).2 ⟨i, hi⟩))
  rcases lookup_cases h good worse (key := key) (by rw [hm]; exact hk.symm) hc with
    ⟨_, _, e⟩ | ⟨_, base, _, _, x, hx, e⟩ | ⟨_, base, _, _, l, e, hl, hx, _⟩
  · refine ⟨_, e, toList_length _, ?_⟩
    intro x hx
    have := closest_mem hx
    rw [List.mem_append] at this
    constructor
    · unfold known
      simp only [List.mem_append]
      rcases this with h1 | h1
      · exact Or.inr h1
      · exact Or.inl (Or.inr h1)
    · rintro rfl
      rcases this with h1 | h1
      · exact h.leaf.right.notMe (hm ▸ h1)
      · exact h.leaf.left.notMe (hm ▸ h1)
  · refine ⟨_, e, by simp, ?_⟩
    intro y hy
    simp only [List.mem_singleton] at hy
    subst hy
    obtain ⟨k, _, ht⟩ := mem_cell.1 hx
    exact htab y _ ht
  · refine ⟨l, e, hl, ?_⟩
    intro x hxl
    have := hx x hxl
    rcases goodRows_spec s.table good (index s.leaf.me key) with ⟨h1, _⟩ | ⟨i, _, h1, _⟩
    · rw [h1] at this; simp at this
    · rw [h1] at this
      obtain ⟨_, j, _, k, _, ht⟩ := mem_goodRow.1 this
      exact htab x _ ht

/-- C62: when the table has a usable peer in the row and column of the target, and the target is not left to the leafset, the
next hop has a longer prefix in common with the target than the node itself. -/
theorem C62_progress (me : Dhkey) (cap : Nat) (ops : List Op) (good : Dhkey → Bool) (worse : Dhkey → Dhkey → Bool)
    (key : Dhkey) (count : Nat) (hk : key ≠ me) (hc : 1 ≤ count)
    (hleaf : ¬ (count = 1 ∧ between key (run (State.init me cap) ops).leaf.lrange (run (State.init me cap) ops).leaf.rrange true = true))
    (i : Nat) (g : Dhkey) (hi : RightPlace me key i) (hg : (run (State.init me cap) ops).table i = some g) (hgood : good g = true) :
    ∃ x, lookup (run (State.init me cap) ops) good worse key count = some [x] ∧
      Np.Spec.commonPrefix (idStr me.bytes) (idStr key.bytes) < Np.Spec.commonPrefix (idStr x.bytes) (idStr key.bytes) := by
  have h := run_inv ops (inv_init me cap)
  have hm : (run (State.init me cap) ops).leaf.me = me := run_me ops _
  generalize run (State.init me cap) ops = s at h hm hleaf hg
  have hk' : s.leaf.me ≠ key := by rw [hm]; exact hk.symm
  have hcell : ∀ base, slot s.leaf.me key = some base → g ∈ cell s.table base := by
    intro base hb
    obtain ⟨row, col, e, hr, ht, hc', he, hie⟩ := hi
    obtain ⟨c, s1, l1, hrow, t1, _⟩ := slot_some hk'
    rw [C06_index_is_common_prefix, hm, ← hr] at s1 t1
    have hcc : c = col := by
      rw [t1] at ht
      have hinj : ∀ a < 16, ∀ b < 16, hexDigit a = hexDigit b → a = b := by decide
      exact hinj c l1 col hc' (by simpa using ht)
    rw [hm, s1] at hb
    simp only [Option.some.injEq] at hb
    exact mem_cell.2 ⟨e, he, by rw [show base + e = i by omega]; exact hg⟩
  rcases lookup_cases h good worse hk' hc with ⟨h1, h2, _⟩ | ⟨_, base, hb, _, x, hx, e⟩ | ⟨_, base, hb, hbad, _⟩
  · exact absurd ⟨h1, h2⟩ hleaf
  · refine ⟨x, e, ?_⟩
    obtain ⟨hx1, hx2⟩ := cell_slot h hk' hb hx
    have := cell_progress hk' hx1 hx2 hb
    rw [hm] at this
    simpa only [C06_index_is_common_prefix] using this
  · have := hbad g (hcell base hb)
    rw [hgood] at this
    exact absurd this (by simp)

/-- C62: a target within the leafset is handed to the member of the leafset that is closest to it. -/
theorem C62_leafset (me : Dhkey) (cap : Nat) (ops : List Op) (good : Dhkey → Bool) (worse : Dhkey → Dhkey → Bool)
    (key : Dhkey) (hk : key ≠ me)
    (hleaf : between key (run (State.init me cap) ops).leaf.lrange (run (State.init me cap) ops).leaf.rrange true = true)
    (x : Dhkey) (hx : lookup (run (State.init me cap) ops) good worse key 1 = some [x]) :
    (x ∈ (run (State.init me cap) ops).leaf.left ∨ x ∈ (run (State.init me cap) ops).leaf.right) ∧
    ∀ y, y ∈ (run (State.init me cap) ops).leaf.left ∨ y ∈ (run (State.init me cap) ops).leaf.right →
      Np.Spec.num (distance key x) ≤ Np.Spec.num (distance key y) := by
  generalize run (State.init me cap) ops = s at hleaf hx
  unfold lookup at hx
  rw [if_pos ⟨rfl, hleaf⟩] at hx
  have hc : closest key (s.leaf.right ++ s.leaf.left) = some x := by
    cases h : closest key (s.leaf.right ++ s.leaf.left) with
    | none => rw [h] at hx; simp at hx
    | some y => rw [h] at hx; simpa using hx
  obtain ⟨h1, h2⟩ := (C40_closest key _).2 x hc
  refine ⟨?_, ?_⟩
  · rw [List.mem_append] at h1; exact h1.symm
  · intro y hy
    exact h2 y (List.mem_append.2 hy.symm)

/-- C62: only without any usable peer in the rows up to that of the target a lookup yields nothing. -/
theorem C62_no_hop (me : Dhkey) (cap : Nat) (ops : List Op) (good : Dhkey → Bool) (worse : Dhkey → Dhkey → Bool)
    (key : Dhkey) (count : Nat) (hk : key ≠ me) (hc : 1 ≤ count)
    (hleaf : ¬ (count = 1 ∧ between key (run (State.init me cap) ops).leaf.lrange (run (State.init me cap) ops).leaf.rrange true = true))
    (hn : lookup (run (State.init me cap) ops) good worse key count = some []) (x : Dhkey)
    (hx : x ∈ peers (run (State.init me cap) ops))
    (hrow : Np.Spec.commonPrefix (idStr me.bytes) (idStr x.bytes) ≤ Np.Spec.commonPrefix (idStr me.bytes) (idStr key.bytes)) :
    good x = false := by
  have h := run_inv ops (inv_init me cap)
  have hm : (run (State.init me cap) ops).leaf.me = me := run_me ops _
  generalize run (State.init me cap) ops = s at h hm hleaf hn hx
  have hk' : s.leaf.me ≠ key := by rw [hm]; exact hk.symm
  rcases lookup_cases h good worse hk' hc with ⟨h1, h2, _⟩ | ⟨_, base, hb, _, y, hy, e⟩ | ⟨_, base, hb, hbad, l, e, _, _, hl⟩
  · exact absurd ⟨h1, h2⟩ hleaf
  · rw [hn] at e; simp at e
  · rw [hn] at e
    simp only [Option.some.injEq] at e
    have hempty := hl e.symm
    rcases goodRows_spec s.table good (index s.leaf.me key) with ⟨_, h1⟩ | ⟨i, _, h1, h2⟩
    · obtain ⟨i, hi⟩ := (mem_peers h x).1 hx
      obtain ⟨hne, b, hsb, hb1, hb2⟩ := h.table.place i x hi
      obtain ⟨c, s1, l1, _⟩ := slot_some hne
      rw [hsb] at s1
      simp only [Option.some.injEq] at s1
      rw [← C06_index_is_common_prefix, ← C06_index_is_common_prefix, ← hm] at hrow
      have hr := h1 (index s.leaf.me x) hrow
      cases hgx : good x with
      | false => rfl
      | true =>
        have : x ∈ goodRow s.table good (index s.leaf.me x) :=
          mem_goodRow.2 ⟨hgx, c, l1, i - b, by omega, by rw [← hi]; congr 1; omega⟩
        rw [hr] at this
        simp at this
    · rw [hempty] at h1; exact absurd h1.symm h2

/-- C62: a message that is passed on along such hops, each node using its own table, passes at most 64 of them. -/
theorem C62_bounded_path (key : Dhkey) (path : List Dhkey) (h : Approaching key path) : path.length ≤ 65 := by
  have key' : ∀ (l : List Dhkey) (a : Dhkey), Approaching key (a :: l) → l.length + index a key ≤ 64 := by
    intro l
    induction l with
    | nil =>
      intro a _
      have := (C06_symmetric_and_bounded a key).2.1
      simpa using this
    | cons b r ih =>
      intro a hc
      have := ih b hc.2
      have := hc.1
      simp only [← C06_index_is_common_prefix] at this
      simp only [List.length_cons]
      omega
  cases path with
  | nil => simp
  | cons a l =>
    have := key' l a h
    simp only [List.length_cons]
    omega

example : Approaching pC [pD, pA, pC] :=
  ⟨by decide +kernel, by decide +kernel, trivial⟩

/-- With the sample history a target in the cell of `A` is handed to a peer of that cell. -/
example : lookup (run (State.init zero 7) sampleOps) (fun _ => true) (fun _ _ => false) pC 2 = some [pA] ∧
    RightPlace zero pC 3 ∧ (run (State.init zero 7) sampleOps).table 3 = some pA :=
  ⟨by decide +kernel, ⟨0, 1, 0, by decide +kernel, by decide +kernel, by omega, by omega, by omega⟩, by decide +kernel⟩

/-- C62 is limited to foreign targets: a lookup of more than one hop for the own id fails an assertion and aborts the
process. -/
theorem C62_own_id_refuted (s : State) (good : Dhkey → Bool) (worse : Dhkey → Dhkey → Bool) (count : Nat) (hc : 2 ≤ count) :
    lookup s good worse s.leaf.me count = none := by
  unfold lookup
  rw [if_neg (by omega)]
  have hi : index s.leaf.me s.leaf.me = 64 := (C06_symmetric_and_bounded _ _).2.2.2 rfl
  have : slot s.leaf.me s.leaf.me = none := by
    unfold slot
    rw [hi, (C06_digit s.leaf.me 64).2 (Nat.le_refl _)]
  rw [this]

end Np.Route
