import Verif.Stable.Spec
/-! # Lemmas about the stable filter -/
set_option linter.unusedSimpArgs false
set_option linter.unusedVariables false
namespace Np.Stable
open _root_.Np.Stable.Spec
open Np.Token (Bytes Tok)

theorem cellOf_eq (w : BitVec 32) : cellOf w = w.toNat % 2048 := by
  unfold cellOf
  rw [BitVec.toNat_and, show (2047#32).toNat = 2 ^ 11 - 1 from rfl, Nat.and_two_pow_sub_one_eq_mod]

theorem cellOf_lt (w : BitVec 32) : cellOf w < 2048 := by rw [cellOf_eq]; omega

theorem cells_lt {id : Dhkey} {c : Nat} (h : c ∈ cells id) : c < 2048 := by
  simp only [cells, List.mem_cons, List.not_mem_nil, or_false] at h
  rcases h with rfl | rfl | rfl | rfl | rfl | rfl | rfl | rfl <;> exact cellOf_lt _

theorem cellOf_add (x : BitVec 32) (q : Nat) (h : q < 8) : cellOf (x + BitVec.ofNat 32 q) = (x.toNat % 2048 + q) % 2048 := by
  rw [cellOf_eq, BitVec.toNat_add, BitVec.toNat_ofNat]
  omega

theorem prune_list (pos : Nat → Nat) (l : List Nat) (hn : (l.map pos).Nodup) : ∀ (f : Nat → BitVec 8) (c : Nat),
    l.foldl (fun g q => let p := pos q; setCell g p (g p >>> 1)) f c = if c ∈ l.map pos then f c >>> 1 else f c := by
  induction l with
  | nil => intro f c; simp
  | cons q l ih =>
    intro f c
    rw [List.map_cons, List.nodup_cons] at hn
    rw [List.foldl_cons, ih hn.2, List.map_cons]
    by_cases hc : c = pos q
    · subst hc
      rw [if_neg hn.1, if_pos (by simp)]
      simp [setCell]
    · have h1 : setCell f (pos q) (f (pos q) >>> 1) c = f c := by unfold setCell; rw [if_neg hc]
      show (if c ∈ l.map pos then setCell f (pos q) (f (pos q) >>> 1) c >>> 1 else setCell f (pos q) (f (pos q) >>> 1) c) = _
      rw [h1]
      simp only [List.mem_cons, hc, false_or]

theorem prune_eq (f : Nat → BitVec 8) (x : BitVec 32) (c : Nat) (hc : c < 2048) : prune f x c = if Hits c x then f c >>> 1 else f c := by
  unfold prune
  have hm : (List.range 8).map (fun q => cellOf (x + BitVec.ofNat 32 q)) = (List.range 8).map fun q => (x.toNat % 2048 + q) % 2048 := by
    apply List.map_congr_left
    intro q hq
    exact cellOf_add x q (List.mem_range.mp hq)
  have hmem : ∀ y, y < 2048 → (c ∈ (List.range 8).map (fun q => (y + q) % 2048) ↔ (c + (2048 - y)) % 2048 < 8) := by
    intro y hy
    rw [List.mem_map]
    constructor
    · rintro ⟨q, hq, rfl⟩
      rw [List.mem_range] at hq
      omega
    · intro h
      exact ⟨(c + (2048 - y)) % 2048, List.mem_range.mpr h, by omega⟩
  have hnd : ∀ y, ((List.range 8).map fun q => (y + q) % 2048).Nodup := by
    intro y
    unfold List.Nodup
    rw [List.pairwise_map]
    refine (List.nodup_range (n := 8)).imp_of_mem ?_
    intro a b ha hb hne
    rw [List.mem_range] at ha hb
    omega
  rw [prune_list (fun q => cellOf (x + BitVec.ofNat 32 q)) _ (by rw [hm]; exact hnd _), hm]
  simp only [hmem _ (Nat.mod_lt _ (by omega)), Hits]

attribute [local irreducible] Hits

variable {G : Gen}

def advance (G : Gen) : Nat → Rng → Rng
  | 0, r => r
  | n + 1, r => advance G n (G r).2

theorem draws_add (a b : Nat) : ∀ r, draws G (a + b) r = draws G a r ++ draws G b (advance G a r) := by
  induction a with
  | zero => intro r; rw [Nat.zero_add]; rfl
  | succ a ih =>
    intro r
    rw [show a + 1 + b = (a + b) + 1 from by omega]
    simp only [draws, advance]
    rw [ih, List.cons_append]

/-- How often a cell is pruned. -/
def hits (c : Nat) (l : List (BitVec 32)) : Nat := (l.filter fun x => decide (Hits c x)).length

theorem hits_append (c : Nat) (a b : List (BitVec 32)) : hits c (a ++ b) = hits c a + hits c b := by simp [hits]

theorem hits_cons (c : Nat) (x : BitVec 32) (l : List (BitVec 32)) : hits c (x :: l) = (if Hits c x then 1 else 0) + hits c l := by
  unfold hits
  rw [List.filter_cons]
  by_cases h : Hits c x
  · rw [if_pos (decide_eq_true h), if_pos h, List.length_cons, Nat.add_comm]
  · rw [if_neg (by rw [decide_eq_true_iff]; exact h), if_neg h, Nat.zero_add]

theorem pruneAll_cell (c : Nat) (hc : c < 2048) : ∀ (n : Nat) (f : Filter), (pruneAll G n f).cell c = f.cell c >>> hits c (draws G n f.rng) := by
  intro n
  induction n with
  | zero => intro f; simp [pruneAll, draws, hits]
  | succ n ih =>
    intro f
    simp only [pruneAll, draws]
    rw [ih, hits_cons]
    simp only []
    rw [prune_eq _ _ _ hc]
    split
    · rw [← BitVec.shiftRight_add]
    · rw [Nat.zero_add]

theorem pruneAll_rng : ∀ (n : Nat) (f : Filter), (pruneAll G n f).rng = advance G n f.rng := by
  intro n
  induction n with
  | zero => intro f; rfl
  | succ n ih => intro f; simp only [pruneAll, advance, ih]

theorem set_list (l : List Nat) : ∀ (f : Nat → BitVec 8) (c : Nat), l.foldl (fun h c => setCell h c 0x0f#8) f c = if c ∈ l then 0x0f#8 else f c := by
  induction l with
  | nil => intro f c; simp
  | cons a l ih =>
    intro f c
    rw [List.foldl_cons, ih]
    by_cases h : c ∈ l
    · simp [h]
    · simp only [h, if_false, setCell, List.mem_cons, or_false]

theorem add_cell (f : Filter) (id : Dhkey) (c : Nat) (hc : c < 2048) :
    (add G f id).cell c = if c ∈ cells id then 0x0f#8 else f.cell c >>> hits c (draws G 8 f.rng) := by
  unfold add
  simp only []
  rw [set_list, pruneAll_cell c hc]

theorem add_rng (f : Filter) (id : Dhkey) : (add G f id).rng = advance G 8 f.rng := by
  unfold add
  simp only [pruneAll_rng]

/-- A cell that was set and was pruned at most `k` times since. -/
def Alive (k : Nat) (v : BitVec 8) : Prop := ∃ j, j ≤ k ∧ v = 0x0f#8 >>> j

theorem Alive.ne {k : Nat} {v : BitVec 8} (h : Alive k v) (hk : k < 4) : v ≠ 0 := by
  obtain ⟨j, hj, rfl⟩ := h
  have : j = 0 ∨ j = 1 ∨ j = 2 ∨ j = 3 := by omega
  rcases this with rfl | rfl | rfl | rfl <;> decide

theorem Alive.set (k : Nat) : Alive k 0x0f#8 := ⟨0, by omega, rfl⟩

theorem add_alive {f : Filter} {c k : Nat} (hc : c < 2048) (h : Alive k (f.cell c)) (id : Dhkey) :
    Alive (k + hits c (draws G 8 f.rng)) ((add G f id).cell c) := by
  rw [add_cell f id c hc]
  split
  · exact Alive.set _
  · obtain ⟨j, hj, he⟩ := h
    exact ⟨j + hits c (draws G 8 f.rng), by omega, by rw [he, BitVec.shiftRight_add]⟩

/-- Any number of ids. -/
def addAll (G : Gen) (f : Filter) (ids : List Dhkey) : Filter := ids.foldl (add G) f

theorem addAll_alive {c : Nat} (hc : c < 2048) (ids : List Dhkey) : ∀ {f : Filter} {k : Nat}, Alive k (f.cell c) →
    Alive (k + hits c (draws G (8 * ids.length) f.rng)) ((addAll G f ids).cell c) := by
  induction ids with
  | nil => intro f k h; simpa [addAll, draws, hits] using h
  | cons a l ih =>
    intro f k h
    have := ih (add_alive (G := G) hc h a)
    rw [add_rng] at this
    rw [List.length_cons, show 8 * (l.length + 1) = 8 + 8 * l.length from by omega, draws_add, hits_append, ← Nat.add_assoc]
    exact this

theorem addAll_rng (ids : List Dhkey) : ∀ f : Filter, (addAll G f ids).rng = advance G (8 * ids.length) f.rng := by
  induction ids with
  | nil => intro f; rfl
  | cons a l ih =>
    intro f
    have h : ∀ a b r, advance G (a + b) r = advance G b (advance G a r) := by
      intro a
      induction a with
      | zero => intro b r; rw [Nat.zero_add]; rfl
      | succ a ih =>
        intro b r
        rw [show a + 1 + b = (a + b) + 1 from by omega]
        exact ih b (G r).2
    show (addAll G (add G f a) l).rng = _
    rw [ih, add_rng, List.length_cons, show 8 * (l.length + 1) = 8 + 8 * l.length from by omega, h]

theorem shift_zero (k : Nat) : 0#8 >>> k = 0#8 := by simp

/-- A cell is empty unless some id set it. -/
theorem addAll_zero {c : Nat} (hc : c < 2048) (ids : List Dhkey) : ∀ {f : Filter}, f.cell c = 0#8 → (∀ i ∈ ids, c ∉ cells i) →
    (addAll G f ids).cell c = 0#8 := by
  induction ids with
  | nil => intro f h _; exact h
  | cons a l ih =>
    intro f h hn
    refine ih (f := add G f a) ?_ fun i hi => hn i (List.mem_cons_of_mem _ hi)
    rw [add_cell f a c hc, if_neg (hn a (by simp)), h, shift_zero]

theorem sendAll_filter (hash : Bytes → Dhkey) (ms : List Part) : ∀ f, (sendAll G hash f ms).2 = addAll G f (ms.map (partId hash)) := by
  induction ms with
  | nil => intro f; rfl
  | cons m ms ih => intro f; simp only [sendAll, ih]; rfl

def requestId (hash : Bytes → Dhkey) (q : Request) : Dhkey := Dhkey.generateSubject hash Dhkey.zero q.token.attrSignature

theorem isRequest_filter (E : Token.Env) (hash : Bytes → Dhkey) (f : Filter) (k : Kind) (now : BitVec 64) (t : Tok) :
    (isRequest G E hash f k now t).2 = add G f (Dhkey.generateSubject hash Dhkey.zero t.attrSignature) := by
  unfold isRequest
  simp only []
  split <;> rfl

theorem askAll_filter (E : Token.Env) (hash : Bytes → Dhkey) (qs : List Request) : ∀ f, (askAll G E hash f qs).2 = addAll G f (qs.map (requestId hash)) := by
  induction qs with
  | nil => intro f; rfl
  | cons q qs ih => intro f; simp only [askAll, ih, isRequest_filter]; rfl

theorem addAll_append (f : Filter) (a b : List Dhkey) : addAll G f (a ++ b) = addAll G (addAll G f a) b := by simp [addAll]

theorem check_true {f : Filter} {id : Dhkey} (h : ∀ c ∈ cells id, f.cell c ≠ 0) : (check G f id).1 = true := by
  unfold check
  simp only [List.all_eq_true]
  intro c hc
  simpa using h c hc

theorem check_nonzero {f : Filter} {id : Dhkey} (h : (check G f id).1 = true) : ∀ c ∈ cells id, f.cell c ≠ 0 := by
  unfold check at h
  simp only [List.all_eq_true] at h
  intro c hc
  simpa using h c hc

end Np.Stable
