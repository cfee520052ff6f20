import Verif.KeyCache.Spec
import Verif.Dhkey.Lemmas

set_option linter.unusedVariables false
set_option linter.unusedSimpArgs false

namespace Np.KeyCache

open Np.Dhkey
open _root_.Np.KeyCache.Spec

/-- Once started, the loop takes the next elements. -/
theorem scan_on : ∀ (l : List Dhkey) (it : Dhkey) (i : Nat), i < steps →
    (scan it true i l).visit = l.take (steps - i) ∧ (scan it true i l).i = i + (l.take (steps - i)).length ∧
    (steps ≤ i + l.length → l[steps - i - 1]? = some (scan it true i l).iter) := by
  intro l
  induction l with
  | nil => intro it i hi; simp [scan]; omega
  | cons k r ih =>
    intro it i hi
    have hn : steps - i = (steps - (i + 1)) + 1 := by omega
    have ht : (((equal k (if equal Dhkey.zero it = true then k else it)) || true) && decide (i < steps)) = true := by simp [hi]
    unfold scan
    simp only [ht, if_pos]
    by_cases h : steps ≤ i + 1
    · have h0 : steps - (i + 1) = 0 := by omega
      rw [if_pos h]
      have h1 : steps - i = 1 := by omega
      simp [h1]
    · rw [if_neg h]
      have := ih (if equal Dhkey.zero it = true then k else it) (i + 1) (by omega)
      simp only [Bool.true_or]
      rw [hn, List.take_succ_cons]
      refine ⟨by rw [this.1], by rw [this.2.1, List.length_cons]; omega, ?_⟩
      intro hl
      have h2 := this.2.2 (by simp at hl; omega)
      have h3 : steps - (i + 1) + 1 - 1 = (steps - (i + 1) - 1) + 1 := by omega
      rw [h3, List.getElem?_cons_succ]
      exact h2

/-- From the start of the list. -/
theorem scan_zero (l : List Dhkey) : (scan Dhkey.zero false 0 l).visit = l.take steps ∧ (scan Dhkey.zero false 0 l).i = (l.take steps).length ∧
    (steps ≤ l.length → l[steps - 1]? = some (scan Dhkey.zero false 0 l).iter) := by
  have h0 : equal Dhkey.zero Dhkey.zero = true := (equal_iff _ _).2 rfl
  cases l with
  | nil => simp [scan, steps]
  | cons k r =>
    have hk : equal k k = true := (equal_iff _ _).2 rfl
    have hon := scan_on (k :: r) Dhkey.zero 0 (by decide)
    have : scan Dhkey.zero false 0 (k :: r) = scan Dhkey.zero true 0 (k :: r) := by
      unfold scan
      simp [h0, hk, steps]
    rw [this]
    refine ⟨hon.1, by rw [hon.2.1]; simp, fun h => hon.2.2 (by omega)⟩

/-- From an element of the list. -/
theorem scan_at {it : Dhkey} (hz : it ≠ Dhkey.zero) : ∀ (a b : List Dhkey), it ∉ a →
    (scan it false 0 (a ++ it :: b)).visit = (it :: b).take steps ∧ (scan it false 0 (a ++ it :: b)).i = ((it :: b).take steps).length ∧
    (steps ≤ (it :: b).length → (it :: b)[steps - 1]? = some (scan it false 0 (a ++ it :: b)).iter) := by
  intro a
  have h0 : equal Dhkey.zero it = false := by
    cases h : equal Dhkey.zero it with
    | false => rfl
    | true => exact absurd ((equal_iff _ _).1 h).symm hz
  induction a with
  | nil =>
    intro b _
    have hk : equal it it = true := (equal_iff _ _).2 rfl
    have hon := scan_on (it :: b) it 0 (by decide)
    have : scan it false 0 ([] ++ it :: b) = scan it true 0 (it :: b) := by
      rw [List.nil_append]
      unfold scan
      simp [h0, hk, steps]
    rw [this]
    refine ⟨hon.1, by rw [hon.2.1]; simp, fun h => hon.2.2 (by omega)⟩
  | cons x a ih =>
    intro b hn
    have hx : equal x it = false := by
      cases h : equal x it with
      | false => rfl
      | true => exact absurd (by rw [(equal_iff _ _).1 h]; simp) hn
    have := ih b (fun h => hn (by simp [h]))
    have he : scan it false 0 (x :: a ++ it :: b) = scan it false 0 (a ++ it :: b) := by
      rw [List.cons_append]
      conv => lhs; unfold scan
      simp [h0, hx, steps]
    rw [he]
    exact this

/-- The part of the list a call looks at. -/
theorem round_spec {keys : List Dhkey} {it : Dhkey} (hs : Sorted keys) (hi : it = Dhkey.zero ∨ it ∈ keys) :
    ∃ a b, keys = a ++ b ∧ (it = Dhkey.zero ∧ a = [] ∨ it ≠ Dhkey.zero ∧ b.head? = some it) ∧
      (round keys it).1 = b.take steps ∧
      (steps ≤ b.length → b[steps - 1]? = some (round keys it).2) ∧ (b.length < steps → (round keys it).2 = Dhkey.zero) := by
  have fin : ∀ (b : List Dhkey) (s : Scan), s.i = (b.take steps).length → (steps ≤ b.length → b[steps - 1]? = some s.iter) →
      (steps ≤ b.length → b[steps - 1]? = some (if s.i < steps then Dhkey.zero else s.iter)) ∧
      (b.length < steps → (if s.i < steps then Dhkey.zero else s.iter) = Dhkey.zero) := by
    intro b s h1 h2
    rw [List.length_take] at h1
    constructor
    · intro h
      rw [if_neg (by omega)]
      exact h2 h
    · intro h
      rw [if_pos (by omega)]
  by_cases hz : it = Dhkey.zero
  · subst hz
    have h := scan_zero keys
    have h' := fin keys _ h.2.1 h.2.2
    exact ⟨[], keys, rfl, Or.inl ⟨rfl, rfl⟩, h.1, h'.1, h'.2⟩
  · rcases hi with h | h
    · exact absurd h hz
    · rcases List.append_of_mem h with ⟨a, b, e⟩
      subst e
      have hn : it ∉ a := by
        intro hm
        have := (List.pairwise_append.1 hs).2.2 it hm it (by simp)
        omega
      have h := scan_at hz a b hn
      have h' := fin (it :: b) _ h.2.1 h.2.2
      exact ⟨a, it :: b, rfl, Or.inr ⟨hz, rfl⟩, h.1, h'.1, h'.2⟩

/-- The place where the last call stopped is gone. -/
theorem round_absent {it : Dhkey} (hz : it ≠ Dhkey.zero) {keys : List Dhkey} (h : it ∉ keys) : round keys it = ([], Dhkey.zero) := by
  have h0 : equal Dhkey.zero it = false := by
    cases h : equal Dhkey.zero it with
    | false => rfl
    | true => exact absurd ((equal_iff _ _).1 h).symm hz
  have hs : ∀ l, it ∉ l → scan it false 0 l = { visit := [], iter := it, i := 0 } := by
    intro l
    induction l with
    | nil => intro _; rfl
    | cons x r ih =>
      intro hn
      have hx : equal x it = false := by
        cases h : equal x it with
        | false => rfl
        | true => exact absurd (by rw [(equal_iff _ _).1 h]; simp) hn
      unfold scan
      simp [h0, hx, steps, ih (fun h => hn (by simp [h]))]
  unfold round
  rw [hs keys h]
  rfl

/-! ## Progress -/

/-- How many of the ids lie below `x`. -/
def rank (ids : List Dhkey) (x : Dhkey) : Nat := (ids.filter fun u => decide (Np.Spec.num u < Np.Spec.num x)).length

theorem rank_lt {ids : List Dhkey} {x : Dhkey} (h : x ∈ ids) : rank ids x < ids.length := by
  unfold rank
  have h1 := List.length_filter_le (fun u => decide (Np.Spec.num u < Np.Spec.num x)) ids
  rcases Nat.lt_or_ge (ids.filter fun u => decide (Np.Spec.num u < Np.Spec.num x)).length ids.length with h2 | h2
  · exact h2
  · have h3 : ids.filter (fun u => decide (Np.Spec.num u < Np.Spec.num x)) = ids :=
      List.Sublist.eq_of_length List.filter_sublist (by omega)
    have h4 := List.filter_eq_self.1 h3 x h
    simp at h4

theorem length_le_of_nodup_subset : ∀ {l m : List Dhkey}, l.Nodup → (∀ x ∈ l, x ∈ m) → l.length ≤ m.length := by
  intro l
  induction l with
  | nil => intro m _ _; simp
  | cons x r ih =>
    intro m hn hs
    rcases List.append_of_mem (hs x (by simp)) with ⟨a, b, e⟩
    have h1 : ∀ y ∈ r, y ∈ a ++ b := by
      intro y hy
      have h2 := hs y (by simp [hy])
      rw [e] at h2
      have h3 : y ≠ x := by
        intro h
        rw [List.nodup_cons] at hn
        exact hn.1 (h ▸ hy)
      simp only [List.mem_append, List.mem_cons] at h2 ⊢
      rcases h2 with h2 | h2 | h2
      · exact Or.inl h2
      · exact absurd h2 h3
      · exact Or.inr h2
    have h4 := ih (List.nodup_cons.1 hn).2 h1
    rw [e]
    simp only [List.length_append, List.length_cons] at h4 ⊢
    omega

/-- The ids between two elements of the cache count. -/
theorem rank_step {ids c : List Dhkey} {lo hi : Nat} {x : Dhkey} (hc : c.Nodup) (hi' : Np.Spec.num x = hi) (hsub : ∀ y ∈ c, y ∈ ids)
    (hlo : ∀ y ∈ c, lo ≤ Np.Spec.num y) (hhi : ∀ y ∈ c, Np.Spec.num y < hi) (hle : lo ≤ hi) :
    (ids.filter fun u => decide (Np.Spec.num u < lo)).length + c.length ≤ rank ids x := by
  unfold rank
  have h1 : (ids.filter fun u => decide (Np.Spec.num u < Np.Spec.num x)).length =
      (ids.filter fun u => decide (Np.Spec.num u < lo)).length + (ids.filter fun u => decide (lo ≤ Np.Spec.num u ∧ Np.Spec.num u < hi)).length := by
    clear hsub
    induction ids with
    | nil => rfl
    | cons u r ih =>
      simp only [List.filter_cons]
      by_cases a1 : Np.Spec.num u < lo
      · have a2 : Np.Spec.num u < Np.Spec.num x := by omega
        have a3 : ¬ (lo ≤ Np.Spec.num u ∧ Np.Spec.num u < hi) := by omega
        simp only [a1, a2, a3, decide_true, decide_false, if_true, List.length_cons, Bool.false_eq_true, if_false]
        omega
      · by_cases a2 : Np.Spec.num u < Np.Spec.num x
        · have a3 : lo ≤ Np.Spec.num u ∧ Np.Spec.num u < hi := by omega
          simp only [a1, a2, a3, decide_true, decide_false, if_true, List.length_cons, Bool.false_eq_true, if_false, and_self]
          omega
        · have a3 : ¬ (lo ≤ Np.Spec.num u ∧ Np.Spec.num u < hi) := by omega
          simp only [a1, a2, a3, decide_true, decide_false, if_true, List.length_cons, Bool.false_eq_true, if_false]
          omega
  rw [h1]
  have h2 : c.length ≤ (ids.filter fun u => decide (lo ≤ Np.Spec.num u ∧ Np.Spec.num u < hi)).length := by
    apply length_le_of_nodup_subset hc
    intro y hy
    rw [List.mem_filter]
    exact ⟨hsub y hy, decide_eq_true ⟨hlo y hy, hhi y hy⟩⟩
  omega

theorem Spec.Sorted.nodup {l : List Dhkey} (h : Sorted l) : l.Nodup := by
  refine List.Pairwise.imp ?_ h
  intro a b hab e
  subst e
  omega

/-- A call that stops within the cache moves on by ten ids. -/
theorem round_progress {ids keys : List Dhkey} {it : Dhkey} (hs : Sorted keys) (hsub : ∀ x ∈ keys, x ∈ ids) (hi : it = Dhkey.zero ∨ it ∈ keys) :
    (∀ k ∈ keys, it = Dhkey.zero ∨ Np.Spec.num it ≤ Np.Spec.num k → k ∈ (round keys it).1 ∨
      (round keys it).2 ≠ Dhkey.zero ∧ Np.Spec.num (round keys it).2 < Np.Spec.num k) ∧
    ((round keys it).2 = Dhkey.zero ∨
      (round keys it).2 ∈ keys ∧ (if it = Dhkey.zero then 0 else rank ids it) + 10 ≤ rank ids (round keys it).2) := by
  rcases round_spec hs hi with ⟨a, b, e, hb, h1, h2, h3⟩
  have hsb : Sorted b := by rw [e] at hs; exact (List.pairwise_append.1 hs).2.1
  rcases Nat.lt_or_ge b.length steps with hl | hl
  · refine ⟨?_, Or.inl (h3 hl)⟩
    intro k hk hle
    left
    rw [h1, List.take_of_length_le (by omega)]
    rw [e, List.mem_append] at hk
    rcases hk with hk | hk
    · rcases hb with ⟨_, ha⟩ | ⟨hz, hb⟩
      · rw [ha] at hk; simp at hk
      · have hm : it ∈ b := List.mem_of_mem_head? hb
        rw [e] at hs
        have := (List.pairwise_append.1 hs).2.2 k hk it hm
        rcases hle with h | h
        · exact absurd h hz
        · omega
    · exact hk
  · have hg := h2 hl
    have hlt : steps - 1 < b.length := by simp only [steps] at hl ⊢; omega
    -- the eleventh
    have hsplit : b = b.take (steps - 1) ++ (round keys it).2 :: b.drop steps := by
      have h4 : b.drop (steps - 1) = (round keys it).2 :: b.drop steps := by
        rw [List.getElem?_eq_getElem hlt, Option.some.injEq] at hg
        rw [← hg]
        exact List.drop_eq_getElem_cons hlt
      rw [← h4, List.take_append_drop]
    have htake : b.take steps = b.take (steps - 1) ++ [(round keys it).2] := by
      have : steps = (steps - 1) + 1 := rfl
      rw [this, List.take_add_one]
      show b.take (steps - 1) ++ b[steps - 1]?.toList = _
      rw [hg]
      rfl
    have hlen : (b.take (steps - 1)).length = 10 := by
      rw [List.length_take]
      simp only [steps] at hlt ⊢
      omega
    have hps := hsb
    rw [hsplit] at hps
    have hpa := List.pairwise_append.1 hps
    have hbelow : ∀ y ∈ b.take (steps - 1), Np.Spec.num y < Np.Spec.num (round keys it).2 := fun y hy => hpa.2.2 y hy _ (by simp)
    have hne : (round keys it).2 ≠ Dhkey.zero := by
      intro hz
      have hp : 0 < (b.take (steps - 1)).length := by omega
      rcases List.length_pos_iff_exists_mem.1 hp with ⟨y, hy⟩
      have h5 := hbelow y hy
      rw [hz] at h5
      have : Np.Spec.num Dhkey.zero = 0 := by decide +kernel
      omega
    constructor
    · intro k hk hle
      rw [e, List.mem_append] at hk
      rcases hk with hk | hk
      · rcases hb with ⟨_, ha⟩ | ⟨hz, hb⟩
        · rw [ha] at hk; simp at hk
        · have hm : it ∈ b := List.mem_of_mem_head? hb
          rw [e] at hs
          have := (List.pairwise_append.1 hs).2.2 k hk it hm
          rcases hle with h | h
          · exact absurd h hz
          · omega
      · rw [hsplit, List.mem_append, List.mem_cons] at hk
        rcases hk with hk | hk | hk
        · left; rw [h1, htake]; simp [hk]
        · left; rw [h1, htake, hk]; simp
        · right; exact ⟨hne, (List.pairwise_cons.1 hpa.2.1).1 k hk⟩
    · right
      refine ⟨?_, ?_⟩
      · have hm : (round keys it).2 ∈ b := List.mem_of_getElem? hg
        have h7 : ∀ y ∈ b, y ∈ keys := fun y hy => by rw [e]; exact List.mem_append_right a hy
        exact h7 _ hm
      · have hnd : (b.take (steps - 1)).Nodup := Spec.Sorted.nodup hpa.1
        have hin : ∀ y ∈ b.take (steps - 1), y ∈ ids := fun y hy => hsub y (by rw [e]; exact List.mem_append_right _ (List.mem_of_mem_take hy))
        split
        · have := rank_step (ids := ids) (lo := 0) hnd rfl hin (fun y _ => Nat.zero_le _) hbelow (Nat.zero_le _)
          omega
        · rename_i hz
          have hhd : b.head? = some it := by
            rcases hb with h | h
            · exact absurd h.1 hz
            · exact h.2
          have hlow : ∀ y ∈ b, Np.Spec.num it ≤ Np.Spec.num y := by
            cases b with
            | nil => simp at hhd
            | cons z r =>
              simp only [List.head?_cons, Option.some.injEq] at hhd
              subst hhd
              intro y hy
              rw [List.mem_cons] at hy
              rcases hy with hy | hy
              · rw [hy]; exact Nat.le_refl _
              · exact Nat.le_of_lt ((List.pairwise_cons.1 hsb).1 y hy)
          have := rank_step (ids := ids) (lo := Np.Spec.num it) hnd rfl hin (fun y hy => hlow y (List.mem_of_mem_take hy)) hbelow (by
            apply hlow
            rw [hsplit]; simp)
          unfold rank at this ⊢
          omega

/-- With the iterator at or below the key. -/
theorem visited_below {ids : List Dhkey} {k : Dhkey} (n : Nat) : ∀ (hist : List (List Dhkey)) (it : Dhkey), Steady ids k it hist →
    (it = Dhkey.zero ∨ Np.Spec.num it ≤ Np.Spec.num k) → n < hist.length →
    ids.length ≤ (if it = Dhkey.zero then 0 else rank ids it) + 10 * (n + 1) → Visited k (rounds it hist) := by
  induction n with
  | zero =>
    intro hist it hst hle hn hr
    cases hist with
    | nil => simp at hn
    | cons keys r =>
      rcases hst with ⟨h1, h2, h3, h4, h5⟩
      have hp := round_progress h1 h2 h4
      rcases hp.1 k h3 hle with h | h
      · exact ⟨_, by unfold rounds; exact List.mem_cons_self, h⟩
      · rcases hp.2 with h6 | h6
        · exact absurd h6 h.1
        · have := rank_lt (h2 _ h6.1)
          omega
  | succ n ih =>
    intro hist it hst hle hn hr
    cases hist with
    | nil => simp at hn
    | cons keys r =>
      rcases hst with ⟨h1, h2, h3, h4, h5⟩
      have hp := round_progress h1 h2 h4
      rcases hp.1 k h3 hle with h | h
      · exact ⟨_, by unfold rounds; exact List.mem_cons_self, h⟩
      · rcases hp.2 with h6 | h6
        · exact absurd h6 h.1
        · rcases ih r _ h5 (Or.inr (Nat.le_of_lt h.2)) (by simp at hn; omega) (by rw [if_neg h.1]; omega) with ⟨l, hl, hk⟩
          exact ⟨l, by unfold rounds; exact List.mem_cons_of_mem _ hl, hk⟩

/-- From anywhere: first to the end, then from the start. -/
theorem visited_any {ids : List Dhkey} {k : Dhkey} (n : Nat) : ∀ (hist : List (List Dhkey)) (it : Dhkey), Steady ids k it hist →
    (n + 1) + (ids.length / 10 + 1) ≤ hist.length → (it = Dhkey.zero ∨ ids.length ≤ rank ids it + 10 * (n + 1)) →
    Visited k (rounds it hist) := by
  have hzero : ∀ (hist : List (List Dhkey)), Steady ids k Dhkey.zero hist → ids.length / 10 + 1 ≤ hist.length → Visited k (rounds Dhkey.zero hist) := by
    intro hist h1 h2
    exact visited_below (ids.length / 10) hist Dhkey.zero h1 (Or.inl rfl) (by omega) (by rw [if_pos rfl]; omega)
  induction n with
  | zero =>
    intro hist it hst hn hr
    rcases hr with hr | hr
    · rw [hr] at hst ⊢; exact hzero hist hst (by omega)
    · cases hist with
      | nil => simp at hn
      | cons keys r =>
        rcases hst with ⟨h1, h2, h3, h4, h5⟩
        have hp := round_progress h1 h2 h4
        have hz : (round keys it).2 = Dhkey.zero := by
          rcases hp.2 with h6 | h6
          · exact h6
          · have := rank_lt (h2 _ h6.1)
            split at h6
            · rename_i hiz
              have hit := rank_lt (h2 _ h6.1)
              rcases h4 with h4 | h4
              · exfalso
                have h0 : rank ids it = 0 := by
                  rw [hiz]
                  unfold rank
                  rw [List.length_eq_zero_iff, List.filter_eq_nil_iff]
                  intro u _
                  have : Np.Spec.num Dhkey.zero = 0 := by decide +kernel
                  simp [this]
                omega
              · have h0 := rank_lt (h2 _ h4)
                have h0' : rank ids it = 0 := by
                  rw [hiz]
                  unfold rank
                  rw [List.length_eq_zero_iff, List.filter_eq_nil_iff]
                  intro u _
                  have : Np.Spec.num Dhkey.zero = 0 := by decide +kernel
                  simp [this]
                omega
            · omega
        rw [hz] at h5
        rcases hzero r h5 (by simp at hn; omega) with ⟨l, hl, hk⟩
        exact ⟨l, by unfold rounds; rw [hz]; exact List.mem_cons_of_mem _ hl, hk⟩
  | succ n ih =>
    intro hist it hst hn hr
    by_cases hit : it = Dhkey.zero
    · rw [hit] at hst ⊢; exact hzero hist hst (by omega)
    · rcases hr with hr | hr
      · exact absurd hr hit
      · cases hist with
        | nil => simp at hn
        | cons keys r =>
          rcases hst with ⟨h1, h2, h3, h4, h5⟩
          have hp := round_progress h1 h2 h4
          rw [if_neg hit] at hp
          rcases ih r _ h5 (by simp at hn; omega) (by
            rcases hp.2 with h6 | h6
            · exact Or.inl h6
            · exact Or.inr (by omega)) with ⟨l, hl, hk⟩
          exact ⟨l, by unfold rounds; exact List.mem_cons_of_mem _ hl, hk⟩

/-! ## Starvation -/

theorem rounds_append : ∀ (a b : List (List Dhkey)) (it : Dhkey), ∃ it', rounds it (a ++ b) = rounds it a ++ rounds it' b := by
  intro a
  induction a with
  | nil => intro b it; exact ⟨it, rfl⟩
  | cons x r ih =>
    intro b it
    rcases ih b (round x it).2 with ⟨it', h⟩
    exact ⟨it', by simp [rounds, h]⟩

end Np.KeyCache
