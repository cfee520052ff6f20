import Verif.Sketch.Lemmas

/-! # Lemmas on merging, similarity, windows and indexes -/
set_option linter.unusedSimpArgs false
set_option linter.unusedVariables false
namespace Np.Sketch

open Spec (Least Greatest SameSet windows)

theorem pick_spec (P : Word → Word → Prop) [∀ a b, Decidable (P a b)] (t : List Word) (L i : Nat) (hi : i < L) (a : List Word) (hl : a.length = L) :
    (if P (t.getD i 0) (a.getD i 0) then a.set i (t.getD i 0) else a).length = L ∧
      ∀ j, (if P (t.getD i 0) (a.getD i 0) then a.set i (t.getD i 0) else a).getD j 0 =
        if j = i then (if P (t.getD j 0) (a.getD j 0) then t.getD j 0 else a.getD j 0) else a.getD j 0 := by
  refine ⟨by split <;> simp [hl], ?_⟩
  intro j
  by_cases hj : j = i
  · subst hj
    rw [if_pos rfl]
    split
    · rw [getD_set _ _ _ _ (by omega), if_pos rfl]
    · rfl
  · rw [if_neg hj]
    split
    · rw [getD_set _ _ _ _ (by omega), if_neg hj]
    · rfl

theorem merge_spec {half : Nat} {s t : Sig} (hs : s.size = 2 * half) (hl : s.mins.length = 2 * half) (ht : t.mins.length = 2 * half) (hm : s.mode = t.mode) :
    ∃ u, merge s t = .ok u ∧ u.size = 2 * half ∧ u.mins.length = 2 * half ∧ u.mode = s.mode ∧ u.pos = s.pos ∧
      ∀ j < 2 * half, u.mins.getD j 0 = if j < half then lo (s.mins.getD j 0) (t.mins.getD j 0)
        else if j = half then s.mins.getD j 0 else hi (s.mins.getD j 0) (t.mins.getD j 0) := by
  have hh : s.size / 2 = half := by omega
  obtain ⟨a1, a2⟩ := fold_touch (step := fun a i => if (t.mins.getD i 0).toNat < (a.getD i 0).toNat then a.set i (t.mins.getD i 0) else a) (touched := fun i j => j = i)
    (g := fun j w => if (t.mins.getD j 0).toNat < w.toNat then t.mins.getD j 0 else w) (L := 2 * half) (List.range half) s.mins hl
    (fun i hi a ha => pick_spec (fun x y => x.toNat < y.toNat) t.mins (2 * half) i (by have := List.mem_range.1 hi; omega) a ha)
    ((List.pairwise_lt_range (n := half)).imp (by intro a b hab j h1 h2; omega))
  generalize hA : (List.range half).foldl (fun a i => if (t.mins.getD i 0).toNat < (a.getD i 0).toNat then a.set i (t.mins.getD i 0) else a) s.mins = A at a1 a2
  obtain ⟨b1, b2⟩ := fold_touch (step := fun a i => if (t.mins.getD i 0).toNat > (a.getD i 0).toNat then a.set i (t.mins.getD i 0) else a) (touched := fun i j => j = i)
    (g := fun j w => if (t.mins.getD j 0).toNat > w.toNat then t.mins.getD j 0 else w) (L := 2 * half) (List.range' (half + 1) (2 * half - (half + 1))) A a1
    (fun i hi a ha => pick_spec (fun x y => x.toNat > y.toNat) t.mins (2 * half) i (by have := List.mem_range'_1.1 hi; omega) a ha)
    ((List.pairwise_lt_range' (s := half + 1) (n := 2 * half - (half + 1))).imp (by intro a b hab j h1 h2; omega))
  generalize hB : (List.range' (half + 1) (2 * half - (half + 1))).foldl (fun a i => if (t.mins.getD i 0).toNat > (a.getD i 0).toNat then a.set i (t.mins.getD i 0) else a) A = B at b1 b2
  refine ⟨{ s with mins := B }, ?_, hs, b1, rfl, rfl, ?_⟩
  · unfold merge
    rw [if_neg (by simp [hm]), if_neg (by omega)]
    simp only [hh, hA]
    rw [show s.size - (half + 1) = 2 * half - (half + 1) by omega, hB]
  intro j hj
  show B.getD j 0 = _
  rw [b2 j, a2 j]
  by_cases h1 : j < half
  · rw [if_neg (by
      rintro ⟨i, hi, e⟩
      have := List.mem_range'_1.1 hi
      omega), if_pos ⟨j, List.mem_range.2 h1, rfl⟩, if_pos h1]
    rfl
  · have hn : ¬ ∃ i ∈ List.range half, j = i := by
      rintro ⟨i, hi, e⟩
      have := List.mem_range.1 hi
      omega
    rw [if_neg hn, if_neg h1]
    by_cases h2 : j = half
    · rw [if_neg (by
        rintro ⟨i, hi, e⟩
        have := List.mem_range'_1.1 hi
        omega), if_pos h2]
    · rw [if_pos ⟨j, List.mem_range'_1.2 (by omega), rfl⟩, if_neg h2]
      rfl

theorem least_append {b : Nat} {f : List Byte → Nat} {xs ys : List (List Byte)} {m n : Nat} (h1 : Least b f xs m) (h2 : Least b f ys n) : Least b f (xs ++ ys) (min m n) := by
  obtain ⟨a1, a2, a3⟩ := h1
  obtain ⟨b1, b2, b3⟩ := h2
  refine ⟨by omega, ?_, ?_⟩
  · intro x hx
    rcases List.mem_append.1 hx with h | h
    · have := a2 x h; omega
    · have := b2 x h; omega
  · by_cases hmn : m ≤ n
    · rw [Nat.min_eq_left hmn]
      exact a3.imp id fun ⟨x, hx, e⟩ => ⟨x, by simp [hx], e⟩
    · rw [Nat.min_eq_right (by omega)]
      exact b3.imp id fun ⟨x, hx, e⟩ => ⟨x, by simp [hx], e⟩

theorem greatest_append {f : List Byte → Nat} {xs ys : List (List Byte)} {m n : Nat} (h1 : Greatest f xs m) (h2 : Greatest f ys n) : Greatest f (xs ++ ys) (max m n) := by
  obtain ⟨a2, a3⟩ := h1
  obtain ⟨b2, b3⟩ := h2
  refine ⟨?_, ?_⟩
  · intro x hx
    rcases List.mem_append.1 hx with h | h
    · have := a2 x h; omega
    · have := b2 x h; omega
  · by_cases hmn : n ≤ m
    · rw [Nat.max_eq_left hmn]
      exact a3.imp id fun ⟨x, hx, e⟩ => ⟨x, by simp [hx], e⟩
    · rw [Nat.max_eq_right (by omega)]
      exact b3.imp id fun ⟨x, hx, e⟩ => ⟨x, by simp [hx], e⟩

/-! ## Similarity -/

theorem weigh_comm (m : Mode) (a b : Word) : weigh m a b = weigh m b a := by
  have e : (a = b) = (b = a) := propext ⟨fun h => h.symm, fun h => h.symm⟩
  unfold weigh
  simp only [Or.comm (a := a = _), e]

theorem weigh_le (m : Mode) (a b : Word) : (weigh m a b).1 + (weigh m a b).2 ≤ 1 := by
  unfold weigh
  repeat' split
  all_goals simp

theorem weigh_self (m : Mode) (a : Word) : (weigh m a a).1 + (weigh m a a).2 = 1 := by
  unfold weigh
  repeat' split
  all_goals simp_all

theorem sum_pairs_le {w : List (Nat × Nat)} (h : ∀ p ∈ w, p.1 + p.2 ≤ 1) : (w.map (·.1)).sum + (w.map (·.2)).sum ≤ w.length := by
  induction w with
  | nil => simp
  | cons p w ih =>
    have h1 := h p (by simp)
    have h2 := ih fun q hq => h q (by simp [hq])
    simp only [List.map_cons, List.sum_cons, List.length_cons]
    omega

theorem sum_pairs_eq {w : List (Nat × Nat)} (h : ∀ p ∈ w, p.1 + p.2 = 1) : (w.map (·.1)).sum + (w.map (·.2)).sum = w.length := by
  induction w with
  | nil => simp
  | cons p w ih =>
    have h1 := h p (by simp)
    have h2 := ih fun q hq => h q (by simp [hq])
    simp only [List.map_cons, List.sum_cons, List.length_cons]
    omega

/-! ## Windows -/

theorem concat_ok : ∀ (ws : List (List Byte)) (acc : List Byte), acc.length + ws.flatten.length < 512 → concat acc ws = .ok (acc ++ ws.flatten)
  | [], acc, _ => by simp [concat]
  | w :: ws, acc, h => by
    simp only [List.flatten_cons, List.length_append] at h
    unfold concat
    rw [if_neg (by omega), concat_ok ws (acc ++ w) (by simp only [List.length_append]; omega)]
    simp

theorem concat_long : ∀ (ws : List (List Byte)) (acc : List Byte), acc.length < 512 → 512 ≤ acc.length + ws.flatten.length → concat acc ws = .error .bounds
  | [], acc, h1, h2 => by simp at h2; omega
  | w :: ws, acc, h1, h2 => by
    simp only [List.flatten_cons, List.length_append] at h2
    unfold concat
    split
    · rfl
    · exact concat_long ws (acc ++ w) (by simp only [List.length_append]; omega) (by simp only [List.length_append]; omega)

/-- The window that ends at a word. -/
def endAt (n : Nat) (all : List (List Byte)) (e : Nat) : List Byte := ((all.drop (e - (n - 1))).take n).flatten

theorem shingleLoop_ok (n : Nat) (hn : 0 < n) : ∀ (ws done part : List (List Byte)), done.length + ws.length ≤ 65536 → part.length = n →
    (∀ k, k < n - 1 → n - 1 ≤ done.length + k → part[k]? = done[done.length + k - (n - 1)]?) →
    (∀ e, n - 1 ≤ e → (endAt n (done ++ ws) e).length < 512) →
    shingleLoop n done.length part ws = .ok (((List.range' done.length ws.length).filter fun e => n - 1 ≤ e).map (endAt n (done ++ ws)))
  | [], done, part, _, _, _, _ => by simp [shingleLoop]
  | w :: ws, done, part, hlen, hp, hk, hw => by
    simp only [List.length_cons] at hlen
    -- the words from here on
    have hall : done ++ w :: ws = (done ++ [w]) ++ ws := by simp
    have hset : ∀ k, k < n → n - 1 ≤ done.length + k → (part.set (n - 1) w)[k]? = (done ++ [w])[done.length + k - (n - 1)]? := by
      intro k hkn hdk
      by_cases he : k = n - 1
      · subst he
        rw [List.getElem?_set_self (by omega), show done.length + (n - 1) - (n - 1) = done.length by omega, List.getElem?_append_right (Nat.le_refl _)]
        simp
      · rw [List.getElem?_set_ne (by omega), hk k (by omega) hdk, List.getElem?_append_left (by omega)]
    have hnext : ∀ k, k < n - 1 → n - 1 ≤ (done ++ [w]).length + k →
        ((part.set (n - 1) w).drop 1 ++ (part.set (n - 1) w).drop (n - 1))[k]? = (done ++ [w])[(done ++ [w]).length + k - (n - 1)]? := by
      intro k hkn hdk
      simp only [List.length_append, List.length_singleton] at hdk ⊢
      rw [List.getElem?_append_left (by simp; omega), List.getElem?_drop, Nat.add_comm 1 k, hset (k + 1) (by omega) (by omega)]
      congr 1
      omega
    have hnl : ((part.set (n - 1) w).drop 1 ++ (part.set (n - 1) w).drop (n - 1)).length = n := by
      simp only [List.length_append, List.length_drop, List.length_set, hp]
      omega
    have ih := shingleLoop_ok n hn ws (done ++ [w]) _ (by simp; omega) hnl hnext (by rw [← hall]; exact hw)
    rw [← hall] at ih
    have hmod : ws = [] ∨ (done.length + 1) % 65536 = (done ++ [w]).length := by
      cases ws with
      | nil => exact Or.inl rfl
      | cons a b =>
        right
        simp only [List.length_cons] at hlen
        simp only [List.length_append, List.length_singleton]
        exact Nat.mod_eq_of_lt (by omega)
    have hrest : shingleLoop n ((done.length + 1) % 65536) ((part.set (n - 1) w).drop 1 ++ (part.set (n - 1) w).drop (n - 1)) ws =
        .ok (((List.range' (done.length + 1) ws.length).filter fun e => n - 1 ≤ e).map (endAt n (done ++ w :: ws))) := by
      rcases hmod with e | e
      · subst e; simp [shingleLoop]
      · rw [e, ih]; simp
    unfold shingleLoop
    simp only [List.length_cons, List.range'_succ]
    by_cases hi : done.length ≥ n - 1
    · rw [if_pos hi]
      have hpart : part.set (n - 1) w = ((done ++ w :: ws).drop (done.length - (n - 1))).take n := by
        refine List.ext_getElem? ?_
        intro k
        by_cases hkn : k < n
        · have hr : (((done ++ w :: ws).drop (done.length - (n - 1))).take n)[k]? = (done ++ [w])[done.length - (n - 1) + k]? := by
            rw [List.getElem?_take_of_lt hkn, List.getElem?_drop, hall]
            exact List.getElem?_append_left (by simp only [List.length_append, List.length_singleton]; omega)
          rw [hset k hkn (by omega), hr, show done.length + k - (n - 1) = done.length - (n - 1) + k by omega]
        · rw [List.getElem?_eq_none (by simp; omega), List.getElem?_eq_none (by simp only [List.length_take]; omega)]
      have hcc : concat [] (part.set (n - 1) w) = .ok (endAt n (done ++ w :: ws) done.length) := by
        rw [hpart, concat_ok _ [] (by simpa [endAt] using hw done.length hi)]
        rfl
      rw [hcc, hrest]
      simp only []
      rw [List.filter_cons_of_pos (by simpa using hi), List.map_cons]
    · rw [if_neg hi, hrest, List.filter_cons_of_neg (by simpa using hi)]

theorem filter_range (n : Nat) (hn : 0 < n) : ∀ L, ((List.range L).filter fun e => n - 1 ≤ e) = (List.range (L + 1 - n)).map (· + (n - 1))
  | 0 => by simp [show 0 + 1 - n = 0 by omega]
  | L + 1 => by
    rw [List.range_succ, List.filter_append, filter_range n hn L]
    by_cases h : n - 1 ≤ L
    · rw [show L + 1 + 1 - n = (L + 1 - n) + 1 by omega, List.range_succ, List.map_append]
      simp only [h, List.map_cons, List.map_nil, List.filter_cons, List.filter_nil, decide_true, if_true]
      congr 2
      omega
    · rw [show L + 1 + 1 - n = L + 1 - n by omega]
      simp only [List.filter_cons, List.filter_nil, h, decide_false, Bool.false_eq_true, if_false, List.append_nil]

/-- The elements of a text are its windows. -/
theorem shingles_ok {n : Nat} {words : List (List Byte)} (hn : 0 < n) (hl : n ≤ words.length) (hb : words.length ≤ 65536) (hw : ∀ x ∈ windows n words, x.length < 512) :
    shingles n words = .ok (windows n words) := by
  have hend : ∀ e, n - 1 ≤ e → e < words.length → endAt n words e ∈ windows n words := by
    intro e he hel
    exact List.mem_map.2 ⟨e - (n - 1), List.mem_range.2 (by omega), rfl⟩
  unfold shingles
  rw [if_neg (by omega)]
  simp only []
  rw [if_neg (by omega)]
  have hsh : ∀ e, n - 1 ≤ e → (endAt n ([] ++ words) e).length < 512 := by
    intro e he
    by_cases hel : e < words.length
    · exact hw _ (hend e he hel)
    · -- beyond the end the window is part of the last one
      have hlast := hw _ (hend (words.length - 1) (by omega) (by omega))
      simp only [List.nil_append, endAt] at hlast ⊢
      have e1 : (words.drop (words.length - 1 - (n - 1))).take n = words.drop (words.length - n) := by
        rw [show words.length - 1 - (n - 1) = words.length - n by omega]
        exact List.take_of_length_le (by simp; omega)
      have e2 : (words.drop (e - (n - 1))).take n = words.drop (e - (n - 1)) := List.take_of_length_le (by simp; omega)
      rw [e1] at hlast
      rw [e2]
      have : words.drop (e - (n - 1)) = (words.drop (words.length - n)).drop (e - (n - 1) - (words.length - n)) := by
        rw [List.drop_drop]
        congr 1
        omega
      rw [this]
      refine Nat.lt_of_le_of_lt ?_ hlast
      generalize words.drop (words.length - n) = l
      generalize e - (n - 1) - (words.length - n) = d
      have := congrArg List.length (congrArg List.flatten (List.take_append_drop d l))
      simp only [List.flatten_append, List.length_append] at this
      omega
  have := shingleLoop_ok n hn words [] (List.replicate n []) (by simpa using hb) (by simp) (by intro k h1 h2; simp at h2; omega) hsh
  simp only [List.length_nil, List.nil_append] at this
  rw [this, ← List.range_eq_range', filter_range n hn, List.map_map]
  congr 1
  unfold windows
  refine List.map_congr_left ?_
  intro i hi
  simp only [Function.comp, endAt, Nat.add_sub_cancel]

theorem shingles_elements {n : Nat} {words : List (List Byte)} (hn : 0 < n) (hb : words.length ≤ 65536) (hw : ∀ x ∈ Spec.elements n words, x.length < 512) :
    shingles n words = .ok (Spec.elements n words) := by
  unfold Spec.elements at hw ⊢
  by_cases h0 : words = []
  · subst h0
    simp [shingles, shingleLoop, Nat.ne_of_gt hn]
  · have hpos : 0 < words.length := List.length_pos_iff.2 h0
    rw [if_neg h0] at hw ⊢
    rw [← shingles_ok (n := min n words.length) (by omega) (by omega) hb hw]
    unfold shingles
    rw [if_neg (show ¬ n = 0 by omega), if_neg (show ¬ min n words.length = 0 by omega)]
    have : (if words.length < n then words.length else n) = min n words.length := by split <;> omega
    have h2 : (if words.length < min n words.length then words.length else min n words.length) = min n words.length := by split <;> omega
    simp only [this, h2]

theorem shingles_long {words : List (List Byte)} (h : ∃ w ∈ words, 512 ≤ w.length) : shingles 1 words = .error .bounds := by
  obtain ⟨w, hw, hwl⟩ := h
  have hpos : 0 < words.length := List.length_pos_of_mem hw
  unfold shingles
  rw [if_neg (by decide)]
  simp only []
  rw [if_neg (by omega)]
  have key : ∀ (ws : List (List Byte)) (i : Nat) (part : List (List Byte)), part.length = 1 → w ∈ ws → shingleLoop 1 i part ws = .error .bounds := by
    intro ws
    induction ws with
    | nil => intro i part _ h; simp at h
    | cons a ws ih =>
      intro i part hp hm
      obtain ⟨p, rfl⟩ : ∃ p, part = [p] := by
        match part, hp with
        | [p], _ => exact ⟨p, rfl⟩
      unfold shingleLoop
      simp only [Nat.sub_self, List.set_cons_zero, ge_iff_le, Nat.zero_le, if_true, List.drop_zero]
      by_cases ha : 512 ≤ a.length
      · rw [concat_long [a] [] (by simp) (by simpa using ha)]
      · rw [concat_ok [a] [] (by simp; omega)]
        simp only []
        rw [ih _ _ (by simp) (by
          rcases List.mem_cons.1 hm with e | e
          · subst e; exact absurd hwl ha
          · exact e)]
  exact key words 0 _ (by simp) hw

/-! ## The index -/

theorem addAll_ok : ∀ (ks : List Dhkey) (c : Count), ks.length ≤ c.free → ∃ d, c.addAll ks = .ok d ∧ d.free = c.free - ks.length
  | [], c, _ => ⟨c, rfl, rfl⟩
  | k :: ks, c, h => by
    simp only [List.length_cons] at h
    have e : ∃ d, c.add k = .ok d ∧ d.free = c.free - 1 := by
      unfold Count.add
      rw [if_neg (by omega)]
      exact ⟨_, rfl, rfl⟩
    obtain ⟨d, h1, h2⟩ := e
    obtain ⟨d', h3, h4⟩ := addAll_ok ks d (by omega)
    refine ⟨d', ?_, by simp only [List.length_cons]; omega⟩
    simp only [Count.addAll, h1]
    exact h3

theorem addAll_abort : ∀ (ks : List Dhkey) (c : Count), c.free < ks.length → c.addAll ks = .error .abort
  | [], c, h => by simp at h
  | k :: ks, c, h => by
    simp only [List.length_cons] at h
    simp only [Count.addAll, Count.add]
    by_cases hc : c.free = 0
    · rw [if_pos hc]
    · rw [if_neg hc]
      simp only []
      exact addAll_abort ks _ (by simp only; omega)

theorem addClk_ok : ∀ (ks : List Dhkey) (f : Bloom.Nb), ks.length ≤ f.free → ∃ g, addClk f ks = .ok g ∧ g.free = f.free - ks.length
  | [], f, _ => ⟨f, rfl, rfl⟩
  | k :: ks, f, h => by
    simp only [List.length_cons] at h
    have e : ∃ g, f.add k = some g ∧ g.free = f.free - 1 := by
      unfold Bloom.Nb.add
      rw [if_neg (by omega)]
      exact ⟨_, rfl, rfl⟩
    obtain ⟨g, h1, h2⟩ := e
    obtain ⟨g', h3, h4⟩ := addClk_ok ks g (by omega)
    refine ⟨g', ?_, by simp only [List.length_cons]; omega⟩
    simp only [addClk, h1]
    exact h3

theorem flat_length (rows : Nat) : ∀ ks : List Dhkey, (ks.flatMap fun k => List.replicate rows k).length = ks.length * rows
  | [] => by simp
  | k :: ks => by
    simp only [List.flatMap_cons, List.length_append, List.length_replicate, List.length_cons, flat_length rows ks, Nat.add_mul]
    omega

theorem split_ok {x : Index} {s : Sig} {inBands bands rows : Nat} (h1 : inBands ≤ s.size / 8) (h2 : s.size / 8 % inBands = 0) (h3 : s.size / 8 / inBands = bands)
    (h4 : s.size / 8 / bands = rows) (c1 : bands ≤ x.clk.free) (c2 : bands * rows ≤ x.cbl.free) (c3 : bands ≤ x.counter.free) :
    ∃ y, split x s inBands = .ok y ∧ y.clk.free = x.clk.free - bands ∧ y.cbl.free = x.cbl.free - bands * rows ∧ y.counter.free = x.counter.free - bands := by
  unfold split
  rw [if_neg (by omega), if_neg (by omega)]
  simp only [h3, h4]
  obtain ⟨g, g1, g2⟩ := addClk_ok ((List.range bands).map (bandKey s.mins bands rows)) x.clk (by simpa using c1)
  obtain ⟨d, d1, d2⟩ := addAll_ok (((List.range bands).map (bandKey s.mins bands rows)).flatMap fun k => List.replicate rows k) x.cbl (by rw [flat_length]; simpa using c2)
  obtain ⟨e, e1, e2⟩ := addAll_ok ((List.range bands).map (bandKey s.mins bands rows)) x.counter (by simpa using c3)
  rw [flat_length] at d2
  simp only [List.length_map, List.length_range] at g2 d2 e2
  refine ⟨⟨d, e, g⟩, ?_, g2, d2, e2⟩
  rw [g1]
  simp only []
  rw [d1]
  simp only []
  rw [e1]

theorem split_abort {x : Index} {s : Sig} {inBands bands rows : Nat} (h1 : inBands ≤ s.size / 8) (h2 : s.size / 8 % inBands = 0) (h3 : s.size / 8 / inBands = bands)
    (h4 : s.size / 8 / bands = rows) (c1 : bands ≤ x.clk.free) (c2 : x.cbl.free < bands * rows) : split x s inBands = .error .abort := by
  unfold split
  rw [if_neg (by omega), if_neg (by omega)]
  simp only [h3, h4]
  obtain ⟨g, g1, g2⟩ := addClk_ok ((List.range bands).map (bandKey s.mins bands rows)) x.clk (by simpa using c1)
  rw [g1]
  simp only []
  rw [addAll_abort _ _ (by rw [flat_length]; simpa using c2)]

theorem update_256 (s : Sig) (hs : s.size = 256) : ∃ y, Index.init.update s = .ok y := by
  obtain ⟨y1, a1, a2, a3, a4⟩ := split_ok (x := Index.init) (s := s) (inBands := 32) (bands := 1) (rows := 32) (by rw [hs]; decide) (by rw [hs]) (by rw [hs]) (by rw [hs])
    (by decide) (by decide) (by decide)
  rw [show Index.init.clk.free = 64 from rfl] at a2
  rw [show Index.init.cbl.free = 340 from rfl] at a3
  rw [show Index.init.counter.free = 340 from rfl] at a4
  obtain ⟨y2, b1, b2, b3, b4⟩ := split_ok (x := y1) (s := s) (inBands := 16) (bands := 2) (rows := 16) (by rw [hs]; decide) (by rw [hs]) (by rw [hs]) (by rw [hs])
    (by omega) (by omega) (by omega)
  obtain ⟨y3, c1, c2, c3, c4⟩ := split_ok (x := y2) (s := s) (inBands := 8) (bands := 4) (rows := 8) (by rw [hs]; decide) (by rw [hs]) (by rw [hs]) (by rw [hs])
    (by omega) (by omega) (by omega)
  obtain ⟨y4, d1, d2, d3, d4⟩ := split_ok (x := y3) (s := s) (inBands := 4) (bands := 8) (rows := 4) (by rw [hs]; decide) (by rw [hs]) (by rw [hs]) (by rw [hs])
    (by omega) (by omega) (by omega)
  obtain ⟨y5, e1, e2, e3, e4⟩ := split_ok (x := y4) (s := s) (inBands := 2) (bands := 16) (rows := 2) (by rw [hs]; decide) (by rw [hs]) (by rw [hs]) (by rw [hs])
    (by omega) (by omega) (by omega)
  refine ⟨y5, ?_⟩
  unfold Index.update
  rw [hs]
  simp [splitLoop, a1, b1, c1, d1, e1]

theorem update_512 (s : Sig) (hs : s.size = 512) : Index.init.update s = .error .abort := by
  obtain ⟨y1, a1, a2, a3, a4⟩ := split_ok (x := Index.init) (s := s) (inBands := 64) (bands := 1) (rows := 64) (by rw [hs]; decide) (by rw [hs]) (by rw [hs]) (by rw [hs])
    (by decide) (by decide) (by decide)
  rw [show Index.init.clk.free = 64 from rfl] at a2
  rw [show Index.init.cbl.free = 340 from rfl] at a3
  rw [show Index.init.counter.free = 340 from rfl] at a4
  obtain ⟨y2, b1, b2, b3, b4⟩ := split_ok (x := y1) (s := s) (inBands := 32) (bands := 2) (rows := 32) (by rw [hs]; decide) (by rw [hs]) (by rw [hs]) (by rw [hs])
    (by omega) (by omega) (by omega)
  obtain ⟨y3, c1, c2, c3, c4⟩ := split_ok (x := y2) (s := s) (inBands := 16) (bands := 4) (rows := 16) (by rw [hs]; decide) (by rw [hs]) (by rw [hs]) (by rw [hs])
    (by omega) (by omega) (by omega)
  obtain ⟨y4, d1, d2, d3, d4⟩ := split_ok (x := y3) (s := s) (inBands := 8) (bands := 8) (rows := 8) (by rw [hs]; decide) (by rw [hs]) (by rw [hs]) (by rw [hs])
    (by omega) (by omega) (by omega)
  obtain ⟨y5, e1, e2, e3, e4⟩ := split_ok (x := y4) (s := s) (inBands := 4) (bands := 16) (rows := 4) (by rw [hs]; decide) (by rw [hs]) (by rw [hs]) (by rw [hs])
    (by omega) (by omega) (by omega)
  have f1 := split_abort (x := y5) (s := s) (inBands := 2) (bands := 32) (rows := 2) (by rw [hs]; decide) (by rw [hs]) (by rw [hs]) (by rw [hs])
    (by omega) (by omega)
  unfold Index.update
  rw [hs]
  simp [splitLoop, a1, b1, c1, d1, e1, f1]

end Np.Sketch
