import Verif.Dup.Spec

/-! # Lemmas on the check for messages that were handled before -/
set_option linter.unusedSimpArgs false
set_option linter.unusedVariables false
namespace Np.Dup

open Np.Dhkey
open _root_.Np.Dup.Spec

theorem run_cons (s : Node) (x : Step) (l : List Step) {s' : Node} (h : Node.run s (x :: l) = .ok s') :
    ∃ s1, s.step x = .ok s1 ∧ Node.run s1 l = .ok s' := by
  simp only [Node.run] at h
  split at h
  · cases h
  · rename_i s1 h1; exact ⟨s1, h1, h⟩

theorem run_append (l1 l2 : List Step) : ∀ s, Node.run s (l1 ++ l2) =
    match Node.run s l1 with
    | .error e => .error e
    | .ok s1 => Node.run s1 l2 := by
  induction l1 with
  | nil => intro s; rfl
  | cons x l1 ih =>
    intro s
    simp only [List.cons_append, Node.run]
    cases hs : s.step x with
    | error e => rfl
    | ok s1 => simp only [ih s1]

/-! ## What a step does to the filter -/

/-- The filter after a step is the same, marked for a message that is then handed on, decayed, or adjusted. -/
theorem step_filter {s s1 : Node} {x : Step} (h : s.step x = .ok s1) :
    (s1.filter = s.filter ∧ s1.handed = s.handed) ∨
    (∃ t c id, x = .commit t c ∧ s.found t = some (id, false) ∧ s.filter.add id = .ok s1.filter ∧ s1.handed = s.handed ++ [id]) ∨
    (x = .decay ∧ s.filter.decay = .ok s1.filter ∧ s1.handed = s.handed) ∨
    (∃ n, x = .adjust n ∧ s1.filter = s.filter.adjust n ∧ s1.handed = s.handed) := by
  cases x with
  | check t id => simp only [Node.step, Except.ok.injEq] at h; subst h; exact Or.inl ⟨rfl, rfl⟩
  | commit t c =>
    simp only [Node.step] at h
    split at h
    · rename_i id hf
      split at h
      · split at h
        · cases h
        · rename_i f ha
          simp only [Except.ok.injEq] at h; subst h
          exact Or.inr (Or.inl ⟨t, c, id, rfl, hf, ha, rfl⟩)
      · simp only [Except.ok.injEq] at h; subst h; exact Or.inl ⟨rfl, rfl⟩
    · simp only [Except.ok.injEq] at h; subst h; exact Or.inl ⟨rfl, rfl⟩
  | decay =>
    simp only [Node.step] at h
    split at h
    · cases h
    · rename_i f hd
      simp only [Except.ok.injEq] at h; subst h
      exact Or.inr (Or.inr (Or.inl ⟨rfl, hd, rfl⟩))
  | adjust n =>
    simp only [Node.step, Except.ok.injEq] at h; subst h
    exact Or.inr (Or.inr (Or.inr ⟨n, rfl, rfl, rfl⟩))

theorem add_ok {f g : Filter} {id : Dhkey} (h : f.add id = .ok g) :
    f.free ≠ 0 ∧ g = { f with cell := mark f.cell (positions f.size id), free := f.free - 1 } := by
  unfold Filter.add at h
  split at h
  · cases h
  · rename_i h0; simp only [Except.ok.injEq] at h; exact ⟨h0, h.symm⟩

theorem decay_ok {f g : Filter} (h : f.decay = .ok g) :
    f.size ≤ 65535 ∧ g = { f with cell := fun q => f.cell q >>> f.p, free := zeros f.size (fun q => f.cell q >>> f.p) % 65536 } := by
  unfold Filter.decay at h
  split at h
  · cases h
  · rename_i h0; simp only [Except.ok.injEq] at h; exact ⟨by omega, h.symm⟩

/-! ## Messages are remembered -/

theorem or_ge (x : BitVec 16) : x.toNat ≤ (x ||| 0x8000#16).toNat ∧ 2 ^ 15 ≤ (x ||| 0x8000#16).toNat := by
  rw [BitVec.toNat_or]
  exact ⟨Nat.left_le_or, Nat.right_le_or⟩

theorem tuned_adjust {m n : Nat} {f : Filter} (ht : Tuned m f) (hn : modifier n = m) : f.adjust n = f := by
  obtain ⟨h1, h2⟩ := ht
  simp only [Filter.adjust, hn]
  rw [if_neg (by rw [h1]; simp)]
  rw [← h2]

theorem remembered_run {m : Nat} {id : Dhkey} (l : List Step) : ∀ (s s' : Node) (k : Nat), Tuned m s.filter → Steady m l →
    k + s.filter.p * decays l ≤ 15 → (∀ q ∈ positions s.filter.size id, 2 ^ (15 - k) ≤ (s.filter.cell q).toNat) →
    Node.run s l = .ok s' → s'.filter.check id = true := by
  induction l with
  | nil =>
    intro s s' k _ _ hk hc h
    simp only [Node.run, Except.ok.injEq] at h; subst h
    unfold Filter.check
    rw [List.all_eq_true]
    intro q hq
    have := hc q hq
    have hp : 0 < 2 ^ (15 - k) := Nat.pow_pos (by omega)
    simp only [bne_iff_ne, ne_eq]
    intro e
    rw [e] at this
    simp at this
  | cons x l ih =>
    intro s s' k ht hs hk hc h
    obtain ⟨s1, h1, h2⟩ := run_cons s x l h
    rcases step_filter h1 with ⟨hf, _⟩ | ⟨t, c, i, hx, _, ha, _⟩ | ⟨hx, hd, _⟩ | ⟨n, hx, hf, _⟩
    · have hs' : Steady m l := by
        cases x with
        | adjust n => exact hs.2
        | _ => exact hs
      have hd' : decays l ≤ decays (x :: l) := by
        cases x <;> simp [decays]
      refine ih s1 s' k (by rw [hf]; exact ht) hs' ?_ (by rw [hf]; exact hc) h2
      rw [hf]
      have := Nat.mul_le_mul_left s.filter.p hd'
      omega
    · subst hx
      obtain ⟨_, hg⟩ := add_ok ha
      refine ih s1 s' k (by rw [hg]; exact ht) hs (by rw [hg]; exact hk) ?_ h2
      rw [hg]
      intro q hq
      show 2 ^ (15 - k) ≤ (mark s.filter.cell (positions s.filter.size i) q).toNat
      have := hc q hq
      unfold mark
      split
      · have := (or_ge (s.filter.cell q)).1; omega
      · exact this
    · subst hx
      obtain ⟨_, hg⟩ := decay_ok hd
      have hk' : k + s.filter.p + s.filter.p * decays l ≤ 15 := by
        simp only [decays, Nat.mul_add] at hk; omega
      refine ih s1 s' (k + s.filter.p) (by rw [hg]; exact ht) hs (by rw [hg]; exact hk') ?_ h2
      rw [hg]
      intro q hq
      show 2 ^ (15 - (k + s.filter.p)) ≤ (s.filter.cell q >>> s.filter.p).toNat
      rw [BitVec.toNat_ushiftRight, Nat.shiftRight_eq_div_pow, Nat.le_div_iff_mul_le (Nat.pow_pos (by omega)), ← Nat.pow_add]
      have := hc q hq
      have e : 15 - (k + s.filter.p) + s.filter.p = 15 - k := by omega
      rw [e]; exact this
    · subst hx
      have hf' : s1.filter = s.filter := by rw [hf]; exact tuned_adjust ht hs.1
      exact ih s1 s' k (by rw [hf']; exact ht) hs.2 (by rw [hf']; exact hk) (by rw [hf']; exact hc) h2

/-- Handling one part. -/
theorem part_step (s : Node) (t : Nat) (id : Dhkey) (c : Bool) :
    Node.run s [.check t id, .commit t c] =
      if s.filter.check id = false ∧ c = true then
        match s.filter.add id with
        | .error e => .error e
        | .ok f => .ok { filter := f, found := fun u => if u = t then none else s.found u, handed := s.handed ++ [id] }
      else .ok { s with found := fun u => if u = t then none else s.found u } := by
  have hfun : (fun u => if u = t then none else if u = t then some (id, s.filter.check id) else s.found u) =
      fun u => if u = t then none else s.found u := by
    funext u; split <;> rfl
  simp only [Node.run, Node.step, if_true]
  cases hck : s.filter.check id with
  | true => rw [hck] at hfun; simp only [hfun]; simp
  | false =>
    rw [hck] at hfun
    simp only [hfun]
    cases c with
    | false => simp
    | true =>
      simp only [if_true, and_self]
      cases s.filter.add id <;> rfl

theorem mark_remembers {f g : Filter} {id : Dhkey} (h : f.add id = .ok g) : ∀ q ∈ positions g.size id, 2 ^ (15 - 0) ≤ (g.cell q).toNat := by
  obtain ⟨_, hg⟩ := add_ok h
  rw [hg]
  intro q hq
  show _ ≤ (mark f.cell (positions f.size id) q).toNat
  unfold mark
  rw [if_pos hq]
  exact (or_ge _).2

/-- With one part handled at a time, a message that is remembered is not handed on again. -/
theorem count_run {m : Nat} {id : Dhkey} (l : List Event) : ∀ (s s' : Node) (k : Nat), Tuned m s.filter → Steady m (steps l) →
    k + s.filter.p * decays (steps l) ≤ 15 → (∀ q ∈ positions s.filter.size id, 2 ^ (15 - k) ≤ (s.filter.cell q).toNat) →
    Node.run s (steps l) = .ok s' → s'.handed.count id = s.handed.count id := by
  induction l with
  | nil => intro s s' k _ _ _ _ h; simp only [steps, Node.run, Except.ok.injEq] at h; subst h; rfl
  | cons x l ih =>
    intro s s' k ht hs hk hc h
    have hseen : s.filter.check id = true :=
      remembered_run [] s s k ht trivial (by simp only [decays]; omega) hc rfl
    cases x with
    | part i c =>
      have hl : steps (.part i c :: l) = [.check 0 i, .commit 0 c] ++ steps l := rfl
      rw [hl, run_append, part_step] at h
      by_cases hcond : s.filter.check i = false ∧ c = true
      · rw [if_pos hcond] at h
        have hne : i ≠ id := fun e => by rw [e] at hcond; rw [hseen] at hcond; simp at hcond
        cases ha : s.filter.add i with
        | error e => rw [ha] at h; simp only [] at h; cases h
        | ok f =>
          rw [ha] at h
          simp only [] at h
          obtain ⟨_, hg⟩ := add_ok ha
          have := ih _ s' k ?_ hs ?_ ?_ h
          · rw [this]; simp [List.count_append, List.count_singleton, hne]
          · show Tuned m f; rw [hg]; exact ht
          · show k + f.p * _ ≤ 15; rw [hg]; exact hk
          · show ∀ q ∈ positions f.size id, _ ≤ (f.cell q).toNat
            rw [hg]
            intro q hq
            show _ ≤ (mark s.filter.cell (positions s.filter.size i) q).toNat
            have := hc q hq
            unfold mark
            split
            · have := (or_ge (s.filter.cell q)).1; omega
            · exact this
      · rw [if_neg hcond] at h
        simp only [] at h
        exact ih { s with found := fun u => if u = 0 then none else s.found u } s' k ht hs hk hc h
    | decay =>
      obtain ⟨s1, h1, h2⟩ := run_cons s .decay (steps l) h
      rcases step_filter h1 with ⟨hf, hh⟩ | ⟨t, c, i, hx, _⟩ | ⟨_, hd, hh⟩ | ⟨n, hx, _⟩
      · rw [← hh]
        refine ih s1 s' k (by rw [hf]; exact ht) hs ?_ (by rw [hf]; exact hc) h2
        rw [hf]
        have : decays (steps l) ≤ decays (steps (.decay :: l)) := by simp [steps, decays]
        have := Nat.mul_le_mul_left s.filter.p this
        omega
      · cases hx
      · rw [← hh]
        obtain ⟨_, hg⟩ := decay_ok hd
        have hk' : k + s.filter.p + s.filter.p * decays (steps l) ≤ 15 := by
          simp only [steps, decays, Nat.mul_add] at hk; omega
        refine ih s1 s' (k + s.filter.p) (by rw [hg]; exact ht) hs (by rw [hg]; exact hk') ?_ h2
        rw [hg]
        intro q hq
        show 2 ^ (15 - (k + s.filter.p)) ≤ (s.filter.cell q >>> s.filter.p).toNat
        rw [BitVec.toNat_ushiftRight, Nat.shiftRight_eq_div_pow, Nat.le_div_iff_mul_le (Nat.pow_pos (by omega)), ← Nat.pow_add]
        have := hc q hq
        have e : 15 - (k + s.filter.p) + s.filter.p = 15 - k := by omega
        rw [e]; exact this
      · cases hx
    | adjust n =>
      obtain ⟨s1, h1, h2⟩ := run_cons s (.adjust n) (steps l) h
      simp only [Node.step, Except.ok.injEq] at h1
      rw [tuned_adjust ht hs.1] at h1
      subst h1
      exact ih s s' k ht hs.2 hk hc h2

/-- From a filter that may or may not remember the message: at most one more. -/
theorem once_run {m : Nat} {id : Dhkey} (l : List Event) : ∀ (s s' : Node), Tuned m s.filter → Steady m (steps l) →
    s.filter.p * decays (steps l) ≤ 15 → Node.run s (steps l) = .ok s' → s'.handed.count id ≤ s.handed.count id + 1 := by
  induction l with
  | nil => intro s s' _ _ _ h; simp only [steps, Node.run, Except.ok.injEq] at h; subst h; omega
  | cons x l ih =>
    intro s s' ht hs hk h
    cases x with
    | part i c =>
      have hl : steps (.part i c :: l) = [.check 0 i, .commit 0 c] ++ steps l := rfl
      rw [hl, run_append, part_step] at h
      by_cases hcond : s.filter.check i = false ∧ c = true
      · rw [if_pos hcond] at h
        cases ha : s.filter.add i with
        | error e => rw [ha] at h; simp only [] at h; cases h
        | ok f =>
          rw [ha] at h
          simp only [] at h
          obtain ⟨_, hg⟩ := add_ok ha
          have ht' : Tuned m f := by rw [hg]; exact ht
          have hk' : f.p * decays (steps l) ≤ 15 := by rw [hg]; exact hk
          by_cases hid : i = id
          · subst hid
            have := count_run l _ s' 0 ht' hs (by simpa using hk') (mark_remembers ha) h
            rw [this]
            simp [List.count_append]
          · have := ih _ s' ht' hs hk' h
            simp [List.count_append, List.count_singleton, hid] at this ⊢
            exact this
      · rw [if_neg hcond] at h
        simp only [] at h
        exact ih { s with found := fun u => if u = 0 then none else s.found u } s' ht hs hk h
    | decay =>
      obtain ⟨s1, h1, h2⟩ := run_cons s .decay (steps l) h
      have hd' : decays (steps l) ≤ decays (steps (.decay :: l)) := by simp [steps, decays]
      have hm := Nat.mul_le_mul_left s.filter.p hd'
      rcases step_filter h1 with ⟨hf, hh⟩ | ⟨t, c, i, hx, _⟩ | ⟨_, hd, hh⟩ | ⟨n, hx, _⟩
      · rw [← hh]
        exact ih s1 s' (by rw [hf]; exact ht) hs (by rw [hf]; omega) h2
      · cases hx
      · rw [← hh]
        obtain ⟨_, hg⟩ := decay_ok hd
        exact ih s1 s' (by rw [hg]; exact ht) hs (by rw [hg]; show s.filter.p * _ ≤ 15; omega) h2
      · cases hx
    | adjust n =>
      obtain ⟨s1, h1, h2⟩ := run_cons s (.adjust n) (steps l) h
      simp only [Node.step, Except.ok.injEq] at h1
      rw [tuned_adjust ht hs.1] at h1
      subst h1
      exact ih s s' ht hs.2 hk h2

/-! ## New messages are recognised as new -/

theorem covered_run (l : List Step) : ∀ s s' : Node, (∀ q, s.filter.cell q ≠ 0 → ∃ o ∈ s.handed, q ∈ positions s.filter.size o) →
    Node.run s l = .ok s' → ∀ q, s'.filter.cell q ≠ 0 → ∃ o ∈ s'.handed, q ∈ positions s'.filter.size o := by
  induction l with
  | nil => intro s s' hi h; simp only [Node.run, Except.ok.injEq] at h; subst h; exact hi
  | cons x l ih =>
    intro s s' hi h
    obtain ⟨s1, h1, h2⟩ := run_cons s x l h
    refine ih s1 s' ?_ h2
    rcases step_filter h1 with ⟨hf, hh⟩ | ⟨t, c, i, _, _, ha, hh⟩ | ⟨_, hd, hh⟩ | ⟨n, _, hf, hh⟩
    · rw [hf, hh]; exact hi
    · obtain ⟨_, hg⟩ := add_ok ha
      rw [hg, hh]
      intro q hq
      have hq' : mark s.filter.cell (positions s.filter.size i) q ≠ 0 := hq
      unfold mark at hq'
      split at hq'
      · rename_i hin; exact ⟨i, by simp, hin⟩
      · obtain ⟨o, ho, hqo⟩ := hi q hq'
        exact ⟨o, by simp [ho], hqo⟩
    · obtain ⟨_, hg⟩ := decay_ok hd
      rw [hg, hh]
      intro q hq
      have hq' : s.filter.cell q >>> s.filter.p ≠ 0 := hq
      exact hi q (fun e => hq' (by rw [e]; simp))
    · rw [hf, hh]
      intro q hq
      simp only [Filter.adjust] at hq ⊢
      generalize (if modifier n > 0 then modifier n * baseSize else baseSize) = sz at hq ⊢
      by_cases hs : s.filter.size ≠ sz
      · rw [if_pos hs] at hq; exact absurd rfl hq
      · rw [if_neg hs] at hq ⊢; exact hi q hq

/-! ## No abort, one part at a time -/

theorem countP_lt {α : Type} (p q : α → Bool) (l : List α) (h : ∀ x, q x = true → p x = true) (x : α) (hx : x ∈ l) (hp : p x = true)
    (hq : q x = false) : l.countP q < l.countP p := by
  induction l with
  | nil => simp at hx
  | cons y l ih =>
    have hle : l.countP q ≤ l.countP p := List.countP_mono_left (fun z _ => h z)
    rw [List.countP_cons, List.countP_cons]
    rcases List.mem_cons.1 hx with e | hm
    · subst e; simp [hp, hq]; omega
    · have := ih hm
      have := h y
      by_cases h1 : q y = true
      · rw [if_pos h1, if_pos (this h1)]; omega
      · rw [if_neg h1]; omega

theorem modifier_le {n : Nat} (h : n < 512) : modifier n ≤ 7 := by
  unfold modifier
  have : (List.range 41).countP (fun m => decide ((m + 1) ^ 3 ≤ n)) ≤ (List.range 41).countP (fun m => decide (m < 7)) := by
    apply List.countP_mono_left
    intro x _ hx
    simp at hx ⊢
    by_cases h7 : x < 7
    · exact h7
    · have : 8 ^ 3 ≤ (x + 1) ^ 3 := Nat.pow_le_pow_left (by omega) 3
      omega
  have h2 : (List.range 41).countP (fun m => decide (m < 7)) = 7 := by decide +kernel
  omega

/-- The sizes in use with fewer than 512 peers. -/
def SizeOk (f : Filter) : Prop := baseSize ≤ f.size ∧ f.size ≤ 65535 ∧ 1 ≤ f.p

theorem adjust_ok {n : Nat} (hn : n < 512) {f : Filter} (h : SizeOk f) : SizeOk (f.adjust n) ∧
    (((f.adjust n).cell = f.cell ∧ (f.adjust n).size = f.size ∧ (f.adjust n).free = f.free) ∨
     ((f.adjust n).cell = (fun _ => 0) ∧ (f.adjust n).free = (f.adjust n).size)) := by
  have hm := modifier_le hn
  have hb : baseSize = 8192 := rfl
  have hsz : baseSize ≤ (if modifier n > 0 then modifier n * baseSize else baseSize) ∧
      (if modifier n > 0 then modifier n * baseSize else baseSize) ≤ 65535 := by
    split <;> constructor <;> rw [hb] <;> omega
  have hp : 1 ≤ (if modifier n > 1 then modifier n else 1) := by split <;> omega
  simp only [Filter.adjust, SizeOk]
  generalize (if modifier n > 0 then modifier n * baseSize else baseSize) = sz at hsz ⊢
  by_cases hs : f.size ≠ sz
  · rw [if_pos hs]
    exact ⟨⟨hsz.1, hsz.2, hp⟩, Or.inr ⟨rfl, Nat.mod_eq_of_lt (by show sz < 65536; omega)⟩⟩
  · rw [if_neg hs]
    exact ⟨⟨h.1, h.2.1, hp⟩, Or.inl ⟨rfl, rfl, rfl⟩⟩

theorem zeros_le (size : Nat) (c : Nat → BitVec 16) : zeros size c ≤ size := by
  unfold zeros
  have := List.countP_le_length (p := fun q => c q == 0) (l := List.range size)
  rwa [List.length_range] at this

theorem zeros_none (size : Nat) : zeros size (fun _ => 0) = size := by
  unfold zeros
  rw [List.countP_eq_length.2 (by simp), List.length_range]

theorem zeros_mark {f : Filter} {id : Dhkey} (hs : 0 < f.size) (h : f.check id = false) :
    zeros f.size (mark f.cell (positions f.size id)) < zeros f.size f.cell := by
  unfold Filter.check at h
  rw [List.all_eq_false] at h
  obtain ⟨q, hq, h0⟩ := h
  have h0' : f.cell q = 0 := by simpa using h0
  have hlt : q < f.size := by
    unfold positions at hq
    obtain ⟨w, _, hw⟩ := List.mem_map.1 hq
    rw [← hw]; exact Nat.mod_lt _ hs
  refine countP_lt _ _ _ ?_ q (List.mem_range.2 hlt) (by simp [h0']) ?_
  · intro x hx
    simp only [beq_iff_eq] at hx ⊢
    unfold mark at hx
    split at hx
    · have := (or_ge (f.cell x)).2
      rw [hx] at this; simp at this
    · exact hx
  · unfold mark
    rw [if_pos hq]
    have := (or_ge (f.cell q)).2
    simp only [beq_eq_false_iff_ne, ne_eq]
    intro e
    rw [e] at this; simp at this

theorem safe_run (l : List Event) : ∀ s : Node, SizeOk s.filter → zeros s.filter.size s.filter.cell ≤ s.filter.free → Few (steps l) →
    ∃ s', Node.run s (steps l) = .ok s' := by
  induction l with
  | nil => intro s _ _ _; exact ⟨s, rfl⟩
  | cons x l ih =>
    intro s hok hz hf
    have hpos : 0 < s.filter.size := Nat.lt_of_lt_of_le (by decide) hok.1
    cases x with
    | part i c =>
      have hl : steps (.part i c :: l) = [.check 0 i, .commit 0 c] ++ steps l := rfl
      rw [hl, run_append, part_step]
      by_cases hcond : s.filter.check i = false ∧ c = true
      · rw [if_pos hcond]
        have hlt := zeros_mark hpos hcond.1
        simp only [Filter.add]
        rw [if_neg (by omega)]
        exact ih _ hok (by show zeros s.filter.size (mark s.filter.cell (positions s.filter.size i)) ≤ s.filter.free - 1; omega) hf
      · rw [if_neg hcond]
        exact ih { s with found := fun u => if u = 0 then none else s.found u } hok hz hf
    | decay =>
      simp only [steps, Node.run, Node.step, Filter.decay]
      rw [if_neg (by have := hok.2.1; omega)]
      refine ih _ hok ?_ hf
      show zeros s.filter.size (fun q => s.filter.cell q >>> s.filter.p) ≤ zeros s.filter.size (fun q => s.filter.cell q >>> s.filter.p) % 65536
      have := zeros_le s.filter.size (fun q => s.filter.cell q >>> s.filter.p)
      rw [Nat.mod_eq_of_lt (by have := hok.2.1; omega)]
      exact Nat.le_refl _
    | adjust n =>
      simp only [steps, Node.run, Node.step]
      obtain ⟨h1, h2⟩ := adjust_ok hf.1 hok
      refine ih { s with filter := s.filter.adjust n } h1 ?_ hf.2
      show zeros (s.filter.adjust n).size (s.filter.adjust n).cell ≤ (s.filter.adjust n).free
      rcases h2 with ⟨e1, e2, e3⟩ | ⟨e1, e2⟩
      · rw [e1, e2, e3]; exact hz
      · rw [e1, e2, zeros_none]; exact Nat.le_refl _

/-! ## No abort with several threads -/

/-- The number of cells that survive `j` more shifts. -/
def above (f : Filter) (j : Nat) : Nat := (List.range f.size).countP fun q => decide (2 ^ j ≤ (f.cell q).toNat)

theorem countP_mem_le (ps : List Nat) (n : Nat) : (List.range n).countP (fun q => decide (q ∈ ps)) ≤ ps.length := by
  induction ps with
  | nil => simp
  | cons p ps ih =>
    have h1 : (List.range n).countP (fun q => decide (q ∈ p :: ps)) ≤
        (List.range n).countP (fun q => decide (q = p)) + (List.range n).countP (fun q => decide (q ∈ ps)) := by
      generalize List.range n = l
      induction l with
      | nil => simp
      | cons y l ih =>
        rw [List.countP_cons, List.countP_cons, List.countP_cons]
        by_cases hy : y = p
        · rw [if_pos (by simp [hy]), if_pos (c := decide (y = p) = true) (by simp [hy])]; omega
        · by_cases hm : y ∈ ps
          · rw [if_pos (by simp [hm]), if_pos (c := decide (y ∈ ps) = true) (by simp [hm])]; omega
          · rw [if_neg (by simp [hy, hm])]; omega
    have h2 : (List.range n).countP (fun q => decide (q = p)) ≤ 1 := by
      have : (List.range n).countP (fun q => decide (q = p)) = (List.range n).count p := by
        rw [List.count]; rfl
      rw [this]
      exact List.nodup_iff_count.1 List.nodup_range p
    simp only [List.length_cons]
    omega

theorem above_mark (f : Filter) (id : Dhkey) (j : Nat) :
    (List.range f.size).countP (fun q => decide (2 ^ j ≤ (mark f.cell (positions f.size id) q).toNat)) ≤ above f j + 8 := by
  have h8 : (positions f.size id).length = 8 := rfl
  have h1 := countP_mem_le (positions f.size id) f.size
  have h2 : (List.range f.size).countP (fun q => decide (2 ^ j ≤ (mark f.cell (positions f.size id) q).toNat)) ≤
      above f j + (List.range f.size).countP (fun q => decide (q ∈ positions f.size id)) := by
    unfold above
    generalize List.range f.size = l
    induction l with
    | nil => simp
    | cons y l ih =>
      rw [List.countP_cons, List.countP_cons, List.countP_cons]
      by_cases hm : y ∈ positions f.size id
      · simp [hm]; split <;> omega
      · have : mark f.cell (positions f.size id) y = f.cell y := by unfold mark; rw [if_neg hm]
        simp only [this, hm, decide_false, Bool.false_eq_true, if_false]
        omega
  omega

theorem above_shift (f : Filter) (j : Nat) :
    (List.range f.size).countP (fun q => decide (2 ^ j ≤ (f.cell q >>> f.p).toNat)) = above f (j + f.p) := by
  unfold above
  congr 1
  funext q
  rw [decide_eq_decide, BitVec.toNat_ushiftRight, Nat.shiftRight_eq_div_pow, Nat.le_div_iff_mul_le (Nat.pow_pos (by omega)), ← Nat.pow_add]

theorem above_16 (f : Filter) (j : Nat) (h : 16 ≤ j) : above f j = 0 := by
  unfold above
  rw [List.countP_eq_zero]
  intro q _
  have := (f.cell q).isLt
  have h2 : 2 ^ 16 ≤ 2 ^ j := Nat.pow_le_pow_right (by omega) h
  simp only [decide_eq_true_eq]
  omega

theorem zeros_above (f : Filter) : zeros f.size f.cell + above f 0 = f.size := by
  unfold zeros above
  have : (fun q => decide (2 ^ 0 ≤ (f.cell q).toNat)) = fun q => decide (¬ (f.cell q == 0) = true) := by
    funext q
    by_cases h : f.cell q = 0
    · simp [h]
    · have : (f.cell q).toNat ≠ 0 := fun e => h (BitVec.eq_of_toNat_eq (by simpa using e))
      have h1 : 2 ^ 0 ≤ (f.cell q).toNat := by omega
      simp only [h1, h, decide_true, beq_eq_false_iff_ne, ne_eq, not_false_eq_true, beq_iff_eq]
  rw [this]
  have h := List.length_eq_countP_add_countP (fun q => f.cell q == 0) (l := List.range f.size)
  rw [List.length_range] at h
  exact h.symm

/-- The filter after a decay. -/
def faded (f : Filter) : Filter :=
  { f with cell := fun q => f.cell q >>> f.p, free := zeros f.size (fun q => f.cell q >>> f.p) % 65536 }

theorem calm_run {n : Nat} (hn : n ≤ 67) (l : List Step) : ∀ (s : Node) (k : Nat), SizeOk s.filter → k ≤ n → n ≤ s.filter.free + k →
    (∀ j, j ≤ 15 → above s.filter j ≤ 8 * n * (15 - j) + 8 * k) → Few l → Calm n k l → ∃ s', Node.run s l = .ok s' := by
  induction l with
  | nil => intro s _ _ _ _ _ _ _; exact ⟨s, rfl⟩
  | cons x l ih =>
    intro s k hok hk hfree habove hfew hcalm
    cases x with
    | check t id => exact ih { s with found := fun u => if u = t then some (id, s.filter.check id) else s.found u } k hok hk hfree habove hfew hcalm
    | commit t c =>
      have hbase := fun s' (e : s'.filter = s.filter) => ih s' (k + 1) (by rw [e]; exact hok) hcalm.1 (by rw [e]; omega)
        (fun j hj => by rw [e]; have := habove j hj; omega) hfew hcalm.2
      simp only [Node.run, Node.step]
      cases hfound : s.found t with
      | none => exact hbase _ rfl
      | some y =>
        obtain ⟨id, b⟩ := y
        cases b with
        | true => exact hbase _ rfl
        | false =>
          cases c with
          | false => exact hbase _ rfl
          | true =>
            simp only [if_true, Filter.add]
            rw [if_neg (by have := hcalm.1; omega)]
            refine ih _ (k + 1) hok hcalm.1 (by show n ≤ s.filter.free - 1 + (k + 1); omega) ?_ hfew hcalm.2
            intro j hj
            have h1 := above_mark s.filter id j
            have h2 := habove j hj
            show (List.range s.filter.size).countP (fun q => decide (2 ^ j ≤ (mark s.filter.cell (positions s.filter.size id) q).toNat)) ≤ _
            omega
    | decay =>
      simp only [Node.run, Node.step, Filter.decay]
      rw [if_neg (by have := hok.2.1; omega)]
      have hab : ∀ j, above (faded s.filter) j ≤ 8 * n * (15 - j) := by
        intro j
        have he : above (faded s.filter) j = above s.filter (j + s.filter.p) := above_shift s.filter j
        rw [he]
        have hp1 := hok.2.2
        by_cases h15 : j + s.filter.p ≤ 15
        · have h1 := habove _ h15
          have h2 : 8 * n * (15 - (j + s.filter.p)) + 8 * n ≤ 8 * n * (15 - j) := by
            have : 15 - (j + s.filter.p) + 1 ≤ 15 - j := by omega
            have := Nat.mul_le_mul_left (8 * n) this
            rw [Nat.mul_add] at this
            omega
          have h3 : 8 * k ≤ 8 * n := by omega
          omega
        · rw [above_16 _ _ (by omega)]; omega
      refine ih _ 0 hok (by omega) ?_ (fun j _ => Nat.le_trans (hab j) (Nat.le_add_right _ _)) hfew hcalm
      show n ≤ zeros s.filter.size (fun q => s.filter.cell q >>> s.filter.p) % 65536 + 0
      have h0 := hab 0
      have hza := zeros_above (faded s.filter)
      have hza' : zeros s.filter.size (fun q => s.filter.cell q >>> s.filter.p) +
        above (faded s.filter) 0 = s.filter.size := hza
      have hzl := zeros_le s.filter.size (fun q => s.filter.cell q >>> s.filter.p)
      have hb : baseSize = 8192 := rfl
      have hs1 := hok.1
      have hs2 := hok.2.1
      rw [Nat.mod_eq_of_lt (by omega)]
      omega
    | adjust m =>
      simp only [Node.run, Node.step]
      obtain ⟨h1, h2⟩ := adjust_ok hfew.1 hok
      have hb : baseSize = 8192 := rfl
      rcases h2 with ⟨e1, e2, e3⟩ | ⟨e1, e2⟩
      · refine ih { s with filter := s.filter.adjust m } k h1 hk (by show n ≤ (s.filter.adjust m).free + k; rw [e3]; exact hfree) ?_ hfew.2 hcalm
        intro j hj
        have := habove j hj
        show above (s.filter.adjust m) j ≤ _
        unfold above at this ⊢
        rw [e1, e2]; exact this
      · have hs1 := h1.1
        refine ih { s with filter := s.filter.adjust m } k h1 hk (by show n ≤ (s.filter.adjust m).free + k; rw [e2]; omega) ?_ hfew.2 hcalm
        intro j hj
        show above (s.filter.adjust m) j ≤ _
        have : above (s.filter.adjust m) j = 0 := by
          unfold above
          rw [e1, List.countP_eq_zero]
          intro q _
          have : 0 < 2 ^ j := Nat.pow_pos (by omega)
          simp
        omega

/-! ## Messages are forgotten -/

theorem fade_run (d : Nat) : ∀ (s s' : Node) (k : Nat), s.filter.p = 1 → (∀ q, (s.filter.cell q).toNat < 2 ^ (16 - k)) → k + d ≤ 16 →
    Node.run s (List.replicate d .decay) = .ok s' →
    (∀ q, (s'.filter.cell q).toNat < 2 ^ (16 - (k + d))) ∧ s'.handed = s.handed := by
  induction d with
  | zero => intro s s' k _ hc _ h; simp only [List.replicate_zero, Node.run, Except.ok.injEq] at h; subst h; exact ⟨hc, rfl⟩
  | succ d ih =>
    intro s s' k hp hc hk h
    rw [List.replicate_succ] at h
    obtain ⟨s1, h1, h2⟩ := run_cons s _ _ h
    simp only [Node.step] at h1
    split at h1
    · cases h1
    · rename_i f hd
      simp only [Except.ok.injEq] at h1
      subst h1
      obtain ⟨_, hg⟩ := decay_ok hd
      have := ih { s with filter := f } s' (k + 1) (by show f.p = 1; rw [hg]; exact hp) ?_ (by omega) h2
      · have e : k + 1 + d = k + (d + 1) := by omega
        rw [e] at this; exact this
      · intro q
        show (f.cell q).toNat < _
        rw [hg]
        show (s.filter.cell q >>> s.filter.p).toNat < _
        rw [hp, BitVec.toNat_ushiftRight, Nat.shiftRight_eq_div_pow, Nat.div_lt_iff_lt_mul (by decide)]
        have hq := hc q
        have e : 2 ^ (16 - (k + 1)) * 2 ^ 1 = 2 ^ (16 - k) := by rw [← Nat.pow_add]; congr 1; omega
        rw [e]; exact hq

end Np.Dup
