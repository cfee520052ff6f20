import Verif.Tree.Lemmas

set_option linter.unusedVariables false
set_option linter.unusedSimpArgs false

/-! # The calls on a tree with keys of one kind -/
namespace Np.Tree

open _root_.Np.Tree.Spec
open _root_.Np.Rb (T Frame Color toList zip locate)
open _root_.Np.Rb.Spec (Cuts Valid)

variable {V : Type}

theorem zip_same_valid : ∀ (p : List (Frame (Elem V))) {c : Color} {l r : T (Elem V)} {x y : Elem V}, Valid (zip (.node c l x r) p) →
    Valid (zip (.node c l y r) p) := by
  intro p
  -- colours do not depend on the elements
  have main : ∀ (p : List (Frame (Elem V))) (t t' : T (Elem V)), (∀ c n, Rb.Spec.Rb t c n → Rb.Spec.Rb t' c n) →
      ∀ c n, Rb.Spec.Rb (zip t p) c n → Rb.Spec.Rb (zip t' p) c n := by
    intro p
    induction p with
    | nil => intro t t' h c n; exact h c n
    | cons f p ih =>
      intro t t' h c n
      cases f with
      | left fc x r =>
        refine ih _ _ ?_ c n
        intro c n hh
        cases hh with
        | red h1 h2 => exact .red (h _ _ h1) h2
        | black h1 h2 => exact .black (h _ _ h1) h2
      | right fc l x =>
        refine ih _ _ ?_ c n
        intro c n hh
        cases hh with
        | red h1 h2 => exact .red h1 (h _ _ h2)
        | black h1 h2 => exact .black h1 (h _ _ h2)
  intro c l r x y ⟨n, h⟩
  refine ⟨n, main p _ _ ?_ _ _ h⟩
  intro c' n' hh
  cases hh with
  | red h1 h2 => exact .red h1 h2
  | black h1 h2 => exact .black h1 h2

theorem setVal_valid {k : Key} {v : V} {t : T (Elem V)} (h : Valid t) : Valid (setVal k v t) := by
  unfold setVal
  cases hl : locate (against k) t [] with
  | none => exact h
  | some g =>
    rcases g with ⟨c, l, e, r, p⟩
    simp only []
    have := (Rb.locate_zip t [] hl).1
    simp only [zip] at this
    rw [← this] at h
    exact zip_same_valid p h

/-! ## Balance, for every history -/

theorem step_valid {t : Tree V} (h : Valid t.root) (o : Op V) : (∃ t', step t o = .ok t' ∧ Valid t'.root ∧ t'.immutable = t.immutable ∧ t'.inPlace = t.inPlace) ∨
    (step t o = .error .abort ∧ t.immutable = true) := by
  have ins : ∀ n v, (∃ t', insert t n v = .ok t' ∧ Valid t'.root ∧ t'.immutable = t.immutable ∧ t'.inPlace = t.inPlace) ∨ (insert t n v = .error .abort ∧ t.immutable = true) := by
    intro n v
    unfold insert
    cases hf : find t n with
    | some e => exact Or.inl ⟨t, rfl, h, rfl, rfl⟩
    | none =>
      simp only []
      unfold insertElement
      split
      · rename_i hi; exact Or.inr ⟨rfl, hi⟩
      · rcases Rb.insert_valid (cmp := against (stored t.inPlace n)) (x := ⟨stored t.inPlace n, v⟩) h with ⟨r, e1, e2⟩
        rw [e1]
        exact Or.inl ⟨_, rfl, e2, rfl, rfl⟩
  cases o with
  | insert n v => exact ins n v
  | replace n v =>
    simp only [step]
    unfold replace
    cases hf : find t n with
    | none => exact ins n v
    | some e =>
      simp only []
      split
      · rename_i hi; exact Or.inr ⟨rfl, hi⟩
      · exact Or.inl ⟨_, rfl, setVal_valid h, rfl, rfl⟩
  | del n =>
    simp only [step]
    unfold del
    split
    · rename_i hi; exact Or.inr ⟨rfl, hi⟩
    · cases hf : find t n with
      | none => exact Or.inl ⟨t, rfl, h, rfl, rfl⟩
      | some e =>
        simp only []
        rcases Rb.remove_valid (cmp := against (sought n)) h with ⟨r, e1, e2⟩
        rw [e1]
        exact Or.inl ⟨_, rfl, e2, rfl, rfl⟩

theorem run_valid (ops : List (Op V)) : ∀ {t : Tree V}, Valid t.root → t.immutable = false →
    ∃ t', run t ops = .ok t' ∧ Valid t'.root ∧ t'.immutable = false ∧ t'.inPlace = t.inPlace := by
  induction ops with
  | nil => intro t h hi; exact ⟨t, rfl, h, hi, rfl⟩
  | cons o os ih =>
    intro t h hi
    rcases step_valid h o with ⟨t', e1, e2, e3, e4⟩ | ⟨_, e⟩
    · rcases ih e2 (by rw [e3, hi]) with ⟨t2, f1, f2, f3, f4⟩
      refine ⟨t2, ?_, f2, f3, by rw [f4, e4]⟩
      rw [run, e1]
      exact f1
    · rw [hi] at e; simp at e

/-! ## Contents -/

theorem setVal_list {k : Key} {v : V} {t : T (Elem V)} : ∃ a b : List (Elem V), (toList t = a ++ b ∧ toList (setVal k v t) = a ++ b ∧ locate (against k) t [] = none) ∨
    ∃ e, toList t = a ++ e :: b ∧ toList (setVal k v t) = a ++ ⟨e.key, v⟩ :: b ∧ against k e = 0 := by
  unfold setVal
  cases hl : locate (against k) t [] with
  | none => exact ⟨toList t, [], Or.inl ⟨by simp, by simp, rfl⟩⟩
  | some g =>
    rcases g with ⟨c, l, e, r, p⟩
    have h := Rb.locate_zip t [] hl
    simp only [zip] at h
    refine ⟨Rb.before p ++ toList l, toList r ++ Rb.after p, Or.inr ⟨e, ?_, ?_, h.2⟩⟩
    · rw [← h.1, Rb.toList_zip]; simp [toList]
    · simp only []
      rw [Rb.toList_zip]; simp [toList]

/-- The tree holds the map, for names of the kind. -/
structure Keeps (K : Kind) (t : Tree V) (m : Name → Option V) : Prop where
  good : Good K t
  same : ∀ k v, (∃ e ∈ elems t, e.key.name = k ∧ e.val = v) ↔ m k = some v

theorem Keeps.lookup {K : Kind} {t : Tree V} {m : Name → Option V} (h : Keeps K t m) {n : Name} (hn : K.Admits n) : (find t n).map (·.val) = m n := by
  cases hf : find t n with
  | none =>
    have := (h.good.find_none hn).1 hf
    cases hm : m n with
    | none => rfl
    | some v =>
      rcases (h.same n v).2 hm with ⟨e, he, h1, _⟩
      exact absurd h1 (this e he)
  | some e =>
    have := (h.good.find_some hn).1 hf
    exact ((h.same n e.val).1 ⟨e, this.1, this.2, rfl⟩).symm

theorem good_insert {K : Kind} {t : Tree V} {m : Name → Option V} (h : Keeps K t m) {n : Name} (hn : K.Admits n) (hi : t.immutable = false) (v : V) :
    ∃ t', insert t n v = .ok t' ∧ Keeps K t' (apply m (.insert n v)) ∧ t'.immutable = false ∧ t'.inPlace = t.inPlace := by
  unfold insert
  have hl := h.lookup hn
  cases hf : find t n with
  | some e =>
    rw [hf] at hl
    simp only [Option.map_some] at hl
    refine ⟨t, rfl, ⟨h.good, ?_⟩, hi, rfl⟩
    intro k w
    rw [h.same]
    simp only [apply]
    by_cases hk : k = n
    · rw [if_pos hk, hk, ← hl]; simp
    · rw [if_neg hk]
  | none =>
    rw [hf] at hl
    simp only [Option.map_none] at hl
    simp only []
    unfold insertElement
    rw [if_neg (by rw [hi]; simp)]
    rcases Rb.insert_valid (cmp := against (stored t.inPlace n)) (x := ⟨stored t.inPlace n, v⟩) h.good.valid with ⟨r, e1, e2⟩
    simp only [] at e1 ⊢
    rw [e1]
    have hlist := Rb.insert_list (h.good.cuts' hn) e1
    have hno := (h.good.find_none hn).1 hf
    have hno' : ¬ ∃ y ∈ toList t.root, against (stored t.inPlace n) y = 0 := by
      rintro ⟨y, hy, h0⟩
      exact hno y hy (((h.good.stored (e := y) hy hn).eq).1 h0).symm
    rw [if_neg hno'] at hlist
    -- the two parts
    have hgt : ∀ y ∈ toList t.root, (against (stored t.inPlace n) y > 0 ↔ Less y.key.name n) := fun y hy => (h.good.stored (e := y) hy hn).gt
    have hlt : ∀ y ∈ toList t.root, (against (stored t.inPlace n) y < 0 ↔ Less n y.key.name) := fun y hy => (h.good.stored (e := y) hy hn).lt
    have hmem : ∀ y, y ∈ toList r ↔ y = ⟨stored t.inPlace n, v⟩ ∨ y ∈ toList t.root := by
      intro y
      rw [hlist]
      simp only [List.mem_append, List.mem_cons, List.mem_filter, decide_eq_true_eq]
      constructor
      · rintro (⟨h1, _⟩ | h1 | ⟨h1, _⟩)
        · exact Or.inr h1
        · exact Or.inl h1
        · exact Or.inr h1
      · rintro (h1 | h1)
        · exact Or.inr (Or.inl h1)
        · have h0 : against (stored t.inPlace n) y ≠ 0 := fun h0 => hno' ⟨y, h1, h0⟩
          by_cases hh : against (stored t.inPlace n) y > 0
          · exact Or.inl ⟨h1, hh⟩
          · exact Or.inr (Or.inr ⟨h1, by omega⟩)
    refine ⟨_, rfl, ⟨⟨e2, ?_, ?_, ?_⟩, ?_⟩, hi, rfl⟩
    · intro e he
      rcases (hmem e).1 he with h1 | h1
      · exact ⟨n, hn, by rw [h1]⟩
      · exact h.good.keys e h1
    · show (toList r).Pairwise _
      rw [hlist, List.pairwise_append]
      refine ⟨h.good.sorted.filter _, ?_, ?_⟩
      · rw [List.pairwise_cons]
        refine ⟨?_, h.good.sorted.filter _⟩
        intro y hy
        simp only [List.mem_filter, decide_eq_true_eq] at hy
        rw [name_stored hn]
        exact (hlt y hy.1).1 hy.2
      · intro a ha b hb
        simp only [List.mem_filter, decide_eq_true_eq] at ha
        have hab := (hgt a ha.1).1 ha.2
        rcases List.mem_cons.1 hb with hb | hb
        · rw [hb, name_stored hn]; exact hab
        · simp only [List.mem_filter, decide_eq_true_eq] at hb
          exact less_trans hab ((hlt b hb.1).1 hb.2)
    · show t.size + 1 = (toList r).length
      rw [hlist, h.good.size]
      simp only [List.length_append, List.length_cons]
      have hsplit : ∀ l : List (Elem V), (∀ y ∈ l, against (stored t.inPlace n) y ≠ 0) →
          l.length = (l.filter (fun y => decide (against (stored t.inPlace n) y > 0))).length + (l.filter (fun y => decide (against (stored t.inPlace n) y < 0))).length := by
        intro l
        induction l with
        | nil => intro _; rfl
        | cons a l ih =>
          intro hne
          have ha := hne a (by simp)
          have := ih (fun y hy => hne y (by simp [hy]))
          by_cases hh : against (stored t.inPlace n) a > 0
          · rw [List.filter_cons_of_pos (by simpa using hh), List.filter_cons_of_neg (by simp; omega)]
            simp only [List.length_cons]
            omega
          · rw [List.filter_cons_of_neg (by simpa using hh), List.filter_cons_of_pos (by simp; omega)]
            simp only [List.length_cons]
            omega
      have := hsplit (toList t.root) (fun y hy h0 => hno' ⟨y, hy, h0⟩)
      unfold elems
      omega
    · intro k w
      simp only [apply]
      have : (∃ e ∈ elems { t with root := r, size := t.size + 1 }, e.key.name = k ∧ e.val = w) ↔
          (n = k ∧ v = w) ∨ ∃ e ∈ elems t, e.key.name = k ∧ e.val = w := by
        constructor
        · rintro ⟨e, he, h1, h2⟩
          rcases (hmem e).1 he with h3 | h3
          · rw [h3] at h1 h2
            rw [name_stored hn] at h1
            exact Or.inl ⟨h1, h2⟩
          · exact Or.inr ⟨e, h3, h1, h2⟩
        · rintro (⟨h1, h2⟩ | ⟨e, he, h1⟩)
          · exact ⟨⟨stored t.inPlace n, v⟩, (hmem _).2 (Or.inl rfl), by rw [name_stored hn]; exact h1, h2⟩
          · exact ⟨e, (hmem e).2 (Or.inr he), h1⟩
      rw [this, h.same]
      by_cases hk : k = n
      · subst hk
        rw [if_pos rfl, ← hl]
        simp
      · rw [if_neg hk]
        constructor
        · rintro (⟨h1, _⟩ | h1)
          · exact absurd h1.symm hk
          · exact h1
        · exact Or.inr

/-- One element gets another value. -/
theorem keeps_update {K : Kind} {t : Tree V} {m : Name → Option V} (h : Keeps K t m) {a b : List (Elem V)} {e' : Elem V} {v : V} {r : T (Elem V)}
    (h1 : toList t.root = a ++ e' :: b) (h2 : toList r = a ++ ⟨e'.key, v⟩ :: b) (hv : Valid r) :
    Keeps K { t with root := r } (fun k => if k = e'.key.name then some v else m k) := by
  have he' : e' ∈ elems t := by unfold elems; rw [h1]; simp
  have hkeys : ∀ x, x ∈ a ++ ⟨e'.key, v⟩ :: b → ∃ y ∈ elems t, x.key = y.key := by
    intro x hx
    rcases List.mem_append.1 hx with hx | hx
    · exact ⟨x, by unfold elems; rw [h1]; simp [hx], rfl⟩
    · rcases List.mem_cons.1 hx with hx | hx
      · exact ⟨e', he', by rw [hx]⟩
      · exact ⟨x, by unfold elems; rw [h1]; simp [hx], rfl⟩
  have hs := h.good.sorted
  unfold elems at hs
  rw [h1, List.pairwise_append, List.pairwise_cons] at hs
  refine ⟨⟨hv, ?_, ?_, ?_⟩, ?_⟩
  · intro x hx
    rcases hkeys x (by rw [← h2]; exact hx) with ⟨y, hy, e1⟩
    rw [e1]
    exact h.good.keys y hy
  · show (toList r).Pairwise _
    rw [h2, List.pairwise_append, List.pairwise_cons]
    refine ⟨hs.1, ⟨hs.2.1.1, hs.2.1.2⟩, ?_⟩
    intro x hx y hy
    rcases List.mem_cons.1 hy with hy | hy
    · rw [hy]; exact hs.2.2 x hx e' (by simp)
    · exact hs.2.2 x hx y (by simp [hy])
  · show t.size = (toList r).length
    rw [h2, h.good.size]
    unfold elems
    rw [h1]
    simp
  · intro k w
    have hb : ∀ x, x ∈ a ∨ x ∈ b → x.key.name ≠ e'.key.name := by
      intro x hx e2
      rcases hx with hx | hx
      · have := hs.2.2 x hx e' (by simp)
        rw [e2] at this
        exact less_irrefl _ this
      · have := hs.2.1.1 x hx
        rw [e2] at this
        exact less_irrefl _ this
    have hold := h.same k w
    unfold elems at hold
    rw [h1] at hold
    show (∃ x ∈ toList r, x.key.name = k ∧ x.val = w) ↔ _
    rw [h2]
    by_cases hk : k = e'.key.name
    · subst hk
      rw [if_pos rfl]
      simp only [Option.some.injEq]
      constructor
      · rintro ⟨x, hx, h4, h5⟩
        rcases List.mem_append.1 hx with hx | hx
        · exact absurd h4 (hb x (Or.inl hx))
        · rcases List.mem_cons.1 hx with hx | hx
          · rw [hx] at h5; exact h5
          · exact absurd h4 (hb x (Or.inr hx))
      · intro e2
        exact ⟨⟨e'.key, v⟩, by simp, rfl, e2⟩
    · rw [if_neg hk, ← hold]
      constructor
      · rintro ⟨x, hx, h4, h5⟩
        rcases List.mem_append.1 hx with hx | hx
        · exact ⟨x, by simp [hx], h4, h5⟩
        · rcases List.mem_cons.1 hx with hx | hx
          · rw [hx] at h4; exact absurd (h4.symm) hk
          · exact ⟨x, by simp [hx], h4, h5⟩
      · rintro ⟨x, hx, h4, h5⟩
        rcases List.mem_append.1 hx with hx | hx
        · exact ⟨x, by simp [hx], h4, h5⟩
        · rcases List.mem_cons.1 hx with hx | hx
          · rw [hx] at h4; exact absurd (h4.symm) hk
          · exact ⟨x, by simp [hx], h4, h5⟩

theorem good_replace {K : Kind} {t : Tree V} {m : Name → Option V} (h : Keeps K t m) {n : Name} (hn : K.Admits n) (hi : t.immutable = false) (v : V) :
    ∃ t', replace t n v = .ok t' ∧ Keeps K t' (apply m (.replace n v)) ∧ t'.immutable = false ∧ t'.inPlace = t.inPlace := by
  unfold replace
  have hl := h.lookup hn
  cases hf : find t n with
  | none =>
    rw [hf] at hl
    rcases good_insert h hn hi v with ⟨t', e1, e2, e3, e4⟩
    refine ⟨t', e1, ⟨e2.good, ?_⟩, e3, e4⟩
    intro k w
    rw [e2.same]
    simp only [apply, ← hl, Option.map_none, Option.getD_none]
  | some e =>
    simp only []
    rw [if_neg (by rw [hi]; simp)]
    have hfe := (h.good.find_some hn).1 hf
    rcases setVal_list (k := sought n) (v := v) (t := t.root) with ⟨a, b, ⟨_, _, h3⟩ | ⟨e', h1, h2, h3⟩⟩
    · exact absurd ((h.good.sought (e := e) hfe.1 hn).eq.2 hfe.2.symm) (Rb.locate_none (h.good.cuts hn) [] h3 e hfe.1)
    · have he' : e' ∈ elems t := by unfold elems; rw [h1]; simp
      have hen : e'.key.name = n := ((h.good.sought he' hn).eq.1 h3).symm
      have hup := keeps_update h h1 h2 (setVal_valid h.good.valid)
      rw [hen] at hup
      exact ⟨_, rfl, ⟨hup.good, hup.same⟩, hi, rfl⟩

theorem filter_ne_length {l : List (Elem V)} {e : Elem V} {n : Name} (hs : l.Pairwise fun a b => Less a.key.name b.key.name) (he : e ∈ l) (hn : e.key.name = n) :
    (l.filter fun x => decide (x.key.name ≠ n)).length = l.length - 1 := by
  induction l with
  | nil => simp at he
  | cons a l ih =>
    rw [List.pairwise_cons] at hs
    by_cases ha : a.key.name = n
    · rw [List.filter_cons_of_neg (by simp [ha]), List.filter_eq_self.2]
      · simp
      · intro x hx
        have := hs.1 x hx
        simp only [ne_eq, decide_eq_true_eq]
        intro e2
        rw [ha, e2] at this
        exact less_irrefl _ this
    · rw [List.filter_cons_of_pos (by simp [ha])]
      rcases List.mem_cons.1 he with he | he
      · rw [← he] at ha; exact absurd hn ha
      · have := ih hs.2 he
        simp only [List.length_cons]
        have : 0 < l.length := List.length_pos_of_mem he
        omega

theorem filter_congr_mem {α : Type} {p q : α → Bool} : ∀ {l : List α}, (∀ x ∈ l, p x = q x) → l.filter p = l.filter q
  | [], _ => rfl
  | a :: l, h => by
    rw [List.filter_cons, List.filter_cons, h a (by simp), filter_congr_mem fun x hx => h x (by simp [hx])]

theorem good_del {K : Kind} {t : Tree V} {m : Name → Option V} (h : Keeps K t m) {n : Name} (hn : K.Admits n) (hi : t.immutable = false) :
    ∃ t', del t n = .ok t' ∧ Keeps K t' (apply m (.del n)) ∧ t'.immutable = false ∧ t'.inPlace = t.inPlace := by
  unfold del
  rw [if_neg (by rw [hi]; simp)]
  have hl := h.lookup hn
  cases hf : find t n with
  | none =>
    rw [hf] at hl
    simp only [Option.map_none] at hl
    refine ⟨t, rfl, ⟨h.good, ?_⟩, hi, rfl⟩
    intro k w
    rw [h.same]
    simp only [apply]
    by_cases hk : k = n
    · rw [if_pos hk, hk, ← hl]
    · rw [if_neg hk]
  | some e =>
    simp only []
    have hfe := (h.good.find_some hn).1 hf
    rcases Rb.remove_valid (cmp := against (sought n)) h.good.valid with ⟨r, e1, e2⟩
    rw [e1]
    have hlist := Rb.remove_list (h.good.cuts hn) e1
    have hlist' : toList r = (toList t.root).filter (fun x => decide (x.key.name ≠ n)) := by
      rw [hlist]
      apply filter_congr_mem
      intro x hx
      have := (h.good.sought (e := x) hx hn).eq
      rw [decide_eq_decide, ne_eq, ne_eq, this, eq_comm]
    have hmem : ∀ y, y ∈ toList r ↔ y ∈ toList t.root ∧ y.key.name ≠ n := by
      intro y
      rw [hlist']
      simp [List.mem_filter]
    refine ⟨_, rfl, ⟨⟨e2, ?_, ?_, ?_⟩, ?_⟩, hi, rfl⟩
    · intro x hx
      exact h.good.keys x ((hmem x).1 hx).1
    · show (toList r).Pairwise _
      rw [hlist]
      exact h.good.sorted.filter _
    · show t.size - 1 = (toList r).length
      have := filter_ne_length h.good.sorted hfe.1 hfe.2
      unfold elems at this
      rw [hlist', this, h.good.size]
      rfl
    · intro k w
      simp only [apply]
      by_cases hk : k = n
      · rw [if_pos hk]
        constructor
        · rintro ⟨x, hx, h1, _⟩
          exact absurd (h1.trans hk) ((hmem x).1 hx).2
        · intro e; simp at e
      · rw [if_neg hk, ← h.same]
        constructor
        · rintro ⟨x, hx, h1⟩
          exact ⟨x, ((hmem x).1 hx).1, h1⟩
        · rintro ⟨x, hx, h1⟩
          exact ⟨x, (hmem x).2 ⟨hx, by rw [h1.1]; exact hk⟩, h1⟩

theorem good_step {K : Kind} {t : Tree V} {m : Name → Option V} (h : Keeps K t m) (hi : t.immutable = false) {o : Op V} (ho : K.Admits (Op.name o)) :
    ∃ t', step t o = .ok t' ∧ Keeps K t' (apply m o) ∧ t'.immutable = false ∧ t'.inPlace = t.inPlace := by
  cases o with
  | insert n v => exact good_insert h ho hi v
  | replace n v => exact good_replace h ho hi v
  | del n => exact good_del h ho hi

theorem good_run {K : Kind} (ops : List (Op V)) : ∀ {t : Tree V} {m : Name → Option V}, Keeps K t m → t.immutable = false → (∀ o ∈ ops, K.Admits (Op.name o)) →
    ∃ t', run t ops = .ok t' ∧ Keeps K t' (Spec.after m ops) ∧ t'.immutable = false ∧ t'.inPlace = t.inPlace := by
  induction ops with
  | nil => intro t m h hi _; exact ⟨t, rfl, h, hi, rfl⟩
  | cons o os ih =>
    intro t m h hi ho
    rcases good_step h hi (ho o (by simp)) with ⟨t', e1, e2, e3, e4⟩
    rcases ih e2 e3 (fun o h => ho o (by simp [h])) with ⟨t2, f1, f2, f3, f4⟩
    refine ⟨t2, ?_, f2, f3, by rw [f4, e4]⟩
    rw [run, e1]
    exact f1

theorem keeps_empty (K : Kind) (ip : Bool) : Keeps K ({ (create : Tree V) with inPlace := ip }) fun _ => none := by
  refine ⟨⟨⟨0, .leaf⟩, ?_, ?_, rfl⟩, ?_⟩
  · intro e he; simp [elems, create, toList] at he
  · simp [elems, create, toList]
  · intro k v; simp [elems, create, toList]

theorem Keeps.holds {K : Kind} {t : Tree V} {m : Name → Option V} (h : Keeps K t m) : Holds t m := by
  refine ⟨?_, ?_, ?_⟩
  · intro k v
    rw [← h.same]
    unfold entries
    simp only [List.mem_map, Prod.mk.injEq]
  · unfold entries
    rw [List.pairwise_map]
    exact h.good.sorted
  · unfold entries
    rw [List.length_map]
    exact h.good.size

/-- The tree of a history. -/
theorem built_keeps {K : Kind} {ip : Bool} {ops : List (Op V)} {t : Tree V} (h : Built ip ops t) (ho : ∀ o ∈ ops, K.Admits (Op.name o)) :
    Keeps K t (Spec.after (fun _ => none) ops) ∧ t.immutable = false ∧ t.inPlace = ip := by
  rcases good_run ops (keeps_empty K ip) rfl ho with ⟨t', e1, e2, e3, e4⟩
  unfold Built at h
  rw [e1] at h
  cases h
  exact ⟨e2, e3, e4⟩

/-! ## Copies -/

theorem copy_keeps {K : Kind} : ∀ (es : List (Elem V)) {t : Tree V} {m : Name → Option V}, Keeps K t m → t.immutable = false → (∀ e ∈ es, K.Admits e.key.name) →
    ∃ t', copyLoop t es = .ok t' ∧ Keeps K t' (Spec.after m (es.map fun e => Op.insert e.key.name e.val)) := by
  intro es
  induction es with
  | nil => intro t m h hi _; exact ⟨t, rfl, h⟩
  | cons e es ih =>
    intro t m h hi ha
    rcases good_insert h (ha e (by simp)) hi e.val with ⟨t', e1, e2, e3, _⟩
    rcases ih e2 e3 (fun x hx => ha x (by simp [hx])) with ⟨t2, f1, f2⟩
    refine ⟨t2, ?_, f2⟩
    rw [copyLoop, e1]
    exact f1

theorem after_inserts : ∀ (es : List (Elem V)) (m : Name → Option V), es.Pairwise (fun a b => Less a.key.name b.key.name) → (∀ e ∈ es, m e.key.name = none) →
    ∀ k v, Spec.after m (es.map fun e => Op.insert e.key.name e.val) k = some v ↔ m k = some v ∨ ∃ e ∈ es, e.key.name = k ∧ e.val = v := by
  intro es
  induction es with
  | nil => intro m _ _ k v; simp [Spec.after]
  | cons a es ih =>
    intro m hs hm k v
    rw [List.pairwise_cons] at hs
    have ha := hm a (by simp)
    have hne : ∀ e ∈ es, e.key.name ≠ a.key.name := by
      intro e he e2
      have := hs.1 e he
      rw [e2] at this
      exact less_irrefl _ this
    rw [List.map_cons, Spec.after, ih _ hs.2]
    · simp only [apply, ha, Option.getD_none]
      by_cases hk : k = a.key.name
      · subst hk
        rw [if_pos rfl, ha]
        simp only [Option.some.injEq, List.mem_cons, exists_eq_or_imp, true_and, reduceCtorEq, false_or]
      · rw [if_neg hk]
        simp only [List.mem_cons, exists_eq_or_imp]
        constructor
        · rintro (h | h)
          · exact Or.inl h
          · exact Or.inr (Or.inr h)
        · rintro (h | ⟨h, _⟩ | h)
          · exact Or.inl h
          · exact absurd h.symm hk
          · exact Or.inr h
    · intro e he
      simp only [apply]
      rw [if_neg (hne e he)]
      exact hm e (by simp [he])

theorem clone_keeps {K : Kind} {t : Tree V} {m : Name → Option V} (h : Keeps K t m) : ∃ c, clone t = .ok c ∧ Keeps K c m ∧ c.immutable = t.immutable ∧ c.inPlace = false := by
  unfold clone
  rcases copy_keeps (elems t) (keeps_empty (V := V) K false) rfl (fun e he => (h.good.key he).1) with ⟨c, e1, e2⟩
  rw [e1]
  have e3 : c.inPlace = false := by
    -- copying leaves the attributes
    have : ∀ (es : List (Elem V)) (a b : Tree V), copyLoop a es = .ok b → b.inPlace = a.inPlace := by
      intro es
      induction es with
      | nil => intro a b hab; cases hab; rfl
      | cons e es ih =>
        intro a b hab
        rw [copyLoop] at hab
        cases hi : insert a e.key.name e.val with
        | error f => rw [hi] at hab; cases hab
        | ok a' =>
          rw [hi] at hab
          rw [ih a' b hab]
          unfold insert at hi
          split at hi
          · cases hi; rfl
          · unfold insertElement at hi
            split at hi
            · cases hi
            · split at hi
              · cases hi
              · cases hi; rfl
    exact this _ _ _ e1
  refine ⟨_, rfl, ⟨⟨e2.good.valid, e2.good.keys, e2.good.sorted, e2.good.size⟩, ?_⟩, rfl, e3⟩
  intro k v
  show (∃ e ∈ elems c, _) ↔ _
  rw [e2.same, after_inserts (elems t) _ h.good.sorted (by intro e _; rfl), h.same]
  simp

/-! ## The next entry -/

theorem gte_spec {K : Kind} {t : Tree V} {m : Name → Option V} (h : Keeps K t m) {n : Name} (hn : K.Admits n) :
    Rb.nfind (against (sought n)) t.root none = (elems t).find? (fun e => decide (e.key.name = n ∨ Less n e.key.name)) := by
  rw [Rb.nfind_spec none (h.good.cuts hn)]
  simp only [Option.or_none]
  apply find?_congr
  intro e he
  have := h.good.sought (e := e) he hn
  rw [decide_eq_decide]
  have h1 := this.lt
  have h2 := this.eq
  constructor
  · intro hle
    by_cases h0 : against (sought n) e = 0
    · exact Or.inl (h2.1 h0).symm
    · exact Or.inr (h1.1 (by omega))
  · rintro (h3 | h3)
    · have := h2.2 h3.symm; omega
    · have := h1.2 h3; omega

end Np.Tree
