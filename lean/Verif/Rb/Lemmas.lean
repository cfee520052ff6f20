import Verif.Rb.Spec

set_option linter.unusedVariables false
set_option linter.unusedSimpArgs false

namespace Np.Rb

open _root_.Np.Rb.Spec

variable {α : Type}

/-! ## The order of the elements -/

def before : List (Frame α) → List α
  | [] => []
  | .left _ _ _ :: p => before p
  | .right _ l x :: p => before p ++ (toList l ++ [x])

def after : List (Frame α) → List α
  | [] => []
  | .left _ x r :: p => x :: (toList r ++ after p)
  | .right _ _ _ :: p => after p

theorem toList_zip : ∀ (p : List (Frame α)) (t : T α), toList (zip t p) = before p ++ (toList t ++ after p)
  | [], t => by simp [zip, before, after]
  | .left c x r :: p, t => by rw [zip, toList_zip p, before, after, toList]; simp
  | .right c l x :: p, t => by rw [zip, toList_zip p, before, after, toList]; simp

theorem before_append (p q : List (Frame α)) : before (p ++ q) = before q ++ before p := by
  induction p with
  | nil => simp [before]
  | cons f r ih => cases f <;> simp [before, ih]

theorem after_append (p q : List (Frame α)) : after (p ++ q) = after p ++ after q := by
  induction p with
  | nil => simp [after]
  | cons f r ih => cases f <;> simp [after, ih]

@[simp] theorem toList_blacken (t : T α) : toList t.blacken = toList t := by cases t <;> rfl

theorem insertColor_list (elm : T α) (p : List (Frame α)) {t : T α} (h : insertColor elm p = some t) :
    toList t = before p ++ (toList elm ++ after p) := by
  fun_induction insertColor elm p <;>
    first
    | (simp at h; done)
    | (rename_i ih; rw [ih h]; simp [before, after, toList]; done)
    | (rw [← Option.some.inj h]; simp [toList_zip, before, after, toList]; done)

theorem turnLeft_list {elm : T α} {c : Color} {x : α} {tmp : T α} {p : List (Frame α)} :
    (∀ {t}, turnLeft elm c x tmp p = some (.done t) → toList t = before p ++ (toList elm ++ x :: (toList tmp ++ after p))) ∧
    (∀ {e q}, turnLeft elm c x tmp p = some (.up e q) → q = p ∧ toList e = toList elm ++ x :: toList tmp) := by
  unfold turnLeft
  cases tmp with
  | leaf => simp
  | node tc tl tx tr =>
    simp only []
    constructor
    · intro t h
      split at h
      · simp at h
      · split at h
        · cases tl with
          | leaf => simp at h
          | node a b y d =>
            simp only [Option.some.injEq, Turn.done.injEq] at h
            rw [← h]
            simp [toList_zip, toList]
        · simp only [Option.some.injEq, Turn.done.injEq] at h
          rw [← h]
          simp [toList_zip, toList]
    · intro e q h
      split at h
      · simp only [Option.some.injEq, Turn.up.injEq] at h
        rw [← h.1, ← h.2]
        simp [toList]
      · split at h
        · cases tl <;> simp at h
        · simp at h

theorem turnRight_list {elm : T α} {c : Color} {x : α} {tmp : T α} {p : List (Frame α)} :
    (∀ {t}, turnRight elm c x tmp p = some (.done t) → toList t = before p ++ (toList tmp ++ x :: (toList elm ++ after p))) ∧
    (∀ {e q}, turnRight elm c x tmp p = some (.up e q) → q = p ∧ toList e = toList tmp ++ x :: toList elm) := by
  unfold turnRight
  cases tmp with
  | leaf => simp
  | node tc tl tx tr =>
    simp only []
    constructor
    · intro t h
      split at h
      · simp at h
      · split at h
        · cases tr with
          | leaf => simp at h
          | node a b y d =>
            simp only [Option.some.injEq, Turn.done.injEq] at h
            rw [← h]
            simp [toList_zip, toList]
        · simp only [Option.some.injEq, Turn.done.injEq] at h
          rw [← h]
          simp [toList_zip, toList]
    · intro e q h
      split at h
      · simp only [Option.some.injEq, Turn.up.injEq] at h
        rw [← h.1, ← h.2]
        simp [toList]
      · split at h
        · cases tr <;> simp at h
        · simp at h

theorem removeColor_list (p : List (Frame α)) : ∀ (elm : T α) {t : T α}, removeColor elm p = some t →
    toList t = before p ++ (toList elm ++ after p) := by
  induction p with
  | nil =>
    intro elm t h
    unfold removeColor at h
    rw [← Option.some.inj h]
    simp [before, after]
  | cons f p ih =>
    intro elm t h
    cases f with
    | left c x r =>
      have main : ∀ {t}, (match turnLeft elm c x r p with | none => none | some (.done t) => some t.blacken | some (.up e _) => removeColor e p) = some t →
          toList t = before (.left c x r :: p) ++ (toList elm ++ after (.left c x r :: p)) := by
        intro t h
        cases ht : turnLeft elm c x r p with
        | none => rw [ht] at h; simp at h
        | some g =>
          rw [ht] at h
          cases g with
          | done t' =>
            rw [← Option.some.inj h, toList_blacken, turnLeft_list.1 ht]
            simp [before, after, toList]
          | up e q =>
            rw [ih e h, (turnLeft_list.2 ht).2]
            simp [before, after, toList]
      unfold removeColor at h
      split at h
      · rw [← Option.some.inj h]
        simp [toList_zip, before, after, toList]
      · cases r with
        | leaf => exact main h
        | node rc a y b =>
          cases rc with
          | black => exact main h
          | red =>
            simp only [] at h
            cases ht : turnLeft elm .red x a (.left .black y b :: p) with
            | none => rw [ht] at h; simp at h
            | some g =>
              rw [ht] at h
              cases g with
              | done t' =>
                rw [← Option.some.inj h, toList_blacken, turnLeft_list.1 ht]
                simp [before, after, toList]
              | up e q =>
                rw [← Option.some.inj h, toList_zip, toList_blacken, (turnLeft_list.2 ht).1, (turnLeft_list.2 ht).2]
                simp [before, after, toList]
    | right c l x =>
      have main : ∀ {t}, (match turnRight elm c x l p with | none => none | some (.done t) => some t.blacken | some (.up e _) => removeColor e p) = some t →
          toList t = before (.right c l x :: p) ++ (toList elm ++ after (.right c l x :: p)) := by
        intro t h
        cases ht : turnRight elm c x l p with
        | none => rw [ht] at h; simp at h
        | some g =>
          rw [ht] at h
          cases g with
          | done t' =>
            rw [← Option.some.inj h, toList_blacken, turnRight_list.1 ht]
            simp [before, after, toList]
          | up e q =>
            rw [ih e h, (turnRight_list.2 ht).2]
            simp [before, after, toList]
      unfold removeColor at h
      split at h
      · rw [← Option.some.inj h]
        simp [toList_zip, before, after, toList]
      · cases l with
        | leaf => exact main h
        | node rc a y b =>
          cases rc with
          | black => exact main h
          | red =>
            simp only [] at h
            cases ht : turnRight elm .red x b (.right .black a y :: p) with
            | none => rw [ht] at h; simp at h
            | some g =>
              rw [ht] at h
              cases g with
              | done t' =>
                rw [← Option.some.inj h, toList_blacken, turnRight_list.1 ht]
                simp [before, after, toList]
              | up e q =>
                rw [← Option.some.inj h, toList_zip, toList_blacken, (turnRight_list.2 ht).1, (turnRight_list.2 ht).2]
                simp [before, after, toList]

theorem leftmost_list : ∀ (l : T α) (c : Color) (x : α) (r : T α) (p : List (Frame α)),
    before (leftmost c l x r p).2.2.2 = before p ∧
    (leftmost c l x r p).1 :: (toList (leftmost c l x r p).2.2.1 ++ after (leftmost c l x r p).2.2.2) = toList l ++ x :: (toList r ++ after p) := by
  intro l
  induction l with
  | leaf => intro c x r p; simp [leftmost, toList]
  | node c' l' x' r' ih _ =>
    intro c x r p
    rw [leftmost]
    have := ih c' x' r' (.left c x r :: p)
    rw [this.1, this.2]
    simp [before, after, toList]

theorem removeAt_list {c : Color} {l r : T α} {p : List (Frame α)} {t : T α} (h : removeAt c l r p = some t) :
    toList t = before p ++ (toList l ++ (toList r ++ after p)) := by
  unfold removeAt at h
  cases l with
  | leaf =>
    simp only [] at h
    split at h
    · rw [removeColor_list _ _ h]; simp [toList]
    · rw [← Option.some.inj h, toList_zip]; simp [toList]
  | node lc ll lx lr =>
    cases r with
    | leaf =>
      simp only [] at h
      split at h
      · rw [removeColor_list _ _ h]; simp [toList]
      · rw [← Option.some.inj h, toList_zip]; simp [toList]
    | node rc rl rx rr =>
      simp only [] at h
      have hm := leftmost_list rl rc rx rr ([] : List (Frame α))
      generalize hg : leftmost rc rl rx rr [] = g at h hm
      rcases g with ⟨m, mc, child, q⟩
      simp only [before, after, List.append_nil] at hm h
      have key : before (q ++ .right c (.node lc ll lx lr) m :: p) ++ (toList child ++ after (q ++ .right c (.node lc ll lx lr) m :: p)) =
          before p ++ (toList (.node lc ll lx lr) ++ (toList (.node rc rl rx rr) ++ after p)) := by
        rw [before_append, after_append, hm.1]
        simp only [before, after]
        have : toList (.node rc rl rx rr) = m :: (toList child ++ after q) := by rw [hm.2]; rfl
        rw [this]
        simp
      split at h
      · rw [removeColor_list _ _ h, key]
      · rw [← Option.some.inj h, toList_zip, key]

/-! ## Searching -/

theorem cuts_append {cmp : α → Int} {a b : List α} (h : Cuts cmp (a ++ b)) : Cuts cmp a ∧ Cuts cmp b ∧ ∀ x ∈ a, ∀ y ∈ b, cmp x ≤ 0 → cmp y < 0 :=
  List.pairwise_append.1 h

theorem find_spec {cmp : α → Int} : ∀ {t : T α}, Cuts cmp (toList t) → find cmp t = (toList t).find? (fun x => decide (cmp x = 0)) := by
  intro t
  induction t with
  | leaf => intro _; rfl
  | node c l x r ihl ihr =>
    intro h
    rw [toList] at h
    rcases cuts_append h with ⟨h1, h2, h3⟩
    rcases List.pairwise_cons.1 h2 with ⟨h4, h5⟩
    unfold find toList
    rw [List.find?_append]
    by_cases hlt : cmp x < 0
    · rw [if_pos hlt, ihl h1]
      have : (x :: toList r).find? (fun x => decide (cmp x = 0)) = none := by
        rw [List.find?_eq_none]
        intro y hy
        rw [List.mem_cons] at hy
        rcases hy with hy | hy
        · rw [hy]; simp; omega
        · have := h4 y hy (by omega); simp; omega
      rw [this, Option.or_none]
    · rw [if_neg hlt]
      have hl : 0 ≤ cmp x → (toList l).find? (fun x => decide (cmp x = 0)) = none := by
        intro h0
        rw [List.find?_eq_none]
        intro y hy
        have := h3 y hy x (by simp)
        simp
        omega
      rw [hl (by omega), Option.none_or]
      by_cases hgt : cmp x > 0
      · rw [if_pos hgt, ihr h5, List.find?_cons]
        have : decide (cmp x = 0) = false := by simp; omega
        rw [this]
      · rw [if_neg hgt, List.find?_cons]
        have : decide (cmp x = 0) = true := by simp; omega
        rw [this]

theorem nfind_spec {cmp : α → Int} : ∀ {t : T α} (res : Option α), Cuts cmp (toList t) →
    nfind cmp t res = ((toList t).find? (fun x => decide (cmp x ≤ 0))).or res := by
  intro t
  induction t with
  | leaf => intro _ _; simp [nfind, toList]
  | node c l x r ihl ihr =>
    intro res h
    rw [toList] at h
    rcases cuts_append h with ⟨h1, h2, h3⟩
    rcases List.pairwise_cons.1 h2 with ⟨h4, h5⟩
    unfold nfind toList
    rw [List.find?_append, List.find?_cons]
    by_cases hlt : cmp x < 0
    · rw [if_pos hlt, ihl _ h1]
      have : decide (cmp x ≤ 0) = true := by simp; omega
      rw [this]
      simp
    · rw [if_neg hlt]
      have hl : 0 ≤ cmp x → (toList l).find? (fun x => decide (cmp x ≤ 0)) = none := by
        intro h0
        rw [List.find?_eq_none]
        intro y hy
        have := h3 y hy x (by simp)
        simp
        omega
      rw [hl (by omega), Option.none_or]
      by_cases hgt : cmp x > 0
      · rw [if_pos hgt, ihr _ h5]
        have : decide (cmp x ≤ 0) = false := by simp; omega
        rw [this]
      · rw [if_neg hgt]
        have : decide (cmp x ≤ 0) = true := by simp; omega
        rw [this]
        simp

theorem find_locate {cmp : α → Int} : ∀ (t : T α) (p : List (Frame α)), find cmp t = (locate cmp t p).map fun r => r.2.2.1 := by
  intro t
  induction t with
  | leaf => intro p; rfl
  | node c l x r ihl ihr =>
    intro p
    unfold find locate
    split
    · exact ihl _
    · split
      · exact ihr _
      · rfl

theorem locate_zip {cmp : α → Int} : ∀ (t : T α) (p : List (Frame α)) {c : Color} {l : T α} {x : α} {r : T α} {q : List (Frame α)},
    locate cmp t p = some (c, l, x, r, q) → zip (.node c l x r) q = zip t p ∧ cmp x = 0 := by
  intro t
  induction t with
  | leaf => intro p c l x r q h; simp [locate] at h
  | node c' l' x' r' ihl ihr =>
    intro p c l x r q h
    unfold locate at h
    split at h
    · have := ihl _ h
      exact ⟨this.1, this.2⟩
    · split at h
      · have := ihr _ h
        exact ⟨this.1, this.2⟩
      · simp only [Option.some.injEq, Prod.mk.injEq] at h
        rcases h with ⟨e1, e2, e3, e4, e5⟩
        subst e1 e2 e3 e4 e5
        exact ⟨rfl, by omega⟩

theorem locate_none {cmp : α → Int} {t : T α} (h : Cuts cmp (toList t)) (p : List (Frame α)) (hn : locate cmp t p = none) : ∀ x ∈ toList t, cmp x ≠ 0 := by
  have h1 := find_locate (cmp := cmp) t p
  rw [hn, find_spec h] at h1
  intro x hx
  have := List.find?_eq_none.1 h1 x hx
  simpa using this

theorem place_none {cmp : α → Int} : ∀ (t : T α) (p : List (Frame α)), place cmp t p = none ↔ (find cmp t).isSome := by
  intro t
  induction t with
  | leaf => intro p; simp [place, find]
  | node c l x r ihl ihr =>
    intro p
    unfold place find
    split
    · exact ihl _
    · split
      · exact ihr _
      · simp

/-- Where a new node goes. -/
theorem place_list {cmp : α → Int} : ∀ (t : T α) (p q : List (Frame α)), Cuts cmp (before p ++ (toList t ++ after p)) →
    (∀ x ∈ before p, cmp x > 0) → (∀ x ∈ after p, cmp x < 0) → place cmp t p = some q →
    before q ++ after q = before p ++ (toList t ++ after p) ∧ (∀ x ∈ before q, cmp x > 0) ∧ (∀ x ∈ after q, cmp x < 0) := by
  intro t
  induction t with
  | leaf =>
    intro p q _ hb ha h
    simp only [place, Option.some.injEq] at h
    subst h
    exact ⟨by simp [toList], hb, ha⟩
  | node c l x r ihl ihr =>
    intro p q hc hb ha h
    unfold place at h
    rw [toList] at hc
    rcases cuts_append hc with ⟨_, hc1, _⟩
    rcases cuts_append hc1 with ⟨hc2, _, _⟩
    rcases cuts_append hc2 with ⟨_, hc3, hlx⟩
    rcases List.pairwise_cons.1 hc3 with ⟨hxr, _⟩
    split at h
    · rename_i hlt
      have := ihl (.left c x r :: p) q (by simpa [before, after] using hc) hb (by
        intro y hy
        simp only [after, List.mem_cons, List.mem_append] at hy
        rcases hy with hy | hy | hy
        · rw [hy]; exact hlt
        · exact hxr y hy (by omega)
        · exact ha y hy) h
      refine ⟨?_, this.2⟩
      rw [this.1]
      simp [before, after, toList]
    · split at h
      · rename_i hge hgt
        have := ihr (.right c l x :: p) q (by simpa [before, after] using hc) (by
          intro y hy
          simp only [before, List.mem_append, List.mem_singleton] at hy
          rcases hy with hy | hy | hy
          · exact hb y hy
          · have := hlx y hy x (by simp)
            omega
          · rw [hy]; exact hgt) ha h
        refine ⟨?_, this.2⟩
        rw [this.1]
        simp [before, after, toList]
      · simp at h

theorem filter_split {p q : α → Bool} {a b : List α} (h1 : ∀ x ∈ a, p x = true) (h2 : ∀ x ∈ b, p x = false) (h3 : ∀ x ∈ a, q x = false)
    (h4 : ∀ x ∈ b, q x = true) : (a ++ b).filter p = a ∧ (a ++ b).filter q = b := by
  constructor
  · rw [List.filter_append, List.filter_eq_self.2 h1, List.filter_eq_nil_iff.2 (by intro x hx; simp [h2 x hx])]
    simp
  · rw [List.filter_append, List.filter_eq_nil_iff.2 (by intro x hx; simp [h3 x hx]), List.filter_eq_self.2 h4]
    simp

theorem insert_list {cmp : α → Int} {x : α} {t t' : T α} (hc : Cuts cmp (toList t)) (h : insert cmp x t = some t') :
    toList t' = if (∃ y ∈ toList t, cmp y = 0) then toList t
      else (toList t).filter (fun y => decide (cmp y > 0)) ++ x :: (toList t).filter (fun y => decide (cmp y < 0)) := by
  unfold insert at h
  cases hp : place cmp t [] with
  | none =>
    rw [hp] at h
    have hf := (place_none t []).1 hp
    rw [find_spec hc] at hf
    rw [if_pos]
    · rw [← Option.some.inj h]
    · rw [List.find?_isSome] at hf
      rcases hf with ⟨y, hy, he⟩
      exact ⟨y, hy, by simpa using he⟩
  | some q =>
    rw [hp] at h
    have hl := place_list t [] q (by simpa [before, after] using hc) (by simp [before]) (by simp [after]) hp
    simp only [before, after, List.nil_append, List.append_nil] at hl
    rw [insertColor_list _ _ h]
    have hno : ¬ ∃ y ∈ toList t, cmp y = 0 := by
      rintro ⟨y, hy, he⟩
      rw [← hl.1, List.mem_append] at hy
      rcases hy with hy | hy
      · have := hl.2.1 y hy; omega
      · have := hl.2.2 y hy; omega
    rw [if_neg hno, ← hl.1]
    have hs := filter_split (p := fun y => decide (cmp y > 0)) (q := fun y => decide (cmp y < 0)) (a := before q) (b := after q)
      (by intro y hy; simp; exact hl.2.1 y hy) (by intro y hy; have := hl.2.2 y hy; simp; omega)
      (by intro y hy; have := hl.2.1 y hy; simp; omega) (by intro y hy; simp; exact hl.2.2 y hy)
    rw [hs.1, hs.2]
    simp [toList]

theorem remove_list {cmp : α → Int} {t t' : T α} (hc : Cuts cmp (toList t)) (h : remove cmp t = some t') :
    toList t' = (toList t).filter (fun y => decide (cmp y ≠ 0)) := by
  unfold remove at h
  cases hl : locate cmp t [] with
  | none =>
    rw [hl] at h
    rw [← Option.some.inj h, List.filter_eq_self.2]
    intro y hy
    simp
    exact locate_none hc [] hl y hy
  | some g =>
    rcases g with ⟨c, l, x, r, p⟩
    rw [hl] at h
    have hz := locate_zip t [] hl
    have ht : toList t = before p ++ (toList l ++ (x :: (toList r ++ after p))) := by
      have := congrArg toList hz.1
      rw [toList_zip] at this
      simp only [zip, toList] at this
      rw [← this]
      simp
    rw [removeAt_list h, ht]
    rw [ht] at hc
    have h0 := hz.2
    rcases cuts_append hc with ⟨_, hc1, hb⟩
    rcases cuts_append hc1 with ⟨_, hc2, hl'⟩
    rcases List.pairwise_cons.1 hc2 with ⟨hx, _⟩
    have e1 : (before p).filter (fun y => decide (cmp y ≠ 0)) = before p := List.filter_eq_self.2 (by
      intro y hy
      have := hb y hy x (by simp)
      simp
      omega)
    have e2 : (toList l).filter (fun y => decide (cmp y ≠ 0)) = toList l := List.filter_eq_self.2 (by
      intro y hy
      have := hl' y hy x (by simp)
      simp
      omega)
    have e3 : (toList r ++ after p).filter (fun y => decide (cmp y ≠ 0)) = toList r ++ after p := List.filter_eq_self.2 (by
      intro y hy
      have := hx y hy (by omega)
      simp
      omega)
    rw [List.filter_append, List.filter_append, e1, e2, List.filter_cons, e3]
    simp [h0]

end Np.Rb
