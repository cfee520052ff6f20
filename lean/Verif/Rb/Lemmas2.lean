import Verif.Rb.Lemmas

set_option linter.unusedVariables false
set_option linter.unusedSimpArgs false

/-! # Colours and black heights -/
namespace Np.Rb

open _root_.Np.Rb.Spec

variable {α : Type}

/-- What surrounds a node: black height `n` is needed there, and whether a red node is allowed. -/
inductive Ctx : List (Frame α) → Bool → Nat → Prop
  | nil {n : Nat} : Ctx [] false n
  | leftB {x : α} {r : T α} {c : Color} {p : List (Frame α)} {b : Bool} {n : Nat} : Rb r c n → Ctx p b (n + 1) → Ctx (.left .black x r :: p) true n
  | rightB {x : α} {l : T α} {c : Color} {p : List (Frame α)} {b : Bool} {n : Nat} : Rb l c n → Ctx p b (n + 1) → Ctx (.right .black l x :: p) true n
  | leftR {x : α} {r : T α} {p : List (Frame α)} {n : Nat} : Rb r .black n → Ctx p true n → Ctx (.left .red x r :: p) false n
  | rightR {x : α} {l : T α} {p : List (Frame α)} {n : Nat} : Rb l .black n → Ctx p true n → Ctx (.right .red l x :: p) false n

theorem isRed_iff {t : T α} {c : Color} {n : Nat} (h : Rb t c n) : t.isRed = true ↔ c = .red := by
  cases h <;> simp [T.isRed]

theorem not_red {t : T α} {c : Color} {n : Nat} (h : Rb t c n) (hr : ¬ t.isRed = true) : c = .black := by
  cases c with
  | red => exact absurd ((isRed_iff h).2 rfl) hr
  | black => rfl

theorem blacken_red {t : T α} {n : Nat} (h : Rb t .red n) : Rb t.blacken .black (n + 1) := by
  cases h with
  | red h1 h2 => exact .black h1 h2

theorem blacken_black {t : T α} {n : Nat} (h : Rb t .black n) : Rb t.blacken .black n := by
  cases h with
  | leaf => exact .leaf
  | black h1 h2 => exact .black h1 h2

theorem valid_blacken {t : T α} {c : Color} {n : Nat} (h : Rb t c n) : Valid t.blacken := by
  cases c with
  | red => exact ⟨_, blacken_red h⟩
  | black => exact ⟨_, blacken_black h⟩

/-- Any tree that may be there makes the whole valid. -/
theorem zip_valid {p : List (Frame α)} : ∀ {t : T α} {b : Bool} {c : Color} {n : Nat}, Ctx p b n → Rb t c n → (c = .red → b = true) → Valid (zip t p) := by
  induction p with
  | nil =>
    intro t b c n hc ht hr
    cases hc with
    | nil =>
      cases c with
      | red => simp at hr
      | black => exact ⟨n, ht⟩
  | cons f p ih =>
    intro t b c n hc ht hr
    cases hc with
    | leftB h1 h2 => exact ih h2 (.black ht h1) (by simp)
    | rightB h1 h2 => exact ih h2 (.black h1 ht) (by simp)
    | leftR h1 h2 =>
      cases c with
      | red => simp at hr
      | black => exact ih h2 (.red ht h1) (by simp)
    | rightR h1 h2 =>
      cases c with
      | red => simp at hr
      | black => exact ih h2 (.red h1 ht) (by simp)

theorem Spec.Valid.blacken {t : T α} (h : Valid t) : Valid t.blacken := by
  rcases h with ⟨n, h⟩
  exact valid_blacken h

/-- A node below a red one is in a context that has a grandparent, which is black. -/
theorem insertColor_valid : ∀ (k : Nat) (p : List (Frame α)), p.length ≤ k → ∀ {elm : T α} {b : Bool} {n : Nat}, Rb elm .red n → Ctx p b n →
    ∃ t, insertColor elm p = some t ∧ Valid t := by
  intro k
  induction k with
  | zero =>
    intro p hp elm b n he hc
    have : p = [] := List.length_eq_zero_iff.1 (by omega)
    subst this
    exact ⟨_, by rw [insertColor], valid_blacken he⟩
  | succ k ih =>
    intro p hp elm b n he hc
    cases hc with
    | nil => exact ⟨_, by rw [insertColor], valid_blacken he⟩
    | leftB h1 h2 => exact ⟨_, by rw [insertColor], (zip_valid h2 (.black he h1) (by simp)).blacken⟩
    | rightB h1 h2 => exact ⟨_, by rw [insertColor], (zip_valid h2 (.black h1 he) (by simp)).blacken⟩
    | leftR h1 h2 =>
      cases h2 with
      | leftB h3 h4 =>
        rename_i x r g gr c p b
        simp only [List.length_cons] at hp
        rw [insertColor.eq_def]
        simp only []
        by_cases hr : gr.isRed = true
        · rw [if_pos hr]
          have hcr : c = .red := (isRed_iff h3).1 hr
          subst hcr
          exact ih p (by omega) (.red (.black he h1) (blacken_red h3)) h4
        · rw [if_neg hr]
          have hcb := not_red h3 hr
          subst hcb
          exact ⟨_, rfl, (zip_valid h4 (.black he (.red h1 h3)) (by simp)).blacken⟩
      | rightB h3 h4 =>
        rename_i x r g gl c p b
        simp only [List.length_cons] at hp
        rw [insertColor.eq_def]
        simp only []
        by_cases hr : gl.isRed = true
        · rw [if_pos hr]
          have hcr : c = .red := (isRed_iff h3).1 hr
          subst hcr
          exact ih p (by omega) (.red (blacken_red h3) (.black he h1)) h4
        · rw [if_neg hr]
          have hcb := not_red h3 hr
          subst hcb
          cases he with
          | red e1 e2 => exact ⟨_, rfl, (zip_valid h4 (.black (.red h3 e1) (.red e2 h1)) (by simp)).blacken⟩
    | rightR h1 h2 =>
      cases h2 with
      | leftB h3 h4 =>
        rename_i x l g gr c p b
        simp only [List.length_cons] at hp
        rw [insertColor.eq_def]
        simp only []
        by_cases hr : gr.isRed = true
        · rw [if_pos hr]
          have hcr : c = .red := (isRed_iff h3).1 hr
          subst hcr
          exact ih p (by omega) (.red (.black h1 he) (blacken_red h3)) h4
        · rw [if_neg hr]
          have hcb := not_red h3 hr
          subst hcb
          cases he with
          | red e1 e2 => exact ⟨_, rfl, (zip_valid h4 (.black (.red h1 e1) (.red e2 h3)) (by simp)).blacken⟩
      | rightB h3 h4 =>
        rename_i x l g gl c p b
        simp only [List.length_cons] at hp
        rw [insertColor.eq_def]
        simp only []
        by_cases hr : gl.isRed = true
        · rw [if_pos hr]
          have hcr : c = .red := (isRed_iff h3).1 hr
          subst hcr
          exact ih p (by omega) (.red (blacken_red h3) (.black h1 he)) h4
        · rw [if_neg hr]
          have hcb := not_red h3 hr
          subst hcb
          exact ⟨_, rfl, (zip_valid h4 (.black (.red h3 h1) he) (by simp)).blacken⟩

/-! ## Removing -/

/-- A node of colour `c` with subtrees of height `n`. -/
def nodeHeight (c : Color) (n : Nat) : Nat := match c with | .red => n | .black => n + 1

/-- One turn, with a sibling that is black and one higher. -/
theorem turnLeft_valid {elm tmp : T α} {c : Color} {x : α} {p : List (Frame α)} {b : Bool} {n : Nat} (he : Rb elm .black n) (ht : Rb tmp .black (n + 1))
    (hp : Ctx p b (nodeHeight c (n + 1))) (hb : c = .red → b = true) :
    (∃ t, turnLeft elm c x tmp p = some (.done t) ∧ Valid t) ∨
    (∃ e, turnLeft elm c x tmp p = some (.up e p) ∧ (c = .black → Rb e .black (n + 1)) ∧ (c = .red → e.isRed = true ∧ Rb e.blacken .black (n + 1))) := by
  cases ht with
  | black t1 t2 =>
    rename_i tl tr tx c1 c2
    unfold turnLeft
    simp only []
    by_cases h1 : tl.isRed = true
    · have hc1 := (isRed_iff t1).1 h1
      subst hc1
      rw [if_neg (by simp [h1])]
      by_cases h2 : tr.isRed = true
      · have hc2 := (isRed_iff t2).1 h2
        subst hc2
        rw [if_neg (by simp [h2])]
        left
        refine ⟨_, rfl, ?_⟩
        cases c with
        | red => exact zip_valid hp (.red (.black he t1) (blacken_red t2)) (by simpa using hb)
        | black => exact zip_valid hp (.black (.black he t1) (blacken_red t2)) (by simp)
      · have hc2 := not_red t2 h2
        subst hc2
        rw [if_pos h2]
        left
        cases t1 with
        | red a1 a2 =>
          refine ⟨_, rfl, ?_⟩
          cases c with
          | red => exact zip_valid hp (.red (.black he a1) (.black a2 t2)) (by simpa using hb)
          | black => exact zip_valid hp (.black (.black he a1) (.black a2 t2)) (by simp)
    · have hc1 := not_red t1 h1
      subst hc1
      by_cases h2 : tr.isRed = true
      · have hc2 := (isRed_iff t2).1 h2
        subst hc2
        rw [if_neg (by simp [h2]), if_neg (by simp [h2])]
        left
        refine ⟨_, rfl, ?_⟩
        cases c with
        | red => exact zip_valid hp (.red (.black he t1) (blacken_red t2)) (by simpa using hb)
        | black => exact zip_valid hp (.black (.black he t1) (blacken_red t2)) (by simp)
      · have hc2 := not_red t2 h2
        subst hc2
        rw [if_pos ⟨h1, h2⟩]
        right
        refine ⟨_, rfl, ?_, ?_⟩
        · intro e
          subst e
          exact .black he (.red t1 t2)
        · intro e
          subst e
          exact ⟨rfl, .black he (.red t1 t2)⟩

theorem turnRight_valid {elm tmp : T α} {c : Color} {x : α} {p : List (Frame α)} {b : Bool} {n : Nat} (he : Rb elm .black n) (ht : Rb tmp .black (n + 1))
    (hp : Ctx p b (nodeHeight c (n + 1))) (hb : c = .red → b = true) :
    (∃ t, turnRight elm c x tmp p = some (.done t) ∧ Valid t) ∨
    (∃ e, turnRight elm c x tmp p = some (.up e p) ∧ (c = .black → Rb e .black (n + 1)) ∧ (c = .red → e.isRed = true ∧ Rb e.blacken .black (n + 1))) := by
  cases ht with
  | black t1 t2 =>
    rename_i tl tr tx c1 c2
    unfold turnRight
    simp only []
    by_cases h1 : tl.isRed = true
    · have hc1 := (isRed_iff t1).1 h1
      subst hc1
      rw [if_neg (by simp [h1]), if_neg (by simp [h1])]
      left
      refine ⟨_, rfl, ?_⟩
      cases c with
      | red => exact zip_valid hp (.red (blacken_red t1) (.black t2 he)) (by simpa using hb)
      | black => exact zip_valid hp (.black (blacken_red t1) (.black t2 he)) (by simp)
    · have hc1 := not_red t1 h1
      subst hc1
      by_cases h2 : tr.isRed = true
      · have hc2 := (isRed_iff t2).1 h2
        subst hc2
        rw [if_neg (by simp [h2]), if_pos h1]
        left
        cases t2 with
        | red a1 a2 =>
          refine ⟨_, rfl, ?_⟩
          cases c with
          | red => exact zip_valid hp (.red (.black t1 a1) (.black a2 he)) (by simpa using hb)
          | black => exact zip_valid hp (.black (.black t1 a1) (.black a2 he)) (by simp)
      · have hc2 := not_red t2 h2
        subst hc2
        rw [if_pos ⟨h1, h2⟩]
        right
        refine ⟨_, rfl, ?_, ?_⟩
        · intro e
          subst e
          exact .black (.red t1 t2) he
        · intro e
          subst e
          exact ⟨rfl, .black (.red t1 t2) he⟩

theorem removeColor_valid (p : List (Frame α)) : ∀ {elm : T α} {c : Color} {b : Bool} {n : Nat}, Rb elm c n → Ctx p b (n + 1) →
    ∃ t, removeColor elm p = some t ∧ Valid t := by
  induction p with
  | nil =>
    intro elm c b n he hc
    exact ⟨_, by rw [removeColor], valid_blacken he⟩
  | cons f p ih =>
    intro elm c b n he hc
    by_cases hred : elm.isRed = true
    · have hcr := (isRed_iff he).1 hred
      subst hcr
      have := zip_valid hc (blacken_red he) (by simp)
      cases f with
      | left c x r => exact ⟨zip (.node c elm.blacken x r) p, by rw [removeColor.eq_def]; simp only []; rw [if_pos hred], this⟩
      | right c l x => exact ⟨zip (.node c l x elm.blacken) p, by rw [removeColor.eq_def]; simp only []; rw [if_pos hred], this⟩
    · have hcb := not_red he hred
      subst hcb
      cases hc with
      | leftB h1 h2 =>
        rename_i x r cr b'
        cases h1 with
        | red r1 r2 =>
          rename_i a d y
          rw [removeColor.eq_def]
          simp only []
          rw [if_neg hred]
          rcases turnLeft_valid (c := .red) (x := x) he r1 (.leftB r2 h2 (x := y)) (by simp) with ⟨t, e1, e2⟩ | ⟨e, e1, _, e2⟩
          · rw [e1]; exact ⟨_, rfl, e2.blacken⟩
          · rw [e1]; exact ⟨_, rfl, zip_valid (.leftB r2 h2) (e2 rfl).2 (by simp)⟩
        | black r1 r2 =>
          rw [removeColor.eq_def]
          simp only []
          rw [if_neg hred]
          rcases turnLeft_valid (c := .black) (x := x) he (.black r1 r2) h2 (by simp) with ⟨t, e1, e2⟩ | ⟨e, e1, e2, _⟩
          · rw [e1]; exact ⟨_, rfl, e2.blacken⟩
          · rw [e1]; exact ih (e2 rfl) h2
      | rightB h1 h2 =>
        rename_i x l cl b'
        cases h1 with
        | red r1 r2 =>
          rename_i a d y
          rw [removeColor.eq_def]
          simp only []
          rw [if_neg hred]
          rcases turnRight_valid (c := .red) (x := x) he r2 (.rightB r1 h2 (x := y)) (by simp) with ⟨t, e1, e2⟩ | ⟨e, e1, _, e2⟩
          · rw [e1]; exact ⟨_, rfl, e2.blacken⟩
          · rw [e1]; exact ⟨_, rfl, zip_valid (.rightB r1 h2) (e2 rfl).2 (by simp)⟩
        | black r1 r2 =>
          rw [removeColor.eq_def]
          simp only []
          rw [if_neg hred]
          rcases turnRight_valid (c := .black) (x := x) he (.black r1 r2) h2 (by simp) with ⟨t, e1, e2⟩ | ⟨e, e1, e2, _⟩
          · rw [e1]; exact ⟨_, rfl, e2.blacken⟩
          · rw [e1]; exact ih (e2 rfl) h2
      | leftR h1 h2 =>
        rename_i x r
        cases h1 with
        | black r1 r2 =>
          rw [removeColor.eq_def]
          simp only []
          rw [if_neg hred]
          rcases turnLeft_valid (c := .red) (x := x) he (.black r1 r2) h2 (by simp) with ⟨t, e1, e2⟩ | ⟨e, e1, _, e2⟩
          · rw [e1]; exact ⟨_, rfl, e2.blacken⟩
          · rw [e1]
            simp only []
            have hv := zip_valid h2 (e2 rfl).2 (by simp)
            have hz : removeColor e p = some (zip e.blacken p) := by
              cases p with
              | nil => rw [removeColor]; rfl
              | cons f q => cases f <;> (rw [removeColor.eq_def]; simp only []; rw [if_pos (e2 rfl).1]; rfl)
            exact ⟨_, hz, hv⟩
      | rightR h1 h2 =>
        rename_i x l
        cases h1 with
        | black r1 r2 =>
          rw [removeColor.eq_def]
          simp only []
          rw [if_neg hred]
          rcases turnRight_valid (c := .red) (x := x) he (.black r1 r2) h2 (by simp) with ⟨t, e1, e2⟩ | ⟨e, e1, _, e2⟩
          · rw [e1]; exact ⟨_, rfl, e2.blacken⟩
          · rw [e1]
            simp only []
            have hv := zip_valid h2 (e2 rfl).2 (by simp)
            have hz : removeColor e p = some (zip e.blacken p) := by
              cases p with
              | nil => rw [removeColor]; rfl
              | cons f q => cases f <;> (rw [removeColor.eq_def]; simp only []; rw [if_pos (e2 rfl).1]; rfl)
            exact ⟨_, hz, hv⟩

theorem leftmost_valid : ∀ (l : T α) {c : Color} {x : α} {r : T α} {q p : List (Frame α)} {b : Bool} {n : Nat}, Rb (.node c l x r) c n →
    Ctx (q ++ p) b n → (c = .red → b = true) →
    ∃ b' k m mc child q', leftmost c l x r q = (m, mc, child, q') ∧
      ((mc = .black ∧ (∃ cc, Rb child cc k) ∧ Ctx (q' ++ p) b' (k + 1)) ∨ (mc = .red ∧ Rb child .black k ∧ Ctx (q' ++ p) b' k)) := by
  intro l
  induction l with
  | leaf =>
    intro c x r q p b n h hc hb
    rw [leftmost]
    cases h with
    | red h1 h2 => exact ⟨b, n, x, .red, r, q, rfl, Or.inr ⟨rfl, h2, hc⟩⟩
    | black h1 h2 => exact ⟨b, _, x, .black, r, q, rfl, Or.inl ⟨rfl, ⟨_, h2⟩, hc⟩⟩
  | node c' l' x' r' ih _ =>
    intro c x r q p b n h hc hb
    rw [leftmost]
    cases h with
    | red h1 h2 =>
      have : c' = .black := by cases h1; rfl
      subst this
      have hbt : b = true := hb rfl
      subst hbt
      exact ih (q := .left .red x r :: q) (p := p) h1 (.leftR h2 hc) (by simp)
    | black h1 h2 =>
      rename_i m c1 c2
      have : c1 = c' := by cases h1 <;> rfl
      subst this
      exact ih (q := .left .black x r :: q) (p := p) h1 (.leftB h2 hc) (by simp)

theorem removeAt_valid {c : Color} {l r : T α} {x : α} {p : List (Frame α)} {b : Bool} {n : Nat} (h : Rb (.node c l x r) c n) (hc : Ctx p b n)
    (hb : c = .red → b = true) : ∃ t, removeAt c l r p = some t ∧ Valid t := by
  unfold removeAt
  cases l with
  | leaf =>
    simp only []
    cases h with
    | red h1 h2 =>
      rw [if_neg (by simp)]
      exact ⟨_, rfl, zip_valid hc h2 (by simp)⟩
    | black h1 h2 =>
      rw [if_pos rfl]
      exact removeColor_valid p h2 hc
  | node lc ll lx lr =>
    cases r with
    | leaf =>
      simp only []
      cases h with
      | red h1 h2 =>
        rw [if_neg (by simp)]
        exact ⟨_, rfl, zip_valid hc h1 (by simp)⟩
      | black h1 h2 =>
        rw [if_pos rfl]
        exact removeColor_valid p h1 hc
    | node rc rl rx rr =>
      simp only []
      -- the successor takes the place of the node
      have key : ∀ m : α, ∃ b' k, Rb (.node rc rl rx rr) rc k ∧ (rc = .red → b' = true) ∧ Ctx (.right c (.node lc ll lx lr) m :: p) b' k := by
        intro m
        cases h with
        | red h1 h2 =>
          have hrc : rc = .black := by cases h2; rfl
          subst hrc
          have hbt : b = true := hb rfl
          subst hbt
          exact ⟨false, n, h2, by simp, .rightR h1 hc⟩
        | black h1 h2 =>
          rename_i k c1 c2
          have hrc : c2 = rc := by cases h2 <;> rfl
          subst hrc
          exact ⟨true, k, h2, by simp, .rightB h1 hc⟩
      generalize hg : leftmost rc rl rx rr ([] : List (Frame α)) = g
      rcases g with ⟨m, mc, child, q⟩
      simp only []
      rcases key m with ⟨b', k, k1, k2, k3⟩
      rcases leftmost_valid rl (q := []) (p := .right c (.node lc ll lx lr) m :: p) k1 k3 k2 with ⟨b2, k', m', mc', child', q', e1, e2⟩
      rw [hg] at e1
      simp only [Prod.mk.injEq] at e1
      rcases e1 with ⟨i1, i2, i3, i4⟩
      subst i1 i2 i3 i4
      rcases e2 with ⟨j1, ⟨cc, j2⟩, j3⟩ | ⟨j1, j2, j3⟩
      · rw [if_pos j1]
        exact removeColor_valid _ j2 j3
      · rw [if_neg (by rw [j1]; simp)]
        exact ⟨_, rfl, zip_valid j3 j2 (by simp)⟩

/-! ## Ways down from the root -/

theorem place_ctx {cmp : α → Int} : ∀ (t : T α) (p q : List (Frame α)) {c : Color} {b : Bool} {n : Nat}, Rb t c n → Ctx p b n → (c = .red → b = true) →
    place cmp t p = some q → ∃ b', Ctx q b' 0 := by
  intro t
  induction t with
  | leaf =>
    intro p q c b n ht hc _ h
    simp only [place, Option.some.injEq] at h
    subst h
    cases ht
    exact ⟨b, hc⟩
  | node c' l x r ihl ihr =>
    intro p q c b n ht hc hb h
    unfold place at h
    cases ht with
    | red h1 h2 =>
      have hbt : b = true := hb rfl
      subst hbt
      split at h
      · exact ihl _ q h1 (.leftR h2 hc) (by simp) h
      · split at h
        · exact ihr _ q h2 (.rightR h1 hc) (by simp) h
        · simp at h
    | black h1 h2 =>
      split at h
      · exact ihl _ q h1 (.leftB h2 hc) (by simp) h
      · split at h
        · exact ihr _ q h2 (.rightB h1 hc) (by simp) h
        · simp at h

theorem locate_ctx {cmp : α → Int} : ∀ (t : T α) (p : List (Frame α)) {c : Color} {b : Bool} {n : Nat} {c' : Color} {l : T α} {x : α} {r : T α}
    {q : List (Frame α)}, Rb t c n → Ctx p b n → (c = .red → b = true) → locate cmp t p = some (c', l, x, r, q) →
    ∃ b' m, Rb (.node c' l x r) c' m ∧ Ctx q b' m ∧ (c' = .red → b' = true) := by
  intro t
  induction t with
  | leaf => intro p c b n c' l x r q _ _ _ h; simp [locate] at h
  | node c0 l0 x0 r0 ihl ihr =>
    intro p c b n c' l x r q ht hc hb h
    unfold locate at h
    cases ht with
    | red h1 h2 =>
      have hbt : b = true := hb rfl
      subst hbt
      split at h
      · exact ihl _ h1 (.leftR h2 hc) (by simp) h
      · split at h
        · exact ihr _ h2 (.rightR h1 hc) (by simp) h
        · simp only [Option.some.injEq, Prod.mk.injEq] at h
          rcases h with ⟨e1, e2, e3, e4, e5⟩
          subst e1 e2 e3 e4 e5
          exact ⟨true, n, .red h1 h2, hc, by simp⟩
    | black h1 h2 =>
      split at h
      · exact ihl _ h1 (.leftB h2 hc) (by simp) h
      · split at h
        · exact ihr _ h2 (.rightB h1 hc) (by simp) h
        · simp only [Option.some.injEq, Prod.mk.injEq] at h
          rcases h with ⟨e1, e2, e3, e4, e5⟩
          subst e1 e2 e3 e4 e5
          exact ⟨b, _, .black h1 h2, hc, by simp⟩

theorem insert_valid {cmp : α → Int} {x : α} {t : T α} (h : Valid t) : ∃ t', insert cmp x t = some t' ∧ Valid t' := by
  rcases h with ⟨n, h⟩
  unfold insert
  cases hp : place cmp t [] with
  | none => exact ⟨t, rfl, n, h⟩
  | some q =>
    rcases place_ctx t [] q h .nil (by simp) hp with ⟨b', hq⟩
    exact insertColor_valid q.length q (Nat.le_refl _) (.red .leaf .leaf) hq

theorem remove_valid {cmp : α → Int} {t : T α} (h : Valid t) : ∃ t', remove cmp t = some t' ∧ Valid t' := by
  rcases h with ⟨n, h⟩
  unfold remove
  cases hl : locate cmp t [] with
  | none => exact ⟨t, rfl, n, h⟩
  | some g =>
    rcases g with ⟨c, l, x, r, p⟩
    rcases locate_ctx t [] h .nil (by simp) hl with ⟨b', m, h1, h2, h3⟩
    exact removeAt_valid h1 h2 h3

/-! ## Depth -/

theorem rb_size {t : T α} {c : Color} {n : Nat} (h : Rb t c n) : 2 ^ n ≤ (toList t).length + 1 := by
  induction h with
  | leaf => simp [toList]
  | red h1 h2 i1 i2 =>
    simp only [toList, List.length_append, List.length_cons]
    omega
  | black h1 h2 i1 i2 =>
    simp only [toList, List.length_append, List.length_cons]
    rw [Nat.pow_succ]
    omega

theorem rb_depth {t : T α} {c : Color} {n : Nat} (h : Rb t c n) : depth t ≤ 2 * n + (match c with | .red => 1 | .black => 0) := by
  induction h with
  | leaf => simp [depth]
  | red h1 h2 i1 i2 =>
    simp only [depth] at *
    omega
  | @black l r x n c d h1 h2 i1 i2 =>
    simp only [depth] at *
    cases c <;> cases d <;> simp only [] at i1 i2 <;> omega

end Np.Rb
