import Verif.Lists.Lemmas
/-! # C16: the intrusive lists behave as sequences -/
namespace Np.Lists

variable {α : Type}

/-- C16 (double linked list): for every history the pointer program never touches freed memory, hands back exactly the
values of the sequence, presents the sequence in both directions, and has exactly its nodes allocated. -/
theorem C16_dll [DecidableEq α] (ops : List (DOp α)) :
    ∃ l, DList.run DList.init ops = some (l, (Spec.drun [] ops).2) ∧ Spec.Presents l (Spec.drun [] ops).1 ∧
      Spec.Allocated l.mem (Spec.drun [] ops).1.length := by
  suffices ∀ (l : DList α) (cs : List (Nat × α)), Rep l cs →
      ∃ l' cs', DList.run l ops = some (l', (Spec.drun (vals cs) ops).2) ∧ Rep l' cs' ∧ vals cs' = (Spec.drun (vals cs) ops).1 by
    obtain ⟨l', cs', h1, h2, h3⟩ := this DList.init [] rep_init
    refine ⟨l', h1, ?_, ?_⟩
    · have := presents_of_rep h2; rw [h3] at this; exact this
    · have := allocated_of_rep h2; rw [h3] at this; exact this
  induction ops with
  | nil => intro l cs h; exact ⟨l, cs, rfl, h, rfl⟩
  | cons op ops ih =>
    intro l cs h
    have key : ∃ l' cs', DList.step l op = some (l', (Spec.dstep (vals cs) op).2) ∧ Rep l' cs' ∧
        vals cs' = (Spec.dstep (vals cs) op).1 := dstep_rep h op
    obtain ⟨l1, cs1, h1, h2, h3⟩ := key
    obtain ⟨l2, cs2, h4, h5, h6⟩ := ih l1 cs1 h2
    rw [h3] at h4 h6
    exact ⟨l2, cs2, by simp [DList.run, h1, h4, Spec.drun], h5, by simp [Spec.drun, h6]⟩

/-- C16 (priority list): the same for insertion by comparator, removal, replacement, head, tail and clear, for any comparator. -/
theorem C16_pll (cmp : α → α → Int) (ops : List (POp α)) :
    ∃ l, DList.prun cmp DList.init ops = some (l, (Spec.prun cmp [] ops).2) ∧ Spec.Presents l (Spec.prun cmp [] ops).1 ∧
      Spec.Allocated l.mem (Spec.prun cmp [] ops).1.length := by
  suffices ∀ (l : DList α) (cs : List (Nat × α)), Rep l cs →
      ∃ l' cs', DList.prun cmp l ops = some (l', (Spec.prun cmp (vals cs) ops).2) ∧ Rep l' cs' ∧
        vals cs' = (Spec.prun cmp (vals cs) ops).1 by
    obtain ⟨l', cs', h1, h2, h3⟩ := this DList.init [] rep_init
    refine ⟨l', h1, ?_, ?_⟩
    · have := presents_of_rep h2; rw [h3] at this; exact this
    · have := allocated_of_rep h2; rw [h3] at this; exact this
  induction ops with
  | nil => intro l cs h; exact ⟨l, cs, rfl, h, rfl⟩
  | cons op ops ih =>
    intro l cs h
    obtain ⟨l1, cs1, h1, h2, h3⟩ := pstep_rep cmp h op
    obtain ⟨l2, cs2, h4, h5, h6⟩ := ih l1 cs1 h2
    rw [h3] at h4 h6
    exact ⟨l2, cs2, by simp [DList.prun, h1, h4, Spec.prun], h5, by simp [Spec.prun, h6]⟩

/-- C16 (priority list): with a proper comparator the sequence is in descending order after every history. -/
theorem C16_pll_sorted (cmp : α → α → Int) (hc : Spec.Comparator cmp) (ops : List (POp α)) :
    Spec.Descending cmp (Spec.prun cmp [] ops).1 := by
  suffices ∀ l : List α, Spec.Descending cmp l → Spec.Descending cmp (Spec.prun cmp l ops).1 from
    this [] List.Pairwise.nil
  induction ops with
  | nil => intro l h; exact h
  | cons op ops ih => intro l h; exact ih _ (pstep_sorted cmp hc l h op)

/-- C16 (priority list): if all insertions ask for uniqueness, no two elements are ever equal. -/
theorem C16_pll_unique (cmp : α → α → Int) (hc : Spec.Comparator cmp) (ops : List (POp α))
    (hu : ∀ op ∈ ops, ∀ v d, op = .insert v d → d = false) :
    (Spec.prun cmp [] ops).1.Pairwise fun a b => cmp a b ≠ 0 := by
  suffices ∀ l : List α, Spec.Descending cmp l → (l.Pairwise fun a b => cmp a b ≠ 0) →
      (Spec.prun cmp l ops).1.Pairwise fun a b => cmp a b ≠ 0 from
    this [] List.Pairwise.nil List.Pairwise.nil
  induction ops with
  | nil => intro l _ h; exact h
  | cons op ops ih =>
    intro l hs h
    exact ih (fun o ho => hu o (List.mem_cons_of_mem _ ho)) _ (pstep_sorted cmp hc l hs op)
      (pstep_unique cmp hc l hs h op (hu op (by simp)))

/-- C16 (priority list), proved part for lookup: `pll_find` answers like a search of the sequence if the comparator never returns 1 (as
the generated `compare_type` does, which returns 0 or -1). Missing: other comparators, see `C16_pll_find_refuted`. -/
theorem C16_pll_find_partial (cmp : α → α → Int) (h1 : ∀ a b, cmp a b ≠ 1) (ops : List (POp α)) (v : α) :
    ∃ l, DList.prun cmp DList.init ops = some (l, (Spec.prun cmp [] ops).2) ∧
      DList.pllFind l cmp v = some ((Spec.prun cmp [] ops).1.find? fun x => cmp x v = 0) := by
  obtain ⟨l, cs, h2, h3, h4⟩ := prun_rep cmp ops DList.init [] rep_init
  exact ⟨l, h2, by rw [pllFind_rep h3 cmp v h1, h4]; rfl⟩

/-- C16 is violated by `pll_find` for a three-way comparator: an element that is in the list is not found. -/
theorem C16_pll_find_refuted :
    ¬ ∀ (cmp : Int → Int → Int), Spec.Comparator cmp → ∀ (ops : List (POp Int)) (v : Int),
      ∃ l, DList.prun cmp DList.init ops = some (l, (Spec.prun cmp [] ops).2) ∧
        DList.pllFind l cmp v = some ((Spec.prun cmp [] ops).1.find? fun x => cmp x v = 0) := by
  intro h
  let cmp : Int → Int → Int := fun a b => if a < b then -1 else if a = b then 0 else 1
  have hc : Spec.Comparator cmp := by
    constructor
    · intro a b; simp only [cmp]; repeat' split
      all_goals omega
    · intro a b c; simp only [cmp]; repeat' split
      all_goals omega
  obtain ⟨l, h1, h2⟩ := h cmp hc [.insert 3 false, .insert 5 false] 3
  have e : ((DList.prun cmp DList.init [.insert 3 false, .insert 5 false]).bind fun r => DList.pllFind r.1 cmp 3) = some none := by
    decide
  rw [h1] at e
  simp only [Option.bind_some] at e
  rw [h2] at e
  revert e; decide

/-- C16 (single linked list), proved part: the full claim for histories in which a cleared list is appended to before it is read from
its end or prepended to. Missing: those histories, see `C16_sll_refuted`. -/
theorem C16_sll_partial (eq : α → α → Bool) (ops : List (SOp α)) (hs : Spec.avoidsStaleEnd false ops) :
    ∃ l, SList.run eq SList.init ops = some (l, (Spec.srun eq [] ops).2) ∧ Spec.SPresents l (Spec.srun eq [] ops).1 ∧
      Spec.Allocated l.mem (Spec.srun eq [] ops).1.length := by
  obtain ⟨l, cs, d, h1, h2, h3⟩ := srun_rep eq ops false SList.init [] srep_init hs
  refine ⟨l, h1, ?_, ?_⟩
  · have := spresents_of_rep h2; rw [h3] at this; exact this
  · have := sallocated_of_rep h2; rw [h3] at this; exact this

/-- C16 is violated by the single linked list: after `clear` the `last` pointer refers to freed memory, reading the tail is
undefined behaviour. -/
theorem C16_sll_refuted :
    ¬ ∀ (ops : List (SOp Nat)), ∃ l, SList.run (fun a b => a == b) SList.init ops = some (l, (Spec.srun (fun a b => a == b) [] ops).2) := by
  intro h
  obtain ⟨l, h1⟩ := h [.append 1, .clear, .tail]
  have e : (SList.run (fun a b : Nat => a == b) SList.init [.append 1, .clear, .tail]).isNone = true := by decide
  rw [h1] at e
  cases e

/-- C16: the same with prepend and append after clear. -/
theorem C16_sll_prepend_refuted :
    ¬ ∀ (ops : List (SOp Nat)), (∀ op ∈ ops, op ≠ .tail) →
      ∃ l, SList.run (fun a b => a == b) SList.init ops = some (l, (Spec.srun (fun a b => a == b) [] ops).2) := by
  intro h
  obtain ⟨l, h1⟩ := h [.append 1, .clear, .prepend 2, .append 3] (by simp)
  have e : (SList.run (fun a b : Nat => a == b) SList.init [.append 1, .clear, .prepend 2, .append 3]).isNone = true := by decide
  rw [h1] at e
  cases e

/-- C16: cloning appends all values of the source, merging two lists gives their union without repetitions. -/
theorem C16_sll_clone_merge (eq : α → α → Bool) (opsa opsb : List (SOp α)) (ha : Spec.avoidsStaleEnd false opsa)
    (hb : Spec.avoidsStaleEnd false opsb) :
    ∃ a b, SList.run eq SList.init opsa = some (a, (Spec.srun eq [] opsa).2) ∧
      SList.run eq SList.init opsb = some (b, (Spec.srun eq [] opsb).2) ∧
      (∃ r, SList.clone a b = some r ∧ Spec.SPresents r ((Spec.srun eq [] opsb).1 ++ (Spec.srun eq [] opsa).1)) ∧
      (∃ r, SList.merge a b eq = some r ∧
        Spec.SPresents r (Spec.union eq (Spec.union eq [] (Spec.srun eq [] opsb).1) (Spec.srun eq [] opsa).1)) := by
  obtain ⟨a, ca, da, a1, a2, a3⟩ := srun_rep eq opsa false SList.init [] srep_init ha
  obtain ⟨b, cb, db, b1, b2, b3⟩ := srun_rep eq opsb false SList.init [] srep_init hb
  refine ⟨a, b, a1, b1, ?_, ?_⟩
  · obtain ⟨r, cr, dr, r1, r2, r3⟩ := sclone_rep a2 b2
    refine ⟨r, r1, ?_⟩
    have := spresents_of_rep r2
    rw [r3, a3, b3] at this; exact this
  · obtain ⟨r, cr, dr, r1, r2, r3⟩ := smerge_rep eq a2 b2
    refine ⟨r, r1, ?_⟩
    have := spresents_of_rep r2
    rw [r3, a3, b3] at this; exact this

example : Spec.avoidsStaleEnd false ([.append 1, .clear, .remove 1, .append 2, .tail, .prepend 4] : List (SOp Nat)) := by
  simp [Spec.avoidsStaleEnd]
example : (Spec.prun (fun a b : Int => a - b) [] [.insert 3 false, .insert 5 false, .insert 4 true, .insert 3 false]).1 = [5, 4, 3] := by
  decide

end Np.Lists
