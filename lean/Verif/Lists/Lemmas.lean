import Verif.Lists.Spec
set_option linter.unusedSimpArgs false
namespace Np.Lists

variable {α : Type}

/-! ## Linked segments -/

/-- Address of the first cell, or the address following the segment. -/
def hd (n : Ptr) : List (Nat × α) → Ptr
  | [] => n
  | c :: _ => some c.1

/-- Address of the last cell, or the address before the segment. -/
def lst (p : Ptr) : List (Nat × α) → Ptr
  | [] => p
  | c :: cs => lst (some c.1) cs

@[simp] theorem hd_nil (n : Ptr) : hd n ([] : List (Nat × α)) = n := rfl
@[simp] theorem hd_cons (n : Ptr) (c : Nat × α) (cs) : hd n (c :: cs) = some c.1 := rfl
@[simp] theorem lst_nil (n : Ptr) : lst n ([] : List (Nat × α)) = n := rfl
@[simp] theorem lst_cons (n : Ptr) (c : Nat × α) (cs) : lst n (c :: cs) = lst (some c.1) cs := rfl

/-- The memory holds the cells, linked forward and backward, between `p` and `n`. -/
def Seg (m : Nat → Option (DNode α)) (p : Ptr) : List (Nat × α) → Ptr → Prop
  | [], _ => True
  | c :: cs, n => m c.1 = some ⟨hd n cs, p, c.2⟩ ∧ Seg m (some c.1) cs n

def ids (cs : List (Nat × α)) : List Nat := cs.map Prod.fst

/-- A list header together with its memory represents the cells; all other memory is free. -/
structure Rep (l : DList α) (cs : List (Nat × α)) : Prop where
  seg : Seg l.mem none cs none
  nodup : (ids cs).Nodup
  only : ∀ j, j ∉ ids cs → l.mem j = none
  fresh : ∀ i ∈ ids cs, i < l.next
  first : l.first = hd none cs
  last : l.last = lst none cs
  size : l.size = cs.length

theorem ids_append (xs ys : List (Nat × α)) : ids (xs ++ ys) = ids xs ++ ids ys := by simp [ids]
theorem ids_cons (c : Nat × α) (ys : List (Nat × α)) : ids (c :: ys) = c.1 :: ids ys := rfl
theorem ids_nil : ids ([] : List (Nat × α)) = [] := rfl

theorem hd_append (xs ys : List (Nat × α)) (n : Ptr) : hd n (xs ++ ys) = hd (hd n ys) xs := by
  cases xs <;> rfl

theorem lst_append (xs ys : List (Nat × α)) (p : Ptr) : lst p (xs ++ ys) = lst (lst p xs) ys := by
  induction xs generalizing p with
  | nil => rfl
  | cons x xs ih => exact ih _

theorem seg_append (m : Nat → Option (DNode α)) (xs ys : List (Nat × α)) (p n : Ptr) :
    Seg m p (xs ++ ys) n ↔ Seg m p xs (hd n ys) ∧ Seg m (lst p xs) ys n := by
  induction xs generalizing p with
  | nil => simp [Seg, lst_nil, lst_cons]
  | cons x xs ih => simp only [List.cons_append, Seg, ih, lst_nil, lst_cons, hd_append, and_assoc]

theorem seg_congr {m m' : Nat → Option (DNode α)} (xs : List (Nat × α)) (p n : Ptr)
    (h : ∀ i ∈ ids xs, m' i = m i) (hs : Seg m p xs n) : Seg m' p xs n := by
  induction xs generalizing p with
  | nil => trivial
  | cons x xs ih =>
    refine ⟨?_, ih _ (fun i hi => h i (List.mem_cons_of_mem _ hi)) hs.2⟩
    rw [h x.1 (by simp [ids]), hs.1]

theorem nodup_bound_length : ∀ (n : Nat) (l : List Nat), l.Nodup → (∀ i ∈ l, i < n) → l.length ≤ n
  | 0, [], _, _ => by simp
  | 0, x :: xs, _, h => by have := h x (by simp); omega
  | n + 1, l, hn, h => by
    have h1 := nodup_bound_length n (l.erase n) (hn.erase _) (fun i hi => by
      have := h i (List.mem_of_mem_erase hi)
      have : i ≠ n := by
        intro e; subst e
        exact (List.Nodup.not_mem_erase hn) hi
      omega)
    have := List.length_erase_le (a := n) (l := l)
    by_cases hm : n ∈ l
    · rw [List.length_erase_of_mem hm] at h1; omega
    · rw [List.erase_of_not_mem hm] at h1; omega

theorem Rep.length_le {l : DList α} {cs : List (Nat × α)} (h : Rep l cs) : cs.length ≤ l.next := by
  have := nodup_bound_length l.next (ids cs) h.nodup h.fresh
  simpa [ids] using this

theorem Rep.next_free {l : DList α} {cs : List (Nat × α)} (h : Rep l cs) : l.mem l.next = none := by
  apply h.only
  intro hm
  have := h.fresh _ hm
  omega

theorem rep_init : Rep (DList.init : DList α) [] := by
  constructor <;> simp [DList.init, Seg, ids, hd_nil, hd_cons, lst_nil, lst_cons]

/-- Building a representation from the memory of the new list, given pointwise. -/
theorem upd_same {β : Type} (m : Nat → Option β) (i : Nat) (v : Option β) : upd m i v i = v := by simp [upd]
theorem upd_ne {β : Type} (m : Nat → Option β) {i j : Nat} (v : Option β) (h : j ≠ i) : upd m i v j = m j := by simp [upd, h]

theorem snoc_cases (cs : List (Nat × α)) : cs = [] ∨ ∃ xs c, cs = xs ++ [c] := by
  rcases List.eq_nil_or_concat cs with h | ⟨xs, c, h⟩
  · exact Or.inl h
  · exact Or.inr ⟨xs, c, by simpa using h⟩

/-- Changing what follows a segment: only the `flink` of its last cell changes. -/
theorem seg_setNext {m m' : Nat → Option (DNode α)} (xs : List (Nat × α)) (p n n' : Ptr) (hs : Seg m p xs n)
    (hnd : (ids xs).Nodup)
    (h : ∀ i ∈ ids xs, m' i = if some i = lst none xs then (m i).map (fun d => { d with flink := n' }) else m i) :
    Seg m' p xs n' := by
  rcases snoc_cases xs with rfl | ⟨ys, c, rfl⟩
  · trivial
  · rw [seg_append] at hs ⊢
    rw [ids_append, List.nodup_append] at hnd
    have hl : lst none (ys ++ [c]) = some c.1 := by rw [lst_append]; rfl
    rw [hl] at h
    constructor
    · refine seg_congr (m := m) _ _ _ ?_ hs.1
      intro i hi
      have h1 : i ≠ c.1 := fun e => hnd.2.2 i hi c.1 (by simp [ids]) e
      rw [h i (by simp [ids_append, hi])]; simp [h1]
    · refine ⟨?_, trivial⟩
      rw [h c.1 (by simp [ids])]; simp [hs.2.1, hd_nil, hd_cons]

/-- Changing what precedes a segment: only the `blink` of its first cell changes. -/
theorem seg_setPrev {m m' : Nat → Option (DNode α)} (xs : List (Nat × α)) (p p' n : Ptr) (hs : Seg m p xs n)
    (hnd : (ids xs).Nodup)
    (h : ∀ i ∈ ids xs, m' i = if some i = hd none xs then (m i).map (fun d => { d with blink := p' }) else m i) :
    Seg m' p' xs n := by
  cases xs with
  | nil => trivial
  | cons c cs =>
    simp only [hd_nil, hd_cons] at h
    rw [ids_cons, List.nodup_cons] at hnd
    refine ⟨?_, ?_⟩
    · rw [h c.1 (by simp [ids])]; simp [hs.1]
    · refine seg_congr (m := m) _ _ _ ?_ hs.2
      intro i hi
      have h1 : i ≠ c.1 := by rintro rfl; exact hnd.1 hi
      rw [h i (by simp [ids_cons, hi])]; simp [h1]

theorem lst_mem (xs : List (Nat × α)) (i : Nat) (h : lst none xs = some i) : i ∈ ids xs := by
  rcases snoc_cases xs with rfl | ⟨ys, c, rfl⟩
  · simp [lst_nil, lst_cons] at h
  · rw [lst_append] at h; simp [lst_nil, lst_cons] at h; simp [ids, h]

theorem hd_mem (xs : List (Nat × α)) (i : Nat) (h : hd none xs = some i) : i ∈ ids xs := by
  cases xs <;> simp_all [hd_nil, hd_cons, ids]

/-- Memory after linking the new node `n` between `xs` and `ys`. -/
def linkMem (m : Nat → Option (DNode α)) (xs ys : List (Nat × α)) (n : Nat) (v : α) : Nat → Option (DNode α) := fun j =>
  if j = n then some ⟨hd none ys, lst none xs, v⟩
  else if some j = lst none xs then (m j).map (fun d => { d with flink := some n })
  else if some j = hd none ys then (m j).map (fun d => { d with blink := some n })
  else m j

theorem link_rep {l l' : DList α} {xs ys : List (Nat × α)} (h : Rep l (xs ++ ys)) (v : α)
    (hm : l'.mem = linkMem l.mem xs ys l.next v) (hnext : l'.next = l.next + 1)
    (hfirst : l'.first = if xs = [] then some l.next else l.first)
    (hlast : l'.last = if ys = [] then some l.next else l.last) (hsize : l'.size = l.size + 1) :
    Rep l' (xs ++ (l.next, v) :: ys) := by
  have hnd := h.nodup
  rw [ids_append, List.nodup_append] at hnd
  have hseg := (seg_append _ _ _ _ _).1 h.seg
  have fx : ∀ i ∈ ids xs, i ≠ l.next := fun i hi => by
    have := h.fresh i (by simp [ids_append, hi]); omega
  have fy : ∀ i ∈ ids ys, i ≠ l.next := fun i hi => by
    have := h.fresh i (by simp [ids_append, hi]); omega
  constructor
  · rw [seg_append]
    refine ⟨?_, ?_, ?_⟩
    · refine seg_setNext (m := l.mem) xs _ _ _ hseg.1 hnd.1 ?_
      intro i hi
      have hy : some i ≠ hd none ys := fun e => hnd.2.2 i hi i (hd_mem ys i e.symm) rfl
      simp only [hm, linkMem, fx i hi, if_false, hd_nil, hd_cons, hy]
    · simp [hm, linkMem]
    · refine seg_setPrev (m := l.mem) ys _ _ _ hseg.2 hnd.2.1 ?_
      intro i hi
      have hx : some i ≠ lst none xs := fun e => hnd.2.2 i (lst_mem xs i e.symm) i hi rfl
      simp only [hm, linkMem, fy i hi, if_false, hx]
  · rw [ids_append, ids_cons, List.nodup_append]
    refine ⟨hnd.1, List.nodup_cons.2 ⟨fun e => fy _ e rfl, hnd.2.1⟩, ?_⟩
    intro a ha b hb
    rcases List.mem_cons.1 hb with rfl | hb
    · exact fx a ha
    · exact hnd.2.2 a ha b hb
  · intro j hj
    rw [ids_append, ids_cons] at hj
    simp only [List.mem_append, List.mem_cons, not_or] at hj
    have e1 : some j ≠ lst none xs := fun e => hj.1 (lst_mem _ _ e.symm)
    have e2 : some j ≠ hd none ys := fun e => hj.2.2 (hd_mem _ _ e.symm)
    simp only [hm, linkMem, hj.2.1, e1, e2, if_false]
    exact h.only j (by simp [ids_append, hj.1, hj.2.2])
  · intro i hi
    rw [hnext]
    rw [ids_append, ids_cons] at hi
    simp only [List.mem_append, List.mem_cons] at hi
    have := h.fresh i
    rw [ids_append] at this
    simp only [List.mem_append] at this
    rcases hi with hi | rfl | hi
    · have := this (Or.inl hi); omega
    · omega
    · have := this (Or.inr hi); omega
  · rw [hfirst, h.first]
    cases xs <;> simp [hd_nil, hd_cons]
  · rw [hlast, h.last]
    rcases snoc_cases ys with rfl | ⟨zs, c, rfl⟩
    · simp [lst_append, lst_nil, lst_cons]
    · simp [lst_append, lst_nil, lst_cons]
  · rw [hsize, h.size]; simp; omega

/-- Memory after taking out the node `n` between `xs` and `ys`. -/
def unlinkMem (m : Nat → Option (DNode α)) (xs ys : List (Nat × α)) (n : Nat) : Nat → Option (DNode α) := fun j =>
  if j = n then none
  else if some j = lst none xs then (m j).map (fun d => { d with flink := hd none ys })
  else if some j = hd none ys then (m j).map (fun d => { d with blink := lst none xs })
  else m j

theorem unlink_rep {l l' : DList α} {xs ys : List (Nat × α)} {c : Nat × α} (h : Rep l (xs ++ c :: ys))
    (hm : l'.mem = unlinkMem l.mem xs ys c.1) (hnext : l'.next = l.next)
    (hfirst : l'.first = if xs = [] then hd none ys else l.first)
    (hlast : l'.last = if ys = [] then lst none xs else l.last) (hsize : l'.size = l.size - 1) :
    Rep l' (xs ++ ys) := by
  have hnd := h.nodup
  rw [ids_append, ids_cons, List.nodup_append, List.nodup_cons] at hnd
  have hseg := (seg_append _ _ _ _ _).1 h.seg
  have fx : ∀ i ∈ ids xs, i ≠ c.1 := fun i hi => hnd.2.2 i hi c.1 (by simp)
  have fy : ∀ i ∈ ids ys, i ≠ c.1 := fun i hi e => hnd.2.1.1 (e ▸ hi)
  have fxy : ∀ i ∈ ids xs, i ∉ ids ys := fun i hi hj => hnd.2.2 i hi i (by simp [hj]) rfl
  constructor
  · rw [seg_append]
    refine ⟨?_, ?_⟩
    · refine seg_setNext (m := l.mem) xs _ _ _ hseg.1 hnd.1 ?_
      intro i hi
      have hy : some i ≠ hd none ys := fun e => fxy i hi (hd_mem ys i e.symm)
      simp only [hm, unlinkMem, fx i hi, if_false, hy]
    · refine seg_setPrev (m := l.mem) ys _ _ _ hseg.2.2 hnd.2.1.2 ?_
      intro i hi
      have hx : some i ≠ lst none xs := fun e => fxy i (lst_mem xs i e.symm) hi
      simp only [hm, unlinkMem, fy i hi, if_false, hx]
  · rw [ids_append, List.nodup_append]
    exact ⟨hnd.1, hnd.2.1.2, fun a ha b hb => hnd.2.2 a ha b (by simp [hb])⟩
  · intro j hj
    rw [ids_append] at hj
    simp only [List.mem_append, not_or] at hj
    have e1 : some j ≠ lst none xs := fun e => hj.1 (lst_mem _ _ e.symm)
    have e2 : some j ≠ hd none ys := fun e => hj.2 (hd_mem _ _ e.symm)
    by_cases hc : j = c.1
    · simp [hm, unlinkMem, hc]
    · simp only [hm, unlinkMem, hc, e1, e2, if_false]
      exact h.only j (by simp [ids_append, ids_cons, hj.1, hj.2, hc])
  · intro i hi
    rw [hnext]
    apply h.fresh i
    rw [ids_append] at *; rw [ids_cons]
    simp only [List.mem_append, List.mem_cons] at *
    rcases hi with hi | hi <;> simp [hi]
  · rw [hfirst, h.first]
    cases xs <;> simp [hd_nil, hd_cons]
  · rw [hlast, h.last]
    rcases snoc_cases ys with rfl | ⟨zs, d, rfl⟩
    · simp [lst_append, lst_nil, lst_cons]
    · simp [lst_append, lst_nil, lst_cons]
  · rw [hsize, h.size]; simp

theorem append_rep {l : DList α} {cs : List (Nat × α)} (h : Rep l cs) (v : α) :
    ∃ l', l.append v = some l' ∧ Rep l' (cs ++ [(l.next, v)]) := by
  have hf := h.next_free
  have h' : Rep l (cs ++ []) := by simpa using h
  rcases snoc_cases cs with rfl | ⟨xs, c, rfl⟩
  · have e1 : l.last = none := h.last
    refine ⟨_, by simp [DList.append, DList.alloc, e1]; rfl, link_rep h' v ?_ rfl ?_ ?_ rfl⟩
    · funext j; simp [linkMem, upd, hd_nil, hd_cons, lst_nil, lst_cons]
    · simp
    · simp
  · have e1 : l.last = some c.1 := by rw [h.last, lst_append]; rfl
    have hc : l.mem c.1 = some ⟨none, lst none xs, c.2⟩ := ((seg_append _ _ _ _ _).1 h.seg).2.1
    have hne : c.1 ≠ l.next := by have := h.fresh c.1 (by simp [ids]); omega
    refine ⟨_, by simp [DList.append, DList.alloc, e1, DList.setFlink, DList.setBlink, upd_same, upd_ne _ _ hne, upd_ne _ _ hne.symm, hc]; rfl,
      link_rep h' v ?_ rfl ?_ ?_ rfl⟩
    · funext j; simp only [linkMem, upd, lst_append, lst_nil, lst_cons, hd_nil, hd_cons, Option.some.injEq]
      split
      · rfl
      · split
        · next h => subst h; simp [hc]
        · simp
    · simp
    · simp

theorem prepend_rep {l : DList α} {cs : List (Nat × α)} (h : Rep l cs) (v : α) :
    ∃ l', l.prepend v = some l' ∧ Rep l' ((l.next, v) :: cs) := by
  have hf := h.next_free
  have h' : Rep l ([] ++ cs) := h
  rcases cs with _ | ⟨c, cs⟩
  · have e1 : l.first = none := h.first
    refine ⟨_, by simp [DList.prepend, DList.alloc, e1]; rfl, link_rep h' v ?_ rfl ?_ ?_ rfl⟩
    · funext j; simp [linkMem, upd, hd_nil, hd_cons, lst_nil, lst_cons]
    · simp
    · simp
  · have e1 : l.first = some c.1 := h.first
    have hc := h.seg.1
    have hne : c.1 ≠ l.next := by have := h.fresh c.1 (by simp [ids]); omega
    refine ⟨_, by simp [DList.prepend, DList.alloc, e1, DList.setFlink, DList.setBlink, upd_same, upd_ne _ _ hne, upd_ne _ _ hne.symm, hc]; rfl,
      link_rep h' v ?_ rfl ?_ ?_ rfl⟩
    · funext j; simp only [linkMem, upd, lst_nil, lst_cons, hd_nil, hd_cons, Option.some.injEq]
      split
      · rfl
      · split
        · next h => subst h; simp [hc]
        · simp
    · simp
    · simp

theorem delete_rep {l : DList α} {xs ys : List (Nat × α)} {c : Nat × α} (h : Rep l (xs ++ c :: ys)) :
    ∃ l', l.delete c.1 = some l' ∧ Rep l' (xs ++ ys) ∧ l'.next = l.next := by
  have hnd := h.nodup
  rw [ids_append, ids_cons, List.nodup_append, List.nodup_cons] at hnd
  have hseg := (seg_append _ _ _ _ _).1 h.seg
  have hc : l.mem c.1 = some ⟨hd none ys, lst none xs, c.2⟩ := hseg.2.1
  have fx : ∀ i ∈ ids xs, i ≠ c.1 := fun i hi => hnd.2.2 i hi c.1 (by simp)
  have fy : ∀ i ∈ ids ys, i ≠ c.1 := fun i hi e => hnd.2.1.1 (e ▸ hi)
  have fxy : ∀ i ∈ ids xs, i ∉ ids ys := fun i hi hj => hnd.2.2 i hi i (by simp [hj]) rfl
  have ff : l.first = some c.1 ↔ xs = [] := by
    rw [h.first]; cases xs with
    | nil => simp [hd_nil, hd_cons]
    | cons x xs => simp [hd_nil, hd_cons]; exact fx x.1 (by simp [ids])
  have fl : l.last = some c.1 ↔ ys = [] := by
    rw [h.last]; rcases snoc_cases ys with rfl | ⟨zs, d, rfl⟩
    · simp [lst_append, lst_nil, lst_cons]
    · simp [lst_append, lst_nil, lst_cons]; exact fy d.1 (by simp [ids])
  rcases snoc_cases xs with rfl | ⟨xs, x, rfl⟩
  · rcases ys with _ | ⟨y, ys⟩
    · have h1 := ff.2 rfl; have h2 := fl.2 rfl
      apply Exists.intro
      apply And.intro
      · simp [DList.delete, hc, hd_nil, hd_cons, lst_nil, lst_cons, DList.free, h1, h2]; rfl
      refine ⟨?_, rfl⟩
      refine unlink_rep h ?_ rfl ?_ ?_ rfl
      · funext j; simp [unlinkMem, upd, hd_nil, hd_cons, lst_nil, lst_cons]
      · simp [hd_nil, hd_cons]
      · simp [lst_nil, lst_cons]
    · have h1 := ff.2 rfl
      have h2 : ¬ l.last = some c.1 := fun e => by simpa using fl.1 e
      have hy : l.mem y.1 = some ⟨hd none ys, some c.1, y.2⟩ := hseg.2.2.1
      have hne : y.1 ≠ c.1 := fy _ (by simp [ids])
      apply Exists.intro
      apply And.intro
      · simp [DList.delete, hc, hd_nil, hd_cons, lst_nil, lst_cons, DList.free, DList.setBlink, hy, upd_ne _ _ hne.symm, h1, h2]; rfl
      refine ⟨?_, rfl⟩
      refine unlink_rep h ?_ rfl ?_ ?_ rfl
      · funext j; simp only [unlinkMem, upd, hd_nil, hd_cons, lst_nil, lst_cons, Option.some.injEq]
        split
        · rfl
        · split
          · next h => subst h; simp [hy]
          · simp
      · simp [hd_nil, hd_cons]
      · simp
  · have hx : l.mem x.1 = some ⟨some c.1, lst none xs, x.2⟩ := ((seg_append _ _ _ _ _).1 hseg.1).2.1
    have hnx : x.1 ≠ c.1 := fx _ (by simp [ids])
    rcases ys with _ | ⟨y, ys⟩
    · have h2 := fl.2 rfl
      have h1 : ¬ l.first = some c.1 := fun e => by simpa using ff.1 e
      apply Exists.intro
      apply And.intro
      · simp [DList.delete, hc, hd_nil, hd_cons, lst_nil, lst_cons, lst_append, DList.free, DList.setFlink, hx, upd_ne _ _ hnx.symm, h1, h2]; rfl
      refine ⟨?_, rfl⟩
      refine unlink_rep h ?_ rfl ?_ ?_ rfl
      · funext j; simp only [unlinkMem, upd, hd_nil, hd_cons, lst_nil, lst_cons, lst_append, Option.some.injEq]
        split
        · rfl
        · split
          · next h => subst h; simp [hx]
          · simp
      · simp
      · simp [lst_append, lst_nil, lst_cons]
    · have h1 : ¬ l.first = some c.1 := fun e => by simpa using ff.1 e
      have h2 : ¬ l.last = some c.1 := fun e => by simpa using fl.1 e
      have hy : l.mem y.1 = some ⟨hd none ys, some c.1, y.2⟩ := hseg.2.2.1
      have hne : y.1 ≠ c.1 := fy _ (by simp [ids])
      have hxy : x.1 ≠ y.1 := fun e => fxy x.1 (by simp [ids]) (by simp [ids, e])
      apply Exists.intro
      apply And.intro
      · simp [DList.delete, hc, hd_nil, hd_cons, lst_nil, lst_cons, lst_append, DList.free, DList.setFlink, DList.setBlink, hx, hy,
          upd_ne _ _ hnx.symm, upd_ne _ _ hne.symm, upd_ne _ _ hxy, h1, h2]; rfl
      refine ⟨?_, rfl⟩
      refine unlink_rep h ?_ rfl ?_ ?_ rfl
      · funext j; simp only [unlinkMem, upd, hd_nil, hd_cons, lst_nil, lst_cons, lst_append, Option.some.injEq]
        split
        · rfl
        · split
          · next h => subst h; simp [hx]
          · split
            · next h => subst h; simp [hy]
            · rfl
      · simp
      · simp

def vals (cs : List (Nat × α)) : List α := cs.map Prod.snd
theorem vals_append (xs ys : List (Nat × α)) : vals (xs ++ ys) = vals xs ++ vals ys := by simp [vals]
theorem vals_cons (c : Nat × α) (ys : List (Nat × α)) : vals (c :: ys) = c.2 :: vals ys := rfl

theorem head_rep {l : DList α} {cs : List (Nat × α)} (h : Rep l cs) :
    ∃ l', l.head = some (l', (vals cs).head?) ∧ Rep l' cs.tail := by
  rcases cs with _ | ⟨c, ys⟩
  · have e1 : l.first = none := h.first
    exact ⟨l, by simp [DList.head, e1, vals], h⟩
  · have e1 : l.first = some c.1 := h.first
    have hc := h.seg.1
    have h' : Rep l ([] ++ c :: ys) := h
    have hnd := h.nodup
    rw [ids_cons, List.nodup_cons] at hnd
    rcases ys with _ | ⟨y, ys⟩
    · apply Exists.intro
      apply And.intro
      · simp [DList.head, e1, hc, DList.free, vals]; rfl
      · refine unlink_rep h' ?_ rfl ?_ ?_ rfl
        · funext j; simp [unlinkMem, upd]
        · simp
        · simp
    · have hy := h.seg.2.1
      have hne : c.1 ≠ y.1 := fun e => hnd.1 (by simp [ids, e])
      apply Exists.intro
      apply And.intro
      · simp [DList.head, e1, hc, hy, DList.free, DList.setBlink, upd_ne _ _ hne, vals]; rfl
      · refine unlink_rep h' ?_ rfl ?_ ?_ rfl
        · funext j; simp only [unlinkMem, upd, hd_cons, lst_nil, Option.some.injEq]
          split
          · rfl
          · split
            · next h => subst h; simp [hy]
            · simp
        · simp
        · simp

theorem tail_rep {l : DList α} {cs : List (Nat × α)} (h : Rep l cs) :
    ∃ l', l.tail = some (l', (vals cs).getLast?) ∧ Rep l' cs.dropLast := by
  rcases snoc_cases cs with rfl | ⟨xs, c, rfl⟩
  · have e1 : l.last = none := h.last
    exact ⟨l, by simp [DList.tail, e1, vals], h⟩
  · have e1 : l.last = some c.1 := by rw [h.last, lst_append]; rfl
    have hseg := (seg_append _ _ _ _ _).1 h.seg
    have hc : l.mem c.1 = some ⟨none, lst none xs, c.2⟩ := hseg.2.1
    have hnd := h.nodup
    rw [ids_append, List.nodup_append] at hnd
    rw [List.dropLast_concat]
    rcases snoc_cases xs with rfl | ⟨xs, x, rfl⟩
    · apply Exists.intro
      apply And.intro
      · simp [DList.tail, e1, hc, DList.free, vals]; rfl
      · rw [show ([] : List (Nat × α)) = [] ++ [] from rfl]
        refine unlink_rep h ?_ rfl ?_ ?_ rfl
        · funext j; simp [unlinkMem, upd]
        · simp
        · simp
    · have hx : l.mem x.1 = some ⟨some c.1, lst none xs, x.2⟩ := ((seg_append _ _ _ _ _).1 hseg.1).2.1
      have hne : c.1 ≠ x.1 := fun e => hnd.2.2 x.1 (by simp [ids]) c.1 (by simp [ids]) e.symm
      apply Exists.intro
      apply And.intro
      · simp [DList.tail, e1, hc, hx, lst_append, DList.free, DList.setFlink, upd_ne _ _ hne, vals]; rfl
      · rw [← List.append_nil (xs ++ [x])]
        refine unlink_rep h ?_ rfl ?_ ?_ rfl
        · funext j; simp only [unlinkMem, upd, hd_nil, lst_append, lst_cons, lst_nil, Option.some.injEq]
          split
          · rfl
          · split
            · next h => subst h; simp [hx]
            · simp
        · simp
        · simp [lst_append]

theorem clearLoop_spec : ∀ (cs : List (Nat × α)) (k : Nat) (l : DList α) (p : Ptr), Seg l.mem p cs none → (ids cs).Nodup →
    (∀ j, j ∉ ids cs → l.mem j = none) → l.first = hd none cs → cs.length < k →
    ∃ l', DList.clearLoop k l = some l' ∧ (∀ j, l'.mem j = none) ∧ l'.next = l.next
  | [], 0, _, _, _, _, _, _, h => by simp at h
  | [], k + 1, l, p, _, _, ho, hf, _ => by
    rw [hd_nil] at hf
    exact ⟨l, by simp [DList.clearLoop, hf], fun j => ho j (by simp [ids]), rfl⟩
  | c :: cs, 0, _, _, _, _, _, _, h => by simp at h
  | c :: cs, k + 1, l, p, hs, hn, ho, hf, hk => by
    rw [hd_cons] at hf
    have hc := hs.1
    rw [ids_cons, List.nodup_cons] at hn
    have := clearLoop_spec cs k { l with first := hd none cs, mem := upd l.mem c.1 none } (some c.1)
      (seg_congr (m := l.mem) cs _ _ (fun i hi => upd_ne _ _ (by rintro rfl; exact hn.1 hi)) hs.2) hn.2
      (fun j hj => by
        by_cases hjc : j = c.1
        · simp [upd, hjc]
        · simp only [upd, hjc, if_false]; exact ho j (by simp [ids_cons, hjc, hj]))
      rfl (by simpa using hk)
    simpa [DList.clearLoop, hf, hc, DList.free] using this

theorem clear_rep {l : DList α} {cs : List (Nat × α)} (h : Rep l cs) :
    ∃ l', l.clear = some l' ∧ Rep l' [] := by
  obtain ⟨l', e, hm, _⟩ := clearLoop_spec cs (l.next + 1) l none h.seg h.nodup h.only h.first (by have := h.length_le; omega)
  refine ⟨{ l' with first := none, last := none, size := 0 }, by simp [DList.clear, e], ?_⟩
  constructor <;> simp [Seg, ids, hm]

theorem findLoop_spec (l : DList α) (q : α → Bool) : ∀ (cs : List (Nat × α)) (k : Nat) (p : Ptr), Seg l.mem p cs none →
    cs.length < k → DList.findLoop l q k (hd none cs) = some ((cs.find? fun c => q c.2).map Prod.fst)
  | [], 0, _, _, h => by simp at h
  | [], k + 1, p, _, _ => by simp [DList.findLoop]
  | c :: cs, 0, _, _, h => by simp at h
  | c :: cs, k + 1, p, hs, hk => by
    have ih := findLoop_spec l q cs k (some c.1) hs.2 (by simpa using hk)
    have hc := hs.1
    by_cases hq : q c.2
    · simp [DList.findLoop, hc, hq]
    · simp [DList.findLoop, hc, hq, ih]

theorem vals_eraseP (q : α → Bool) (xs ys : List (Nat × α)) (c : Nat × α) (hq : q c.2 = true) (hx : ∀ a ∈ xs, q a.2 = false) :
    (vals (xs ++ c :: ys)).eraseP q = vals (xs ++ ys) := by
  rw [vals_append, vals_append, vals_cons, List.eraseP_append_right]
  · simp [hq]
  · intro b hb; simp only [vals, List.mem_map] at hb; obtain ⟨a, ha, rfl⟩ := hb; simp [hx a ha]

theorem find_split (q : α → Bool) (cs : List (Nat × α)) :
    (cs.find? (fun c => q c.2) = none ∧ (vals cs).eraseP q = vals cs) ∨
    (∃ xs c ys, cs = xs ++ c :: ys ∧ cs.find? (fun c => q c.2) = some c ∧ q c.2 = true ∧ (∀ a ∈ xs, q a.2 = false)) := by
  cases hf : cs.find? (fun c => q c.2) with
  | none =>
    left
    refine ⟨rfl, List.eraseP_of_forall_not ?_⟩
    rw [List.find?_eq_none] at hf
    intro b hb; simp only [vals, List.mem_map] at hb; obtain ⟨a, ha, rfl⟩ := hb; exact hf a ha
  | some c =>
    right
    rw [List.find?_eq_some_iff_append] at hf
    obtain ⟨hc, xs, ys, e, hx⟩ := hf
    exact ⟨xs, c, ys, e, rfl, hc, fun a ha => by simpa using hx a ha⟩

theorem remove_rep {l : DList α} {cs : List (Nat × α)} (h : Rep l cs) (q : α → Bool) :
    ∃ l' cs', l.remove q = some l' ∧ Rep l' cs' ∧ vals cs' = (vals cs).eraseP q := by
  have hf := findLoop_spec l q cs (l.next + 1) none h.seg (by have := h.length_le; omega)
  rw [← h.first] at hf
  rcases find_split q cs with ⟨hn, he⟩ | ⟨xs, c, ys, rfl, hs, hq, hx⟩
  · rw [hn] at hf
    exact ⟨l, cs, by simp [DList.remove, hf], h, he.symm⟩
  · rw [hs] at hf
    obtain ⟨l', hl, hr, _⟩ := delete_rep h
    exact ⟨l', xs ++ ys, by simp [DList.remove, hf, hl], hr, (vals_eraseP q xs ys c hq hx).symm⟩

theorem seg_setVal {m m' : Nat → Option (DNode α)} {xs ys : List (Nat × α)} {c : Nat × α} (v : α) (n : Ptr)
    (hs : Seg m none (xs ++ c :: ys) n) (hnd : (ids (xs ++ c :: ys)).Nodup)
    (hm : ∀ j, m' j = if j = c.1 then (m j).map (fun d => { d with val := v }) else m j) :
    Seg m' none (xs ++ (c.1, v) :: ys) n := by
  rw [seg_append] at hs ⊢
  rw [ids_append, ids_cons, List.nodup_append, List.nodup_cons] at hnd
  refine ⟨seg_congr (m := m) _ _ _ ?_ hs.1, ?_, seg_congr (m := m) _ _ _ ?_ hs.2.2⟩
  · intro i hi
    rw [hm, if_neg (hnd.2.2 i hi c.1 (by simp))]
  · rw [hm, if_pos rfl, hs.2.1]; rfl
  · intro i hi
    rw [hm, if_neg (by rintro rfl; exact hnd.2.1.1 hi)]

theorem replace_rep {l : DList α} {cs : List (Nat × α)} (h : Rep l cs) (cmp : α → α → Int) (v : α) :
    ∃ l' cs', l.replace (fun x => cmp x v = 0) v = some (l', (Spec.replace cmp v (vals cs)).2) ∧ Rep l' cs' ∧
      vals cs' = (Spec.replace cmp v (vals cs)).1 := by
  have hf := findLoop_spec l (fun x => cmp x v = 0) cs (l.next + 1) none h.seg (by have := h.length_le; omega)
  rw [← h.first] at hf
  rcases find_split (fun x => decide (cmp x v = 0)) cs with ⟨hn, he⟩ | ⟨xs, c, ys, rfl, hs, hq, hx⟩
  · rw [hn] at hf
    have key : ∀ ws : List α, (∀ w ∈ ws, ¬ cmp w v = 0) → Spec.replace cmp v ws = (ws, none) := by
      intro ws; induction ws with
      | nil => intro _; rfl
      | cons w ws ih =>
        intro hw
        simp [Spec.replace, hw w (by simp), ih (fun x hx => hw x (by simp [hx]))]
    have := key (vals cs) (by
      rw [List.find?_eq_none] at hn
      intro b hb; simp only [vals, List.mem_map] at hb; obtain ⟨a, ha, rfl⟩ := hb; simpa using hn a ha)
    exact ⟨l, cs, by simp [DList.replace, hf, this], h, by simp [this]⟩
  · rw [hs] at hf
    have hc : l.mem c.1 = some ⟨hd none ys, lst none xs, c.2⟩ := ((seg_append _ _ _ _ _).1 h.seg).2.1
    have key : ∀ ws : List (Nat × α), (∀ w ∈ ws, ¬ cmp w.2 v = 0) →
        Spec.replace cmp v (vals (ws ++ c :: ys)) = (vals (ws ++ (c.1, v) :: ys), some c.2) := by
      intro ws; induction ws with
      | nil => intro _; simp only [List.nil_append, vals_cons, Spec.replace]; simp at hq; simp [hq]
      | cons w ws ih =>
        intro hw
        have := ih (fun x hx => hw x (by simp [hx]))
        simp [vals_cons, Spec.replace, hw w (by simp), this]
    have hk := key xs (fun w hw => by simpa using hx w hw)
    rw [hk]
    refine ⟨{ l with mem := upd l.mem c.1 (some ⟨hd none ys, lst none xs, v⟩) }, xs ++ (c.1, v) :: ys,
      by simp [DList.replace, hf, hc, DList.setVal], ?_, rfl⟩
    have eids : ids (xs ++ (c.1, v) :: ys) = ids (xs ++ c :: ys) := by simp [ids]
    constructor
    · refine seg_setVal v none h.seg h.nodup ?_
      intro j; simp only [upd]; split
      · next e => subst e; simp [hc]
      · rfl
    · rw [eids]; exact h.nodup
    · intro j hj
      rw [eids] at hj
      have : j ≠ c.1 := by rintro rfl; apply hj; simp [ids]
      simp [upd, this, h.only j hj]
    · rw [eids]; exact h.fresh
    · rw [h.first]; cases xs <;> rfl
    · rw [h.last]; simp [lst_append]
    · rw [h.size]; simp

theorem Rep.mono {l l' : DList α} {cs : List (Nat × α)} (h : Rep l cs) (hm : l'.mem = l.mem) (hn : l.next ≤ l'.next)
    (h1 : l'.first = l.first) (h2 : l'.last = l.last) (h3 : l'.size = l.size) : Rep l' cs := by
  constructor
  · rw [hm]; exact h.seg
  · exact h.nodup
  · rw [hm]; exact h.only
  · intro i hi; have := h.fresh i hi; omega
  · rw [h1]; exact h.first
  · rw [h2]; exact h.last
  · rw [h3]; exact h.size

theorem insertLoop_rep {l : DList α} (cmp : α → α → Int) (d : Bool) (v : α) :
    ∀ (ys xs : List (Nat × α)) (k : Nat), Rep l (xs ++ ys) → ys ≠ [] → ys.length < k →
      ∃ l' cs', DList.insertLoop cmp d l.next v k (l.alloc v).2 (hd none ys) = some (l', (Spec.insert cmp d v (vals ys)).2) ∧
        Rep l' (xs ++ cs') ∧ vals cs' = (Spec.insert cmp d v (vals ys)).1
  | [], _, _, _, h, _ => absurd rfl h
  | c :: ys, xs, 0, _, _, h => by simp at h
  | c :: ys, xs, k + 1, h, _, hk => by
    have hseg := (seg_append _ _ _ _ _).1 h.seg
    have hc : l.mem c.1 = some ⟨hd none ys, lst none xs, c.2⟩ := hseg.2.1
    have hnd := h.nodup
    rw [ids_append, ids_cons, List.nodup_append, List.nodup_cons] at hnd
    have hcn : c.1 ≠ l.next := by have := h.fresh c.1 (by simp [ids]); omega
    have fx : ∀ i ∈ ids xs, i ≠ c.1 := fun i hi => hnd.2.2 i hi c.1 (by simp)
    by_cases h1 : cmp c.2 v < 0
    · have hsp : Spec.insert cmp d v (vals (c :: ys)) = (v :: c.2 :: vals ys, true) := by simp [vals_cons, Spec.insert, h1]
      rw [hsp]
      rcases snoc_cases xs with rfl | ⟨xs, x, rfl⟩
      · have ef : l.first = some c.1 := h.first
        simp only [lst_nil] at hc
        apply Exists.intro
        refine ⟨(l.next, v) :: c :: ys, ?_⟩
        apply And.intro
        · simp [DList.insertLoop, DList.alloc, upd_ne _ _ hcn, hc, h1, DList.setFlink, DList.setBlink, upd_same, upd_ne _ _ hcn.symm, ef]; rfl
        refine ⟨link_rep h v ?_ rfl ?_ ?_ rfl, by simp [vals]⟩
        · funext j
          simp only [linkMem, upd, lst_nil, hd_cons, Option.some.injEq]
          by_cases e1 : j = l.next
          · subst e1; simp [hcn.symm]
          · by_cases e2 : j = c.1
            · subst e2; simp [hcn, hc]
            · simp [e1, e2]
        · simp
        · simp
      · have hx : l.mem x.1 = some ⟨some c.1, lst none xs, x.2⟩ := ((seg_append _ _ _ _ _).1 hseg.1).2.1
        have hxc : x.1 ≠ c.1 := fx x.1 (by simp [ids])
        have hxn : x.1 ≠ l.next := by have := h.fresh x.1 (by simp [ids]); omega
        have ef : ¬ l.first = some c.1 := by
          rw [h.first]; intro e
          have : c.1 ∈ ids (xs ++ [x]) := by
            cases xs with
            | nil => simp at e; simp [ids, e]
            | cons z zs => simp at e; simp [ids, e]
          exact fx _ this rfl
        simp only [lst_append, lst_cons, lst_nil] at hc
        apply Exists.intro
        refine ⟨(l.next, v) :: c :: ys, ?_⟩
        apply And.intro
        · simp [DList.insertLoop, DList.alloc, upd_ne _ _ hcn, hc, h1, DList.setFlink, DList.setBlink, upd_same, upd_ne _ _ hcn.symm,
            upd_ne _ _ hxn, upd_ne _ _ hxn.symm, upd_ne _ _ hxc, upd_ne _ _ hxc.symm, hx, ef]; rfl
        refine ⟨link_rep h v ?_ rfl ?_ ?_ rfl, by simp [vals]⟩
        · funext j
          simp only [linkMem, upd, lst_append, lst_cons, lst_nil, hd_cons, Option.some.injEq]
          by_cases e1 : j = l.next
          · subst e1; simp [hcn.symm, hxn.symm]
          · by_cases e2 : j = c.1
            · subst e2; simp [hcn, hc, hxc.symm]
            · by_cases e3 : j = x.1
              · subst e3; simp [hxn, hxc, hx]
              · simp [e1, e2, e3]
        · simp
        · simp
    · by_cases h2 : cmp c.2 v = 0 ∧ d = false
      · have hsp : Spec.insert cmp d v (vals (c :: ys)) = (c.2 :: vals ys, false) := by simp [vals_cons, Spec.insert, h1, h2]
        rw [hsp]
        apply Exists.intro
        refine ⟨c :: ys, ?_⟩
        apply And.intro
        · simp [DList.insertLoop, DList.alloc, upd_ne _ _ hcn, hc, h1, h2, DList.free, upd_same]; rfl
        refine ⟨h.mono ?_ (by simp) rfl rfl rfl, rfl⟩
        funext j; simp only [upd]; split
        · next e => subst e; exact h.next_free.symm
        · rfl
      · have hsp : Spec.insert cmp d v (vals (c :: ys)) =
            (c.2 :: (Spec.insert cmp d v (vals ys)).1, (Spec.insert cmp d v (vals ys)).2) := by
          simp [vals_cons, Spec.insert, h1, h2]
        rw [hsp]
        rcases ys with _ | ⟨y, ys⟩
        · have el : l.last = some c.1 := by rw [h.last, lst_append]; rfl
          apply Exists.intro
          refine ⟨[c, (l.next, v)], ?_⟩
          apply And.intro
          · simp [DList.insertLoop, DList.alloc, upd_ne _ _ hcn, hc, h1, h2, el, DList.setFlink, DList.setBlink, upd_same, upd_ne _ _ hcn.symm,
              vals, Spec.insert]; rfl
          have h' : Rep l ((xs ++ [c]) ++ []) := by simpa using h
          have := link_rep (l' := { l with
            mem := upd (upd (upd l.mem l.next (some ⟨none, none, v⟩)) c.1 (some ⟨some l.next, lst none xs, c.2⟩)) l.next
              (some ⟨none, some c.1, v⟩), last := some l.next, size := l.size + 1, next := l.next + 1 }) h' v ?_ rfl ?_ ?_ rfl
          · refine ⟨?_, by simp [vals, Spec.insert]⟩
            rw [List.append_assoc] at this; exact this
          · funext j
            simp only [linkMem, upd, lst_append, lst_cons, lst_nil, hd_nil, Option.some.injEq]
            by_cases e1 : j = l.next
            · subst e1; simp [hcn.symm]
            · by_cases e2 : j = c.1
              · subst e2; simp [hcn, hc]
              · simp [e1, e2]
          · simp
          · simp
        · have el : ¬ l.last = some c.1 := by
            rw [h.last, lst_append]
            intro e
            have : c.1 ∈ ids (y :: ys) := lst_mem (y :: ys) c.1 (by simpa using e)
            exact hnd.2.1.1 this
          have h' : Rep l ((xs ++ [c]) ++ y :: ys) := by simpa using h
          obtain ⟨l', cs', e, hr, hv⟩ := insertLoop_rep cmp d v (y :: ys) (xs ++ [c]) k h' (by simp) (by simpa using hk)
          refine ⟨l', c :: cs', ?_, by simpa using hr, by simp [vals_cons, hv]⟩
          rw [← e]
          rw [hd_cons]
          conv => lhs; unfold DList.insertLoop
          simp [DList.alloc, upd_ne _ _ hcn, hc, h1, h2, el]

theorem insert_rep {l : DList α} {cs : List (Nat × α)} (h : Rep l cs) (cmp : α → α → Int) (d : Bool) (v : α) :
    ∃ l' cs', l.pllInsert cmp d v = some (l', (Spec.insert cmp d v (vals cs)).2) ∧ Rep l' cs' ∧
      vals cs' = (Spec.insert cmp d v (vals cs)).1 := by
  rcases cs with _ | ⟨c, cs⟩
  · have e1 : l.first = none := h.first
    apply Exists.intro
    refine ⟨[(l.next, v)], ?_⟩
    apply And.intro
    · simp [DList.pllInsert, DList.alloc, e1, vals, Spec.insert]; rfl
    refine ⟨link_rep (xs := []) (ys := []) h v ?_ rfl ?_ ?_ rfl, by simp [vals, Spec.insert]⟩
    · funext j; simp [linkMem, upd]
    · simp
    · simp
  · have e1 : l.first = some c.1 := h.first
    obtain ⟨l', cs', e, hr, hv⟩ := insertLoop_rep cmp d v (c :: cs) [] (l.next + 1) h (by simp)
      (by have := h.length_le; simp at *; omega)
    refine ⟨l', cs', ?_, hr, hv⟩
    rw [← e]
    simp [DList.pllInsert, DList.alloc, e1]

/-! ## Presentation -/

theorem forward_seg (m : Nat → Option (DNode α)) : ∀ (cs : List (Nat × α)) (p : Ptr) (k : Nat), Seg m p cs none → cs.length ≤ k →
    Spec.forward m k (hd none cs) = vals cs
  | [], _, 0, _, _ => rfl
  | [], _, k + 1, _, _ => rfl
  | c :: cs, p, 0, _, h => by simp at h
  | c :: cs, p, k + 1, hs, h => by
    have ih := forward_seg m cs (some c.1) k hs.2 (by simpa using h)
    have hc := hs.1
    simp [Spec.forward, hc, ih, vals_cons]

theorem backward_seg (m : Nat → Option (DNode α)) (n : Ptr) : ∀ (k : Nat) (cs : List (Nat × α)), Seg m none cs n → cs.length ≤ k →
    Spec.backward m k (lst none cs) = (vals cs).reverse
  | 0, [], _, _ => rfl
  | 0, _ :: _, _, h => by simp at h
  | k + 1, cs, hs, h => by
    rcases snoc_cases cs with rfl | ⟨xs, c, rfl⟩
    · rfl
    · have hs' := (seg_append _ _ _ _ _).1 hs
      have hxs : Seg m none xs (some c.1) := hs'.1
      have ih := backward_seg m (some c.1) k xs hxs (by simp at h; omega)
      have hc := hs'.2.1
      simp [Spec.backward, lst_append, hc, ih, vals_append, vals]

theorem presents_of_rep {l : DList α} {cs : List (Nat × α)} (h : Rep l cs) : Spec.Presents l (vals cs) := by
  have hlen : (vals cs).length = cs.length := by simp [vals]
  refine ⟨by rw [h.size, hlen], ?_, ?_, ?_⟩
  · intro k hk
    rw [hlen] at hk
    exact ⟨by rw [h.first]; exact forward_seg _ _ _ _ h.seg hk, by rw [h.last]; exact backward_seg _ none _ _ h.seg hk⟩
  · rw [h.first]; cases cs <;> simp [vals]
  · rw [h.last]; rcases snoc_cases cs with rfl | ⟨xs, c, rfl⟩ <;> simp [vals, lst_append]

/-! ## Single linked list -/

def SSeg (m : Nat → Option (SNode α)) : List (Nat × α) → Ptr → Prop
  | [], _ => True
  | c :: cs, n => m c.1 = some ⟨hd n cs, c.2⟩ ∧ SSeg m cs n

/-- `dang`: the `last` pointer may be stale, which is possible only while the list is empty. -/
structure SRep (dang : Bool) (l : SList α) (cs : List (Nat × α)) : Prop where
  seg : SSeg l.mem cs none
  nodup : (ids cs).Nodup
  only : ∀ j, j ∉ ids cs → l.mem j = none
  fresh : ∀ i ∈ ids cs, i < l.next
  first : l.first = hd none cs
  last : l.last = lst none cs ∨ (dang = true ∧ cs = [])
  size : l.size = cs.length

theorem SRep.last' {dang : Bool} {l : SList α} {cs : List (Nat × α)} (h : SRep dang l cs) (hc : cs ≠ []) : l.last = lst none cs := by
  rcases h.last with h | ⟨_, h⟩
  · exact h
  · exact absurd h hc

theorem srep_init : SRep false (SList.init : SList α) [] := by
  constructor <;> simp [SList.init, SSeg, ids]

theorem SRep.length_le {dang : Bool} {l : SList α} {cs : List (Nat × α)} (h : SRep dang l cs) : cs.length ≤ l.next := by
  have := nodup_bound_length l.next (ids cs) h.nodup h.fresh
  simpa [ids] using this

theorem sseg_append (m : Nat → Option (SNode α)) (xs ys : List (Nat × α)) (n : Ptr) :
    SSeg m (xs ++ ys) n ↔ SSeg m xs (hd n ys) ∧ SSeg m ys n := by
  induction xs with
  | nil => simp [SSeg]
  | cons x xs ih => simp only [List.cons_append, SSeg, ih, hd_append, and_assoc]

theorem sseg_congr {m m' : Nat → Option (SNode α)} (xs : List (Nat × α)) (n : Ptr)
    (h : ∀ i ∈ ids xs, m' i = m i) (hs : SSeg m xs n) : SSeg m' xs n := by
  induction xs with
  | nil => trivial
  | cons x xs ih =>
    refine ⟨?_, ih (fun i hi => h i (List.mem_cons_of_mem _ hi)) hs.2⟩
    rw [h x.1 (by simp [ids]), hs.1]

theorem sseg_setNext {m m' : Nat → Option (SNode α)} (xs : List (Nat × α)) (n n' : Ptr) (hs : SSeg m xs n)
    (hnd : (ids xs).Nodup)
    (h : ∀ i ∈ ids xs, m' i = if some i = lst none xs then (m i).map (fun d => { d with flink := n' }) else m i) :
    SSeg m' xs n' := by
  rcases snoc_cases xs with rfl | ⟨ys, c, rfl⟩
  · trivial
  · rw [sseg_append] at hs ⊢
    rw [ids_append, List.nodup_append] at hnd
    have hl : lst none (ys ++ [c]) = some c.1 := by rw [lst_append]; rfl
    rw [hl] at h
    constructor
    · refine sseg_congr (m := m) _ _ ?_ hs.1
      intro i hi
      have h1 : i ≠ c.1 := fun e => hnd.2.2 i hi c.1 (by simp [ids]) e
      rw [h i (by simp [ids_append, hi])]; simp [h1]
    · refine ⟨?_, trivial⟩
      rw [h c.1 (by simp [ids])]; simp [hs.2.1]

/-- Memory after linking `n` between `xs` and `ys`. -/
def slinkMem (m : Nat → Option (SNode α)) (xs ys : List (Nat × α)) (n : Nat) (v : α) : Nat → Option (SNode α) := fun j =>
  if j = n then some ⟨hd none ys, v⟩
  else if some j = lst none xs then (m j).map (fun d => { d with flink := some n })
  else m j

theorem slink_rep {dang : Bool} {l l' : SList α} {xs ys : List (Nat × α)} (h : SRep dang l (xs ++ ys)) (v : α)
    (hm : l'.mem = slinkMem l.mem xs ys l.next v) (hnext : l'.next = l.next + 1)
    (hfirst : l'.first = if xs = [] then some l.next else l.first)
    (hlast : l'.last = if ys = [] then some l.next else l.last) (hsize : l'.size = l.size + 1) :
    SRep false l' (xs ++ (l.next, v) :: ys) := by
  have hnd := h.nodup
  rw [ids_append, List.nodup_append] at hnd
  have hseg := (sseg_append _ _ _ _).1 h.seg
  have fx : ∀ i ∈ ids xs, i ≠ l.next := fun i hi => by
    have := h.fresh i (by simp [ids_append, hi]); omega
  have fy : ∀ i ∈ ids ys, i ≠ l.next := fun i hi => by
    have := h.fresh i (by simp [ids_append, hi]); omega
  constructor
  · rw [sseg_append]
    refine ⟨?_, ?_, ?_⟩
    · refine sseg_setNext (m := l.mem) xs _ _ hseg.1 hnd.1 ?_
      intro i hi
      simp only [hm, slinkMem, fx i hi, if_false, hd_cons]
    · simp [hm, slinkMem]
    · refine sseg_congr (m := l.mem) ys _ ?_ hseg.2
      intro i hi
      have hx : some i ≠ lst none xs := fun e => hnd.2.2 i (lst_mem xs i e.symm) i hi rfl
      simp only [hm, slinkMem, fy i hi, if_false, hx]
  · rw [ids_append, ids_cons, List.nodup_append]
    refine ⟨hnd.1, List.nodup_cons.2 ⟨fun e => fy _ e rfl, hnd.2.1⟩, ?_⟩
    intro a ha b hb
    rcases List.mem_cons.1 hb with rfl | hb
    · exact fx a ha
    · exact hnd.2.2 a ha b hb
  · intro j hj
    rw [ids_append, ids_cons] at hj
    simp only [List.mem_append, List.mem_cons, not_or] at hj
    have e1 : some j ≠ lst none xs := fun e => hj.1 (lst_mem _ _ e.symm)
    simp only [hm, slinkMem, hj.2.1, e1, if_false]
    exact h.only j (by simp [ids_append, hj.1, hj.2.2])
  · intro i hi
    rw [hnext]
    rw [ids_append, ids_cons] at hi
    simp only [List.mem_append, List.mem_cons] at hi
    have := h.fresh i
    rw [ids_append] at this
    simp only [List.mem_append] at this
    rcases hi with hi | rfl | hi
    · have := this (Or.inl hi); omega
    · omega
    · have := this (Or.inr hi); omega
  · rw [hfirst, h.first]
    cases xs <;> simp
  · left
    rw [hlast]
    rcases snoc_cases ys with rfl | ⟨zs, c, rfl⟩
    · simp [lst_append]
    · rw [h.last' (by simp)]
      simp [lst_append]
  · rw [hsize, h.size]; simp; omega

/-- Memory after taking out `n` between `xs` and `ys`. -/
def sunlinkMem (m : Nat → Option (SNode α)) (xs ys : List (Nat × α)) (n : Nat) : Nat → Option (SNode α) := fun j =>
  if j = n then none
  else if some j = lst none xs then (m j).map (fun d => { d with flink := hd none ys })
  else m j

theorem sunlink_rep {dang : Bool} {l l' : SList α} {xs ys : List (Nat × α)} {c : Nat × α} (h : SRep dang l (xs ++ c :: ys))
    (hm : l'.mem = sunlinkMem l.mem xs ys c.1) (hnext : l'.next = l.next)
    (hfirst : l'.first = if xs = [] then hd none ys else l.first)
    (hlast : l'.last = if ys = [] then lst none xs else l.last) (hsize : l'.size = l.size - 1) :
    SRep false l' (xs ++ ys) := by
  have hnd := h.nodup
  rw [ids_append, ids_cons, List.nodup_append, List.nodup_cons] at hnd
  have hseg := (sseg_append _ _ _ _).1 h.seg
  have fx : ∀ i ∈ ids xs, i ≠ c.1 := fun i hi => hnd.2.2 i hi c.1 (by simp)
  have fy : ∀ i ∈ ids ys, i ≠ c.1 := fun i hi e => hnd.2.1.1 (e ▸ hi)
  have fxy : ∀ i ∈ ids xs, i ∉ ids ys := fun i hi hj => hnd.2.2 i hi i (by simp [hj]) rfl
  constructor
  · rw [sseg_append]
    refine ⟨?_, ?_⟩
    · refine sseg_setNext (m := l.mem) xs _ _ hseg.1 hnd.1 ?_
      intro i hi
      simp only [hm, sunlinkMem, fx i hi, if_false]
    · refine sseg_congr (m := l.mem) ys _ ?_ hseg.2.2
      intro i hi
      have hx : some i ≠ lst none xs := fun e => fxy i (lst_mem xs i e.symm) hi
      simp only [hm, sunlinkMem, fy i hi, if_false, hx]
  · rw [ids_append, List.nodup_append]
    exact ⟨hnd.1, hnd.2.1.2, fun a ha b hb => hnd.2.2 a ha b (by simp [hb])⟩
  · intro j hj
    rw [ids_append] at hj
    simp only [List.mem_append, not_or] at hj
    have e1 : some j ≠ lst none xs := fun e => hj.1 (lst_mem _ _ e.symm)
    by_cases hc : j = c.1
    · simp [hm, sunlinkMem, hc]
    · simp only [hm, sunlinkMem, hc, e1, if_false]
      exact h.only j (by simp [ids_append, ids_cons, hj.1, hj.2, hc])
  · intro i hi
    rw [hnext]
    apply h.fresh i
    rw [ids_append] at *; rw [ids_cons]
    simp only [List.mem_append, List.mem_cons] at *
    rcases hi with hi | hi <;> simp [hi]
  · rw [hfirst, h.first]
    cases xs <;> simp
  · left
    rw [hlast, h.last' (by simp)]
    rcases snoc_cases ys with rfl | ⟨zs, d, rfl⟩
    · simp
    · simp [lst_append]
  · rw [hsize, h.size]; simp

theorem sappend_rep {dang : Bool} {l : SList α} {cs : List (Nat × α)} (h : SRep dang l cs) (v : α) :
    ∃ l', l.append v = some l' ∧ SRep false l' (cs ++ [(l.next, v)]) := by
  have h' : SRep dang l (cs ++ []) := by simpa using h
  rcases snoc_cases cs with rfl | ⟨xs, c, rfl⟩
  · have e1 : l.first = none := h.first
    apply Exists.intro
    apply And.intro
    · simp [SList.append, SList.alloc, e1]; rfl
    refine slink_rep h' v ?_ rfl ?_ ?_ rfl
    · funext j; simp [slinkMem, upd]
    · simp
    · simp
  · have e1 : l.last = some c.1 := by rw [h.last' (by simp), lst_append]; rfl
    have e2 : ∃ f, l.first = some f := by rw [h.first]; cases xs <;> simp
    obtain ⟨f, e2⟩ := e2
    have hc : l.mem c.1 = some ⟨none, c.2⟩ := ((sseg_append _ _ _ _).1 h.seg).2.1
    have hne : c.1 ≠ l.next := by have := h.fresh c.1 (by simp [ids]); omega
    apply Exists.intro
    apply And.intro
    · simp [SList.append, SList.alloc, e1, e2, SList.setFlink, upd_ne _ _ hne, hc]; rfl
    refine slink_rep h' v ?_ rfl ?_ ?_ rfl
    · funext j; simp only [slinkMem, upd, lst_append, lst_cons, lst_nil, hd_nil, Option.some.injEq]
      by_cases e3 : j = c.1
      · subst e3; simp [hne, hc]
      · simp [e3]
    · simp [e2]
    · simp

theorem sprepend_rep {l : SList α} {cs : List (Nat × α)} (h : SRep false l cs) (v : α) :
    ∃ l', l.prepend v = some l' ∧ SRep false l' ((l.next, v) :: cs) := by
  have h' : SRep false l ([] ++ cs) := h
  have hl : l.last = lst none cs := by rcases h.last with h | ⟨h, _⟩; exact h; cases h
  refine ⟨_, rfl, slink_rep (xs := []) h' v ?_ ?_ ?_ ?_ ?_⟩
  · funext j
    have : l.first = hd none cs := h.first
    simp only [SList.alloc]
    split <;> simp [slinkMem, upd, this]
  · simp only [SList.alloc]; split <;> rfl
  · simp [SList.alloc]
  · rw [hl]
    rcases snoc_cases cs with rfl | ⟨xs, c, rfl⟩
    · simp [SList.alloc, hl]
    · simp [SList.alloc, hl, lst_append]
  · simp only [SList.alloc]; split <;> rfl

theorem deleteLoop_rep {dang : Bool} {l : SList α} (c : Nat × α) (ys : List (Nat × α)) :
    ∀ (xs zs : List (Nat × α)) (x : Nat × α) (k : Nat), SRep dang l (zs ++ x :: xs ++ c :: ys) → (x :: xs).length < k →
      ∃ l', SList.deleteLoop c.1 k l (some x.1) (some x.1) = some l' ∧ SRep false l' (zs ++ x :: xs ++ ys) ∧ l'.next = l.next
  | _, _, _, 0, _, hk => by simp at hk
  | [], zs, x, k + 1, h, _ => by
    have hseg := (sseg_append _ _ _ _).1 h.seg
    have hx : l.mem x.1 = some ⟨some c.1, x.2⟩ := ((sseg_append _ _ _ _).1 hseg.1).2.1
    have hc : l.mem c.1 = some ⟨hd none ys, c.2⟩ := hseg.2.1
    have hnd := h.nodup
    rw [ids_append, ids_cons, List.nodup_append, List.nodup_cons] at hnd
    have hne : x.1 ≠ c.1 := hnd.2.2 x.1 (by simp [ids]) c.1 (by simp)
    have hl := h.last' (by simp)
    have mem_eq : ∀ (w : Ptr), w = hd none ys → upd (upd l.mem x.1 (some ⟨w, x.2⟩)) c.1 none = sunlinkMem l.mem (zs ++ [x]) ys c.1 := by
      rintro w rfl
      funext j; simp only [sunlinkMem, upd, lst_append, lst_cons, lst_nil, Option.some.injEq]
      by_cases e1 : j = c.1
      · simp [e1]
      · by_cases e2 : j = x.1
        · subst e2; simp [hne, hx]
        · simp [e1, e2]
    rcases snoc_cases ys with rfl | ⟨ws, d, rfl⟩
    · have el : l.last = some c.1 := by rw [hl]; simp [lst_append]
      apply Exists.intro
      apply And.intro
      · simp [SList.deleteLoop, hx, el, SList.setFlink, SList.free, upd_ne _ _ hne.symm, hc]; rfl
      refine ⟨sunlink_rep h (mem_eq _ rfl) rfl ?_ ?_ rfl, rfl⟩
      · simp
      · simp [lst_append]
    · have el : ¬ l.last = some c.1 := by
        rw [hl]; simp only [lst_append, lst_cons, lst_nil, Option.some.injEq]
        intro e; exact hnd.2.1.1 (by simp [ids, e])
      apply Exists.intro
      apply And.intro
      · simp [SList.deleteLoop, hx, el, SList.setFlink, SList.free, upd_ne _ _ hne.symm, hc]; rfl
      refine ⟨sunlink_rep h (mem_eq _ rfl) rfl ?_ ?_ rfl, rfl⟩
      · simp
      · simp
  | y :: xs, zs, x, k + 1, h, hk => by
    have hseg := (sseg_append _ _ _ _).1 h.seg
    have hx : l.mem x.1 = some ⟨some y.1, x.2⟩ := ((sseg_append _ _ _ _).1 hseg.1).2.1
    have hnd := h.nodup
    rw [ids_append, ids_cons, List.nodup_append, List.nodup_cons] at hnd
    have hne : y.1 ≠ c.1 := hnd.2.2 y.1 (by simp [ids]) c.1 (by simp)
    have e : zs ++ x :: y :: xs = (zs ++ [x]) ++ y :: xs := by simp
    rw [e] at h ⊢
    obtain ⟨l', h1, h2, h3⟩ := deleteLoop_rep c ys xs (zs ++ [x]) y k h (by simpa using hk)
    exact ⟨l', by simp [SList.deleteLoop, hx, hne, h1], h2, h3⟩

theorem sdelete_rep {dang : Bool} {l : SList α} {xs ys : List (Nat × α)} {c : Nat × α} (h : SRep dang l (xs ++ c :: ys)) :
    ∃ l', l.delete c.1 = some l' ∧ SRep false l' (xs ++ ys) ∧ l'.next = l.next := by
  have hnd := h.nodup
  rw [ids_append, ids_cons, List.nodup_append, List.nodup_cons] at hnd
  have hl := h.last' (by simp)
  rcases xs with _ | ⟨x, xs⟩
  · have hc : l.mem c.1 = some ⟨hd none ys, c.2⟩ := h.seg.1
    have ef : l.first = some c.1 := h.first
    have mem_eq : upd l.mem c.1 none = sunlinkMem l.mem [] ys c.1 := by
      funext j; simp [sunlinkMem, upd]
    rcases snoc_cases ys with rfl | ⟨ws, d, rfl⟩
    · have el : l.last = some c.1 := by rw [hl]; simp [lst_append]
      apply Exists.intro
      apply And.intro
      · simp [SList.delete, ef, el, SList.free, hc]; rfl
      refine ⟨sunlink_rep h mem_eq rfl ?_ ?_ ?_, rfl⟩
      · simp
      · simp [lst_append]
      · rw [h.size]; simp
    · have el : ¬ l.last = some c.1 := by
        rw [hl]; simp only [lst_append, lst_cons, lst_nil, Option.some.injEq]
        intro e; exact hnd.2.1.1 (by simp [ids, e])
      apply Exists.intro
      apply And.intro
      · simp [SList.delete, ef, el, SList.free, hc]; rfl
      refine ⟨sunlink_rep h mem_eq rfl ?_ ?_ rfl, rfl⟩
      · simp
      · simp
  · have ef : l.first = some x.1 := h.first
    have hne : x.1 ≠ c.1 := hnd.2.2 x.1 (by simp [ids]) c.1 (by simp)
    obtain ⟨l', h1, h2, h3⟩ := deleteLoop_rep c ys xs [] x (l.next + 1) h (by
      have := h.length_le; simp at *; omega)
    exact ⟨l', by simp [SList.delete, ef, hne, h1], h2, h3⟩

theorem shead_rep {dang : Bool} {l : SList α} {cs : List (Nat × α)} (h : SRep dang l cs) :
    ∃ l', l.head = some (l', (vals cs).head?) ∧ SRep dang l' cs.tail := by
  rcases cs with _ | ⟨c, ys⟩
  · have e1 : l.first = none := h.first
    exact ⟨l, by simp [SList.head, e1, vals], h⟩
  · have e1 : l.first = some c.1 := h.first
    have hc := h.seg.1
    obtain ⟨l', h1, h2, _⟩ := sdelete_rep (xs := []) h
    refine ⟨l', by simp [SList.head, e1, hc, h1, vals], ?_⟩
    exact { h2 with last := Or.inl (by rcases h2.last with h | ⟨h, _⟩; exact h; cases h) }

theorem stail_rep {l : SList α} {cs : List (Nat × α)} (h : SRep false l cs) :
    ∃ l', l.tail = some (l', (vals cs).getLast?) ∧ SRep false l' cs.dropLast := by
  rcases snoc_cases cs with rfl | ⟨xs, c, rfl⟩
  · have e1 : l.last = none := by rcases h.last with h | ⟨h, _⟩; exact h; cases h
    exact ⟨l, by simp [SList.tail, e1, vals], h⟩
  · have e1 : l.last = some c.1 := by rw [h.last' (by simp), lst_append]; rfl
    have hc : l.mem c.1 = some ⟨none, c.2⟩ := ((sseg_append _ _ _ _).1 h.seg).2.1
    obtain ⟨l', h1, h2, _⟩ := sdelete_rep (ys := []) h
    refine ⟨l', by simp [SList.tail, e1, hc, h1, vals], ?_⟩
    simpa using h2

theorem sclearLoop_spec : ∀ (cs : List (Nat × α)) (k : Nat) (l : SList α), SSeg l.mem cs none → (ids cs).Nodup →
    (∀ j, j ∉ ids cs → l.mem j = none) → l.first = hd none cs → cs.length < k →
    ∃ l', SList.clearLoop k l = some l' ∧ (∀ j, l'.mem j = none) ∧ l'.first = none
  | [], 0, _, _, _, _, _, h => by simp at h
  | [], k + 1, l, _, _, ho, hf, _ => by
    rw [hd_nil] at hf
    exact ⟨l, by simp [SList.clearLoop, hf], fun j => ho j (by simp [ids]), hf⟩
  | c :: cs, 0, _, _, _, _, _, h => by simp at h
  | c :: cs, k + 1, l, hs, hn, ho, hf, hk => by
    rw [hd_cons] at hf
    have hc := hs.1
    rw [ids_cons, List.nodup_cons] at hn
    have := sclearLoop_spec cs k { l with first := hd none cs, mem := upd l.mem c.1 none }
      (sseg_congr (m := l.mem) cs _ (fun i hi => upd_ne _ _ (by rintro rfl; exact hn.1 hi)) hs.2) hn.2
      (fun j hj => by
        by_cases hjc : j = c.1
        · simp [upd, hjc]
        · simp only [upd, hjc, if_false]; exact ho j (by simp [ids_cons, hjc, hj]))
      rfl (by simpa using hk)
    simpa [SList.clearLoop, hf, hc, SList.free] using this

theorem sclear_rep {dang : Bool} {l : SList α} {cs : List (Nat × α)} (h : SRep dang l cs) :
    ∃ l', l.clear = some l' ∧ SRep true l' [] := by
  obtain ⟨l', e, hm, hf⟩ := sclearLoop_spec cs (l.next + 1) l h.seg h.nodup h.only h.first (by have := h.length_le; omega)
  refine ⟨{ l' with size := 0 }, by simp [SList.clear, e], ?_⟩
  constructor <;> simp [SSeg, ids, hm, hf]

theorem sfindLoop_spec (l : SList α) (q : α → Bool) : ∀ (cs : List (Nat × α)) (k : Nat), SSeg l.mem cs none →
    cs.length < k → SList.findLoop l q k (hd none cs) = some ((cs.find? fun c => q c.2).map Prod.fst)
  | [], 0, _, h => by simp at h
  | [], k + 1, _, _ => by simp [SList.findLoop]
  | c :: cs, 0, _, h => by simp at h
  | c :: cs, k + 1, hs, hk => by
    have ih := sfindLoop_spec l q cs k hs.2 (by simpa using hk)
    have hc := hs.1
    by_cases hq : q c.2
    · simp [SList.findLoop, hc, hq]
    · simp [SList.findLoop, hc, hq, ih]

theorem sfind_spec {dang : Bool} {l : SList α} {cs : List (Nat × α)} (h : SRep dang l cs) (q : α → Bool) :
    l.find q = some ((vals cs).find? q) ∧ l.contains q = some ((vals cs).any q) := by
  have hf := sfindLoop_spec l q cs (l.next + 1) h.seg (by have := h.length_le; omega)
  rw [← h.first] at hf
  have e1 : (vals cs).find? q = (cs.find? fun c => q c.2).map Prod.snd := by
    rw [vals, List.find?_map]; rfl
  have e2 : (vals cs).any q = ((cs.find? fun c => q c.2).map Prod.fst).isSome := by
    rw [Option.isSome_map, Bool.eq_iff_iff]
    simp [vals, List.find?_isSome]
  refine ⟨?_, by simp [SList.contains, hf, e2]⟩
  rw [e1]
  rcases find_split q cs with ⟨hn, _⟩ | ⟨xs, c, ys, rfl, hs, _, _⟩
  · simp [SList.find, hf, hn]
  · have hc : l.mem c.1 = some ⟨hd none ys, c.2⟩ := ((sseg_append _ _ _ _).1 h.seg).2.1
    simp only [SList.find, hf, hs]
    simp [hc]

theorem sremove_rep {dang : Bool} {l : SList α} {cs : List (Nat × α)} (h : SRep dang l cs) (q : α → Bool) :
    ∃ l' cs', l.remove q = some l' ∧ SRep dang l' cs' ∧ vals cs' = (vals cs).eraseP q := by
  have hf := sfindLoop_spec l q cs (l.next + 1) h.seg (by have := h.length_le; omega)
  rw [← h.first] at hf
  rcases find_split q cs with ⟨hn, he⟩ | ⟨xs, c, ys, rfl, hs, hq, hx⟩
  · rw [hn] at hf
    exact ⟨l, cs, by simp [SList.remove, hf], h, he.symm⟩
  · rw [hs] at hf
    obtain ⟨l', hl, hr, _⟩ := sdelete_rep h
    refine ⟨l', xs ++ ys, by simp [SList.remove, hf, hl], ?_, (vals_eraseP q xs ys c hq hx).symm⟩
    exact { hr with last := Or.inl (by rcases hr.last with h | ⟨h, _⟩; exact h; cases h) }

theorem swalk_seg (l : SList α) : ∀ (cs : List (Nat × α)) (k : Nat), SSeg l.mem cs none → cs.length < k →
    SList.walk l k (hd none cs) = some (vals cs)
  | [], 0, _, h => by simp at h
  | [], k + 1, _, _ => rfl
  | c :: cs, 0, _, h => by simp at h
  | c :: cs, k + 1, hs, hk => by
    have ih := swalk_seg l cs k hs.2 (by simpa using hk)
    have hc := hs.1
    simp [SList.walk, hc, ih, vals_cons]

theorem svalues_rep {dang : Bool} {l : SList α} {cs : List (Nat × α)} (h : SRep dang l cs) : l.values = some (vals cs) := by
  unfold SList.values
  rw [h.first]; exact swalk_seg l cs _ h.seg (by have := h.length_le; omega)

theorem sforward_seg (m : Nat → Option (SNode α)) : ∀ (cs : List (Nat × α)) (k : Nat), SSeg m cs none → cs.length ≤ k →
    Spec.sforward m k (hd none cs) = vals cs
  | [], 0, _, _ => rfl
  | [], k + 1, _, _ => rfl
  | c :: cs, 0, _, h => by simp at h
  | c :: cs, k + 1, hs, h => by
    have ih := sforward_seg m cs k hs.2 (by simpa using h)
    have hc := hs.1
    simp [Spec.sforward, hc, ih, vals_cons]

theorem spresents_of_rep {dang : Bool} {l : SList α} {cs : List (Nat × α)} (h : SRep dang l cs) : Spec.SPresents l (vals cs) := by
  have hlen : (vals cs).length = cs.length := by simp [vals]
  refine ⟨by rw [h.size, hlen], ?_, ?_⟩
  · intro k hk
    rw [hlen] at hk
    rw [h.first]; exact sforward_seg _ _ _ h.seg hk
  · rw [h.first]; cases cs <;> simp [vals]

theorem appendAll_rep (keep : SList α → α → Option Bool) (kp : List α → α → Bool)
    (hk : ∀ dang l cs v, SRep dang l cs → keep l v = some (kp (vals cs) v)) :
    ∀ (vs : List α) (dang : Bool) (l : SList α) (cs : List (Nat × α)), SRep dang l cs →
      ∃ l' cs' dang', SList.appendAll keep vs l = some l' ∧ SRep dang' l' cs' ∧
        vals cs' = vs.foldl (fun acc v => if kp acc v then acc ++ [v] else acc) (vals cs)
  | [], dang, l, cs, h => ⟨l, cs, dang, rfl, h, rfl⟩
  | v :: vs, dang, l, cs, h => by
    have e := hk dang l cs v h
    by_cases hv : kp (vals cs) v
    · obtain ⟨l1, h1, h2⟩ := sappend_rep h v
      obtain ⟨l', cs', d', h3, h4, h5⟩ := appendAll_rep keep kp hk vs false l1 _ h2
      refine ⟨l', cs', d', by simp [SList.appendAll, e, hv, h1, h3], h4, ?_⟩
      rw [h5, List.foldl_cons, if_pos hv, vals_append]; rfl
    · obtain ⟨l', cs', d', h3, h4, h5⟩ := appendAll_rep keep kp hk vs dang l _ h
      exact ⟨l', cs', d', by simp [SList.appendAll, e, hv, h3], h4, by rw [h5]; simp [hv]⟩

/-! ## Histories -/

theorem mem_iff_of_seg (m : Nat → Option (DNode α)) : ∀ (cs : List (Nat × α)) (p n : Ptr), Seg m p cs n → ∀ i ∈ ids cs, m i ≠ none
  | [], _, _, _, i, hi => by simp [ids] at hi
  | c :: cs, p, n, hs, i, hi => by
    rw [ids_cons] at hi
    rcases List.mem_cons.1 hi with rfl | hi
    · rw [hs.1]; simp
    · exact mem_iff_of_seg m cs _ n hs.2 i hi

theorem allocated_of_rep {l : DList α} {cs : List (Nat × α)} (h : Rep l cs) : Spec.Allocated l.mem (vals cs).length :=
  ⟨ids cs, h.nodup, by simp [ids, vals], fun j => ⟨fun hj => Classical.byContradiction fun hn => hj (h.only j hn),
    fun hj => mem_iff_of_seg _ _ _ _ h.seg j hj⟩⟩

theorem smem_iff_of_seg (m : Nat → Option (SNode α)) : ∀ (cs : List (Nat × α)) (n : Ptr), SSeg m cs n → ∀ i ∈ ids cs, m i ≠ none
  | [], _, _, i, hi => by simp [ids] at hi
  | c :: cs, n, hs, i, hi => by
    rw [ids_cons] at hi
    rcases List.mem_cons.1 hi with rfl | hi
    · rw [hs.1]; simp
    · exact smem_iff_of_seg m cs n hs.2 i hi

theorem sallocated_of_rep {dang : Bool} {l : SList α} {cs : List (Nat × α)} (h : SRep dang l cs) :
    Spec.Allocated l.mem (vals cs).length :=
  ⟨ids cs, h.nodup, by simp [ids, vals], fun j => ⟨fun hj => Classical.byContradiction fun hn => hj (h.only j hn),
    fun hj => smem_iff_of_seg _ _ _ h.seg j hj⟩⟩

theorem vals_tail (cs : List (Nat × α)) : vals cs.tail = (vals cs).tail := by simp [vals]
theorem vals_dropLast (cs : List (Nat × α)) : vals cs.dropLast = (vals cs).dropLast := by simp [vals]

theorem dstep_rep [DecidableEq α] {l : DList α} {cs : List (Nat × α)} (h : Rep l cs) (op : DOp α) :
    ∃ l' cs', DList.step l op = some (l', (Spec.dstep (vals cs) op).2) ∧ Rep l' cs' ∧ vals cs' = (Spec.dstep (vals cs) op).1 := by
  cases op with
  | append v =>
    obtain ⟨l', h1, h2⟩ := append_rep h v
    exact ⟨l', _, by simp [DList.step, h1, Spec.dstep], h2, by simp [Spec.dstep, vals]⟩
  | prepend v =>
    obtain ⟨l', h1, h2⟩ := prepend_rep h v
    exact ⟨l', _, by simp [DList.step, h1, Spec.dstep], h2, by simp [Spec.dstep, vals]⟩
  | head =>
    obtain ⟨l', h1, h2⟩ := head_rep h
    exact ⟨l', _, by simp [DList.step, h1, Spec.dstep], h2, by simp [Spec.dstep, vals_tail]⟩
  | tail =>
    obtain ⟨l', h1, h2⟩ := tail_rep h
    exact ⟨l', _, by simp [DList.step, h1, Spec.dstep], h2, by simp [Spec.dstep, vals_dropLast]⟩
  | remove v =>
    obtain ⟨l', cs', h1, h2, h3⟩ := remove_rep h (fun x => decide (x = v))
    refine ⟨l', cs', by simp [DList.step, h1, Spec.dstep], h2, ?_⟩
    rw [h3]
    simp only [Spec.dstep]
    rw [List.erase_eq_eraseP]
    congr 1; funext x; by_cases hx : x = v
    · simp [hx]
    · simp [hx, Ne.symm hx]
  | clear =>
    obtain ⟨l', h1, h2⟩ := clear_rep h
    exact ⟨l', _, by simp [DList.step, h1, Spec.dstep], h2, by simp [Spec.dstep, vals]⟩

theorem pstep_rep (cmp : α → α → Int) {l : DList α} {cs : List (Nat × α)} (h : Rep l cs) (op : POp α) :
    ∃ l' cs', DList.pstep cmp l op = some (l', (Spec.pstep cmp (vals cs) op).2) ∧ Rep l' cs' ∧
      vals cs' = (Spec.pstep cmp (vals cs) op).1 := by
  cases op with
  | insert v d =>
    obtain ⟨l', cs', h1, h2, h3⟩ := insert_rep h cmp d v
    exact ⟨l', cs', by simp [DList.pstep, h1, Spec.pstep], h2, by simp [Spec.pstep, h3]⟩
  | remove v =>
    obtain ⟨l', cs', h1, h2, h3⟩ := remove_rep h (fun x => decide (cmp x v = 0))
    exact ⟨l', cs', by simp [DList.pstep, h1, Spec.pstep], h2, by simp [Spec.pstep, h3]⟩
  | replace v =>
    obtain ⟨l', cs', h1, h2, h3⟩ := replace_rep h cmp v
    exact ⟨l', cs', by simp [DList.pstep, h1, Spec.pstep], h2, by simp [Spec.pstep, h3]⟩
  | head =>
    obtain ⟨l', h1, h2⟩ := head_rep h
    exact ⟨l', _, by simp [DList.pstep, h1, Spec.pstep], h2, by simp [Spec.pstep, vals_tail]⟩
  | tail =>
    obtain ⟨l', h1, h2⟩ := tail_rep h
    exact ⟨l', _, by simp [DList.pstep, h1, Spec.pstep], h2, by simp [Spec.pstep, vals_dropLast]⟩
  | clear =>
    obtain ⟨l', h1, h2⟩ := clear_rep h
    exact ⟨l', _, by simp [DList.pstep, h1, Spec.pstep], h2, by simp [Spec.pstep, vals]⟩

theorem prun_rep (cmp : α → α → Int) : ∀ (ops : List (POp α)) (l : DList α) (cs : List (Nat × α)), Rep l cs →
    ∃ l' cs', DList.prun cmp l ops = some (l', (Spec.prun cmp (vals cs) ops).2) ∧ Rep l' cs' ∧
      vals cs' = (Spec.prun cmp (vals cs) ops).1
  | [], l, cs, h => ⟨l, cs, rfl, h, rfl⟩
  | op :: ops, l, cs, h => by
    obtain ⟨l1, cs1, h1, h2, h3⟩ := pstep_rep cmp h op
    obtain ⟨l2, cs2, h4, h5, h6⟩ := prun_rep cmp ops l1 cs1 h2
    rw [h3] at h4 h6
    exact ⟨l2, cs2, by simp [DList.prun, h1, h4, Spec.prun], h5, by simp [Spec.prun, h6]⟩

theorem pllFindLoop_spec (l : DList α) (cmp : α → α → Int) (v : α) (hne : ∀ a b, cmp a b ≠ 1) :
    ∀ (cs : List (Nat × α)) (k : Nat) (p : Ptr), Seg l.mem p cs none → cs.length < k →
      DList.pllFindLoop l cmp v k (hd none cs) = some ((vals cs).find? fun x => cmp x v = 0)
  | [], 0, _, _, h => by simp at h
  | [], k + 1, p, _, _ => by simp [DList.pllFindLoop, vals]
  | c :: cs, 0, _, _, h => by simp at h
  | c :: cs, k + 1, p, hs, hk => by
    have ih := pllFindLoop_spec l cmp v hne cs k (some c.1) hs.2 (by simpa using hk)
    have hc := hs.1
    by_cases hq : cmp c.2 v = 0
    · simp [DList.pllFindLoop, hc, hq, vals_cons]
    · simp [DList.pllFindLoop, hc, hq, ih, vals_cons, hne]

theorem pllFind_rep {l : DList α} {cs : List (Nat × α)} (h : Rep l cs) (cmp : α → α → Int) (v : α) (hne : ∀ a b, cmp a b ≠ 1) :
    DList.pllFind l cmp v = some ((vals cs).find? fun x => cmp x v = 0) := by
  unfold DList.pllFind
  rw [h.first]; exact pllFindLoop_spec l cmp v hne cs _ none h.seg (by have := h.length_le; omega)

/-- Everything in the result of an insertion is the new element or was there before. -/
theorem insert_mem (cmp : α → α → Int) (d : Bool) (v x : α) : ∀ l : List α, x ∈ (Spec.insert cmp d v l).1 → x = v ∨ x ∈ l
  | [], h => by simp [Spec.insert] at h; exact Or.inl h
  | y :: ys, h => by
    simp only [Spec.insert] at h
    split at h
    · simp at h; rcases h with h | h | h
      · exact Or.inl h
      · simp [h]
      · simp [h]
    · split at h
      · exact Or.inr h
      · simp at h; rcases h with h | h
        · simp [h]
        · rcases insert_mem cmp d v x ys h with h | h
          · exact Or.inl h
          · simp [h]

theorem insert_sorted (cmp : α → α → Int) (hc : Spec.Comparator cmp) (d : Bool) (v : α) :
    ∀ l : List α, Spec.Descending cmp l → Spec.Descending cmp (Spec.insert cmp d v l).1
  | [], _ => by simp [Spec.insert, Spec.Descending]
  | x :: xs, h => by
    have h' := List.pairwise_cons.1 h
    simp only [Spec.insert]
    split
    · next hlt =>
      refine List.pairwise_cons.2 ⟨?_, h⟩
      have hvx : 0 < cmp v x := (hc.flip x v).1 hlt
      intro y hy
      rcases List.mem_cons.1 hy with rfl | hy
      · omega
      · exact hc.trans v x y (by omega) (h'.1 y hy)
    · split
      · exact h
      · next hge _ =>
        refine List.pairwise_cons.2 ⟨?_, insert_sorted cmp hc d v xs h'.2⟩
        intro y hy
        rcases insert_mem cmp d v y xs hy with rfl | hy
        · omega
        · exact h'.1 y hy

theorem replace_mem (cmp : α → α → Int) (v x : α) : ∀ l : List α, x ∈ (Spec.replace cmp v l).1 → x = v ∨ x ∈ l
  | [], h => by simp [Spec.replace] at h
  | y :: ys, h => by
    simp only [Spec.replace] at h
    split at h
    · simp at h; rcases h with h | h
      · exact Or.inl h
      · simp [h]
    · simp at h; rcases h with h | h
      · simp [h]
      · rcases replace_mem cmp v x ys h with h | h
        · exact Or.inl h
        · simp [h]

/-- If something is replaced, its predecessors compare to the new element as they did to the old one. -/
theorem replace_sorted (cmp : α → α → Int) (hc : Spec.Comparator cmp) (v : α) :
    ∀ l : List α, Spec.Descending cmp l → Spec.Descending cmp (Spec.replace cmp v l).1
  | [], _ => by simp [Spec.replace, Spec.Descending]
  | x :: xs, h => by
    have h' := List.pairwise_cons.1 h
    simp only [Spec.replace]
    split
    · next he =>
      refine List.pairwise_cons.2 ⟨?_, h'.2⟩
      intro y hy
      have h1 := hc.flip v x
      exact hc.trans v x y (by omega) (h'.1 y hy)
    · refine List.pairwise_cons.2 ⟨?_, replace_sorted cmp hc v xs h'.2⟩
      intro y hy
      by_cases hm : ∃ z ∈ xs, cmp z v = 0
      · obtain ⟨z, hz, hzv⟩ := hm
        rcases replace_mem cmp v y xs hy with rfl | hy
        · exact hc.trans x z y (h'.1 z hz) (by omega)
        · exact h'.1 y hy
      · have : Spec.replace cmp v xs = (xs, none) := by
          clear hy h'
          revert hm
          clear h
          induction xs with
          | nil => intro _; rfl
          | cons w ws ih =>
            intro hm
            have : ¬ cmp w v = 0 := fun e => hm ⟨w, by simp, e⟩
            simp only [Spec.replace, this, if_false]
            rw [ih (fun ⟨z, hz, e⟩ => hm ⟨z, by simp [hz], e⟩)]
        rw [this] at hy
        exact h'.1 y hy

theorem pstep_sorted (cmp : α → α → Int) (hc : Spec.Comparator cmp) (l : List α) (h : Spec.Descending cmp l) (op : POp α) :
    Spec.Descending cmp (Spec.pstep cmp l op).1 := by
  cases op with
  | insert v d => exact insert_sorted cmp hc d v l h
  | remove v => exact List.Pairwise.sublist List.eraseP_sublist h
  | replace v => exact replace_sorted cmp hc v l h
  | head => exact List.Pairwise.sublist (List.tail_sublist _) h
  | tail => exact List.Pairwise.sublist (List.dropLast_sublist _) h
  | clear => exact List.Pairwise.nil

theorem insert_unique (cmp : α → α → Int) (hc : Spec.Comparator cmp) (v : α) :
    ∀ l : List α, Spec.Descending cmp l → (l.Pairwise fun a b => cmp a b ≠ 0) →
      ((Spec.insert cmp false v l).1.Pairwise fun a b => cmp a b ≠ 0)
  | [], _, _ => by simp [Spec.insert]
  | x :: xs, hs, h => by
    have h' := List.pairwise_cons.1 h
    have hs' := List.pairwise_cons.1 hs
    simp only [Spec.insert]
    split
    · next hlt =>
      refine List.pairwise_cons.2 ⟨?_, h⟩
      have hvx : 0 < cmp v x := (hc.flip x v).1 hlt
      intro y hy
      rcases List.mem_cons.1 hy with rfl | hy
      · omega
      · intro e
        have f1 := hc.flip y v
        have f2 := hc.flip v y
        have := hc.trans x y v (hs'.1 y hy) (by omega)
        omega
    · split
      · exact h
      · next hge hne =>
        refine List.pairwise_cons.2 ⟨?_, insert_unique cmp hc v xs hs'.2 h'.2⟩
        intro y hy
        rcases insert_mem cmp false v y xs hy with rfl | hy
        · simpa using hne
        · exact h'.1 y hy

theorem replace_unique (cmp : α → α → Int) (hc : Spec.Comparator cmp) (v : α) :
    ∀ l : List α, (l.Pairwise fun a b => cmp a b ≠ 0) → ((Spec.replace cmp v l).1.Pairwise fun a b => cmp a b ≠ 0)
  | [], _ => by simp [Spec.replace]
  | x :: xs, h => by
    have h' := List.pairwise_cons.1 h
    simp only [Spec.replace]
    split
    · next he =>
      refine List.pairwise_cons.2 ⟨?_, h'.2⟩
      intro y hy e
      have := h'.1 y hy
      have f1 := hc.flip x v; have f2 := hc.flip v x; have f3 := hc.flip v y; have f4 := hc.flip y v
      have f5 := hc.flip x y; have f6 := hc.flip y x
      have t1 := hc.trans x v y (by omega) (by omega)
      have t2 := hc.trans y v x (by omega) (by omega)
      omega
    · next hne =>
      refine List.pairwise_cons.2 ⟨?_, replace_unique cmp hc v xs h'.2⟩
      intro y hy
      rcases replace_mem cmp v y xs hy with rfl | hy
      · exact hne
      · exact h'.1 y hy

theorem pstep_unique (cmp : α → α → Int) (hc : Spec.Comparator cmp) (l : List α) (hs : Spec.Descending cmp l)
    (h : l.Pairwise fun a b => cmp a b ≠ 0) (op : POp α) (hu : ∀ v d, op = .insert v d → d = false) :
    (Spec.pstep cmp l op).1.Pairwise fun a b => cmp a b ≠ 0 := by
  cases op with
  | insert v d => rw [hu v d rfl]; exact insert_unique cmp hc v l hs h
  | remove v => exact List.Pairwise.sublist List.eraseP_sublist h
  | replace v => exact replace_unique cmp hc v l h
  | head => exact List.Pairwise.sublist (List.tail_sublist _) h
  | tail => exact List.Pairwise.sublist (List.dropLast_sublist _) h
  | clear => exact List.Pairwise.nil

theorem insertAfter_vals (q : α → Bool) (v : α) (n : Nat) : ∀ (xs ys : List (Nat × α)) (c : Nat × α), q c.2 = true →
    (∀ a ∈ xs, q a.2 = false) → Spec.insertAfter q v (vals (xs ++ c :: ys)) = vals ((xs ++ [c]) ++ (n, v) :: ys)
  | [], ys, c, hc, _ => by simp [vals, Spec.insertAfter, hc]
  | x :: xs, ys, c, hc, hx => by
    have ih := insertAfter_vals q v n xs ys c hc (fun a ha => hx a (by simp [ha]))
    have := hx x (by simp)
    simp only [List.cons_append, vals_cons, Spec.insertAfter, this]
    simpa using ih

theorem insertAfter_none (q : α → Bool) (v : α) : ∀ l : List α, (∀ a ∈ l, q a = false) → Spec.insertAfter q v l = l
  | [], _ => rfl
  | x :: xs, h => by
    have := h x (by simp)
    simp only [Spec.insertAfter, this]
    rw [insertAfter_none q v xs (fun a ha => h a (by simp [ha]))]
    simp

theorem sinsert_rep {dang : Bool} {l : SList α} {xs ys : List (Nat × α)} {c : Nat × α} (h : SRep dang l (xs ++ c :: ys)) (v : α) :
    ∃ l', l.insert v c.1 = some l' ∧ SRep false l' ((xs ++ [c]) ++ (l.next, v) :: ys) := by
  have h' : SRep dang l ((xs ++ [c]) ++ ys) := by simpa using h
  have hc : l.mem c.1 = some ⟨hd none ys, c.2⟩ := ((sseg_append _ _ _ _).1 h.seg).2.1
  have hne : c.1 ≠ l.next := by have := h.fresh c.1 (by simp [ids]); omega
  have hl : l.last = lst none (xs ++ c :: ys) := h.last' (by simp)
  have hlast : (l.last = some c.1) ↔ ys = [] := by
    rw [hl]
    constructor
    · intro e
      rcases snoc_cases ys with rfl | ⟨zs, d, rfl⟩
      · rfl
      · exfalso
        have hnd := h.nodup
        have e2 : lst none (xs ++ c :: (zs ++ [d])) = some d.1 := by
          rw [show xs ++ c :: (zs ++ [d]) = (xs ++ c :: zs) ++ [d] by simp, lst_append]; rfl
        rw [e2] at e
        simp only [Option.some.injEq] at e
        simp [ids, List.nodup_append, e] at hnd
    · rintro rfl; rw [lst_append]; rfl
  apply Exists.intro
  apply And.intro
  · simp [SList.insert, SList.alloc, SList.setFlink, upd_ne _ _ hne, hc]; rfl
  refine slink_rep h' v ?_ ?_ ?_ ?_ ?_
  · funext j
    split <;>
    · simp only [slinkMem, upd, lst_append, lst_cons, lst_nil, Option.some.injEq]
      by_cases e3 : j = c.1
      · subst e3; simp [hne, hc]
      · simp [e3]
  · split <;> rfl
  · split <;> simp
  · by_cases hy : ys = []
    · rw [if_pos (hlast.2 hy), if_pos hy]
    · rw [if_neg (fun e => hy (hlast.1 e)), if_neg hy]
  · split <;> rfl

theorem srun_rep (eq : α → α → Bool) : ∀ (ops : List (SOp α)) (d : Bool) (l : SList α) (cs : List (Nat × α)), SRep d l cs →
    Spec.avoidsStaleEnd d ops →
    ∃ l' cs' d', SList.run eq l ops = some (l', (Spec.srun eq (vals cs) ops).2) ∧ SRep d' l' cs' ∧
      vals cs' = (Spec.srun eq (vals cs) ops).1
  | [], d, l, cs, h, _ => ⟨l, cs, d, rfl, h, rfl⟩
  | op :: ops, d, l, cs, h, hs => by
    have key : ∃ l' cs' d', SList.step eq l op = some (l', (Spec.sstep eq (vals cs) op).2) ∧ SRep d' l' cs' ∧
        vals cs' = (Spec.sstep eq (vals cs) op).1 ∧ Spec.avoidsStaleEnd d' ops := by
      cases op with
      | append v =>
        obtain ⟨l', h1, h2⟩ := sappend_rep h v
        exact ⟨l', _, false, by simp [SList.step, h1, Spec.sstep], h2, by simp [Spec.sstep, vals], hs⟩
      | prepend v =>
        obtain ⟨rfl, hs⟩ := hs
        obtain ⟨l', h1, h2⟩ := sprepend_rep h v
        exact ⟨l', _, false, by simp [SList.step, h1, Spec.sstep], h2, by simp [Spec.sstep, vals], hs⟩
      | head =>
        obtain ⟨l', h1, h2⟩ := shead_rep h
        exact ⟨l', _, d, by simp [SList.step, h1, Spec.sstep], h2, by simp [Spec.sstep, vals_tail], hs⟩
      | tail =>
        obtain ⟨rfl, hs⟩ := hs
        obtain ⟨l', h1, h2⟩ := stail_rep h
        exact ⟨l', _, false, by simp [SList.step, h1, Spec.sstep], h2, by simp [Spec.sstep, vals_dropLast], hs⟩
      | remove v =>
        obtain ⟨l', cs', h1, h2, h3⟩ := sremove_rep h (fun x => eq x v)
        exact ⟨l', cs', d, by simp [SList.step, h1, Spec.sstep], h2, by simp [Spec.sstep, h3], hs⟩
      | contains v =>
        have := (sfind_spec h (fun x => eq x v)).2
        exact ⟨l, cs, d, by simp [SList.step, this, Spec.sstep], h, rfl, hs⟩
      | find v =>
        have := (sfind_spec h (fun x => eq x v)).1
        exact ⟨l, cs, d, by simp [SList.step, this, Spec.sstep], h, rfl, hs⟩
      | clear =>
        obtain ⟨l', h1, h2⟩ := sclear_rep h
        exact ⟨l', _, true, by simp [SList.step, h1, Spec.sstep], h2, by simp [Spec.sstep, vals], hs⟩
      | insertAfter u v =>
        have hf := sfindLoop_spec l (fun x => eq x u) cs (l.next + 1) h.seg (by have := h.length_le; omega)
        rw [← h.first] at hf
        rcases find_split (fun x => eq x u) cs with ⟨hn, he⟩ | ⟨xs, c, ys, rfl, hf2, hq, hx⟩
        · rw [hn] at hf
          refine ⟨l, cs, d, by simp [SList.step, hf, Spec.sstep], h, ?_, hs⟩
          simp only [Spec.sstep]
          rw [insertAfter_none]
          intro a ha
          rw [List.find?_eq_none] at hn
          simp only [vals, List.mem_map] at ha
          obtain ⟨b, hb, rfl⟩ := ha
          simpa using hn b hb
        · rw [hf2] at hf
          obtain ⟨l', h1, h2⟩ := sinsert_rep h v
          refine ⟨l', (xs ++ [c]) ++ (l.next, v) :: ys, d, by simp [SList.step, hf, h1, Spec.sstep], ?_, ?_, hs⟩
          · exact { h2 with last := Or.inl (by rcases h2.last with h | ⟨h, _⟩; exact h; cases h) }
          · simp only [Spec.sstep]
            exact (insertAfter_vals _ v l.next xs ys c hq hx).symm
    obtain ⟨l1, cs1, d1, h1, h2, h3, h4⟩ := key
    obtain ⟨l2, cs2, d2, h5, h6, h7⟩ := srun_rep eq ops d1 l1 cs1 h2 h4
    rw [h3] at h5 h7
    exact ⟨l2, cs2, d2, by simp [SList.run, h1, h5, Spec.srun], h6, by simp [Spec.srun, h7]⟩

theorem sclone_rep {d1 d2 : Bool} {a b : SList α} {ca cb : List (Nat × α)} (ha : SRep d1 a ca) (hb : SRep d2 b cb) :
    ∃ r cr d, SList.clone a b = some r ∧ SRep d r cr ∧ vals cr = vals cb ++ vals ca := by
  obtain ⟨r, cr, d, h1, h2, h3⟩ := appendAll_rep (fun _ _ => some true) (fun _ _ => true) (fun _ _ _ _ _ => rfl) (vals ca) d2 b cb hb
  refine ⟨r, cr, d, by simp [SList.clone, svalues_rep ha, h1], h2, ?_⟩
  rw [h3]
  simp only [if_true]
  generalize vals cb = acc
  induction vals ca generalizing acc with
  | nil => simp
  | cons v vs ih => rw [List.foldl_cons, ih]; simp

theorem smerge_rep (eq : α → α → Bool) {d1 d2 : Bool} {a b : SList α} {ca cb : List (Nat × α)} (ha : SRep d1 a ca)
    (hb : SRep d2 b cb) :
    ∃ r cr d, SList.merge a b eq = some r ∧ SRep d r cr ∧ vals cr = Spec.union eq (Spec.union eq [] (vals cb)) (vals ca) := by
  have hk : ∀ dang (l : SList α) cs v, SRep dang l cs →
      (do let c ← l.contains (fun x => eq x v); pure (!c) : Option Bool) = some (!((vals cs).any fun x => eq x v)) := by
    intro dang l cs v h
    simp [(sfind_spec h (fun x => eq x v)).2]
  have hfold : ∀ (vs acc : List α), vs.foldl (fun acc v => if (!(acc.any fun x => eq x v)) = true then acc ++ [v] else acc) acc
      = Spec.union eq acc vs := by
    intro vs acc
    unfold Spec.union
    congr 1
    funext acc v
    cases h : acc.any (fun x => eq x v) <;> simp [h]
  obtain ⟨r1, c1, e1, h1, h2, h3⟩ := appendAll_rep _ (fun acc v => !(acc.any fun x => eq x v)) hk (vals cb) false SList.init [] srep_init
  obtain ⟨r, cr, d, h4, h5, h6⟩ := appendAll_rep _ (fun acc v => !(acc.any fun x => eq x v)) hk (vals ca) e1 r1 c1 h2
  refine ⟨r, cr, d, ?_, h5, ?_⟩
  · unfold SList.merge
    rw [svalues_rep ha, svalues_rep hb]
    simp only [Option.bind_eq_bind, Option.bind_some] at h1 h4 ⊢
    rw [h1]; exact h4
  rw [h6, hfold, h3, hfold]; rfl

end Np.Lists
