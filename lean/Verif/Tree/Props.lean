import Verif.Tree.Lemmas2

/-! # C17, C68, C69, C70: the key-value trees -/
namespace Np.Tree

open _root_.Np.Tree.Spec
open _root_.Np.Rb (toList)

variable {V : Type}

deriving instance DecidableEq for Except

/-! ## C17: exactly the value of that key -/

/-- C17, partial: after every history of insertions, replacements and deletions, with keys of one kind, a lookup returns what a map would return.
An insertion keeps the old value, a replacement puts the new one, and no entry is returned for another key. Missing: keys of several types in one
tree, texts of more than 255 bytes, and integers that are 32768 or more apart; the theorems below show that these fail. -/
theorem C17_lookup_partial {K : Kind} {inPlace : Bool} {ops : List (Op V)} {t : Tree V} (h : Built inPlace ops t) (ho : ∀ o ∈ ops, K.Admits (Op.name o))
    (n : Name) (hn : K.Admits n) :
    (find t n).map (fun e => e.val) = Spec.after (fun _ => none) ops n ∧ ∀ e, find t n = some e → e.key.name = n :=
  ⟨(built_keeps h ho).1.lookup hn, fun e he => (((built_keeps h ho).1.good.find_some hn).1 he).2⟩

/-- C17, partial: the calls always come back, and then the tree holds exactly the entries of the map: an iteration meets each once, in the order of
the keys, and the size is their number. -/
theorem C17_contents_partial {K : Kind} {inPlace : Bool} {ops : List (Op V)} (ho : ∀ o ∈ ops, K.Admits (Op.name o)) :
    ∃ t : Tree V, Built inPlace ops t ∧ Holds t (Spec.after (fun _ => none) ops) := by
  rcases good_run ops (keeps_empty K inPlace) rfl ho with ⟨t, e1, e2, _, _⟩
  exact ⟨t, e1, e2.holds⟩

/-- C17: nothing can be changed in an immutable tree: a call that would change it ends the process, and it leaves the tree if it comes back. -/
theorem C17_immutable {t t' : Tree V} (hi : t.immutable = true) (o : Op V) (h : step t o = .ok t') : t' = t := by
  have ins : ∀ {n v}, insert t n v = .ok t' → t' = t := by
    intro n v h
    unfold insert at h
    split at h
    · cases h; rfl
    · unfold insertElement at h
      rw [if_pos hi] at h
      cases h
  cases o with
  | insert n v => exact ins h
  | replace n v =>
    simp only [step] at h
    unfold replace at h
    split at h
    · exact ins h
    · rw [if_pos hi] at h; cases h
  | del n =>
    simp only [step] at h
    unfold del at h
    rw [if_pos hi] at h
    cases h

/-- The tree a history leads to, to look at. -/
def after (ops : List (Op Nat)) : Tree Nat := match run create ops with | .ok t => t | .error _ => create

/-- C17 fails for keys of different types: a search for the text `a` finds the entry of a uuid. -/
theorem C17_types_refuted : Built false [.insert (.uuid 5) 1] (after [.insert (.uuid 5) 1]) ∧
    (find (after [.insert (.uuid 5) 1]) (.str [97])).map (fun e => (e.key.name, e.val)) = some (.uuid 5, 1) := ⟨by unfold Built; rfl, by decide⟩

/-- C17 fails for keys of different types: the entry of the integer 7 is not stored at all once there is a text. -/
theorem C17_lost_refuted : find (after [.insert (.str [97]) 1, .insert (.int 7) 2]) (.int 7) = some ⟨.str [97] 1, 1⟩ := by decide

/-- C17 fails for unsigned keys: 65536 finds the value of 0, and 65536 cannot be stored. -/
theorem C17_ulong_refuted : (find (after [.insert (.ulong 0) 1, .insert (.ulong 65536) 2]) (.ulong 65536)).map (fun e => (e.key.name, e.val)) = some (.ulong 0, 1) := by decide

/-- C17 fails for integers that are far apart: the order is not transitive, and a stored entry is not found after some others were added. -/
theorem C17_int_refuted : (after ([0, -20000, 10000, 20000, 25000, 30000, 31000, 32000].map fun i => Op.insert (.int (BitVec.ofInt 16 i)) 1)).size = 8 ∧
    find (after ([0, -20000, 10000, 20000, 25000, 30000, 31000, 32000].map fun i => Op.insert (.int (BitVec.ofInt 16 i)) 1)) (.int (BitVec.ofInt 16 (-20000))) = none := by
  decide +kernel

/-- C17 fails for long texts: a text of 256 bytes is not found after it was stored; storing it again adds nothing, but the size is counted up. -/
theorem C17_long_refuted :
    find (after [.insert (.str (List.replicate 256 97)) 1]) (.str (List.replicate 256 97)) = none ∧
    (after [.insert (.str (List.replicate 256 97)) 1, .insert (.str (List.replicate 256 97)) 1]).size = 2 ∧
    (elems (after [.insert (.str (List.replicate 256 97)) 1, .insert (.str (List.replicate 256 97)) 1])).length = 1 := by decide +kernel

/-- Some texts as keys, with a deletion and a replacement. -/
example : (∀ o ∈ [Op.insert (.str [97]) 1, .insert (.str [98, 99]) 2, .replace (.str [97]) 3, .insert (.str [98, 99]) 4, .del (.str [100])], Kind.Admits .texts (Op.name o)) ∧
    (find (after [.insert (.str [97]) 1, .insert (.str [98, 99]) 2, .replace (.str [97]) 3, .insert (.str [98, 99]) 4, .del (.str [100])]) (.str [97])).map (fun e => e.val) = some 3 ∧
    (find (after [.insert (.str [97]) 1, .insert (.str [98, 99]) 2, .replace (.str [97]) 3, .insert (.str [98, 99]) 4, .del (.str [100])]) (.str [98, 99])).map (fun e => e.val) = some 2 := by
  refine ⟨?_, by decide, by decide⟩
  intro o ho
  simp only [List.mem_cons, List.not_mem_nil, or_false] at ho
  rcases ho with h | h | h | h | h <;> subst h <;> simp [Op.name, Kind.Admits]

/-- The other kinds of keys are met. -/
example : Kind.Admits (.ints 0) (.int 31000) ∧ Kind.Admits (.ints (-20000)) (.int (BitVec.ofInt 16 (-20000))) ∧ Kind.Admits (.ulongs 65000) (.ulong 65536) ∧
    Kind.Admits .ids (.dhkey Dhkey.zero) ∧ Kind.Admits .uuids (.uuid 7) ∧ Kind.Admits .doubles (.dbl (-3)) := by
  simp only [Kind.Admits]; decide

/-- An immutable tree. -/
example : step ({ (after [.insert (.str [97]) 1]) with immutable := true }) (.insert (.str [97]) 2) = .ok { (after [.insert (.str [97]) 1]) with immutable := true } := by decide

/-! ## C68: lookups stay fast -/

/-- C68: after every history, with any keys at all, no call has followed a null pointer, and the number of comparisons a lookup needs is at most
twice the logarithm of the number of entries. -/
theorem C68_depth (inPlace : Bool) (ops : List (Op V)) :
    ∃ t : Tree V, Built inPlace ops t ∧ 2 ^ Rb.Spec.depth t.root ≤ ((elems t).length + 1) ^ 2 := by
  rcases run_valid ops (t := { (create : Tree V) with inPlace := inPlace }) ⟨0, .leaf⟩ rfl with ⟨t, e1, ⟨n, e2⟩, _⟩
  refine ⟨t, e1, ?_⟩
  have h1 := Rb.rb_depth e2
  have h2 := Rb.rb_size e2
  simp only [Nat.add_zero] at h1
  calc 2 ^ Rb.Spec.depth t.root ≤ 2 ^ (2 * n) := Nat.pow_le_pow_right (by omega) h1
    _ = (2 ^ n) ^ 2 := by rw [Nat.mul_comm, Nat.pow_mul]
    _ ≤ ((elems t).length + 1) ^ 2 := Nat.pow_le_pow_left h2 2

/-- C68: a lookup makes at most as many comparisons as the tree is deep. -/
theorem C68_comparisons (cmp : Elem V → Int) : ∀ (t : Rb.T (Elem V)) (p : List (Rb.Frame (Elem V))) {c : Rb.Color} {l : Rb.T (Elem V)} {x : Elem V}
    {r : Rb.T (Elem V)} {q : List (Rb.Frame (Elem V))}, Rb.locate cmp t p = some (c, l, x, r, q) → q.length < p.length + Rb.Spec.depth t := by
  intro t
  induction t with
  | leaf => intro p c l x r q h; simp [Rb.locate] at h
  | node c0 l0 x0 r0 ihl ihr =>
    intro p c l x r q h
    unfold Rb.locate at h
    simp only [Rb.Spec.depth]
    split at h
    · have := ihl _ h
      simp only [List.length_cons] at this
      omega
    · split at h
      · have := ihr _ h
        simp only [List.length_cons] at this
        omega
      · simp only [Option.some.injEq, Prod.mk.injEq] at h
        rw [h.2.2.2.2]
        omega

/-- Fifteen keys in ascending order: the tree is not a list. -/
example : Rb.Spec.depth (after ((List.range 15).map fun i => Op.insert (.ulong (BitVec.ofNat 32 i)) i)).root = 6 ∧
    (elems (after ((List.range 15).map fun i => Op.insert (.ulong (BitVec.ofNat 32 i)) i))).length = 15 := by decide +kernel

/-! ## C69: a clone holds the same -/

/-- C69, partial: a clone of a tree holds the same entries, and further changes of the one do not change the other (a tree is a value here, and a
clone always copies). Missing: keys outside the kinds above. -/
theorem C69_clone_partial {K : Kind} {inPlace : Bool} {ops : List (Op V)} {t : Tree V} (h : Built inPlace ops t) (ho : ∀ o ∈ ops, K.Admits (Op.name o)) (frozen : Bool) :
    ∃ c, clone { t with immutable := frozen } = .ok c ∧ Holds c (Spec.after (fun _ => none) ops) ∧ entries c = entries t ∧ c.immutable = frozen ∧ c.inPlace = false := by
  have hk := (built_keeps h ho).1
  have hk' : Keeps K { t with immutable := frozen } (Spec.after (fun _ => none) ops) := ⟨⟨hk.good.valid, hk.good.keys, hk.good.sorted, hk.good.size⟩, hk.same⟩
  rcases clone_keeps hk' with ⟨c, e1, e2, e3, e4⟩
  refine ⟨c, e1, e2.holds, ?_, e3, e4⟩
  -- two sorted lists with the same members
  have uniq : ∀ (a b : List (Name × V)), (∀ x, x ∈ a ↔ x ∈ b) → a.Pairwise (fun x y => Less x.1 y.1) → b.Pairwise (fun x y => Less x.1 y.1) → a = b := by
    intro a
    induction a with
    | nil =>
      intro b hm _ _
      cases b with
      | nil => rfl
      | cons y b => exact absurd ((hm y).2 (by simp)) (by simp)
    | cons x a ih =>
      intro b hm ha hb
      cases b with
      | nil => exact absurd ((hm x).1 (by simp)) (by simp)
      | cons y b =>
        rw [List.pairwise_cons] at ha hb
        have hxy : x = y := by
          rcases List.mem_cons.1 ((hm x).1 (by simp)) with h1 | h1
          · exact h1
          · rcases List.mem_cons.1 ((hm y).2 (by simp)) with h2 | h2
            · exact h2.symm
            · exact absurd (hb.1 x h1) (less_asymm (ha.1 y h2))
        subst hxy
        rw [ih b ?_ ha.2 hb.2]
        intro z
        constructor
        · intro hz
          rcases List.mem_cons.1 ((hm z).1 (by simp [hz])) with h1 | h1
          · subst h1; exact absurd (ha.1 z hz) (less_irrefl _)
          · exact h1
        · intro hz
          rcases List.mem_cons.1 ((hm z).2 (by simp [hz])) with h1 | h1
          · subst h1; exact absurd (hb.1 z hz) (less_irrefl _)
          · exact h1
  refine uniq _ _ ?_ e2.holds.sorted hk.holds.sorted
  rintro ⟨k, v⟩
  rw [e2.holds.same, hk.holds.same]

/-- An in-place tree with two texts of 256 bytes that differ in the last one. -/
def longKeys : Tree Nat :=
  match run { (create : Tree Nat) with inPlace := true } [.insert (.str (List.replicate 255 97 ++ [98])) 1, .insert (.str (List.replicate 255 97 ++ [99])) 2] with
  | .ok t => t
  | .error _ => create

/-- C69 fails for long texts: the clone of an in-place tree has one entry instead of two, and its size is two. -/
theorem C69_long_refuted : (elems longKeys).length = 2 ∧ (clone longKeys).toOption.map (fun c => ((elems c).length, c.size)) = some (1, 2) := by
  constructor
  · decide +kernel
  · decide +kernel

/-- A clone of a tree with two texts. -/
example : ∃ c, clone (after [.insert (.str [97]) 1, .insert (.str [98]) 2]) = .ok c ∧ entries c = [(.str [97], 1), (.str [98], 2)] :=
  ⟨(match clone (after [.insert (.str [97]) 1, .insert (.str [98]) 2]) with | .ok c => c | .error _ => create), by decide, by decide⟩

/-! ## C70: the entry at or after a key -/

/-- There is a function `np_tree_find_gte_…` for keys of this kind. -/
def Spec.Kind.HasGte : Kind → Prop
  | .texts => True
  | .doubles => True
  | .ints _ => True
  | .ulongs _ => True
  | _ => False

/-- C70, partial: the entry returned is the smallest one that is not before the key, it is reported as found exactly if it has that key, and
nothing is returned only if all entries are before the key. Missing: keys outside the kinds above. -/
theorem C70_gte_partial {K : Kind} (hK : K.HasGte) {inPlace : Bool} {ops : List (Op V)} {t : Tree V} (h : Built inPlace ops t) (ho : ∀ o ∈ ops, K.Admits (Op.name o))
    (n : Name) (hn : K.Admits n) :
    match findGte t n with
    | none => ∀ e ∈ entries t, Less e.1 n
    | some (e, fnd) => (e.key.name, e.val) ∈ entries t ∧ ¬ Less e.key.name n ∧ (∀ e' ∈ entries t, ¬ Less e'.1 n → e'.1 = e.key.name ∨ Less e.key.name e'.1) ∧
        fnd = some (decide (e.key.name = n)) := by
  rcases built_keeps h ho with ⟨hk, _, _⟩
  have hg := gte_spec hk hn
  unfold findGte
  rw [hg]
  cases hf : (elems t).find? (fun e => decide (e.key.name = n ∨ Less n e.key.name)) with
  | none =>
    simp only []
    intro e he
    unfold entries at he
    rcases List.mem_map.1 he with ⟨e', h1, h2⟩
    have := List.find?_eq_none.1 hf e' h1
    simp only [decide_eq_true_eq, not_or] at this
    rw [← h2]
    rcases hk.good.sought h1 hn with ⟨_, g⟩ | ⟨_, g⟩ | ⟨_, g⟩
    · exact absurd g this.2
    · exact absurd g.symm this.1
    · exact g
  | some e =>
    simp only []
    have hmem := List.mem_of_find?_eq_some hf
    have hp := List.find?_some hf
    simp only [decide_eq_true_eq] at hp
    refine ⟨List.mem_map.2 ⟨e, hmem, rfl⟩, ?_, ?_, ?_⟩
    · rcases hp with hp | hp
      · rw [hp]; exact less_irrefl _
      · exact less_asymm hp
    · intro e' he' hnl
      unfold entries at he'
      rcases List.mem_map.1 he' with ⟨e2, h1, h2⟩
      rw [← h2] at hnl ⊢
      simp only [] at hnl ⊢
      have h3 : e2.key.name = n ∨ Less n e2.key.name := by
        rcases hk.good.sought h1 hn with ⟨_, g⟩ | ⟨_, g⟩ | ⟨_, g⟩
        · exact Or.inr g
        · exact Or.inl g.symm
        · exact absurd g hnl
      -- the first one that qualifies
      have first : ∀ l : List (Elem V), l.Pairwise (fun a b => Less a.key.name b.key.name) → l.find? (fun e => decide (e.key.name = n ∨ Less n e.key.name)) = some e →
          ∀ x ∈ l, (x.key.name = n ∨ Less n x.key.name) → x.key.name = e.key.name ∨ Less e.key.name x.key.name := by
        intro l
        induction l with
        | nil => intro _ hh; simp at hh
        | cons a l ih =>
          intro hs hh x hx hq
          rw [List.pairwise_cons] at hs
          rw [List.find?_cons] at hh
          split at hh
          · cases hh
            rcases List.mem_cons.1 hx with hx | hx
            · exact Or.inl (by rw [hx])
            · exact Or.inr (hs.1 x hx)
          · rename_i hna
            rcases List.mem_cons.1 hx with hx | hx
            · subst hx; simp [hq] at hna
            · exact ih hs.2 hh x hx hq
      exact first (elems t) hk.good.sorted hf e2 h1 h3
    · rcases hk.good.key hmem with ⟨h1, h2⟩
      rw [h2, name_stored h1]
      generalize he : e.key.name = k at *
      clear hf hmem hg h2
      cases K <;> simp only [Kind.HasGte] at hK <;> cases n <;> simp only [Kind.Admits] at hn <;> cases k <;> simp only [Kind.Admits] at h1
      case texts.str.str a b =>
        rw [(stored_str (K := .texts) (ip := t.inPlace) (s := b) h1).1]
        simp only [sameKey, Option.some.injEq]
        rcases hp with hp | hp
        · simp only [Name.str.injEq] at hp
          subst hp
          have : ∀ (n : Nat) (s : List Nat), strncmp n s s = 0 := by
            intro n
            induction n with
            | zero => intro s; rfl
            | succ n ih => intro s; cases s with
              | nil => rfl
              | cons x s => rw [strncmp, if_pos rfl]; exact ih s
          rw [this]
          simp
        · -- a greater text is not a prefix
          have hne : b ≠ a := by
            intro e2; subst e2; exact less_irrefl _ hp
          have pref : ∀ (b a : List Nat), a < b → strncmp b.length b a ≠ 0 ∨ ¬ (∀ x ∈ b, 0 < x) := by
            intro b
            induction b with
            | nil => intro a h; simp at h
            | cons x b ih =>
              intro a h
              cases a with
              | nil =>
                by_cases hx : 0 < x
                · left; simp only [List.length_cons, strncmp]; omega
                · right; intro hall; exact hx (hall x (by simp))
              | cons y a =>
                rcases List.cons_lt_cons_iff.1 h with h1 | ⟨h1, h2⟩
                · left
                  simp only [List.length_cons, strncmp]
                  rw [if_neg (by omega)]
                  omega
                · subst h1
                  rcases ih a h2 with h3 | h3
                  · left; simp only [List.length_cons, strncmp, if_true]; exact h3
                  · right; intro hall; exact h3 (fun z hz => hall z (by simp [hz]))
          rcases pref b a hp with h3 | h3
          · have hd : decide (Name.str b = Name.str a) = false := by simp [hne]
            rw [hd]
            simpa using h3
          · exact absurd (fun x hx => (h1.2 x hx).1) h3
      all_goals
        simp only [stored, sameKey, Option.some.injEq, Name.dbl.injEq, Name.int.injEq, Name.ulong.injEq]
        rfl

/-- The entry at or after `ab` is `b`, and it is not reported as found. -/
example : (findGte (after [.insert (.str [97]) 1, .insert (.str [98]) 2]) (.str [97, 98])).map (fun r => (r.1.val, r.2)) = some (2, some false) ∧
    (findGte (after [.insert (.str [97]) 1, .insert (.str [98]) 2]) (.str [97])).map (fun r => (r.1.val, r.2)) = some (1, some true) ∧
    (findGte (after [.insert (.str [97]) 1, .insert (.str [98]) 2]) (.str [99])).map (fun r => (r.1.val, r.2)) = none := by decide

end Np.Tree
