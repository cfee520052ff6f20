import Verif.Json.Lemmas
/-! # Properties of the JSON of a tree -/
namespace Np.Json
open _root_.Np.Json.Spec

/-! ## C203: the JSON of a tree shows the tree -/

/-- At every path of names, at any depth, there is in the JSON what is in the tree, and nothing where the tree has nothing. -/
theorem C203_paths_partial (fmt : Nat → Text) (t : Tree) (h : Good fmt (.tree t)) :
    ∃ j, toJson fmt t = .ok j ∧ ∀ p, match Spec.get fmt p (.tree t) with
      | some w => ∃ k, jget p j = some k ∧ Shows fmt w k
      | none => jget p j = none := by
  obtain ⟨j, hj, hr⟩ := conv_good fmt (.tree t) h
  refine ⟨j, ?_, fun p => rel_get fmt p (.tree t) j hr⟩
  rw [conv] at hj
  unfold toJson
  cases q : loop fmt t { obj := [], arr := none, useArray := false } with
  | error f => rw [q] at hj; simp at hj
  | ok a =>
    rw [q] at hj
    simp only [Except.ok.injEq, Option.some.injEq] at hj
    rw [← hj]; rfl

/-- {"a": 5, "b": {"c": "x", 7: 9}}, where 7 is a `uint32_t`. -/
def sample : Tree := ofList [(.str [97], .int 5), (.str [98], .tree (ofList [(.str [99], .text [120] true), (.ulong 7, .int 9)]))]

example : Good (fun _ => []) (.tree sample) := by
  simp [sample, ofList, Good, GoodTree, names, nameOf, digits]

/-- The name of a text is the text. -/
theorem C203_text_name_partial (fmt : Nat → Text) (t : Text) (x : Int) (hx : x.natAbs ≤ 2 ^ 53) : toJson fmt (ofList [(.str t, .int x)]) = .ok (.obj [(t, .num x)]) := by
  simp [toJson, ofList, loop, nameOf, conv, add, listKey, finish, Except.map, put, toDouble_exact hx]

/-- The name of a number are its decimal digits, without a zero in front. -/
theorem C203_number_name_partial (fmt : Nat → Text) (n : Nat) (hn : n < 2 ^ 32) (x : Int) (hx : x.natAbs ≤ 2 ^ 53) :
    ∃ t, toJson fmt (ofList [(.ulong n, .int x)]) = .ok (.obj [(t, .num x)]) ∧ readNumber t = n ∧ (∀ c ∈ t, 48 ≤ c ∧ c ≤ 57) ∧ (0 < n → t.head? ≠ some 48) := by
  have hp : n < 10 ^ 11 := by omega
  obtain ⟨h1, h2⟩ := digits_read 11 n hp
  refine ⟨digits 11 n, ?_, h1, h2, ?_⟩
  · simp [toJson, ofList, loop, nameOf, conv, add, listKey, finish, Except.map, put, toDouble_exact hx]
  · intro h0
    obtain ⟨c, r, h3, h4⟩ := digits_head 11 n h0 hp
    rw [h3]
    simp only [List.head?_cons, ne_eq, Option.some.injEq]
    omega

example : toJson (fun _ => []) (ofList [(.ulong 420, .int 7)]) = .ok (.obj [([52, 50, 48], .num 7)]) := by
  simp [toJson, ofList, loop, nameOf, conv, add, listKey, finish, Except.map, put, digits, toDouble, nearest]

/-- Two keys that are shown by the same name: only the later value is shown. -/
theorem C203_same_name_refuted (fmt : Nat → Text) (a b : Key) (n : Text) (ha : nameOf fmt a = some n) (hb : nameOf fmt b = some n) (hla : listKey a = false) (hlb : listKey b = false)
    (x y : Int) (hx : x.natAbs ≤ 2 ^ 53) (hy : y.natAbs ≤ 2 ^ 53) : toJson fmt (ofList [(a, .int x), (b, .int y)]) = .ok (.obj [(n, .num y)]) := by
  simp [toJson, ofList, loop, ha, hb, hla, hlb, conv, add, put, finish, Except.map, toDouble_exact hx, toDouble_exact hy]

/-- The text "5" and the number 5 are such. -/
example : nameOf (fun _ => []) (.str [53]) = some [53] ∧ nameOf (fun _ => []) (.ulong 5) = some [53] ∧ Key.str [53] ≠ .ulong 5 := by
  refine ⟨rfl, rfl, by simp⟩

/-- Entries whose key is an id, a hash or another kind are left out, whatever comes before and after. -/
theorem C203_other_key_refuted (fmt : Nat → Text) (l m : List (Key × Val)) (n : Nat) (v : Val) :
    toJson fmt (ofList (l ++ (.other n, v) :: m)) = toJson fmt (ofList (l ++ m)) := by
  unfold toJson
  have : ∀ (l : List (Key × Val)) (a : Acc), loop fmt (ofList (l ++ (.other n, v) :: m)) a = loop fmt (ofList (l ++ m)) a := by
    intro l
    induction l with
    | nil => intro a; simp only [List.nil_append, ofList]; rw [loop]; rfl
    | cons e es ih =>
      intro a
      obtain ⟨k, w⟩ := e
      simp only [List.cons_append, ofList]
      rw [loop, loop]
      split
      · exact ih a
      · split
        · rfl
        · exact ih _
  rw [this]

/-- A text that is not UTF-8 is left out. -/
theorem C203_text_refuted (fmt : Nat → Text) (n t : Text) : toJson fmt (ofList [(.str n, .text t false)]) = .ok (.obj []) := by
  simp [toJson, ofList, loop, nameOf, conv, add, listKey, finish, Except.map]

/-! ## C204: the JSON of a list is a list -/

/-- A tree with whole numbers as keys becomes the list of the values, in the order of the tree. -/
theorem C204_list_partial (fmt : Nat → Text) (l : List (Int × Val)) (hl : l ≠ []) (h : ∀ e ∈ l, Good fmt e.2) :
    ∃ js, toJson fmt (ofList (l.map fun e => (.int e.1, e.2))) = .ok (.arr js) ∧ js.length = l.length ∧
      ∀ (i : Nat) (hi : i < l.length), ∃ k, js[i]? = some k ∧ Shows fmt l[i].2 k ∧ ∀ p, match Spec.get fmt p l[i].2 with
        | some w => ∃ k', jget p k = some k' ∧ Shows fmt w k'
        | none => jget p k = none := by
  cases l with
  | nil => exact absurd rfl hl
  | cons e es =>
    obtain ⟨j, hj, hr⟩ := conv_good fmt e.2 (h e (List.mem_cons_self ..))
    obtain ⟨ks, h1, h2⟩ := loop_list fmt (es.map fun e => (Key.int e.1, e.2)) [] [j] (by
      intro x hx
      obtain ⟨y, hy, rfl⟩ := List.mem_map.1 hx
      exact ⟨by simp [nameOf], h y (List.mem_cons_of_mem _ hy)⟩)
    refine ⟨j :: ks, ?_, ?_, ?_⟩
    · unfold toJson
      have : loop fmt (ofList ((e :: es).map fun e => (Key.int e.1, e.2))) { obj := [], arr := none, useArray := false } = .ok { obj := [], arr := some (j :: ks), useArray := true } := by
        rw [List.map_cons, ofList, loop]
        simp only [nameOf, hj, listKey, Bool.or_true, add, if_true, Option.getD_none, Option.toList_some, List.nil_append]
        exact h1
      rw [this]; rfl
    · have := h2.length_eq
      simp at this
      simp [this]
    · have all : List.Forall₂ (fun (e : Int × Val) k => Rel fmt e.2 k) (e :: es) (j :: ks) := by
        refine .cons hr ?_
        clear h1 hj hr
        induction es generalizing ks with
        | nil => cases h2; exact .nil
        | cons a as ih =>
          cases h2 with
          | cons p q =>
            refine .cons p.2 (ih (by simp) (fun x hx => h x ?_) _ q)
            rcases List.mem_cons.1 hx with r | r
            · exact r ▸ List.mem_cons_self ..
            · exact List.mem_cons_of_mem _ (List.mem_cons_of_mem _ r)
      intro i hi
      have key : ∀ (l : List (Int × Val)) (js : List Json), List.Forall₂ (fun (e : Int × Val) k => Rel fmt e.2 k) l js → ∀ (i : Nat) (hi : i < l.length),
          ∃ k, js[i]? = some k ∧ Rel fmt l[i].2 k := by
        intro l js hf
        induction hf with
        | nil => intro i hi; simp at hi
        | cons p _ ih =>
          intro i hi
          cases i with
          | zero => exact ⟨_, rfl, p⟩
          | succ i => simpa using ih i (by simpa using hi)
      obtain ⟨k, hk, hrel⟩ := key _ _ all i hi
      exact ⟨k, hk, rel_shows fmt _ k hrel, fun p => rel_get fmt p _ k hrel⟩

example : ∀ e ∈ [((0 : Int), Val.int 4), (1, .tree sample)], Good (fun _ => []) e.2 := by
  simp [sample, ofList, Good, GoodTree, names, nameOf, digits]

/-- The keys are not the positions: of two lists that differ in their keys, the JSON is the same. -/
theorem C204_keys_refuted (fmt : Nat → Text) : ∀ (l : List (Int × Val)) (f : Int → Int),
    toJson fmt (ofList (l.map fun e => (.int (f e.1), e.2))) = toJson fmt (ofList (l.map fun e => (.int e.1, e.2))) := by
  intro l f
  have put' : ∀ (a : Acc) (n m : Text) (j : Option Json), a.useArray = true → add a n j = add a m j := by
    intro a n m j h
    unfold add
    rw [if_pos h, if_pos h]
  have : ∀ (l : List (Int × Val)) (a : Acc), loop fmt (ofList (l.map fun e => (.int (f e.1), e.2))) a = loop fmt (ofList (l.map fun e => (.int e.1, e.2))) a := by
    intro l
    induction l with
    | nil => intro a; rfl
    | cons e es ih =>
      intro a
      simp only [List.map_cons, ofList]
      rw [loop, loop]
      simp only [nameOf]
      split
      · rfl
      · rw [ih]
        rw [put' { a with useArray := a.useArray || listKey (.int (f e.1)) } _ (if e.1 < 0 then 45 :: digits 6 e.1.natAbs else digits 6 e.1.natAbs) _ (by simp [listKey])]
        rfl
  unfold toJson
  rw [this]

/-- What has a name and comes before a number is lost, what comes after it loses its name. -/
theorem C204_mixed_refuted (fmt : Nat → Text) (n : Text) (i : Int) (x y : Int) (hx : x.natAbs ≤ 2 ^ 53) (hy : y.natAbs ≤ 2 ^ 53) :
    toJson fmt (ofList [(.str n, .int x), (.int i, .int y)]) = .ok (.arr [.num y]) ∧
    toJson fmt (ofList [(.int i, .int y), (.str n, .int x)]) = .ok (.arr [.num y, .num x]) := by
  constructor <;> simp [toJson, ofList, loop, nameOf, conv, add, listKey, finish, Except.map, put, toDouble_exact hx, toDouble_exact hy]

/-- An empty list is an object. -/
theorem C204_empty_refuted (fmt : Nat → Text) : toJson fmt (ofList []) = .ok (.obj []) := by
  simp [toJson, ofList, loop, finish, Except.map]

/-! ## C205: whole numbers are shown exactly -/

/-- Up to 2^53, and so for all types of 32 bits and less. -/
theorem C205_small_partial (fmt : Nat → Text) (k : Text) (n : Int) (h : n.natAbs ≤ 2 ^ 53) : toJson fmt (ofList [(.str k, .int n)]) = .ok (.obj [(k, .num n)]) := by
  simp [toJson, ofList, loop, nameOf, conv, add, listKey, finish, Except.map, put, toDouble_exact h]

/-- Not beyond. -/
theorem C205_large_refuted (fmt : Nat → Text) (k : Text) : toJson fmt (ofList [(.str k, .int (2 ^ 53 + 1))]) = .ok (.obj [(k, .num (2 ^ 53))]) := by
  have : toDouble (2 ^ 53 + 1) = 2 ^ 53 := by decide
  simp only [toJson, ofList, loop, nameOf, conv, this]
  rfl

/-! ## C206: showing a tree is safe -/

/-- If there is no single character in it, at any depth, there is a result. -/
theorem C206_safe_partial (fmt : Nat → Text) (t : Tree) (h : NoCharTree t) : ∃ j, toJson fmt t = .ok j := by
  obtain ⟨a, ha⟩ := loop_safe fmt t { obj := [], arr := none, useArray := false } h
  exact ⟨finish a, by rw [toJson, ha]; rfl⟩

/-- A tree that mixes keys, with a text that is not UTF-8. -/
example : NoCharTree (ofList [(.int 1, .tree sample), (.other 2, .int 3), (.str [1], .text [255] false)]) := by
  simp [sample, ofList, NoChar, NoCharTree]

/-- With a single character, memory is read that is no longer in use, whatever comes after it. -/
theorem C206_char_refuted (fmt : Nat → Text) (k : Text) (c : Nat) (rest : Tree) : toJson fmt (.cons (.str k) (.char c) rest) = .error .dangling := by
  simp [toJson, loop, nameOf, conv, Except.map]

end Np.Json
