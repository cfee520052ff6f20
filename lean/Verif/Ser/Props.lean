import Verif.Ser.Lemmas4

set_option linter.unusedVariables false

/-! # C43, C78: the serialization of trees -/
namespace Np.Ser

open Np.Tree (Name Tree Op)
open Np.Tree.Spec (Kind Op.name Built entries)
open Np.Cbor (Byte byte)
open _root_.Np.Ser.Spec

/-! ## C43: a tree is read back as it was -/

/-- C43, partial: a tree that was built by any calls, with keys of one kind and values that arrive, is written and read back, whatever follows in the
buffer: the tree read has the same entries, nested trees included, and exactly the bytes that were written are consumed. Missing: values and keys that do
not arrive (`Travels`, `KeyTravels`); the theorems below show what happens to them. -/
theorem C43_roundtrip_partial {lib : Lib} (hf : Faithful lib) {K : Kind} {ops : List (Op Val)} {t : Tree Val} (h : Built false ops t)
    (ho : ∀ o ∈ ops, K.Admits (Op.name o) ∧ KeyTravels (Op.name o)) (hv : ∀ o ∈ ops, ∀ v ∈ valueOf o, Travels v) {b : List Byte} (hw : write lib t = some b)
    (rest : List Byte) : ∃ t', read lib Tree.create (b ++ rest) = .ok (t', rest) ∧ entries t' = entries t ∧ t'.size = t.size := by
  have hk := (Tree.built_keeps h fun o ho' => (ho o ho').1).1
  have hh := hk.holds
  have hord : Ordered K (Ents.of (entries t)).list := by
    rw [list_of]
    refine ⟨?_, hh.sorted⟩
    rintro ⟨k, v⟩ hp
    exact after_name ops _ (fun k => K.Admits k ∧ KeyTravels k) (by simp) ho k v ((hh.same k v).1 hp)
  have hall : AllTravel (Ents.of (entries t)) := by
    refine allTravel_of _ ?_
    rintro ⟨k, v⟩ hp
    exact after_value ops _ Travels (by simp) hv k v ((hh.same k v).1 hp)
  unfold write at hw
  cases hwv : writeVal lib maxNesting (.tree .plain (.of (entries t))) with
  | none => rw [hwv] at hw; cases hw
  | some q =>
    rcases q with ⟨n, b'⟩
    rw [hwv] at hw
    simp only [Option.map_some, Option.some.injEq] at hw
    subst hw
    rcases (read_write hf (.tree .plain (.of (entries t))) ⟨⟨K, hord⟩, hall⟩ maxNesting n b' hwv).2 rest with ⟨t', e1, e2⟩
    have e3 := e2 _ _ rfl
    refine ⟨t', ?_, ?_, ?_⟩
    · unfold read
      rw [e1]
    · rw [e3.1, list_of]
    · rw [e3.2.1, list_of, hh.size]

/-- C43: writing succeeds, if trees are nested at most fourteen deep (an array of two or an id counts as a level) and none has more than 32767 entries. -/
theorem C43_written {lib : Lib} {K : Kind} {ops : List (Op Val)} {t : Tree Val} (h : Built false ops t) (ho : ∀ o ∈ ops, K.Admits (Op.name o))
    (hv : ∀ o ∈ ops, ∀ v ∈ valueOf o, Small v ∧ levels v ≤ 14) (hs : t.size ≤ 32767) : ∃ b, write lib t = some b := by
  have hk := (Tree.built_keeps h ho).1
  have hh := hk.holds
  have hval : ∀ p ∈ entries t, Small p.2 ∧ levels p.2 ≤ 14 := by
    rintro ⟨k, v⟩ hp
    exact after_value ops _ (fun v => Small v ∧ levels v ≤ 14) (by simp) hv k v ((hh.same k v).1 hp)
  have h1 : Small (.tree .plain (.of (entries t))) := by
    simp only [Small, list_of]
    exact ⟨by rw [← hh.size]; exact hs, allSmall_of _ fun p hp => (hval p hp).1⟩
  have h2 : levels (.tree .plain (.of (entries t))) ≤ maxNesting := by
    simp only [levels, maxNesting]
    have := levelsOf_of 14 (entries t) fun p hp => ⟨by omega, (hval p hp).2⟩
    omega
  rcases writeVal_some lib _ h1 maxNesting h2 with ⟨n, b, e, _⟩
  exact ⟨b, by unfold write; rw [e]; rfl⟩

/-- A library that writes numbers in unary. -/
def unary : Lib where
  flt x := byte 250 :: (if x < 0 then 1 else 0) :: (List.replicate x.natAbs 1 ++ [0])
  dbl x := byte 251 :: (if x < 0 then 1 else 0) :: (List.replicate x.natAbs 1 ++ [0])
  read
    | _ :: s :: l => some (if s = 1 then -((l.takeWhile (· = 1)).length : Int) else (l.takeWhile (· = 1)).length, (l.dropWhile (· = 1)).drop 1)
    | _ => none

theorem ones (n : Nat) (r : List Byte) : ((List.replicate n (1 : Byte) ++ [0]) ++ r).takeWhile (fun x => decide (x = 1)) = List.replicate n 1 ∧
    ((List.replicate n (1 : Byte) ++ [0]) ++ r).dropWhile (fun x => decide (x = 1)) = 0 :: r := by
  induction n with
  | zero => simp
  | succ n ih => simpa [List.replicate_succ] using ih

/-- There is such a library. -/
theorem unary_faithful : Faithful unary := by
  refine ⟨fun x => ⟨⟨_, _, rfl, by decide⟩, ⟨_, _, rfl, by decide⟩⟩, ?_, ?_⟩ <;>
  · intro x r
    simp only [unary, List.cons_append]
    rw [(ones _ r).1, (ones _ r).2]
    by_cases hx : x < 0
    · simp [hx]; omega
    · simp [hx]; omega

/-- What a value is: the number of its type, and the number or the bytes. -/
def look : Val → Nat × List Int
  | .short v => (1, [v.toInt])
  | .int v => (2, [v.toInt])
  | .long v => (3, [v.toInt])
  | .llong v => (4, [v.toInt])
  | .flt v => (5, [v])
  | .dbl v => (6, [v])
  | .str s => (7, s.map fun c => (c.toNat : Int))
  | .char c => (8, [(c.toNat : Int)])
  | .ushort v => (10, [(v.toNat : Int)])
  | .uint v => (11, [(v.toNat : Int)])
  | .ulong v => (12, [(v.toNat : Int)])
  | .ullong v => (13, [(v.toNat : Int)])
  | .pair a b => (14, [(a.toNat : Int), (b.toNat : Int)])
  | .bin s => (19, s.map fun c => (c.toNat : Int))
  | .tree _ es => (20, [(es.list.length : Int)])
  | .dhkey _ => (21, [])
  | .hash s => (23, s.map fun c => (c.toNat : Int))
  | .other type => (type, [])

/-- A tree with these entries. -/
def treeOf (l : List (Name × Val)) : Tree Val := match Tree.run Tree.create (inserts l) with | .ok t => t | .error _ => Tree.create

/-- The entries after writing and reading. -/
def resent (l : List (Name × Val)) : Option (List (Name × (Nat × List Int))) :=
  match write unary (treeOf l) with
  | none => none
  | some b => (read unary Tree.create b).toOption.map fun p => (entries p.1).map fun e => (e.1, look e.2)

/-- C43 fails for a key of one character: the entry is lost. -/
theorem C43_short_key_refuted : resent [(.str [97], .int 5), (.str [98, 98], .int 6)] = some [(.str [98, 98], (2, [6]))] := by decide +kernel

/-- C43 fails for a text of one character: it comes back as a character. -/
theorem C43_short_text_refuted : resent [(.str [97, 97], .str [65])] = some [(.str [97, 97], (8, [65]))] := by decide +kernel

/-- C43 fails for an unsigned number of 2^63 or more: it comes back as 0. -/
theorem C43_large_refuted : resent [(.str [97, 97], .ullong 9223372036854775808)] = some [(.str [97, 97], (13, [0]))] := by decide +kernel

/-- C43 fails for a float: it comes back as a double. -/
theorem C43_float_refuted : resent [(.str [97, 97], .flt 3)] = some [(.str [97, 97], (6, [3]))] := by decide +kernel

/-- C43 fails for an unsigned character: nothing is written for it, and the next key is read as its value; the next value is lost. -/
theorem C43_unsigned_char_refuted : resent [(.str [97, 97], .other 9), (.str [98, 98], .int 6)] = some [(.str [97, 97], (7, [98, 98]))] := by decide +kernel

/-- C43 fails for a uuid as a key: the entry is not written. -/
theorem C43_uuid_refuted : resent [(.uuid 5, .int 6)] = some [] := by decide +kernel

/-- Values of many types and a nested tree meet the hypotheses, and arrive. -/
example : (∀ o ∈ inserts [(.str [97, 97], .int (-5)), (.str [98, 98], .str [65, 66]), (.str [99, 99], .tree .cwt (.cons (.ulong 7) (.dbl 3) (.cons (.ulong 8) (.pair 1 2) .nil)))],
      (Kind.Admits .texts (Op.name o) ∧ KeyTravels (Op.name o)) ∧ ∀ v ∈ valueOf o, Travels v ∧ Small v ∧ levels v ≤ 14) ∧
    resent [(.str [97, 97], .int (-5)), (.str [98, 98], .str [65, 66]), (.str [99, 99], .tree .cwt (.cons (.ulong 7) (.dbl 3) (.cons (.ulong 8) (.pair 1 2) .nil)))] =
      some [(.str [97, 97], (2, [-5])), (.str [98, 98], (7, [65, 66])), (.str [99, 99], (20, [2]))] := by
  refine ⟨?_, by decide +kernel⟩
  intro o ho
  simp only [inserts, List.map_cons, List.map_nil, List.mem_cons, List.not_mem_nil, or_false] at ho
  rcases ho with rfl | rfl | rfl
  · refine ⟨by simp [Kind.Admits, KeyTravels, Op.name], ?_⟩
    intro v hv
    simp only [valueOf, List.mem_singleton] at hv
    subst hv
    exact ⟨trivial, trivial, by decide⟩
  · refine ⟨by simp [Kind.Admits, KeyTravels, Op.name], ?_⟩
    intro v hv
    simp only [valueOf, List.mem_singleton] at hv
    subst hv
    refine ⟨?_, trivial, by decide⟩
    simp only [Travels]
    decide
  · refine ⟨by simp [Kind.Admits, KeyTravels, Op.name], ?_⟩
    intro v hv
    simp only [valueOf, List.mem_singleton] at hv
    subst hv
    refine ⟨⟨⟨.ulongs 0, ?_, ?_⟩, trivial, trivial, trivial⟩, ⟨by decide, trivial, trivial, trivial⟩, by decide⟩
    · intro p hp
      simp only [Ents.list, List.mem_cons, List.not_mem_nil, or_false] at hp
      rcases hp with rfl | rfl <;> simp only [Kind.Admits, KeyTravels] <;> decide
    · simp only [Ents.list]; decide

/-! ## C78: the computed size suffices -/

/-- C78, partial: after any calls, with keys of one kind, `np_tree_get_byte_size` is at least the number of bytes that are written, so that writing into
a buffer of that size does not fail for want of space. Missing: unsigned numbers of 16 bits from 32768 on, and hashes of more than 255 bytes; the theorems
below show that these fail. -/
theorem C78_size_partial {lib : Lib} (hl : Short lib) {K : Kind} {ops : List (Op Val)} (ho : ∀ o ∈ ops, K.Admits (Op.name o))
    (hv : ∀ o ∈ ops, ∀ v ∈ valueOf o, Counted v) : ∃ s, Sized.create.run ops = .ok s ∧ Built false ops s.tree ∧ writeInto lib s.byteSize s.tree = write lib s.tree := by
  rcases sized_run ops (s := Sized.create) (Tree.keeps_empty K false) rfl rfl ho with ⟨s, e1, e2, e3⟩
  refine ⟨s, e1, e2, ?_⟩
  have hk := (Tree.built_keeps (ip := false) e2 ho).1
  have hh := hk.holds
  have hc : AllCounted (Ents.of (entries s.tree)) := by
    refine allCounted_of _ ?_
    rintro ⟨k, v⟩ hp
    refine ⟨?_, after_value ops _ Counted (by simp) hv k v ((hh.same k v).1 hp)⟩
    intro x hx
    have := after_name ops _ K.Admits (by simp) ho k v ((hh.same k v).1 hp)
    simp only at hx
    rw [hx] at this
    cases K <;> simp only [Kind.Admits] at this
    exact this.1
  unfold writeInto
  cases hw : write lib s.tree with
  | none => rfl
  | some b =>
    simp only []
    rw [if_neg]
    unfold write at hw
    cases hwv : writeVal lib maxNesting (.tree .plain (.of (entries s.tree))) with
    | none => rw [hwv] at hw; cases hw
    | some q =>
      rcases q with ⟨n, b'⟩
      rw [hwv] at hw
      simp only [Option.map_some, Option.some.injEq] at hw
      subst hw
      have := valSize_bound hl (.tree .plain (.of (entries s.tree))) (by simpa only [Counted] using hc) maxNesting n b' hwv
      rw [valSize, total_of, list_of] at this
      simp only [wrapSize] at this
      unfold Sized.byteSize
      rw [hh.size, e3]
      omega

/-- The tree with its size after these insertions. -/
def sizedOf (l : List (Name × Val)) : Sized := match Sized.create.run (inserts l) with | .ok s => s | .error _ => Sized.create

/-- C78 fails for unsigned numbers of 16 bits from 32768 on: two bytes are missing, and the tree cannot be written into a buffer of the computed size. -/
theorem C78_uint_refuted : ((sizedOf [(.str [97, 97], .uint 40000)]).byteSize, (write unary (sizedOf [(.str [97, 97], .uint 40000)]).tree).map List.length) = (11, some 13) ∧
    (writeInto unary (sizedOf [(.str [97, 97], .uint 40000)]).byteSize (sizedOf [(.str [97, 97], .uint 40000)]).tree).isNone = true := by decide +kernel

/-- C78 fails for a hash of 256 bytes. -/
theorem C78_hash_refuted : (writeInto unary (sizedOf [(.str [97, 97], .hash (List.replicate 256 0))]).byteSize (sizedOf [(.str [97, 97], .hash (List.replicate 256 0))]).tree).isNone = true := by
  decide +kernel

/-- There is a library with such numbers. -/
example : Short ⟨fun _ => List.replicate 5 250, fun _ => List.replicate 9 251, fun _ => none⟩ := ⟨fun _ => by simp, fun _ => by simp⟩

/-- A tree with a replacement and a deletion: the size is that of what is left. -/
example : (match Sized.create.run [.insert (.str [97, 97]) (.uint 300), .insert (.str [98, 98]) (.str [65]), .replace (.str [97, 97]) (.uint 3), .del (.str [98, 98])] with
    | .ok s => s.byteSize
    | .error _ => 0) = 11 ∧ Counted (.uint 300) ∧ Counted (.str [65]) ∧ (write unary (treeOf [(.str [97, 97], .uint 3)])).map List.length = some 11 := by
  refine ⟨by decide +kernel, by simp [Counted], trivial, by decide +kernel⟩

end Np.Ser
