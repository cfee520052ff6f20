import Verif.Tree.Spec
import Verif.Rb.Lemmas2
import Verif.Dhkey.Lemmas

set_option linter.unusedVariables false
set_option linter.unusedSimpArgs false

/-! # Comparing keys -/
namespace Np.Tree

open _root_.Np.Tree.Spec
open _root_.Np.Rb (T Frame Color toList zip locate)
open _root_.Np.Rb.Spec (Cuts Valid)

variable {V : Type}

theorem less_irrefl (a : Name) : ¬ Less a a := by
  cases a with
  | str s => exact List.lt_irrefl s
  | _ => simp [Less]

theorem less_trans {a b c : Name} (h1 : Less a b) (h2 : Less b c) : Less a c := by
  cases a <;> cases b <;> simp only [Less] at h1 <;> cases c <;> simp only [Less] at h2 ⊢
  case str.str.str => exact List.lt_trans h1 h2
  all_goals omega

theorem less_asymm {a b : Name} (h1 : Less a b) : ¬ Less b a := fun h2 => less_irrefl a (less_trans h1 h2)

/-- The comparison says how two names are ordered. -/
def Tri (c : Int) (a b : Name) : Prop := (c < 0 ∧ Less a b) ∨ (c = 0 ∧ a = b) ∨ (c > 0 ∧ Less b a)

theorem Tri.lt {c : Int} {a b : Name} (h : Tri c a b) : c < 0 ↔ Less a b := by
  rcases h with ⟨h1, h2⟩ | ⟨h1, h2⟩ | ⟨h1, h2⟩
  · simp [h1, h2]
  · subst h2
    simp [h1, less_irrefl]
  · have := less_asymm h2
    simp [this]
    omega

theorem Tri.eq {c : Int} {a b : Name} (h : Tri c a b) : c = 0 ↔ a = b := by
  rcases h with ⟨h1, h2⟩ | ⟨h1, h2⟩ | ⟨h1, h2⟩
  · constructor
    · omega
    · intro e; subst e; exact absurd h2 (less_irrefl _)
  · simp [h1, h2]
  · constructor
    · omega
    · intro e; subst e; exact absurd h2 (less_irrefl _)

theorem Tri.gt {c : Int} {a b : Name} (h : Tri c a b) : c > 0 ↔ Less b a := by
  rcases h with ⟨h1, h2⟩ | ⟨h1, h2⟩ | ⟨h1, h2⟩
  · have := less_asymm h2
    simp [this]
    omega
  · subst h2
    simp [h1, less_irrefl]
  · simp [h1, h2]

theorem strncmp_tri : ∀ (n : Nat) (a b : List Nat), b.length < n → (∀ x ∈ a, 0 < x) → (∀ x ∈ b, 0 < x) → Tri (strncmp n a b) (.str a) (.str b) := by
  intro n
  induction n with
  | zero => intro a b h; omega
  | succ n ih =>
    intro a b h ha hb
    cases a with
    | nil =>
      cases b with
      | nil => exact Or.inr (Or.inl ⟨rfl, rfl⟩)
      | cons b bs =>
        have := hb b (by simp)
        refine Or.inl ⟨?_, ?_⟩
        · simp only [strncmp]; omega
        · exact List.nil_lt_cons b bs
    | cons a as =>
      have ha0 := ha a (by simp)
      cases b with
      | nil =>
        refine Or.inr (Or.inr ⟨?_, ?_⟩)
        · simp only [strncmp]; omega
        · exact List.nil_lt_cons a as
      | cons b bs =>
        simp only [List.length_cons] at h
        rw [strncmp]
        by_cases e : a = b
        · subst e
          rw [if_pos rfl]
          have := ih as bs (by omega) (fun x hx => ha x (by simp [hx])) (fun x hx => hb x (by simp [hx]))
          rcases this with ⟨h1, h2⟩ | ⟨h1, h2⟩ | ⟨h1, h2⟩
          · exact Or.inl ⟨h1, List.cons_lt_cons_iff.2 (Or.inr ⟨rfl, h2⟩)⟩
          · refine Or.inr (Or.inl ⟨h1, ?_⟩)
            simp only [Name.str.injEq] at h2
            rw [h2]
          · exact Or.inr (Or.inr ⟨h1, List.cons_lt_cons_iff.2 (Or.inr ⟨rfl, h2⟩)⟩)
        · rw [if_neg e]
          by_cases hl : a < b
          · exact Or.inl ⟨by omega, List.cons_lt_cons_iff.2 (Or.inl hl)⟩
          · exact Or.inr (Or.inr ⟨by omega, List.cons_lt_cons_iff.2 (Or.inl (by omega))⟩)

/-- Integers in the window compare by their size. -/
theorem int_tri {lo : Int} {a b : BitVec 16} (ha : lo ≤ a.toInt ∧ a.toInt < lo + 32768) (hb : lo ≤ b.toInt ∧ b.toInt < lo + 32768) :
    Tri ((a - b).toInt) (.int a) (.int b) := by
  have e : (a - b).toInt = a.toInt - b.toInt := by
    rw [BitVec.toInt_sub]
    rw [Int.bmod_def]
    split <;> omega
  rw [e]
  by_cases h1 : a.toInt < b.toInt
  · exact Or.inl ⟨by omega, h1⟩
  · by_cases h2 : b.toInt < a.toInt
    · exact Or.inr (Or.inr ⟨by omega, h2⟩)
    · refine Or.inr (Or.inl ⟨by omega, ?_⟩)
      rw [BitVec.eq_of_toInt_eq (show a.toInt = b.toInt by omega)]

theorem ulong_tri {lo : Nat} {a b : BitVec 32} (ha : lo ≤ a.toNat ∧ a.toNat < lo + 32768) (hb : lo ≤ b.toNat ∧ b.toNat < lo + 32768) :
    Tri (((a - b).setWidth 16).toInt) (.ulong a) (.ulong b) := by
  have e : ((a - b).setWidth 16).toInt = (a.toNat : Int) - b.toNat := by
    rw [BitVec.toInt_eq_toNat_bmod, BitVec.toNat_setWidth, BitVec.toNat_sub]
    rw [Int.bmod_def]
    have := a.isLt
    have := b.isLt
    split <;> omega
  rw [e]
  by_cases h1 : a.toNat < b.toNat
  · exact Or.inl ⟨by omega, h1⟩
  · by_cases h2 : b.toNat < a.toNat
    · exact Or.inr (Or.inr ⟨by omega, h2⟩)
    · refine Or.inr (Or.inl ⟨by omega, ?_⟩)
      rw [BitVec.eq_of_toNat_eq (show a.toNat = b.toNat by omega)]

theorem dbl_tri (a b : Int) : Tri (if a - b < 0 then -1 else if a - b > 0 then 1 else 0) (.dbl a) (.dbl b) := by
  by_cases h1 : a - b < 0
  · rw [if_pos h1]; exact Or.inl ⟨by omega, by simp only [Less]; omega⟩
  · rw [if_neg h1]
    by_cases h2 : a - b > 0
    · rw [if_pos h2]; exact Or.inr (Or.inr ⟨by omega, by simp only [Less]; omega⟩)
    · rw [if_neg h2]; exact Or.inr (Or.inl ⟨rfl, by rw [show a = b by omega]⟩)

theorem uuid_tri (a b : BitVec 128) : Tri (memcmp a b) (.uuid a) (.uuid b) := by
  unfold memcmp
  by_cases h1 : a.toNat < b.toNat
  · rw [if_pos h1]; exact Or.inl ⟨by omega, h1⟩
  · rw [if_neg h1]
    by_cases h2 : b.toNat < a.toNat
    · rw [if_pos h2]; exact Or.inr (Or.inr ⟨by omega, h2⟩)
    · rw [if_neg h2]; exact Or.inr (Or.inl ⟨rfl, by rw [BitVec.eq_of_toNat_eq (show a.toNat = b.toNat by omega)]⟩)

theorem dhkey_tri (a b : Dhkey) : Tri (a.cmp b) (.dhkey a) (.dhkey b) := by
  rcases Dhkey.cmp_spec a b with ⟨h1, h2⟩ | ⟨h1, h2⟩ | ⟨h1, h2⟩
  · exact Or.inr (Or.inr ⟨by omega, h2⟩)
  · exact Or.inl ⟨by omega, h2⟩
  · exact Or.inr (Or.inl ⟨h1, by rw [h2]⟩)

/-- A key as it is kept for an admitted name. -/
theorem stored_str {K : Kind} {ip : Bool} {s : List Nat} (h : K.Admits (.str s)) : stored ip (.str s) = .str s s.length ∧ (∀ x ∈ s, 0 < x) := by
  cases K with
  | texts =>
    simp only [Kind.Admits] at h
    constructor
    · unfold stored
      simp only []
      rw [Nat.min_eq_left h.1]
      cases ip with
      | true => rfl
      | false => simp [List.take_of_length_le h.1]
    · intro x hx
      exact (h.2 x hx).1
  | _ => simp [Kind.Admits] at h

theorem name_stored {K : Kind} {ip : Bool} {n : Name} (h : K.Admits n) : (stored ip n).name = n := by
  cases n with
  | str s => rw [(stored_str h).1]; rfl
  | _ => rfl

theorem sought_tri {K : Kind} {ip : Bool} {a b : Name} (ha : K.Admits a) (hb : K.Admits b) : Tri (elemCmp (sought a) (stored ip b)) a b := by
  cases K <;> cases a <;> simp only [Kind.Admits] at ha <;> cases b <;> simp only [Kind.Admits] at hb
  case texts.str.str s s' =>
    have h1 := stored_str (K := .texts) (ip := ip) (s := s') hb
    rw [h1.1]
    unfold sought elemCmp
    simp only []
    rw [if_neg (by omega)]
    exact strncmp_tri _ _ _ (by omega) (fun x hx => (ha.2 x hx).1) h1.2
  case doubles.dbl.dbl => exact dbl_tri _ _
  case ids.dhkey.dhkey => exact dhkey_tri _ _
  case uuids.uuid.uuid => exact uuid_tri _ _
  case ints.int.int => exact int_tri ha hb
  case ulongs.ulong.ulong => exact ulong_tri ha hb

theorem stored_tri {K : Kind} {ip : Bool} {a b : Name} (ha : K.Admits a) (hb : K.Admits b) : Tri (elemCmp (stored ip a) (stored ip b)) a b := by
  cases K <;> cases a <;> simp only [Kind.Admits] at ha <;> cases b <;> simp only [Kind.Admits] at hb
  case texts.str.str s s' =>
    have h1 := stored_str (K := .texts) (ip := ip) (s := s') hb
    have h2 := stored_str (K := .texts) (ip := ip) (s := s) ha
    rw [h1.1, h2.1]
    unfold elemCmp
    simp only []
    split
    · exact strncmp_tri _ _ _ (by omega) h2.2 h1.2
    · exact strncmp_tri _ _ _ (by omega) h2.2 h1.2
  case doubles.dbl.dbl => exact dbl_tri _ _
  case ids.dhkey.dhkey => exact dhkey_tri _ _
  case uuids.uuid.uuid => exact uuid_tri _ _
  case ints.int.int => exact int_tri ha hb
  case ulongs.ulong.ulong => exact ulong_tri ha hb

/-! ## Trees with keys of one kind -/

/-- Every element has the key of an admitted name, the elements are in order, and their number is the size. -/
structure Good (K : Kind) (t : Tree V) : Prop where
  valid : Valid t.root
  keys : ∀ e ∈ elems t, ∃ n, K.Admits n ∧ e.key = stored t.inPlace n
  sorted : (elems t).Pairwise fun a b => Less a.key.name b.key.name
  size : t.size = (elems t).length

theorem Good.key {K : Kind} {t : Tree V} (h : Good K t) {e : Elem V} (he : e ∈ elems t) : K.Admits e.key.name ∧ e.key = stored t.inPlace e.key.name := by
  rcases h.keys e he with ⟨n, h1, h2⟩
  rw [h2, name_stored h1]
  exact ⟨h1, rfl⟩

theorem Good.sought {K : Kind} {t : Tree V} (h : Good K t) {e : Elem V} (he : e ∈ elems t) {n : Name} (hn : K.Admits n) :
    Tri (against (sought n) e) n e.key.name := by
  rcases h.key he with ⟨h1, h2⟩
  unfold against
  rw [h2, name_stored h1]
  exact sought_tri hn h1

theorem Good.stored {K : Kind} {t : Tree V} (h : Good K t) {e : Elem V} (he : e ∈ elems t) {n : Name} (hn : K.Admits n) :
    Tri (against (stored t.inPlace n) e) n e.key.name := by
  rcases h.key he with ⟨h1, h2⟩
  unfold against
  rw [h2, name_stored h1]
  exact stored_tri hn h1

theorem cuts_of_tri {l : List (Elem V)} {c : Elem V → Int} {n : Name} (hs : l.Pairwise fun a b => Less a.key.name b.key.name)
    (h : ∀ e ∈ l, Tri (c e) n e.key.name) : Cuts c l := by
  unfold Cuts
  have h2 : l.Pairwise (fun a b => a ∈ l ∧ b ∈ l) := by
    rw [List.pairwise_iff_forall_sublist]
    intro a b hab
    exact ⟨hab.subset (by simp), hab.subset (by simp)⟩
  refine List.Pairwise.imp ?_ (hs.and h2)
  intro a b ⟨h1, ha, hb⟩ hle
  rw [(h b hb).lt]
  rcases h a ha with ⟨_, g⟩ | ⟨_, g⟩ | ⟨g, _⟩
  · exact less_trans g h1
  · rw [g]; exact h1
  · omega

theorem Good.cuts {K : Kind} {t : Tree V} (h : Good K t) {n : Name} (hn : K.Admits n) : Cuts (against (Np.Tree.sought n)) (toList t.root) :=
  cuts_of_tri h.sorted fun _ he => h.sought he hn

theorem Good.cuts' {K : Kind} {t : Tree V} (h : Good K t) {n : Name} (hn : K.Admits n) : Cuts (against (Np.Tree.stored t.inPlace n)) (toList t.root) :=
  cuts_of_tri h.sorted fun _ he => h.stored he hn

theorem find?_congr {α : Type} {p q : α → Bool} : ∀ {l : List α}, (∀ x ∈ l, p x = q x) → l.find? p = l.find? q
  | [], _ => rfl
  | a :: l, h => by
    rw [List.find?_cons, List.find?_cons, h a (by simp), find?_congr fun x hx => h x (by simp [hx])]

/-- What is found is the element with the name. -/
theorem Good.find {K : Kind} {t : Tree V} (h : Good K t) {n : Name} (hn : K.Admits n) :
    find t n = (elems t).find? (fun e => decide (e.key.name = n)) := by
  unfold Np.Tree.find elems
  rw [Rb.find_spec (h.cuts hn)]
  apply find?_congr
  intro e he
  have := (h.sought (e := e) he hn).eq
  rw [decide_eq_decide, this, eq_comm]

theorem unique_name {l : List (Elem V)} (hs : l.Pairwise fun a b => Less a.key.name b.key.name) : ∀ {a b : Elem V}, a ∈ l → b ∈ l →
    a.key.name = b.key.name → a = b := by
  induction l with
  | nil => intro a b h; simp at h
  | cons x l ih =>
    rw [List.pairwise_cons] at hs
    intro a b ha hb e
    rcases List.mem_cons.1 ha with ha | ha
    · rcases List.mem_cons.1 hb with hb | hb
      · rw [ha, hb]
      · have := hs.1 b hb
        rw [← ha, e] at this
        exact absurd this (less_irrefl _)
    · rcases List.mem_cons.1 hb with hb | hb
      · have := hs.1 a ha
        rw [← hb, e] at this
        exact absurd this (less_irrefl _)
      · exact ih hs.2 ha hb e

theorem Good.find_some {K : Kind} {t : Tree V} (h : Good K t) {n : Name} (hn : K.Admits n) {e : Elem V} :
    Np.Tree.find t n = some e ↔ e ∈ elems t ∧ e.key.name = n := by
  rw [h.find hn]
  constructor
  · intro hf
    exact ⟨List.mem_of_find?_eq_some hf, by simpa using List.find?_some hf⟩
  · rintro ⟨he, e1⟩
    cases hf : (elems t).find? (fun e => decide (e.key.name = n)) with
    | none =>
      have := List.find?_eq_none.1 hf e he
      simp [e1] at this
    | some e' =>
      have h1 := List.mem_of_find?_eq_some hf
      have h2 : e'.key.name = n := by simpa using List.find?_some hf
      rw [unique_name h.sorted h1 he (by rw [h2, e1])]

theorem Good.find_none {K : Kind} {t : Tree V} (h : Good K t) {n : Name} (hn : K.Admits n) :
    Np.Tree.find t n = none ↔ ∀ e ∈ elems t, e.key.name ≠ n := by
  rw [h.find hn, List.find?_eq_none]
  simp

end Np.Tree
