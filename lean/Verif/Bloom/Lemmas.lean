import Verif.Bloom.Spec

set_option linter.unusedSimpArgs false
set_option linter.unusedVariables false

namespace Np.Bloom

open Np.Dhkey
open _root_.Np.Bloom.Spec

/-! ## Bits -/

theorem mask_bit (b : BitVec 8) (p : Nat) : b &&& mask p ≠ 0 ↔ b.getLsbD (7 - p % 8) = true := by
  unfold mask
  have h : ∀ k : Fin 8, ∀ b : BitVec 8, b &&& (0x80#8 >>> k.val) ≠ 0 ↔ b.getLsbD (7 - k.val) = true := by decide +kernel
  exact h ⟨p % 8, Nat.mod_lt _ (by omega)⟩ b

theorem mask_self (p : Nat) : (mask p).getLsbD (7 - p % 8) = true := by
  have h : ∀ k : Fin 8, (0x80#8 >>> k.val).getLsbD (7 - k.val) = true := by decide +kernel
  exact h ⟨p % 8, Nat.mod_lt _ (by omega)⟩

/-- The bit is there and set. -/
def BitSet (bytes : List (BitVec 8)) (p : Nat) : Prop := ∃ b, bytes[p / 8]? = some b ∧ b.getLsbD (7 - p % 8) = true

theorem setBit_length {bytes b' : List (BitVec 8)} {p : Nat} (h : setBit bytes p = some b') : b'.length = bytes.length := by
  unfold setBit at h
  cases hb : bytes[p / 8]? with
  | none => simp [hb] at h
  | some b => simp only [hb, Option.some.injEq] at h; rw [← h]; simp

theorem setBit_self {bytes b' : List (BitVec 8)} {p : Nat} (h : setBit bytes p = some b') : BitSet b' p := by
  unfold setBit at h
  cases hb : bytes[p / 8]? with
  | none => simp [hb] at h
  | some b =>
    simp only [hb, Option.some.injEq] at h
    have hl : p / 8 < bytes.length := by
      rcases List.getElem?_eq_some_iff.1 hb with ⟨hl, _⟩; exact hl
    refine ⟨b ||| mask p, ?_, ?_⟩
    · rw [← h, List.getElem?_set_self hl]
    · rw [BitVec.getLsbD_or, mask_self]; simp

theorem setBit_mono {bytes b' : List (BitVec 8)} {p q : Nat} (h : setBit bytes p = some b') (hq : BitSet bytes q) : BitSet b' q := by
  unfold setBit at h
  cases hb : bytes[p / 8]? with
  | none => simp [hb] at h
  | some b =>
    simp only [hb, Option.some.injEq] at h
    rcases hq with ⟨c, hc, hbit⟩
    by_cases e : p / 8 = q / 8
    · have hl : q / 8 < bytes.length := by
        rcases List.getElem?_eq_some_iff.1 hc with ⟨hl, _⟩; exact hl
      rw [e] at hb h
      rw [hb] at hc
      refine ⟨b ||| mask p, ?_, ?_⟩
      · rw [← h, List.getElem?_set_self hl]
      · rw [BitVec.getLsbD_or]; cases hc; simp [hbit]
    · exact ⟨c, by rw [← h, List.getElem?_set_ne e]; exact hc, hbit⟩

theorem setBits_spec {size : Nat} {ws : List (BitVec 32)} : ∀ {bytes b' : List (BitVec 8)}, setBits size bytes ws = some b' →
    b'.length = bytes.length ∧ (∀ q, BitSet bytes q → BitSet b' q) ∧ ∀ w ∈ ws, BitSet b' (pos size w) := by
  induction ws with
  | nil => intro bytes b' h; simp only [setBits, Option.some.injEq] at h; subst h; exact ⟨rfl, fun _ h => h, by simp⟩
  | cons w ws ih =>
    intro bytes b' h
    unfold setBits at h
    cases hb : setBit bytes (pos size w) with
    | none => simp [hb] at h
    | some b =>
      simp only [hb] at h
      have hi := ih h
      refine ⟨hi.1.trans (setBit_length hb), fun q hq => hi.2.1 q (setBit_mono hb hq), ?_⟩
      intro x hx
      rcases List.mem_cons.1 hx with e | e
      · subst e; exact hi.2.1 _ (setBit_self hb)
      · exact hi.2.2 x e

theorem checkBits_of_set {size : Nat} {bytes : List (BitVec 8)} {ws : List (BitVec 32)}
    (h : ∀ w ∈ ws, BitSet bytes (pos size w)) : checkBits size bytes ws = some true := by
  induction ws with
  | nil => rfl
  | cons w ws ih =>
    rcases h w (by simp) with ⟨b, hb, hbit⟩
    unfold checkBits
    simp only [hb]
    rw [if_neg ((mask_bit b (pos size w)).2 hbit)]
    exact ih fun x hx => h x (by simp [hx])

theorem zipWith_bit {f : BitVec 8 → BitVec 8 → BitVec 8} {g : Bool → Bool → Bool}
    (hf : ∀ a b i, i < 8 → (f a b).getLsbD i = g (a.getLsbD i) (b.getLsbD i)) {x y : List (BitVec 8)} (hl : x.length = y.length) {p : Nat}
    (hg : (BitSet x p ∧ BitSet y p) ∨ (BitSet x p ∧ ∀ c, g true c = true) ∨ (BitSet y p ∧ ∀ c, g c true = true))
    (ht : g true true = true) : BitSet (List.zipWith f x y) p := by
  have hp : p / 8 < x.length := by
    rcases hg with ⟨⟨a, ha, _⟩, _⟩ | ⟨⟨a, ha, _⟩, _⟩ | ⟨⟨a, ha, _⟩, _⟩
    · rcases List.getElem?_eq_some_iff.1 ha with ⟨h, _⟩; exact h
    · rcases List.getElem?_eq_some_iff.1 ha with ⟨h, _⟩; exact h
    · rcases List.getElem?_eq_some_iff.1 ha with ⟨h, _⟩; omega
  have hp' : p / 8 < y.length := by omega
  have hx : x[p / 8]? = some (x[p / 8]) := List.getElem?_eq_getElem hp
  have hy : y[p / 8]? = some (y[p / 8]) := List.getElem?_eq_getElem hp'
  refine ⟨f (x[p / 8]) (y[p / 8]), ?_, ?_⟩
  · rw [List.getElem?_zipWith, hx, hy]
  · rw [hf _ _ _ (by omega)]
    rcases hg with ⟨⟨a, ha, hab⟩, ⟨b, hb, hbb⟩⟩ | ⟨⟨a, ha, hab⟩, hc⟩ | ⟨⟨b, hb, hbb⟩, hc⟩
    · rw [hx] at ha; rw [hy] at hb; cases ha; cases hb; rw [hab, hbb]; exact ht
    · rw [hx] at ha; cases ha; rw [hab]; exact hc _
    · rw [hy] at hb; cases hb; rw [hbb]; exact hc _

/-! ## Histories of standard filters -/

theorem eval_spec {size : Nat} : ∀ {b : Build} {f : Std}, b.eval size = some f →
    f.size = size ∧ f.bytes.length = size / 8 ∧ ∀ id, Contains b id → ∀ w ∈ id.words, BitSet f.bytes (pos size w) := by
  intro b
  induction b with
  | new =>
    intro f h
    simp only [Build.eval, Option.some.injEq] at h
    subst h
    exact ⟨rfl, by simp [Std.create], by simp [Contains]⟩
  | add b x ih =>
    intro f h
    simp only [Build.eval, Option.bind_eq_some_iff] at h
    rcases h with ⟨g, hg, ha⟩
    have hi := ih hg
    unfold Std.add at ha
    split at ha
    · simp at ha
    · cases hs : setBits g.size g.bytes x.words with
      | none => simp [hs] at ha
      | some b' =>
        simp only [hs, Option.some.injEq] at ha
        have hb := setBits_spec hs
        subst ha
        refine ⟨hi.1, hb.1.trans hi.2.1, ?_⟩
        intro id hc w hw
        rcases hc with hc | hc
        · subst hc
          have := hb.2.2 w hw
          rw [hi.1] at this
          exact this
        · exact hb.2.1 _ (hi.2.2 id hc w hw)
  | union a b iha ihb =>
    intro f h
    simp only [Build.eval, Option.bind_eq_some_iff] at h
    rcases h with ⟨x, hx, y, hy, hu⟩
    have ha := iha hx
    have hb := ihb hy
    unfold Std.union at hu
    split at hu
    · simp only [Option.some.injEq] at hu
      subst hu
      refine ⟨ha.1, by simp [ha.2.1, hb.2.1], ?_⟩
      intro id hc w hw
      refine zipWith_bit (g := fun u v => u || v) (fun u v i _ => BitVec.getLsbD_or) (ha.2.1.trans hb.2.1.symm) ?_ rfl
      rcases hc with hc | hc
      · exact Or.inr (Or.inl ⟨ha.2.2 id hc w hw, by simp⟩)
      · exact Or.inr (Or.inr ⟨hb.2.2 id hc w hw, by simp⟩)
    · simp at hu
  | intersect a b iha ihb =>
    intro f h
    simp only [Build.eval, Option.bind_eq_some_iff] at h
    rcases h with ⟨x, hx, y, hy, hu⟩
    have ha := iha hx
    have hb := ihb hy
    unfold Std.intersect at hu
    split at hu
    · simp only [Option.some.injEq] at hu
      subst hu
      refine ⟨ha.1, by simp [ha.2.1, hb.2.1], ?_⟩
      intro id hc w hw
      exact zipWith_bit (g := fun u v => u && v) (fun u v i _ => BitVec.getLsbD_and) (ha.2.1.trans hb.2.1.symm)
        (Or.inl ⟨ha.2.2 id hc.1 w hw, hb.2.2 id hc.2 w hw⟩) rfl
    · simp at hu

/-! ## Capacity of standard filters -/

theorem pos_in (size : Nat) (hs : 0 < size) (h8 : size % 8 = 0) (w : BitVec 32) : pos size w / 8 < size / 8 := by
  unfold pos
  have := Nat.mod_lt w.toNat hs
  omega

theorem setBits_total {size : Nat} (hs : 0 < size) (h8 : size % 8 = 0) : ∀ (ws : List (BitVec 32)) (bytes : List (BitVec 8)),
    bytes.length = size / 8 → ∃ b, setBits size bytes ws = some b ∧ b.length = size / 8 := by
  intro ws
  induction ws with
  | nil => intro bytes h; exact ⟨bytes, rfl, h⟩
  | cons w ws ih =>
    intro bytes h
    have hp : pos size w / 8 < bytes.length := by rw [h]; exact pos_in size hs h8 w
    unfold setBits
    cases hb : setBit bytes (pos size w) with
    | none =>
      unfold setBit at hb
      rw [List.getElem?_eq_getElem hp] at hb
      simp at hb
    | some b => exact ih b ((setBit_length hb).trans h)

theorem add_total {size : Nat} (hs : 0 < size) (h8 : size % 8 = 0) {f : Std} (hf : f.size = size) (hl : f.bytes.length = size / 8)
    (h : 0 < f.free) (id : Dhkey) : ∃ g, f.add id = some g ∧ g.size = size ∧ g.bytes.length = size / 8 ∧ g.free = f.free - 1 := by
  rcases setBits_total hs h8 id.words f.bytes hl with ⟨b, hb, hbl⟩
  unfold Std.add
  rw [if_neg (by omega), hf, hb]
  exact ⟨_, rfl, rfl, hbl, rfl⟩

theorem addAll_snoc (ids : List Dhkey) (x : Dhkey) : addAll (ids ++ [x]) = Build.add (addAll ids) x := by
  simp [addAll, List.foldl_append]

theorem addAll_total {size : Nat} (hs : 0 < size) (h8 : size % 8 = 0) (hm : size / 16 < 65536) : ∀ (n : Nat) (ids : List Dhkey), ids.length = n →
    n ≤ size / 16 → ∃ f, (addAll ids).eval size = some f ∧ f.size = size ∧ f.bytes.length = size / 8 ∧ f.free = size / 16 - n := by
  intro n
  induction n with
  | zero =>
    intro ids hl _
    rw [List.length_eq_zero_iff.1 hl]
    exact ⟨Std.create size, rfl, rfl, by simp [Std.create], by simp only [Std.create]; omega⟩
  | succ n ih =>
    intro ids hl hn
    have hne : ids ≠ [] := by intro h; simp [h] at hl
    rw [← List.dropLast_concat_getLast hne, addAll_snoc]
    rcases ih ids.dropLast (by simp [hl]) (by omega) with ⟨f, hf, h1, h2, h3⟩
    rcases add_total hs h8 h1 h2 (by omega) (ids.getLast hne) with ⟨g, hg, g1, g2, g3⟩
    exact ⟨g, by simp [Build.eval, hf, hg], g1, g2, by omega⟩

theorem addAll_contains {ids : List Dhkey} {id : Dhkey} (h : id ∈ ids) : Contains (addAll ids) id := by
  generalize hn : ids.length = n
  induction n generalizing ids with
  | zero => rw [List.length_eq_zero_iff.1 hn] at h; simp at h
  | succ n ih =>
    have hne : ids ≠ [] := by intro h; simp [h] at hn
    rw [← List.dropLast_concat_getLast hne, addAll_snoc]
    rw [← List.dropLast_concat_getLast hne, List.mem_append] at h
    rcases h with h | h
    · exact Or.inr (ih h (by simp [hn]))
    · exact Or.inl (by simpa using h)

end Np.Bloom
