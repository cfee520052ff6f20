import Verif.Attr.Spec
import Verif.Bloom.Props
/-! # Policies of channels: C230 -/
namespace Np.Attr
open _root_.Np.Attr.Spec

theorem policyOf_snoc (h : Bloom.Hash) (r : Req) : ∀ (rs : List Req) (f : Bloom.Nb), Bloom.policyOf h f (rs ++ [r]) = (Bloom.policyOf h f rs).bind fun g => Bloom.setPolicy h g r := by
  intro rs
  induction rs with
  | nil => intro f; simp [Bloom.policyOf]
  | cons x rs ih =>
    intro f
    simp only [List.cons_append, Bloom.policyOf]
    cases Bloom.setPolicy h f x with
    | none => rfl
    | some g => simp only [Option.bind_some]; exact ih g

theorem setSide_has (h : Bloom.Hash) (rs : Option (List Req)) (side : Side) (hs : Has h rs side) (r : Req) (side' : Side) (e : setSide h side r = some side') :
    Has h (rs.map fun l => l ++ [r]) side' := by
  cases rs with
  | none =>
    cases hs
    cases e
    rfl
  | some l =>
    rcases hs with ⟨rfl, rfl⟩ | ⟨p, rfl, hp⟩
    · simp only [setSide, Option.getD_none, Option.map_eq_some_iff] at e
      obtain ⟨q, e, rfl⟩ := e
      exact Or.inr ⟨q, rfl, by rw [policyOf_snoc]; exact e⟩
    · simp only [setSide, Option.getD_some, Option.map_eq_some_iff] at e
      obtain ⟨q, e, rfl⟩ := e
      exact Or.inr ⟨q, rfl, by rw [policyOf_snoc, hp]; exact e⟩

/-- C230 (partial).  A call for a channel that returns `np_data_ok` has added the requirement in every direction the channel is used in, and kept the others; the channel is
used for sending.  Missing: see below. -/
theorem C230_recorded_partial (h : Bloom.Hash) (ri ro : Option (List Req)) (inb outb : Side) (hi : Has h ri inb) (ho : Has h ro outb) (subject : Bool) (r : Req) (i o : Side)
    (e : setChannelPolicy h subject inb outb r = some (.ok, i, o)) : ro ≠ none ∧ Has h (ri.map fun l => l ++ [r]) i ∧ Has h (ro.map fun l => l ++ [r]) o := by
  cases subject with
  | false => simp [setChannelPolicy] at e
  | true =>
    simp only [setChannelPolicy, if_true, Option.bind_eq_some_iff, Option.map_eq_some_iff, Prod.mk.injEq] at e
    obtain ⟨i', e1, o', e2, er, rfl, rfl⟩ := e
    refine ⟨?_, setSide_has h ri inb hi r _ e1, setSide_has h ro outb ho r _ e2⟩
    rintro rfl
    cases ho
    simp at er

/-- C230 (partial).  After `np_data_ok`, intents of senders without the required key are refused. -/
theorem C230_refused_partial (h : Bloom.Hash) (ri : List Req) (ro : Option (List Req)) (inb outb : Side) (hi : Has h (some ri) inb) (ho : Has h ro outb) (subject : Bool)
    (r : Req) (i o : Side) (e : setChannelPolicy h subject inb outb r = some (.ok, i, o)) (attrs : List (String × List (BitVec 8)))
    (hcap : Bloom.Spec.entries (ri ++ [r]) + 3 * attrs.length ≤ 64)
    (hmiss : ¬ Bloom.Covered (h.key r.1) ((attrs.map fun a => h.key a.1) ++ attrs.map fun a => h.value a.2)) : ∃ p, i = some p ∧ accepts h p attrs = some false := by
  obtain ⟨_, h1, _⟩ := C230_recorded_partial h (some ri) ro inb outb hi ho subject r i o e
  rcases h1 with ⟨_, h1⟩ | ⟨p, rfl, hp⟩
  · simp at h1
  · exact ⟨some p, rfl, Bloom.C63_refused h _ p hp attrs hcap r (by simp) hmiss⟩

/-- C230 (refuted).  For a channel that is only used for receiving the call returns `np_invalid_operation` although it has set the policy: before, every intent was accepted,
now those without attributes are refused. -/
theorem C230_receiver_refuted (h : Bloom.Hash) (r : Req) : ∃ p, setChannelPolicy h true (some none) none r = some (.invalidOperation, some (some p), none) ∧
    accepts h none [] = some true ∧ accepts h (some p) [] = some false := by
  have he : Bloom.Spec.entries [r] ≤ 2 := by
    obtain ⟨k, v⟩ := r
    cases v <;> simp [Bloom.Spec.entries]
  rcases Bloom.run_total ((Bloom.reqHashes h [r]).map Bloom.NbOp.add) Bloom.Nb.create Bloom.create_inv
    (by rw [Bloom.additions_map, Bloom.reqHashes_length]; show _ ≤ 64; omega) with ⟨p, hp, _⟩
  rw [← Bloom.policyOf_run] at hp
  have hs : Bloom.setPolicy h Bloom.Nb.create r = some p := by
    have := policyOf_snoc h r [] Bloom.Nb.create
    rw [List.nil_append, hp] at this
    exact this.symm
  refine ⟨p, by simp [setChannelPolicy, setSide, hs], rfl, Bloom.C63_refused h [r] p hp [] (by simp only [List.length_nil]; omega) r (by simp) ?_⟩
  intro hc
  obtain ⟨x, hx, _⟩ := hc (Bloom.cellOf 0 (h.key r.1).t0) (by simp [Bloom.cellsOf])
  cases hx

/-- C230: a channel used in both directions, the first requirement. -/
example : ∃ i o, setChannelPolicy Bloom.toyHash true (some none) (some none) ("name", some [1]) = some (.ok, i, o) ∧ Has Bloom.toyHash (some []) (some none) ∧
    Bloom.Spec.entries ([] ++ [("name", some [1])]) + 3 * [("color", [(2 : BitVec 8)])].length ≤ 64 ∧
    ¬ Bloom.Covered (Bloom.toyHash.key "name") (([("color", [(2 : BitVec 8)])].map fun a => Bloom.toyHash.key a.1) ++
      [("color", [(2 : BitVec 8)])].map fun a => Bloom.toyHash.value a.2) :=
  ⟨_, _, rfl, Or.inl ⟨rfl, rfl⟩, by decide, by unfold Bloom.Covered; decide +kernel⟩

end Np.Attr
