import Verif.Addr.Lemmas2

/-! # Which peers are contacted -/
namespace Np.Addr

open Np.Dhkey
open _root_.Np.Addr.Spec

set_option linter.unusedSimpArgs false
set_option linter.unusedVariables false

theorem private6_sound {a : List (BitVec 8)} (hl : 2 ≤ a.length) (h : private6 a = true) : Private6 a := by
  match a, hl with
  | b0 :: b1 :: rest, _ =>
    refine ⟨b0, b1, rest, rfl, ?_⟩
    simp only [private6, List.getElem?_cons_zero, List.getElem?_cons_succ, Bool.or_eq_true, Bool.and_eq_true, beq_iff_eq, Option.some.injEq] at h
    rcases h with (rfl | rfl) | ⟨rfl, rfl⟩
    · exact .inl (by decide)
    · exact .inl (by decide)
    · exact .inr (by decide)

theorem isPrivate_sound {e : Env} {ip : Str} (h6 : ∀ a, e.pton6 ip = some a → 2 ≤ a.length) (h : isPrivate e ip = true) : PrivateIp e ip := by
  unfold isPrivate at h
  cases h4 : e.pton4 ip with
  | some a =>
    rw [h4] at h
    exact .inl ⟨a, h4, (private4_iff a).mp h⟩
  | none =>
    rw [h4] at h
    simp only at h
    cases h5 : e.pton6 ip with
    | none => rw [h5] at h; exact absurd h (by simp)
    | some a =>
      rw [h5] at h
      exact .inr ⟨h4, a, h5, private6_sound (h6 a h5) h⟩

theorem isPrivate_4 {e : Env} {ip : Str} {a : BitVec 32} (h4 : e.pton4 ip = some a) (h : Private4 a) : isPrivate e ip = true := by
  unfold isPrivate
  rw [h4]
  exact (private4_iff a).mpr h

theorem flagCmp_or {a b c : Sock} (h : flagCmp a (b ||| c) = true) : flagCmp a b = true := by
  unfold flagCmp at *
  rw [beq_iff_eq] at *
  apply BitVec.eq_of_getLsbD_eq
  intro i hi
  have := congrArg (fun x => x.getLsbD i) h
  simp only [BitVec.getLsbD_and, BitVec.getLsbD_or] at this ⊢
  revert this
  cases a.getLsbD i <;> cases b.getLsbD i <;> cases c.getLsbD i <;> decide

/-- Peers and interfaces outside private networks. -/
theorem reach_public {e : Env} {n : Node} {b : Bool} {m : Out (Option Iface)} {remote : Str} {p : Sock} (hr : isPrivate e remote = false)
    (hn : isPrivate e n.ip = false) : reachFrom e n b m remote p = .ok true := by
  unfold reachFrom
  split
  · rfl
  · simp [hr, hn, Out.bind]

/-- A search for an interface returns one of the interfaces. -/
theorem findIface_mem {l : List Iface} {ip : Str} {i : Iface} (h : findIface l ip = some i) : i ∈ l := List.mem_of_find?_eq_some h

theorem mainIface_mem {s : St} {i : Iface} (h : mainIface s = .ok (some i)) : i ∈ s.ifaces := by
  unfold mainIface at h
  split at h
  · simp only [Out.ok.injEq] at h
    exact findIface_mem h
  · split at h <;> simp at h

/-- The interface the decision is made for is one of the interfaces. -/
theorem canBeReached_from {e : Env} {s : St} {remote : Str} {p : Sock} {r : Bool} (h : canBeReached e s remote p = .ok r) :
    ∃ i ∈ s.ifaces, ∃ b, reachFrom e i.node b (mainIface s) remote p = .ok r := by
  unfold canBeReached at h
  split at h
  · rename_i i hi
    exact ⟨i, findIface_mem hi, false, h⟩
  · obtain ⟨m, hm, h⟩ := Out.bind_ok h
    split at h
    · exact absurd h (by simp)
    · rename_i i
      exact ⟨i, mainIface_mem hm, true, h⟩

theorem canBeReached_public {e : Env} {s : St} {remote : Str} {p : Sock} (hr : isPrivate e remote = false)
    (hl : ∀ i ∈ s.ifaces, isPrivate e i.node.ip = false) {i : Iface} (hm : mainIface s = .ok (some i)) : canBeReached e s remote p = .ok true := by
  unfold canBeReached
  split
  · rename_i j hj
    exact reach_public hr (hl j (findIface_mem hj))
  · rw [hm]
    exact reach_public hr (hl i (mainIface_mem hm))

/-- `np_send_join` for a new peer that can be reached. -/
theorem joinNode_new {e : Env} {s : St} {n : Node} (ha : flagCmp n.protocol passive = false) (hl : (e.resolve n.ip n.protocol).length ≤ 45)
    (hq : n.port.length ≤ 5)
    (hnew : ∀ k m, (k, m) ∈ s.peers → k ≠ s.nodeKey → k ≠ s.identity →
      ¬ (occurs m.ip (e.resolve n.ip n.protocol ++ ':' :: n.port) ∧ occurs m.port (e.resolve n.ip n.protocol ++ ':' :: n.port)))
    (hr : canBeReached e s (e.resolve n.ip n.protocol) n.protocol = .ok true) :
    joinNode e s n = .ok (contactNode e { n with ip := e.resolve n.ip n.protocol }, s) := by
  unfold joinNode
  rw [if_neg (by simp [ha])]
  have e1 : (e.resolve n.ip n.protocol).take 63 = e.resolve n.ip n.protocol := List.take_of_length_le (by omega)
  simp only [e1]
  rw [List.take_of_length_le (by rw [List.length_append, List.length_cons]; omega)]
  have hf : findByDetails s (e.resolve n.ip n.protocol ++ ':' :: n.port) = false := by
    unfold findByDetails
    rw [List.any_eq_false]
    rintro ⟨k, m⟩ hm
    simp only [Bool.and_eq_true, Bool.not_eq_true', Bool.or_eq_false_iff, beq_eq_false_iff_ne, contains_iff]
    rintro ⟨⟨⟨h1, h2⟩, h3⟩, h4⟩
    exact hnew k m hm h1 h2 ⟨h3, h4⟩
  rw [hf, if_neg (by simp)]
  unfold reachOrListen
  simp only [hr, Out.bind, if_true]

theorem join_decoded {e : Env} {s : St} {a : Str} {n : Node} (hr : s.running = true) (h1 : 10 < a.length) (h2 : a.length < 500)
    (hd : decode a = .ok (some n)) : join e s a = (joinNode e s n).bind fun (f, s') => .ok (.ok, f, s') := by
  unfold join
  rw [if_neg (by rw [List.length_take]; omega), if_neg (by rw [List.length_take]; omega), if_neg (by simp [hr]),
    List.take_of_length_le (by omega)]
  unfold sendJoin
  rw [hd]
  rfl

end Np.Addr
