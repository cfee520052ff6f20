import Verif.Dup.Lemmas

/-! # Properties of the check for messages that were handled before -/
namespace Np.Dup

open Np.Dhkey
open _root_.Np.Dup.Spec

/-- Ids for the examples: eight consecutive words. -/
def msg (n : BitVec 32) : Dhkey := ⟨n, n + 1, n + 2, n + 3, n + 4, n + 5, n + 6, n + 7⟩

/-! ## C84: a message is handed on once -/

/-- C84 (partial): if parts are handled one at a time, the number of peers does not change the size of the filter, and the bits of an entry are not all
shifted out (at most 15 decays with fewer than 8 peers), then no message is handed on twice. The full property has none of these conditions. -/
theorem C84_once_partial (m : Nat) (l : List Event) (hm : m ≤ 1) (hs : Steady m (steps l)) (hd : decays (steps l) ≤ 15) (s : Node)
    (h : Node.run .init (steps l) = .ok s) (id : Dhkey) : s.handed.count id ≤ 1 := by
  have ht : Tuned m Node.init.filter := by
    have : m = 0 ∨ m = 1 := by omega
    rcases this with h | h <;> subst h <;> exact ⟨by decide, by decide⟩
  have := once_run (id := id) l Node.init s ht hs (by show 1 * _ ≤ 15; omega) h
  simpa [Node.init] using this

/-- C84 (partial): the same from any state, for any number of peers that keeps the size of the filter, with several threads at work: once a message was
handed on, a part of it that is checked while less than 16 bits were shifted out is dropped. -/
theorem C84_remembered_partial (m : Nat) (s0 s1 s2 : Node) (id : Dhkey) (x : Step) (l : List Step) (ht : Tuned m s0.filter)
    (h1 : s0.step x = .ok s1) (hh : s1.handed = s0.handed ++ [id]) (hs : Steady m l) (hd : s0.filter.p * decays l ≤ 15) (h2 : Node.run s1 l = .ok s2)
    (t : Nat) (c : Bool) : ∃ s3, Node.run s2 [.check t id, .commit t c] = .ok s3 ∧ s3.handed = s2.handed := by
  rcases step_filter h1 with ⟨_, h⟩ | ⟨t', c', i, _, _, ha, h⟩ | ⟨_, _, h⟩ | ⟨n, _, _, h⟩
  · rw [h] at hh; simp at hh
  · rw [h] at hh
    have hi : i = id := by simpa using hh
    subst hi
    obtain ⟨_, hg⟩ := add_ok ha
    have hseen := remembered_run l s1 s2 0 (by rw [hg]; exact ht) hs (by rw [hg]; simpa using hd) (mark_remembers ha) h2
    rw [part_step, if_neg (by rw [hseen]; simp)]
    exact ⟨_, rfl, rfl⟩
  · rw [h] at hh; simp at hh
  · rw [h] at hh; simp at hh

/-- After every `adjust` the filter is tuned to the modifier, so the first hypothesis above can always be met; at the start it is tuned to 0 and 1. -/
theorem tuned_after (f : Filter) (n : Nat) : Tuned (modifier n) (f.adjust n) := by
  simp only [Tuned, Filter.adjust]
  generalize (if modifier n > 0 then modifier n * baseSize else baseSize) = sz
  by_cases hs : f.size ≠ sz
  · rw [if_pos hs]; exact ⟨rfl, trivial⟩
  · rw [if_neg hs]; exact ⟨by show f.size = sz; omega, trivial⟩

/-- Two messages, one of them twice, with a change of peers in between. -/
example : ∃ l, Steady 1 (steps l) ∧ decays (steps l) ≤ 15 ∧
    (match Node.run .init (steps l) with | .ok s => s.handed | .error _ => []) = [msg 0, msg 100] :=
  ⟨[.part (msg 0) false, .part (msg 0) true, .part (msg 0) true, .adjust 5, .part (msg 100) true, .part (msg 0) true],
   by simp only [steps, Steady]; decide +kernel, by decide +kernel, by decide +kernel⟩

/-- C84 refuted: two threads that each have the message, and both check before one of them enters it, both hand it on. -/
theorem C84_race_refuted :
    (match Node.run .init [.check 1 (msg 0), .check 2 (msg 0), .commit 1 true, .commit 2 true] with | .ok s => s.handed | .error _ => []) =
      [msg 0, msg 0] := by decide +kernel

/-- C84 refuted: when the eighth peer is known, everything handled before is forgotten. -/
theorem C84_resize_refuted :
    (match Node.run .init (steps [.part (msg 0) true, .adjust 7, .part (msg 0) true, .adjust 8, .part (msg 0) true]) with
      | .ok s => s.handed | .error _ => []) = [msg 0, msg 0] := by decide +kernel

/-- C84 refuted: every message is forgotten after 16 decays. The clean-up runs once for each link in every period. -/
theorem C84_forgotten_refuted (id : Dhkey) : ∃ s, Node.run .init (steps ([.part id true] ++ List.replicate 16 .decay ++ [.part id true])) = .ok s ∧
    s.handed = [id, id] := by
  have hst : steps ([.part id true] ++ List.replicate 16 .decay ++ [.part id true]) =
      [.check 0 id, .commit 0 true] ++ (List.replicate 16 .decay ++ [.check 0 id, .commit 0 true]) := rfl
  have hsafe := safe_run ([.part id true] ++ List.replicate 16 .decay ++ [.part id true]) Node.init ⟨by decide, by decide, by decide⟩
    (zeros_le _ _) (by simp [steps, Few, List.replicate])
  obtain ⟨s, hs⟩ := hsafe
  refine ⟨s, hs, ?_⟩
  rw [hst, run_append, part_step, if_pos (by simp [Filter.check, Node.init, Filter.create, positions, Dhkey.words])] at hs
  have hadd : Node.init.filter.add id = .ok { Filter.create with cell := mark Filter.create.cell (positions baseSize id), free := baseSize % 65536 - 1 } := rfl
  rw [hadd] at hs
  simp only [] at hs
  rw [run_append] at hs
  generalize hr : Node.run _ (List.replicate 16 Step.decay) = r at hs
  cases r with
  | error e => simp only [] at hs; cases hs
  | ok s2 =>
    simp only [] at hs
    obtain ⟨hz, hh⟩ := fade_run 16 _ s2 0 (by rfl) (fun q => BitVec.isLt _) (by omega) hr
    have hck : s2.filter.check id = false := by
      unfold Filter.check
      rw [List.all_eq_false]
      refine ⟨_, List.mem_cons_self, ?_⟩
      have := hz ((id.t0).toNat % s2.filter.size)
      simp only [bne_iff_ne, ne_eq, Decidable.not_not]
      apply BitVec.eq_of_toNat_eq
      simp at this ⊢
      omega
    rw [part_step, if_pos ⟨hck, rfl⟩] at hs
    cases ha : s2.filter.add id with
    | error e => rw [ha] at hs; simp only [] at hs; cases hs
    | ok f =>
      rw [ha] at hs
      simp only [Except.ok.injEq] at hs
      subst hs
      show s2.handed ++ [id] = [id, id]
      rw [hh]
      rfl

/-! ## C85: a new message is handed on -/

/-- C85 (partial): for every history of several threads, a message one of whose eight positions is not a position of any message handed on before
is taken for new, and (see C86) is handed on when it is complete. The full property is about every new message. -/
theorem C85_new_partial (l : List Step) (s : Node) (h : Node.run .init l = .ok s) (id : Dhkey)
    (hn : ∃ q ∈ positions s.filter.size id, ∀ o ∈ s.handed, q ∉ positions s.filter.size o) (t : Nat) (s' : Node)
    (h' : Node.run s [.check t id, .commit t true] = .ok s') : s'.handed = s.handed ++ [id] := by
  have hc := covered_run l Node.init s (fun q hq => absurd rfl hq) h
  obtain ⟨q, hq, hno⟩ := hn
  have h0 : s.filter.cell q = 0 := by
    apply Decidable.byContradiction
    intro hne
    obtain ⟨o, ho, hqo⟩ := hc q hne
    exact hno o ho hqo
  have hck : s.filter.check id = false := by
    unfold Filter.check
    rw [List.all_eq_false]
    exact ⟨q, hq, by simp [h0]⟩
  rw [part_step, if_pos ⟨hck, rfl⟩] at h'
  cases ha : s.filter.add id with
  | error e => rw [ha] at h'; simp only [] at h'; cases h'
  | ok f =>
    rw [ha] at h'
    simp only [Except.ok.injEq] at h'
    subst h'
    rfl

example : ∃ l s, Node.run .init l = .ok s ∧ s.handed = [msg 0, msg 100] ∧
    ∃ q ∈ positions s.filter.size (msg 101), ∀ o ∈ s.handed, q ∉ positions s.filter.size o :=
  ⟨steps [.part (msg 0) true, .part (msg 100) true], _, rfl, by decide +kernel, 108, by decide +kernel, by decide +kernel⟩

/-- C85 refuted: a message of one part whose eight positions are among those of two earlier messages is dropped, though no part of it ever came before. -/
theorem C85_collision_refuted :
    (match Node.run .init (steps [.part (msg 0) true, .part (msg 8) true, .part (msg 4) true]) with | .ok s => s.handed | .error _ => []) =
      [msg 0, msg 8] := by decide +kernel

/-! ## C86: handling messages never ends or blocks the node -/

/-- C86 (partial): if parts are handled one at a time and there are never 512 peers or more, then the node survives every history: any number of
messages, decays and changes of the number of peers. The full property has neither condition. -/
theorem C86_one_thread_partial (l : List Event) (hf : Few (steps l)) : ∃ s, Node.run .init (steps l) = .ok s :=
  safe_run l Node.init ⟨by decide, by decide, by decide⟩ (zeros_le _ _) hf

/-- C86 (partial): with any number of threads and fewer than 512 peers the node survives every history in which at most 67 parts are handled between
two decays. -/
theorem C86_threads_partial (n : Nat) (hn : n ≤ 67) (l : List Step) (hf : Few l) (hc : Calm n 0 l) : ∃ s, Node.run .init l = .ok s := by
  refine calm_run hn l Node.init 0 ⟨by decide, by decide, by decide⟩ (by omega) ?_ ?_ hf hc
  · show n ≤ 8192 + 0; omega
  · intro j _
    have : above Node.init.filter j = 0 := by
      unfold above
      rw [List.countP_eq_zero]
      intro q _
      have : 0 < 2 ^ j := Nat.pow_pos (by omega)
      simp [Node.init, Filter.create]
    omega

example : ∃ l, Few l ∧ Calm 2 0 l ∧ l.length = 8 :=
  ⟨[.check 1 (msg 0), .check 2 (msg 0), .commit 1 true, .commit 2 true, .decay, .adjust 300, .check 1 (msg 8), .commit 1 true], by simp [Few], by simp [Calm], rfl⟩

example : ∃ l, Few (steps l) ∧ l.length = 4 := ⟨[.part (msg 0) true, .adjust 511, .decay, .part (msg 0) true], by simp [Few, steps], rfl⟩

/-- C86 refuted: with 512 peers the next new message ends the process. -/
theorem C86_peers_abort_refuted (id : Dhkey) : Node.run .init (steps [.adjust 512, .part id true]) = .error .abort := by
  have hm : modifier 512 = 8 := by decide +kernel
  have : steps [.adjust 512, .part id true] = .adjust 512 :: [.check 0 id, .commit 0 true] := rfl
  rw [this]
  have hadj : Node.init.filter.adjust 512 = { size := 65536, p := 8, cell := fun _ => 0, free := 0 } := by
    simp only [Filter.adjust, hm]; rfl
  have hrun : Node.run .init (.adjust 512 :: [.check 0 id, .commit 0 true]) =
      Node.run { Node.init with filter := Node.init.filter.adjust 512 } [.check 0 id, .commit 0 true] := rfl
  rw [hrun, hadj, part_step, if_pos (by simp [Filter.check, positions, Dhkey.words])]
  rfl

/-- C86 refuted: and the next clean-up never ends, while it holds the lock that handling any message needs. -/
theorem C86_peers_hang_refuted : Node.run .init (steps [.adjust 512, .decay]) = .error .hang := by
  have hm : modifier 512 = 8 := by decide +kernel
  have hadj : Node.init.filter.adjust 512 = { size := 65536, p := 8, cell := fun _ => 0, free := 0 } := by
    simp only [Filter.adjust, hm]; rfl
  simp only [steps, Node.run, Node.step]
  rw [hadj]
  rfl

end Np.Dup
