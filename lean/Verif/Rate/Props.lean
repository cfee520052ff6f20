import Verif.Rate.Lemmas

/-! # Properties of the limit of messages per second -/
namespace Np.Rate

open Np.Dhkey
open _root_.Np.Rate.Spec

/-- Addresses for the examples: eight consecutive positions. -/
def addr (n : BitVec 32) : Dhkey := ⟨n, n + 1, n + 2, n + 3, n + 4, n + 5, n + 6, n + 7⟩

/-! ## C81: the number of packets of one peer is limited -/

/-- C81 (partial): for a limit up to 253 and addresses whose hashes do not collide, exactly those packets pass that pass with one counter for each
address, halved at each reset, as long as the process lives (see C82). The full property has no condition on the limit and on the hashes. -/
theorem C81_exact_partial (max : Nat) (hm : max ≤ 253) (l : List Step) (hp : Private (addresses l)) (s : State)
    (h : State.run max .init l = some s) : s.passed = ideal max (fun _ => 0) l := by
  have := exact_run hm hp l State.init (fun _ => 0) s (fun _ h => h) (fun a _ => ⟨by simp, fun p _ => rfl⟩) h
  simpa [State.init] using this

/-- C81 (partial): then, over any number of resets, an address gets at most `max + 1` packets through, and about half of the limit more with each
reset. -/
theorem C81_limit_partial (max : Nat) (hm : max ≤ 253) (l : List Step) (hp : Private (addresses l)) (s : State)
    (h : State.run max .init l = some s) (a : Dhkey) : s.passed.count a ≤ (max + 1) + resets l * ((max + 2) / 2) := by
  rw [C81_exact_partial max hm l hp s h]
  exact ideal_bound max a l (fun _ => 0) (by simp)

/-- Two peers, the first above its limit. -/
example : ∃ l s, Private (addresses l) ∧ State.run 2 .init l = some s ∧ s.passed = [addr 0, addr 0, addr 8, addr 0] ∧ (addresses l).length = 6 := by
  refine ⟨[.packet (addr 0), .packet (addr 0), .packet (addr 8), .packet (addr 0), .packet (addr 0), .packet (addr 0)], _, ?_, rfl, ?_, rfl⟩
  · unfold Private
    decide +kernel
  · decide +kernel

/-- C81 refuted: with the default setting (and every setting of 254 or more) no packet is ever dropped, however many arrive: the counters are too
small to exceed the limit. -/
theorem C81_default_refuted (setting : Nat) (hs : setting = 0 ∨ 254 ≤ setting) (l : List Step) (s : State)
    (h : State.run (limit setting) .init l = some s) : s.passed = addresses l := by
  have hm : 254 ≤ limit setting := by
    unfold limit
    split <;> omega
  simpa [State.init] using high_run hm l State.init s h

example : (State.run (limit 0) .init (List.replicate 600 (.packet (addr 0)))).isSome = true := by
  have := burst_ok (max := limit 0) (List.replicate 600 (addr 0)) State.init (by rw [List.length_replicate]; decide)
  rwa [List.map_replicate] at this

/-- C81 refuted from the other side: a peer that sends steadily less than the limit (88 packets in each interval of 0.88 seconds with a limit of 100
per second) has packets dropped, because resets only halve the counters. -/
theorem C81_steady_refuted (s : State)
    (h : State.run 100 .init (List.replicate 88 (.packet (addr 0)) ++ [.reset] ++ List.replicate 88 (.packet (addr 0))) = some s) :
    s.passed.length < 2 * 88 := by
  have hp : Private (addresses (List.replicate 88 (.packet (addr 0)) ++ [.reset] ++ List.replicate 88 (.packet (addr 0)))) := by
    have he : ∀ a ∈ addresses (List.replicate 88 (.packet (addr 0)) ++ [.reset] ++ List.replicate 88 (.packet (addr 0))), a = addr 0 := by
      decide +kernel
    intro a ha
    refine ⟨by rw [he a ha]; decide +kernel, fun b hb hne => absurd ((he b hb).trans (he a ha).symm) hne⟩
  rw [C81_exact_partial 100 (by omega) _ hp s h]
  decide +kernel

/-! ## C82: no traffic ends the process -/

/-- C82 (partial): up to 4096 packets between two resets are handled, whatever their addresses and the limit. The full property is that no number of
packets ends the process. -/
theorem C82_burst_partial (max : Nat) (as : List Dhkey) (h : as.length ≤ 4096) : (State.run max .init (as.map .packet)).isSome :=
  burst_ok as State.init h

example : ∃ as : List Dhkey, 4000 < as.length ∧ as.length ≤ 4096 :=
  ⟨List.replicate 4096 (addr 0), by rw [List.length_replicate]; omega, by rw [List.length_replicate]; omega⟩

/-- C82 refuted: with the default setting, any 4097 packets that arrive before the first reset (within 0.88 seconds) end the process. -/
theorem C82_flood_refuted (as : List Dhkey) (h : 4096 < as.length) : State.run (limit 0) .init (as.map .packet) = none :=
  flood (by decide) as State.init h

/-- C82 refuted: slow traffic ends it too. If between any two resets every address sends at most one packet (and the hashes of these do not collide),
the budget of 4096 packets is never refilled: with the 4097th packet, whenever it comes, the process ends, whatever the limit. -/
theorem C82_quiet_refuted (max : Nat) (rounds : List (List Dhkey)) (hn : ∀ r ∈ rounds, (r.flatMap positions).Nodup)
    (h : 4096 < (rounds.map List.length).sum) : State.run max .init (rounds.flatMap fun r => r.map .packet ++ [.reset]) = none :=
  quiet_run rounds State.init (fun _ => rfl) (Nat.le_refl _) hn h

/-- One packet of one neighbour in every interval of 0.88 seconds: the end comes within about an hour. -/
example : ∃ rounds : List (List Dhkey), (∀ r ∈ rounds, (r.flatMap positions).Nodup) ∧ 4096 < (rounds.map List.length).sum ∧ ∀ r ∈ rounds, r.length = 1 :=
  ⟨List.replicate 4097 [addr 0], by intro r hr; rw [List.eq_of_mem_replicate hr]; decide +kernel, by rw [List.map_replicate]; decide +kernel,
    by intro r hr; rw [List.eq_of_mem_replicate hr]; rfl⟩

/-! ## C83: a peer is not limited because of others -/

/-- C83 (partial): if the packets of all addresses together, halved at each reset, never exceed the limit, none is dropped. The full property is that
the packets of an address that keeps to the limit pass whatever the others send. -/
theorem C83_low_traffic_partial (max : Nat) (l : List Step) (hl : Low max 0 l) (hn : ∀ a ∈ addresses l, (positions a).Nodup) (s : State)
    (h : State.run max .init l = some s) : s.passed = addresses l := by
  simpa [State.init] using low_run l State.init 0 s hn (fun p => Nat.le_refl 0) hl h

example : ∃ l s, Low 3 0 l ∧ (∀ a ∈ addresses l, (positions a).Nodup) ∧ State.run 3 .init l = some s ∧ (addresses l).length = 3 :=
  ⟨[.packet (addr 0), .packet (addr 3), .packet (addr 0)], _, by simp [Low], by decide +kernel, rfl, rfl⟩

/-- C83 (partial): with private positions (and a limit up to 253), which packets of an address pass does not depend on the packets of others. -/
theorem C83_alone_partial (max : Nat) (hm : max ≤ 253) (l : List Step) (hp : Private (addresses l)) (a : Dhkey) (s s' : State)
    (h : State.run max .init l = some s) (h' : State.run max .init (only a l) = some s') : s.passed.filter (· = a) = s'.passed := by
  have hp' : Private (addresses (only a l)) :=
    fun x hx => ⟨(hp x (only_sub a l x hx)).1, fun y hy => (hp x (only_sub a l x hx)).2 y (only_sub a l y hy)⟩
  rw [C81_exact_partial max hm l hp s h, C81_exact_partial max hm _ hp' s' h', ideal_alone]

/-- C83 refuted: one shared position out of eight is enough. After eleven packets of one address, with a limit of 10, the second packet of another
address is dropped. (Among any 128 addresses one is expected to share a position with a given one.) -/
theorem C83_shared_refuted :
    (State.run 10 .init (List.replicate 11 (.packet (addr 7)) ++ [.packet (addr 0), .packet (addr 0)])).map (fun s => s.passed.count (addr 0)) = some 1 := by
  decide +kernel

end Np.Rate
