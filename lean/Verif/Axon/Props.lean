import Verif.Axon.Lemmas

/-! # Properties of the sending side: C124 to C130 -/
namespace Np.Axon

open Np.Dhkey Np.Bloom
open _root_.Np.Axon.Spec _root_.Np.Phero.Spec

/-! ## Sample nodes -/

/-- A node with three peers in its table and leafset, and trails laid by `l`. -/
def sample (l : List (Nat × Phero.Op)) : Node :=
  { route := Route.run (Route.State.init Dhkey.zero 7) Route.sampleOps,
    trails := (Phero.run false Dhkey.zero Phero.Table.empty l).getD Phero.Table.empty,
    exists? := fun _ => true, hasNode := fun _ => true, good := fun _ => true, worse := fun _ _ => false }

/-- Scents of the targets from one peer. -/
def laid (source : Dhkey) (sender : Bool) (targets : List Dhkey) : List (Nat × Phero.Op) :=
  targets.filterMap fun x => (Phero.scentOf x source sender).map fun s => (0, .inhale s)

theorem laid_honest (source : Dhkey) (sender : Bool) (targets : List Dhkey) : HonestRun [source] (laid source sender targets) := by
  intro now s hm
  simp only [laid, List.mem_filterMap, Option.map_eq_some_iff] at hm
  obtain ⟨x, _, s', hs, he⟩ := hm
  simp only [Prod.mk.injEq, Phero.Op.inhale.injEq] at he
  exact ⟨x, source, !!sender, by simp, by rw [Bool.not_not]; exact he.2 ▸ hs⟩

/-- Three ids at the same position: the cells of the first are contained in those of the others. -/
def subj : Dhkey := ⟨0, 0, 2, 3, 4, 5, 6, 7⟩
def other1 : Dhkey := ⟨0, 1, 2, 3, 4, 5, 6, 7⟩
def other2 : Dhkey := ⟨0, 2, 2, 3, 4, 5, 6, 7⟩

theorem sample_connected (l : List (Nat × Phero.Op)) : Connected (sample l) := by
  show Route.hasConnection (Route.run (Route.State.init Dhkey.zero 7) Route.sampleOps) = true
  decide +kernel

/-! ## C124 -/

/-- **C124.**  A message, forwarded message or discovery message is handed only to peers that are in the key cache, are not the node
itself, and are recorded on a trail for its subject or audience. -/
theorem C124_only_trails (n : Node) :
    (∀ subject prev x, x ∈ (outForward n subject prev).1 → Peer n x ∧ Trail n.trails subject false x) ∧
    (∀ subject x, x ∈ (outDefault n subject).1 → Peer n x ∧ Trail n.trails subject false x) ∧
    (∀ audience prev x, x ∈ (outAvailable n audience .findReceiver prev).1 → Peer n x ∧ Trail n.trails audience false x) ∧
    (∀ audience prev x, x ∈ (outAvailable n audience .findSender prev).1 → Peer n x ∧ Trail n.trails audience true x) := by
  by_cases hc : Connected n
  · refine ⟨?_, ?_, ?_, ?_⟩
    · intro s p x hx
      rw [outForward_eq hc, mem_send] at hx
      exact ⟨hx.2, mem_all.1 (List.mem_of_mem_erase (List.mem_of_mem_erase hx.1))⟩
    · intro s x hx
      rw [outDefault_eq hc, mem_send] at hx
      exact ⟨hx.2, mem_all.1 hx.1⟩
    all_goals
      intro a p x hx
      rw [outAvailable_eq hc, mem_send] at hx
      refine ⟨hx.2, ?_⟩
      have h1 := hx.1
      simp only [Search.dir] at h1
      split at h1
      · exact mem_all.1 (List.mem_of_mem_erase h1)
      · simp at h1
  · have hf : Route.hasConnection n.route = false := by
      cases h : Route.hasConnection n.route with
      | false => rfl
      | true => exact absurd h hc
    refine ⟨?_, ?_, ?_, ?_⟩
    · intro s p x hx; simp [outForward, hf] at hx
    · intro s x hx; simp [outDefault, hf] at hx
    · intro s p x hx; simp [outAvailable, hf] at hx
    · intro s p x hx; simp [outAvailable, hf] at hx

/-- **C124.**  Success is reported exactly if the message has been handed to somebody. -/
theorem C124_reported (n : Node) :
    (∀ subject prev, (outForward n subject prev).2 = true ↔ (outForward n subject prev).1 ≠ []) ∧
    (∀ subject, (outDefault n subject).2 = true ↔ (outDefault n subject).1 ≠ []) ∧
    (∀ audience what prev, (outAvailable n audience what prev).2 = true ↔ (outAvailable n audience what prev).1 ≠ []) := by
  by_cases hc : Connected n
  · refine ⟨fun s p => ?_, fun s => ?_, fun a w p => ?_⟩
    · rw [outForward_eq hc]; exact send_ok
    · rw [outDefault_eq hc]; exact send_ok
    · rw [outAvailable_eq hc]; exact send_ok
  · have hf : Route.hasConnection n.route = false := by
      cases h : Route.hasConnection n.route with
      | false => rfl
      | true => exact absurd h hc
    refine ⟨fun s p => ?_, fun s => ?_, fun a w p => ?_⟩
    · simp [outForward, hf]
    · simp [outDefault, hf]
    · simp [outAvailable, hf]

example : outForward (sample (Phero.from_ 1 [10, 5, 7])) (Phero.tgt 1) (Phero.peer 5) = ([Phero.peer 7, Phero.peer 10], true) ∧
    outDefault (sample (Phero.from_ 1 [10, 5, 7])) (Phero.tgt 2) = ([], false) := by
  constructor <;> decide +kernel

/-! ## C125 -/

/-- **C125.**  While the node has a connection, a message is handed to every peer on a trail for its subject, however weak the trail
is; a forwarded one to every such peer but the one it came from. -/
theorem C125_all_trails (n : Node) (hc : Connected n) (subject x : Dhkey) (hx : Peer n x) (ht : Trail n.trails subject false x) :
    x ∈ (outDefault n subject).1 ∧ ∀ prev, prev ≠ x → x ∈ (outForward n subject prev).1 := by
  constructor
  · rw [outDefault_eq hc, mem_send]
    exact ⟨mem_all.2 ht, hx⟩
  · intro prev hp
    rw [outForward_eq hc, mem_send]
    exact ⟨(List.mem_erase_of_ne hp.symm).2 ((List.mem_erase_of_ne hp.symm).2 (mem_all.2 ht)), hx⟩

/-- **C125, partial.**  A discovery message is handed to every peer but the one it came from on a trail of at least 52/256.
Missing: it does not find weaker trails (`C125_weak_refuted`). -/
theorem C125_discovery_partial (n : Node) (hc : Connected n) (audience x : Dhkey) (hx : Peer n x) (hs : Strong n.trails audience 52)
    (prev : Dhkey) (hp : prev ≠ x) :
    (Trail n.trails audience false x → x ∈ (outAvailable n audience .findReceiver prev).1) ∧
    (Trail n.trails audience true x → x ∈ (outAvailable n audience .findSender prev).1) := by
  constructor
  · intro ht
    rw [outAvailable_eq hc, mem_send]
    refine ⟨?_, hx⟩
    simp only [Search.dir, strength_ge (by omega) hs ht, if_true]
    exact (List.mem_erase_of_ne hp.symm).2 (mem_all.2 ht)
  · intro ht
    rw [outAvailable_eq hc, mem_send]
    refine ⟨?_, hx⟩
    simp only [Search.dir, strength_ge (by omega) hs ht, if_true]
    exact (List.mem_erase_of_ne hp.symm).2 (mem_all.2 ht)

example : Phero.peer 7 ∈ (outAvailable (sample (Phero.from_ 1 [10, 5, 7])) (Phero.tgt 1) .findReceiver (Phero.peer 5)).1 := by decide +kernel

/-- **C125 is false for discovery messages.**  A trail that has been aged ten times leads messages to the peer, but the discovery
messages for the same id are dropped. -/
theorem C125_weak_refuted : ∃ n, Connected n ∧ Peer n (Phero.peer 3) ∧ (outDefault n subj).1 = [Phero.peer 3] ∧
    outAvailable n subj .findReceiver (Phero.peer 9) = ([], false) :=
  ⟨sample (laid (Phero.peer 3) true [subj] ++ List.replicate 10 (0, .exhale 0)), sample_connected _, ⟨by decide +kernel, rfl⟩,
    by decide +kernel, by decide +kernel⟩

/-! ## C126 -/

/-- **C126, partial.**  A forwarded message is not handed back to the peer it came from if at most two elements of the table list it
for the subject, a discovery message if at most one does.  Missing: with more it comes back (`C126_back_refuted`). -/
theorem C126_not_back_partial (n : Node) (debug : Bool) (own : Dhkey) (l : List (Nat × Phero.Op))
    (hrun : Phero.run debug own Phero.Table.empty l = some n.trails) (id prev : Dhkey) :
    (timesRecorded n.trails id false prev ≤ 2 → prev ∉ (outForward n id prev).1) ∧
    (timesRecorded n.trails id false prev ≤ 1 → prev ∉ (outAvailable n id .findReceiver prev).1) ∧
    (timesRecorded n.trails id true prev ≤ 1 → prev ∉ (outAvailable n id .findSender prev).1) := by
  have hok : ∀ e, n.trails.entry (id.t0.toNat % 257) = some e → ∀ x ∈ e.slots, (x.send.map Phero.Hop.id).Nodup ∧ (x.recv.map Phero.Hop.id).Nodup := by
    intro e he x hx
    exact ⟨(Phero.C39_bounded_unique_partial debug own l n.trails hrun x.send ⟨_, e, x, he, hx, Or.inl rfl⟩).2,
      (Phero.C39_bounded_unique_partial debug own l n.trails hrun x.recv ⟨_, e, x, he, hx, Or.inr rfl⟩).2⟩
  have hcount : ∀ d, (allOf n.trails id d).count prev ≤ timesRecorded n.trails id d prev := fun d => count_le_of_timesRecorded hok
  have hone : ∀ d, timesRecorded n.trails id d prev ≤ 1 → prev ∉ (allOf n.trails id d).erase prev := by
    intro d h
    have := hcount d
    rw [← List.count_eq_zero, List.count_erase_self]
    omega
  by_cases hc : Connected n
  · refine ⟨fun h hm => ?_, fun h hm => ?_, fun h hm => ?_⟩
    · rw [outForward_eq hc, mem_send] at hm
      have h1 := hcount false
      have h2 := List.count_pos_iff.2 hm.1
      rw [List.count_erase_self, List.count_erase_self] at h2
      omega
    all_goals
      rw [outAvailable_eq hc, mem_send] at hm
      have h1 := hm.1
      simp only [Search.dir] at h1
      split at h1
      · exact hone _ h h1
      · simp at h1
  · have hf : Route.hasConnection n.route = false := by
      cases h : Route.hasConnection n.route with
      | false => rfl
      | true => exact absurd h hc
    refine ⟨fun _ => ?_, fun _ => ?_, fun _ => ?_⟩
    · simp [outForward, hf]
    · simp [outAvailable, hf]
    · simp [outAvailable, hf]

example : timesRecorded (sample (Phero.from_ 1 [10, 5, 7])).trails (Phero.tgt 1) false (Phero.peer 5) = 1 := by decide +kernel

/-- **C126 is false.**  A peer has announced three subjects.  A message for one of them that comes from this peer is handed back to
it, because only two of the three entries are removed; a discovery message already with two. -/
theorem C126_back_refuted : HonestRun [Phero.peer 3] (laid (Phero.peer 3) true [other1, other2, subj]) ∧
    outForward (sample (laid (Phero.peer 3) true [other1, other2, subj])) subj (Phero.peer 3) = ([Phero.peer 3], true) ∧
    outAvailable (sample (laid (Phero.peer 3) true [other1, subj])) subj .findReceiver (Phero.peer 3) = ([Phero.peer 3], true) :=
  ⟨laid_honest _ _ _, by decide +kernel, by decide +kernel⟩

/-! ## C127 -/

/-- **C127, partial.**  A peer gets at most as many copies of a message as elements of the table list it for the subject; if these are
single, at most one copy.  Missing: with several elements it gets several copies (`C127_copies_refuted`). -/
theorem C127_copies_partial (n : Node) (debug : Bool) (own : Dhkey) (l : List (Nat × Phero.Op))
    (hrun : Phero.run debug own Phero.Table.empty l = some n.trails) (subject prev x : Dhkey) :
    (outDefault n subject).1.count x ≤ timesRecorded n.trails subject false x ∧
    (outForward n subject prev).1.count x ≤ timesRecorded n.trails subject false x ∧
    ((∀ y, timesRecorded n.trails subject false y ≤ 1) → (outDefault n subject).1.Nodup ∧ (outForward n subject prev).1.Nodup) := by
  have hok : ∀ e, n.trails.entry (subject.t0.toNat % 257) = some e → ∀ x ∈ e.slots, (x.send.map Phero.Hop.id).Nodup ∧ (x.recv.map Phero.Hop.id).Nodup := by
    intro e he x hx
    exact ⟨(Phero.C39_bounded_unique_partial debug own l n.trails hrun x.send ⟨_, e, x, he, hx, Or.inl rfl⟩).2,
      (Phero.C39_bounded_unique_partial debug own l n.trails hrun x.recv ⟨_, e, x, he, hx, Or.inr rfl⟩).2⟩
  have hcount : ∀ y, (allOf n.trails subject false).count y ≤ timesRecorded n.trails subject false y := fun y => count_le_of_timesRecorded hok
  have hsub : ∀ (m : List Dhkey) y, m.Sublist (allOf n.trails subject false) → (sendChunks n m).1.count y ≤ timesRecorded n.trails subject false y := by
    intro m y hm
    exact Nat.le_trans (List.Sublist.count_le y (List.filter_sublist.trans hm)) (hcount y)
  have hd : ∀ y, (outDefault n subject).1.count y ≤ timesRecorded n.trails subject false y := by
    intro y
    by_cases hc : Connected n
    · rw [outDefault_eq hc]; exact hsub _ y (List.Sublist.refl _)
    · unfold outDefault; rw [if_neg (show ¬ Route.hasConnection n.route = true from hc)]; simp
  have hf : ∀ y, (outForward n subject prev).1.count y ≤ timesRecorded n.trails subject false y := by
    intro y
    by_cases hc : Connected n
    · rw [outForward_eq hc]; exact hsub _ y (List.erase_sublist.trans List.erase_sublist)
    · unfold outForward; rw [if_neg (show ¬ Route.hasConnection n.route = true from hc)]; simp
  exact ⟨hd x, hf x, fun h => ⟨List.nodup_iff_count.2 fun y => Nat.le_trans (hd y) (h y), List.nodup_iff_count.2 fun y => Nat.le_trans (hf y) (h y)⟩⟩

/-- **C127 is false.**  The same peer gets three copies of one message. -/
theorem C127_copies_refuted : HonestRun [Phero.peer 3] (laid (Phero.peer 3) true [other1, other2, subj]) ∧
    (outDefault (sample (laid (Phero.peer 3) true [other1, other2, subj])) subj).1 = [Phero.peer 3, Phero.peer 3, Phero.peer 3] :=
  ⟨laid_honest _ _ _, by decide +kernel⟩

/-! ## C128 -/

theorem ackLoop_found {t : Phero.Table} {id : Dhkey} (hne : allOf t id false ≠ []) (h : 90 ≤ strength t id) (k : Nat) :
    ackLoop t id (k + 2) 256 = some (allOf t id false) := by
  unfold ackLoop
  rw [if_pos (by omega)]
  simp only [snuffle_eq]
  by_cases hp : 256 ≤ strength t id
  · rw [if_pos hp, if_neg hne]
  · rw [if_neg hp, if_pos rfl]
    unfold ackLoop
    have h1 : lower (strength t id) > 64 := by unfold lower; omega
    have h2 : lower (strength t id) ≤ strength t id := Nat.sub_le _ _
    rw [if_pos h1]
    simp only [snuffle_eq, h2, if_true]
    rw [if_neg hne]

theorem ackLoop_forever {t : Phero.Table} {id : Dhkey} (he : allOf t id false = []) (h : 90 ≤ strength t id) :
    ∀ k p, p > 64 → ackLoop t id k p = none := by
  intro k
  induction k with
  | zero => intro p hp; unfold ackLoop; rw [if_pos hp]
  | succ k ih =>
    intro p hp
    unfold ackLoop
    rw [if_pos hp]
    simp only [snuffle_eq, he]
    rw [if_pos (by split <;> rfl)]
    exact ih _ (by unfold lower; omega)

/-- **C128, partial.**  An acknowledgement for a peer in the table or leafset is handed to this peer.  One for another node is handed
to all peers on the trail for it if the trail is at least 90/256 strong and leads to some receiver.  Missing: weaker trails
(`C128_weak_refuted`), known nodes in neither of the two (`C128_dropped_refuted`), trails without receivers
(`C128_hang_refuted`), ids without a node (`C128_crash_refuted`). -/
theorem C128_ack_partial (n : Node) (hc : Connected n) (audience trail : Dhkey) :
    (Peer n audience → n.hasNode audience = true → (n.route.inLeaf audience = true ∨ n.route.inTable audience = true) →
      ∀ rounds, outAck n audience trail rounds = .sent [audience] true) ∧
    (n.exists? audience = false → Strong n.trails trail 90 → (∃ y, Trail n.trails trail false y) →
      ∀ rounds, 2 ≤ rounds → ∃ hops ok, outAck n audience trail rounds = .sent hops ok ∧
        (∀ x, x ∈ hops ↔ Peer n x ∧ Trail n.trails trail false x) ∧ (ok = true ↔ hops ≠ [])) := by
  constructor
  · intro hp hn hr rounds
    unfold outAck
    rw [if_pos (show Route.hasConnection n.route = true from hc), if_pos hp.2, if_pos hn, if_pos (by
      rw [Bool.or_eq_true]; exact hr)]
    have : n.reachable audience = true := reachable_iff.2 hp
    simp [Outcome.of, sendChunks, this]
  · intro he hs ⟨y, hy⟩ rounds hr
    have hne : allOf n.trails trail false ≠ [] := by
      intro h
      have := mem_all.2 hy
      rw [h] at this
      simp at this
    obtain ⟨k, rfl⟩ : ∃ k, rounds = k + 2 := ⟨rounds - 2, by omega⟩
    refine ⟨(sendChunks n (allOf n.trails trail false)).1, (sendChunks n (allOf n.trails trail false)).2, ?_, ?_, send_ok⟩
    · unfold outAck
      rw [if_pos (show Route.hasConnection n.route = true from hc), if_neg (by simp [he])]
      unfold ackTrail
      rw [ackLoop_found hne (strength_ge (by omega) hs hy)]
      rfl
    · intro x
      rw [mem_send, mem_all]
      exact And.comm

/-- A sample node for which only the peers of the table and one neighbour with a trail are in the key cache. -/
def sampleFor (known : Dhkey → Bool) (l : List (Nat × Phero.Op)) : Node := { sample l with exists? := known }

example : outAck (sample []) Route.pA subj 2 = .sent [Route.pA] true ∧
    outAck (sampleFor (· == Phero.peer 3) (laid (Phero.peer 3) true [subj])) (Phero.peer 8) subj 2 = .sent [Phero.peer 3] true := by
  constructor <;> decide +kernel

/-- **C128 is false for weaker trails.**  A trail that has been aged five times leads messages to the peer, acknowledgements are dropped. -/
theorem C128_weak_refuted : ∃ n audience, Connected n ∧ n.exists? audience = false ∧ (outDefault n subj).1 = [Phero.peer 3] ∧
    outAck n audience subj 8 = .sent [] false :=
  ⟨sampleFor (· == Phero.peer 3) (laid (Phero.peer 3) true [subj] ++ List.replicate 5 (0, .exhale 0)), Phero.peer 8, sample_connected [],
    by decide +kernel, by decide +kernel, by decide +kernel⟩

/-- **C128 is false for a known node outside table and leafset.**  The trail to it is not even tried. -/
theorem C128_dropped_refuted : ∃ n, Connected n ∧ Trail n.trails subj false (Phero.peer 3) ∧ Peer n (Phero.peer 3) ∧
    ∀ rounds, outAck n (Phero.peer 8) subj rounds = .sent [] false := by
  refine ⟨sample (laid (Phero.peer 3) true [subj]), sample_connected _, mem_all.1 (by decide +kernel), ⟨by decide +kernel, rfl⟩, fun rounds => ?_⟩
  unfold outAck
  rw [if_pos (show Route.hasConnection (sample _).route = true from sample_connected _),
    if_pos (show (sample _).exists? (Phero.peer 8) = true from rfl), if_pos (show (sample _).hasNode (Phero.peer 8) = true from rfl),
    if_neg (by decide +kernel)]
  simp [Outcome.of, send_nil]

/-- **C128 is false: the call may not return.**  A peer has announced to be a sender for the id of the trail.  The search for
receivers then goes on for ever, as each round raises the target to the strength of the trail again. -/
theorem C128_hang_refuted : HonestRun [Phero.peer 3] (laid (Phero.peer 3) false [subj]) ∧
    ∀ rounds, outAck (sampleFor (· == Phero.peer 3) (laid (Phero.peer 3) false [subj])) (Phero.peer 8) subj rounds = .running := by
  refine ⟨laid_honest _ _ _, fun rounds => ?_⟩
  unfold outAck
  rw [if_pos (show Route.hasConnection (sampleFor _ _).route = true from sample_connected []), if_neg (by decide +kernel)]
  unfold ackTrail
  rw [ackLoop_forever (by decide +kernel) (by decide +kernel) rounds 256 (by omega)]

/-- **C128 is false: the process may crash.**  The audience of an acknowledgement that is to be forwarded is any id in the key cache
without a node, for instance that of an identity. -/
theorem C128_crash_refuted (n : Node) (hc : Connected n) (audience trail : Dhkey) (he : n.exists? audience = true) (hn : n.hasNode audience = false)
    (rounds : Nat) : outAck n audience trail rounds = .crash := by
  unfold outAck
  rw [if_pos (show Route.hasConnection n.route = true from hc), if_pos he, if_neg (by simp [hn])]

example : ∃ n : Node, Connected n ∧ n.exists? (Phero.peer 8) = true ∧ n.hasNode (Phero.peer 8) = false :=
  ⟨{ sample [] with hasNode := fun _ => false }, sample_connected [], rfl, rfl⟩

/-! ## C129 -/

/-- **C129, partial.**  An announcement in the direction of an id other than the own one does not end the process and is handed to at
most one peer, which is in the table or leafset; to exactly one if the table is not empty and its peers are in the key cache.
Missing: the own id as direction (`C129_own_id_refuted`), announcements along a trail (`C129_targeted_refuted`). -/
theorem C129_generic_partial (n : Node) (me : Dhkey) (cap : Nat) (ops : List Route.Op) (hr : Routed n me cap ops) (target : Dhkey) (ht : target ≠ me) :
    ∃ hops ok, outPheromone n target target = some (hops, ok) ∧ hops.length ≤ 1 ∧
      (∀ x ∈ hops, x ∈ Route.Spec.known n.route ∧ Peer n x) ∧
      ((∀ x ∈ Route.Spec.known n.route, n.exists? x = true) → Route.Spec.peers n.route ≠ [] → hops.length = 1 ∧ ok = true) := by
  have hme : n.me = me := by unfold Node.me; rw [hr]; exact Route.run_me ops _
  have hcnt : n.route.count = (Route.Spec.peers n.route).length := by rw [hr]; exact Route.C61_route_count me cap ops
  have hcon : Connected n ↔ ∃ x, x ∈ Route.Spec.known n.route := by unfold Connected; rw [hr]; exact Route.C61_has_joined me cap ops
  by_cases hc : Connected n
  · unfold outPheromone
    rw [if_pos (show Route.hasConnection n.route = true from hc)]
    obtain ⟨l, hl, hlen, hmem⟩ := Route.C62_next_hop me cap ops n.good n.worse target 2 ht (by omega)
    rw [← hr] at hl hmem
    have hfin : ∀ x, x ∈ Route.Spec.known n.route ∧ x ≠ me →
        ∃ hops ok, some (sendChunks n [x]) = some (hops, ok) ∧ hops.length ≤ 1 ∧ (∀ y ∈ hops, y ∈ Route.Spec.known n.route ∧ Peer n y) ∧
          ((∀ x ∈ Route.Spec.known n.route, n.exists? x = true) → Route.Spec.peers n.route ≠ [] → hops.length = 1 ∧ ok = true) := by
      intro x ⟨hx1, hx2⟩
      refine ⟨(sendChunks n [x]).1, (sendChunks n [x]).2, rfl, ?_, ?_, ?_⟩
      · exact Nat.le_trans (List.length_filter_le _ _) (by simp)
      · intro y hy
        rw [mem_send, List.mem_singleton] at hy
        exact ⟨hy.1 ▸ hx1, hy.2⟩
      · intro hall _
        have : n.reachable x = true := reachable_iff.2 ⟨by rw [hme]; exact hx2, hall x hx1⟩
        simp [sendChunks, this]
    unfold pheromoneHops
    rw [if_pos ((equal_iff _ _).2 rfl), hl]
    simp only [Option.bind_some]
    by_cases hempty : l = [] ∧ n.route.count > 0
    · rw [if_pos hempty]
      have hperm := (Route.C40_sort_by_prefix target (tableOf n.route)).1
      have hpe : tableOf n.route = Route.Spec.peers n.route := rfl
      cases hs : Route.sortCpm target (tableOf n.route) with
      | nil =>
        exfalso
        rw [hs] at hperm
        have := hperm.length_eq
        rw [hpe] at this
        simp only [List.length_nil] at this
        omega
      | cons x r =>
        simp only [List.head?_cons, Option.map_some]
        have hx : x ∈ Route.Spec.peers n.route := by
          rw [← hpe]
          exact hperm.mem_iff.1 (by rw [hs]; simp)
        have hk : x ∈ Route.Spec.known n.route := by
          unfold Route.Spec.known
          simp [hx]
        refine hfin x ⟨hk, ?_⟩
        have := (Route.C37_at_most_once me cap ops).2
        rw [← hr] at this
        intro e
        exact this (e ▸ hx)
    · rw [if_neg hempty]
      cases l with
      | nil =>
        refine ⟨[], false, by simp [send_nil], by simp, by simp, ?_⟩
        intro _ hp
        exfalso
        refine hempty ⟨rfl, ?_⟩
        rw [hcnt]
        exact List.length_pos_iff.2 hp
      | cons x r =>
        have : r = [] := by
          cases r with
          | nil => rfl
          | cons y r => simp at hlen
        subst this
        exact hfin x (hmem x (by simp))
  · refine ⟨[], false, by unfold outPheromone; rw [if_neg (show ¬ Route.hasConnection n.route = true from hc)], by simp, by simp, ?_⟩
    intro _ hp
    exfalso
    apply hc
    rw [hcon]
    obtain ⟨x, hx⟩ := List.exists_mem_of_ne_nil _ hp
    exact ⟨x, by unfold Route.Spec.known; simp [hx]⟩

example : Routed (sample []) Dhkey.zero 7 Route.sampleOps ∧ Route.Spec.peers (sample []).route ≠ [] ∧
    outPheromone (sample []) Route.pC Route.pC = some ([Route.pA], true) := ⟨rfl, by decide +kernel, by decide +kernel⟩

/-- **C129 is false for the own id.**  A received announcement that is new to the table and names the node itself as its direction ends
the process: it is to be forwarded, and the lookup for the own id fails an assertion. -/
theorem C129_own_id_refuted (n : Node) (hc : Connected n) (debug : Bool) (now : Nat) (w : Phero.Wire) (delay : Nat) (last : Dhkey) (t : Phero.Table)
    (h : Phero.inPheromone debug n.me now n.trails w delay last = some (t, true)) : onPheromone n debug now w delay last n.me = none := by
  unfold onPheromone
  rw [h]
  simp only [Option.bind_some, if_true]
  have : outPheromone { n with trails := t } n.me n.me = none := by
    unfold outPheromone
    rw [if_pos (show Route.hasConnection n.route = true from hc)]
    unfold pheromoneHops
    rw [if_pos ((equal_iff _ _).2 rfl)]
    have := Route.C62_own_id_refuted n.route n.good n.worse 2 (by omega)
    show Option.map _ (Option.bind (Route.lookup n.route n.good n.worse n.route.leaf.me 2) _) = none
    rw [this]
    rfl
  rw [this]
  rfl

/-- Such announcements exist. -/
example : ((Phero.inPheromone false Dhkey.zero 0 Phero.Table.empty { key := 1, free := some 63, bytes := [(0, 128, 1)] } 0 (Phero.peer 3)).map (·.2)) = some true := by
  decide +kernel

/-- **C129 is false for announcements along a trail.**  They go not only to the peer on the trail but also to another one. -/
theorem C129_targeted_refuted : ∃ n audience target, target ≠ audience ∧ outPheromone n audience target = some ([target, Route.pA], true) ∧ target ≠ Route.pA :=
  ⟨sample [], Phero.tgt 1, Phero.peer 3, by decide +kernel, by decide +kernel, by decide +kernel⟩

/-! ## C130 -/

theorem updateLoop_spec {n : Node} {me : Dhkey} {cap : Nat} {ops : List Route.Op} (hr : Routed n me cap ops) {target : Dhkey} (ht : target ≠ me) :
    ∀ k i, 1 ≤ i → ∃ l, updateLoop n target k i = some l ∧ (∀ x ∈ l, x ∈ Route.Spec.known n.route ∧ x ≠ me) ∧
      (l = [] → ∀ j, i ≤ j → j < i + k → Route.lookup n.route n.good n.worse target j = some []) := by
  intro k
  induction k with
  | zero => intro i _; exact ⟨[], rfl, by simp, by intro _ j h1 h2; omega⟩
  | succ k ih =>
    intro i hi
    obtain ⟨l, hl, _, hmem⟩ := Route.C62_next_hop me cap ops n.good n.worse target i ht hi
    rw [← hr] at hl hmem
    unfold updateLoop
    rw [hl]
    simp only [Option.bind_some]
    by_cases he : l = []
    · rw [if_pos he]
      obtain ⟨m, h1, h2, h3⟩ := ih (i + 1) (by omega)
      refine ⟨m, h1, h2, ?_⟩
      intro hm j hj1 hj2
      by_cases e : j = i
      · rw [e, hl, he]
      · exact h3 hm j (by omega) (by omega)
    · rw [if_neg he]
      exact ⟨l, rfl, hmem, fun h => absurd h he⟩

/-- **C130, partial.**  The announcement of a node does not end the process and is handed to at most one peer, which is in the table or
leafset and is not the node itself; to none only if there is no usable peer in the table in the rows up to that of the node.
Missing: announcements that are received and passed on (`C130_direction_refuted`, `C130_missing_refuted`), and the end of the
way (`C130_nearest_refuted`). -/
theorem C130_update_partial (n : Node) (me : Dhkey) (cap : Nat) (ops : List Route.Op) (hr : Routed n me cap ops) (target : Dhkey) (ht : target ≠ me) :
    ∃ r, outUpdate n target = some r ∧ (∀ x, r = some x → x ∈ Route.Spec.known n.route ∧ x ≠ me) ∧
      (r = none → ∀ x ∈ Route.Spec.peers n.route,
        Np.Spec.commonPrefix (idStr me.bytes) (idStr x.bytes) ≤ Np.Spec.commonPrefix (idStr me.bytes) (idStr target.bytes) → n.good x = false) := by
  have hme : n.me = me := by unfold Node.me; rw [hr]; exact Route.run_me ops _
  by_cases hc : Connected n
  · obtain ⟨l, h1, h2, h3⟩ := updateLoop_spec hr ht 4 1 (Nat.le_refl 1)
    unfold outUpdate
    rw [if_pos (show Route.hasConnection n.route = true from hc), h1]
    simp only [Option.map_some]
    cases l with
    | nil =>
      refine ⟨none, rfl, by simp, ?_⟩
      intro _ x hx hrow
      have := h3 rfl 2 (by omega) (by omega)
      rw [hr] at this hx
      exact Route.C62_no_hop me cap ops n.good n.worse target 2 ht (by omega) (by omega) this x hx hrow
    | cons x r =>
      have hx := h2 x (by simp)
      have hne : ¬ (equal x n.me = true) := fun h => hx.2 (((equal_iff _ _).1 h).trans hme)
      simp only [List.head?_cons, if_neg hne]
      exact ⟨some x, rfl, fun y hy => by cases hy; exact hx, by simp⟩
  · refine ⟨none, by unfold outUpdate; rw [if_neg (show ¬ Route.hasConnection n.route = true from hc)], by simp, ?_⟩
    intro _ x hx
    exfalso
    apply hc
    have := (Route.C61_has_joined me cap ops).2
    rw [← hr] at this
    exact this ⟨x, by unfold Route.Spec.known; simp [hx]⟩

example : outUpdate (sample []) Route.pC = some (some Route.pA) := by decide +kernel

/-- A node with a single peer in its leafset. -/
def pair (me peer : Dhkey) : Node := { sample [] with route := Route.run (Route.State.init me 7) [.joinLeaf peer] }

/-- **C130 is false: the way does not end at the nearest node.**  Of two nodes that know each other each passes the announcement on to the
other, also the one that is nearer. -/
theorem C130_nearest_refuted : ∃ a b target, Route.Spec.dist target a < Route.Spec.dist target b ∧ outUpdate (pair a b) target = some (some b) ∧
    outUpdate (pair b a) target = some (some a) :=
  ⟨Phero.peer 1, Phero.peer 8, Phero.peer 2, by decide +kernel, by decide +kernel, by decide +kernel⟩

/-- **C130 is false: announcements that are received are passed on in a direction which has nothing to do with the announced node.** -/
theorem C130_direction_refuted (n : Node) (prop : Dhkey) : (∀ a b, onUpdate n prop (.token a) = onUpdate n prop (.token b)) ∧
    ∃ n prop issuer hop, onUpdate n prop (.token issuer) = some (some hop) ∧ Route.Spec.dist issuer n.me < Route.Spec.dist issuer hop :=
  ⟨fun _ _ => rfl, pair (Phero.peer 1) (Phero.peer 8), Phero.peer 4, Phero.peer 2, Phero.peer 8, by decide +kernel, by decide +kernel⟩

/-- **C130 is false: an announcement without a token crashes the receiver.** -/
theorem C130_missing_refuted (n : Node) (prop : Dhkey) : onUpdate n prop .missing = none := rfl

end Np.Axon
