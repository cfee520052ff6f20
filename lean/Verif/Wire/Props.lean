import Verif.Wire.Lemmas

/-! # Properties of the transport of packets -/
namespace Np.Wire

open _root_.Np.Wire.Spec

/-! ## C79: packets arrive over TCP unchanged and in order -/

/-- C79 (partial): if no call is stopped in the middle of a packet, then at every moment the packets asked to be sent are, in order: those that
arrived (handed on, or dropped by the limit), those under way, and those queued. Nothing else is ever handed on, and the connection stays usable. The
full property has no such condition; see the refutations. -/
theorem C79_in_order_partial (l : List TcpStep) (h : Smooth l) :
    ∃ seen inFlight : List Packet, packets l = seen ++ inFlight ++ (Tcp.init.run l).queue ∧ (Tcp.init.run l).wait = inFlight.flatten ∧
      (Tcp.init.run l).got.Sublist seen ∧ (Tcp.init.run l).enabled = true := by
  obtain ⟨seen, fl, he, hf, hq, hw, ha, hg⟩ := good_run l Tcp.init ⟨[], [], rfl, by simp, by simp [Tcp.init], rfl, rfl, by simp [Tcp.init]⟩ h
  rw [asked_run] at ha
  exact ⟨seen, fl, by simpa [Tcp.init] using ha, hw, hg, he⟩

/-- C79 (partial): and if the limit of messages per second drops nothing, every packet that arrived was handed on. -/
theorem C79_all_delivered_partial (l : List TcpStep) (h : Smooth l) (hu : Unlimited l) :
    ∃ inFlight : List Packet, packets l = (Tcp.init.run l).got ++ inFlight ++ (Tcp.init.run l).queue ∧
      (Tcp.init.run l).wait = inFlight.flatten := by
  obtain ⟨fl, hw, ha⟩ := unlimited_run l Tcp.init ⟨[], rfl, by simp, by simp [Tcp.init], rfl, rfl⟩ h hu
  rw [asked_run] at ha
  exact ⟨fl, by simpa [Tcp.init] using ha, hw⟩

/-- C79: whatever the operating system answers, every packet handed on is an unbroken piece of the bytes written by the sender, the pieces do not
overlap and are in order: nothing is made up, doubled or reordered below the level of bytes. -/
theorem C79_contiguous (l : List TcpStep) : Cut (Tcp.init.run l).got (Tcp.init.run l).sent := by
  obtain ⟨past, h1, h2⟩ := cut_run l Tcp.init ⟨[], rfl, .done []⟩
  rw [h1]
  exact h2.extend _

/-- C79: whatever the operating system answers, packets leave the queue in the order in which they were put there, and only after all their bytes
were written, one after the other. -/
theorem C79_written_whole (l : List TcpStep) (h : ∀ p ∈ packets l, p.length = size) :
    ∃ left, packets l = left ++ (Tcp.init.run l).queue ∧ Cut left (Tcp.init.run l).sent := by
  obtain ⟨left, h1, h2⟩ := left_run l Tcp.init ⟨[], rfl, .done []⟩ (by simp [Tcp.init]) h
  rw [asked_run] at h1
  exact ⟨left, by simpa [Tcp.init] using h1, h2⟩

/-- Two packets for the examples. -/
def pA : Packet := List.replicate size 1
def pB : Packet := List.replicate size 2

/-- A history in which the stream is split in several ways, and nothing stops in the middle of a packet. -/
def smoothRun : List TcpStep :=
  [.append pA, .append pB, .read true [-1], .write true [-1], .write true [46, 1000], .read true [1000, 46], .write true [1046], .read true [1045, 1]]

example : Smooth smoothRun ∧ Unlimited smoothRun ∧ (Tcp.init.run smoothRun).got = [pA, pB] := by
  refine ⟨?_, ?_, by decide +kernel⟩
  · simp only [smoothRun, Smooth, Whole]
    decide +kernel
  · simp [smoothRun, Unlimited]

/-- C79 refuted: if `send` accepts a part of a packet and then no more, the packet is written again from its beginning: the receiver takes the bytes
that follow for packets, none of which was ever sent. -/
theorem C79_partial_send_refuted :
    ∃ l : List TcpStep, packets l = [pA, pB] ∧ (Tcp.init.run l).queue = [] ∧ Unlimited l ∧
      ∃ p ∈ (Tcp.init.run l).got, p ∉ packets l :=
  ⟨[.append pA, .append pB, .write true [1000, -1], .write true [1046], .write true [1046], .read true [1046], .read true [1046]],
   by decide +kernel, by decide +kernel, by simp [Unlimited], pA.take 954 ++ pA.take 46 ++ pB.take 0 ++ pA.take 0 ++ pB.take 46,
   by decide +kernel, by decide +kernel⟩

/-- C79 refuted: if the bytes of a packet arrive in two parts and `recv` finds no more after the first, the first part is thrown away: the packet is
lost, and the rest of it is taken for the beginning of the next. -/
theorem C79_partial_recv_refuted :
    ∃ l : List TcpStep, packets l = [pA, pB] ∧ (Tcp.init.run l).queue = [] ∧ Unlimited l ∧
      (Tcp.init.run l).sent = pA ++ pB ∧ ∃ p, (Tcp.init.run l).got = [p] ∧ p ∉ packets l :=
  ⟨[.append pA, .append pB, .write true [1046], .write true [1046], .read true [1000, -1], .read true [1046]],
   by decide +kernel, by decide +kernel, by simp [Unlimited], by decide +kernel, pA.take 46 ++ pB.take 1000, by decide +kernel, by decide +kernel⟩

/-! ## C80: UDP packets of different peers do not mix -/

/-- C80 (partial): if no datagram is shorter than a packet, then every datagram is handed on as one packet (its first 1046 bytes), attributed to the
address it came from, in the order of arrival; only the limit of messages per second drops any, and reading never stops. The full property is about
all datagrams: anybody can send short ones. -/
theorem C80_attributed_partial {α : Type} (l : List (UdpStep α)) (h : ∀ x ∈ datagrams l, size ≤ x.2.length) :
    ((Udp.init α).run l).enabled = true ∧
    ∃ seen : List (α × List Byte), datagrams l = seen ++ ((Udp.init α).run l).wait ∧
      ((Udp.init α).run l).got.Sublist (seen.map fun x => (x.1, x.2.take size)) ∧
      (UdpUnlimited l → ((Udp.init α).run l).got = seen.map fun x => (x.1, x.2.take size)) := by
  obtain ⟨h1, seen, h2, more, h3, h4, h5⟩ := udp_run l (Udp.init α) rfl (by simp [Udp.init]) h
  have h3' : ((Udp.init α).run l).got = more := by rw [h3]; simp [Udp.init]
  exact ⟨h1, seen, by simpa [Udp.init] using h2, by rw [h3']; exact h4, fun hu => by rw [h3']; exact h5 hu⟩

example : ∃ l : List (UdpStep Nat), (∀ x ∈ datagrams l, size ≤ x.2.length) ∧ UdpUnlimited l ∧
    ((Udp.init Nat).run l).got = [(7, pA), (8, pB)] :=
  ⟨[.arrive 7 pA, .arrive 8 (pB ++ [3]), .read true [true], .read true [false], .read true [true], .read true [true]],
   by decide +kernel, by simp [UdpUnlimited], by decide +kernel⟩

/-- C80: in every history, whatever arrives, a packet that is handed on has the right size and ends with bytes of a datagram of the peer it is
attributed to: nobody can have a packet attributed to a peer that sent nothing. -/
theorem C80_last_bytes {α : Type} (l : List (UdpStep α)) :
    ∀ x ∈ ((Udp.init α).run l).got, x.2.length = size ∧
      ∃ d front k, (x.1, d) ∈ datagrams l ∧ 0 < k ∧ k ≤ d.length ∧ x.2 = front ++ d.take k :=
  udp_origin (datagrams l) l (Udp.init α) (by simp [Udp.init]) (fun _ h => h) (by simp [Udp.init])

/-- C80 refuted: a datagram of one byte, followed by a packet of another peer, is put before that packet: what is handed on as the packet of the
other peer is the byte and the packet without its end, and the true packet is lost. -/
theorem C80_short_then_other_refuted :
    ∃ l : List (UdpStep Nat), datagrams l = [(6, [9]), (8, pB)] ∧ UdpUnlimited l ∧ ((Udp.init Nat).run l).wait = [] ∧
      ((Udp.init Nat).run l).got = [(8, 9 :: pB.take 1045)] ∧ (8, pB) ∉ ((Udp.init Nat).run l).got :=
  ⟨[.arrive 6 [9], .arrive 8 pB, .read true [true, true]], by decide +kernel, by simp [UdpUnlimited], by decide +kernel, by decide +kernel,
   by decide +kernel⟩

/-- Once switched off, a UDP interface reads nothing more. -/
theorem disabled_run {α : Type} (l : List (UdpStep α)) : ∀ s : Udp α, s.enabled = false → (s.run l).got = s.got := by
  induction l with
  | nil => intro s _; rfl
  | cons x l ih =>
    intro s h
    cases x with
    | arrive a d => exact (ih (s.step (.arrive a d)) h)
    | read pass rs =>
      have hs : s.step (.read pass rs) = s := by simp [Udp.step, Udp.read, h]
      have := ih s h
      simp only [Udp.run, List.foldl_cons] at this ⊢
      rw [hs]; exact this

/-- C80 refuted: one empty datagram, from anybody, that is the first of a call switches the interface off: whatever arrives later, from whomever, is
never handed on. -/
theorem C80_empty_datagram_refuted {α : Type} (a : α) (rs : List Bool) (later : List (UdpStep α)) :
    ((Udp.init α).run (.arrive a [] :: .read true (true :: rs) :: later)).got = [] :=
  disabled_run later _ (by simp [Udp.init, Udp.step, Udp.read, recvFromLoop, size])

end Np.Wire
