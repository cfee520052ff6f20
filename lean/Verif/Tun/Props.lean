import Verif.Tun.Lemmas
/-! # Properties of the tunnel -/
namespace Np.Tun
open _root_.Np.Tun.Spec

/-- Examples: two peers of one network, and a packet for the second. -/
def alice : Cfg := { domain := [97], ip := ipText 10 0 0 1, netmask := ipText 255 255 255 0 }
def bob : Cfg := { domain := [97], ip := ipText 10 0 0 2, netmask := ipText 255 255 255 0 }
def hello : List Nat := [0x45, 0, 0, 21, 0, 0, 0, 0, 64, 17, 0, 0, 10, 0, 0, 1, 10, 0, 0, 2, 7]
def works : Sys := { file := 3, numeric := true, attributes := true }

theorem hello_whole : Whole hello := ⟨by decide, by decide, by decide, by decide⟩

/-! ## C207: packets reach the peer with their destination -/

/-- A whole packet of a host for the address of a peer of the same network goes to the subject this peer opened when it was set up, and the peer's host gets its bytes. -/
theorem C207_reaches_partial (hash : Text → Subject) (a b : Cfg) (hd : a.domain = b.domain) (hm : a.netmask = b.netmask) (hi : a.ip ≠ b.ip) (y : Sys) (hf : y.file > 0)
    (p : List Nat) (hp : Whole p) (hdst : destination p = b.ip) :
    ∃ t, init hash b y {} = .ok t ∧ fromHost hash a (fun s => s == t.data) p.length p = .ok (.to t.data p) ∧ ∃ w, toHost (some p) = (w, true) ∧ p ∈ w ∧ ∀ q ∈ w, q = p := by
  have hs : dataSubject hash a b.ip = dataSubject hash b b.ip := by unfold dataSubject; rw [hd, hm]
  refine ⟨_, init_fresh hash b y hf, ?_, [p, p], ?_, by simp, by simp⟩
  · rw [fromHost_long hash a _ p hp.header, hdst, if_neg (fun e => hi e.symm), if_neg (by rw [hp.version]; simp), hs]
    simp
  · unfold toHost
    have h1 := hp.header
    have h2 := hp.words
    simp only
    rw [if_neg (by omega), if_neg (by rw [hp.version]; simp), if_neg (by rw [← hp.total]; simp), if_neg (by omega)]

example : alice.domain = bob.domain ∧ alice.netmask = bob.netmask ∧ alice.ip ≠ bob.ip ∧ Whole hello ∧ destination hello = bob.ip :=
  ⟨rfl, rfl, by decide, hello_whole, rfl⟩

/-- It goes to nobody else of the network: if the address of another peer has another hash, that peer listens elsewhere. -/
theorem C207_nobody_else_partial (hash : Text → Subject) (a c : Cfg) (hd : a.domain = c.domain) (hm : a.netmask = c.netmask) (y : Sys) (hf : y.file > 0) (receiver : Subject → Bool)
    (p : List Nat) (hp : 20 ≤ p.length) (hh : hash (destination p) ≠ hash c.ip) (s : Subject) (q : List Nat) (h : fromHost hash a receiver p.length p = .ok (.to s q)) :
    ∃ t, init hash c y {} = .ok t ∧ t.data ≠ s := by
  refine ⟨_, init_fresh hash c y hf, ?_⟩
  rw [fromHost_long hash a receiver p hp] at h
  split at h
  · simp at h
  · split at h
    · simp at h
    · split at h
      · simp only [Except.ok.injEq, Sent.to.injEq] at h
        rw [← h.1]
        have hs : dataSubject hash a (destination p) = dataSubject hash c (destination p) := by unfold dataSubject; rw [hd, hm]
        rw [hs]
        exact fun e => dataSubject_ne hash c hh e.symm
      · simp at h

/-- Different addresses have different texts. -/
theorem C207_addresses_partial (a b c d a' b' c' d' : Nat) (ha : a < 256) (hb : b < 256) (hc : c < 256) (hd : d < 256) (ha' : a' < 256) (hb' : b' < 256) (hc' : c' < 256) (hd' : d' < 256)
    (h : ipText a b c d = ipText a' b' c' d') : a = a' ∧ b = b' ∧ c = c' ∧ d = d' := by
  unfold ipText at h
  obtain ⟨h1, h⟩ := split_dot _ _ _ _ (digits3_dot ha) (digits3_dot ha') h
  obtain ⟨h2, h⟩ := split_dot _ _ _ _ (digits3_dot hb) (digits3_dot hb') h
  obtain ⟨h3, h4⟩ := split_dot _ _ _ _ (digits3_dot hc) (digits3_dot hc') h
  exact ⟨digits3_inj ha ha' h1, digits3_inj hb hb' h2, digits3_inj hc hc' h3, digits3_inj hd hd' h4⟩

example : ipText 192 168 0 17 = [49, 57, 50, 46, 49, 54, 56, 46, 48, 46, 49, 55] := rfl

/-- Packets for the own address are not sent. -/
theorem C207_own_partial (hash : Text → Subject) (a : Cfg) (receiver : Subject → Bool) (p : List Nat) (hp : 20 ≤ p.length) (h : destination p = a.ip) :
    fromHost hash a receiver p.length p = .ok .dropped := by
  rw [fromHost_long hash a receiver p hp, if_pos h]

/-- A peer that was set up twice listens on the subject that is zero, and looks for peers there, too: the hashes are added a second time. -/
theorem C207_again_refuted (hash : Text → Subject) (c : Cfg) (y : Sys) (hf : y.file > 0) :
    ∃ t, run hash c {} [.init y, .destroy y, .init y] = .ok t ∧ t.data = 0#256 ∧ t.ctl = 0#256 := by
  simp only [run, step, init_fresh hash c y hf]
  unfold destroy
  simp only [ne_eq, not_true_eq_false, if_false]
  unfold init initRest
  rw [if_neg (by simp)]
  simp only [Status.early, if_true, if_pos hf]
  have : routeRequest false y.numeric = .ok () := by
    unfold routeRequest
    split <;> rfl
  rw [this]
  refine ⟨_, rfl, ?_, ?_⟩
  · simp only [initSubjects, generate, dataSubject, BitVec.zero_xor]
    generalize hash dataName = k
    generalize hash c.domain = x
    generalize hash c.ip = z
    generalize hash c.netmask = w
    have r : k ^^^ x ^^^ z ^^^ w ^^^ k ^^^ x ^^^ z ^^^ w = (k ^^^ x ^^^ z ^^^ w) ^^^ (k ^^^ x ^^^ z ^^^ w) := by simp only [BitVec.xor_assoc]
    rw [r, BitVec.xor_self]
  · simp only [initSubjects, generate, BitVec.zero_xor]
    generalize hash ctlName = k
    generalize hash c.domain = x
    have r : k ^^^ x ^^^ k ^^^ x = (k ^^^ x) ^^^ (k ^^^ x) := by simp only [BitVec.xor_assoc]
    rw [r, BitVec.xor_self]

/-- Peers of different networks may listen on the same subject: domain and address can be exchanged. -/
theorem C207_networks_refuted (hash : Text → Subject) (x z m : Text) (y : Sys) (hf : y.file > 0) :
    ∃ t u, init hash { domain := x, ip := z, netmask := m } y {} = .ok t ∧ init hash { domain := z, ip := x, netmask := m } y {} = .ok u ∧ t.data = u.data := by
  refine ⟨_, _, init_fresh hash _ y hf, init_fresh hash _ y hf, ?_⟩
  simp only [dataSubject, generate]
  rw [BitVec.xor_assoc _ (hash x) (hash z), BitVec.xor_comm (hash x) (hash z), ← BitVec.xor_assoc]

/-- A short packet, or an error of the device: what was never written is taken for the packet. -/
theorem C207_short_refuted (hash : Text → Subject) (a : Cfg) (receiver : Subject → Bool) :
    (∀ p, p ≠ [] → p.length < 20 → fromHost hash a receiver p.length p = .error .uninitialised) ∧ fromHost hash a receiver (-1) [] = .error .uninitialised :=
  ⟨fun p h0 h => fromHost_short hash a receiver p h h0, rfl⟩

/-! ## C208: the host gets whole packets, once -/

/-- Something is handed to the host if and only if it is a whole packet, and then it is nothing else. -/
theorem C208_whole_partial (d : Option (List Nat)) : ((toHost d).1 ≠ [] ↔ ∃ p, d = some p ∧ Whole p) ∧ (∀ w ∈ (toHost d).1, d = some w) ∧ ((toHost d).2 = true ↔ (toHost d).1 ≠ []) := by
  cases d with
  | none => simp [toHost]
  | some p =>
    unfold toHost
    simp only
    by_cases h1 : p.length < 20
    · rw [if_pos h1]
      refine ⟨⟨fun h => absurd rfl h, ?_⟩, by simp, by simp⟩
      rintro ⟨q, hq, w⟩
      cases hq
      exact absurd w.header (by omega)
    · rw [if_neg h1]
      by_cases h2 : p.getD 0 0 / 16 ≠ 4
      · rw [if_pos h2]
        refine ⟨⟨fun h => absurd rfl h, ?_⟩, by simp, by simp⟩
        rintro ⟨q, hq, w⟩
        cases hq
        exact absurd w.version h2
      · rw [if_neg h2]
        by_cases h3 : p.length ≠ 256 * p.getD 2 0 + p.getD 3 0
        · rw [if_pos h3]
          refine ⟨⟨fun h => absurd rfl h, ?_⟩, by simp, by simp⟩
          rintro ⟨q, hq, w⟩
          cases hq
          exact absurd w.total h3
        · rw [if_neg h3]
          by_cases h4 : p.getD 0 0 % 16 < 5
          · rw [if_pos h4]
            refine ⟨⟨fun h => absurd rfl h, ?_⟩, by simp, by simp⟩
            rintro ⟨q, hq, w⟩
            cases hq
            exact absurd w.words (by omega)
          · rw [if_neg h4]
            refine ⟨⟨fun _ => ⟨p, rfl, ⟨by omega, by omega, by omega, by omega⟩⟩, fun _ => by simp⟩, by simp, by simp⟩

/-- But it gets each of them twice. -/
theorem C208_twice_refuted (p : List Nat) (h : Whole p) : (toHost (some p)).1 = [p, p] := by
  have h1 := h.header
  have h2 := h.words
  unfold toHost
  simp only
  rw [if_neg (by omega), if_neg (by rw [h.version]; simp), if_neg (by rw [← h.total]; simp), if_neg (by omega)]

/-- Whatever sender and destination are written in it: a peer can send packets in the name of every other, and for every address. -/
theorem C208_forged_refuted (p : List Nat) (h : Whole p) (i v : Nat) (hi : 12 ≤ i) : toHost (some (p.set i v)) = ([p.set i v, p.set i v], true) := by
  have g : ∀ j, j < 12 → (p.set i v).getD j 0 = p.getD j 0 := by
    intro j hj
    simp only [List.getD_eq_getElem?_getD]
    rw [List.getElem?_set_ne (by omega)]
  have h1 := h.header
  have h2 := h.words
  unfold toHost
  simp only
  rw [g 0 (by omega), g 2 (by omega), g 3 (by omega), List.length_set, if_neg (by omega), if_neg (by rw [h.version]; simp), if_neg (by rw [← h.total]; simp), if_neg (by omega)]

/-- A header that is longer than the packet is not noticed. -/
theorem C208_header_refuted : ∃ p : List Nat, p.length < 4 * (p.getD 0 0 % 16) ∧ (toHost (some p)).2 = true :=
  ⟨[0x4F, 0, 0, 20, 0, 0, 0, 0, 64, 17, 0, 0, 10, 0, 0, 1, 10, 0, 0, 2], by decide, by decide⟩

/-! ## C209: who becomes a peer -/

/-- Only a node with the same domain and netmask, another address, and the user's consent; packets for it go to the subject of its address. -/
theorem C209_only_partial (hash : Text → Subject) (c : Cfg) (hc : GoodCfg c) (stack : Text) (p : Peer) (user : Bool) (r : Accepted) (h : authorize hash c stack p user = .ok (some r)) :
    p.domain = some c.domain ∧ p.netmask = some c.netmask ∧ user = true ∧ ∃ ip, p.ip = some ip ∧ ip ≠ c.ip ∧ r.subject = dataSubject hash c ip := by
  unfold authorize at h
  cases hd : p.domain with
  | none => rw [hd] at h; simp at h
  | some dom =>
    simp only [hd] at h
    by_cases h1 : (decide (c.domain.length ≠ dom.length) || !strncmpEq dom.length c.domain dom) = true
    · rw [if_pos h1] at h; simp at h
    · rw [if_neg h1] at h
      simp only [Bool.or_eq_true, decide_eq_true_eq, Bool.not_eq_true', not_or, Bool.not_eq_false, ne_eq, Classical.not_not] at h1
      have e1 := (strncmpEq_iff c.domain dom hc.1 h1.1).1 h1.2
      cases hm : p.netmask with
      | none => rw [hm] at h; simp at h
      | some mask =>
        simp only [hm] at h
        by_cases h2 : (decide (c.netmask.length ≠ mask.length) || !strncmpEq mask.length c.netmask mask) = true
        · rw [if_pos h2] at h; simp at h
        · rw [if_neg h2] at h
          simp only [Bool.or_eq_true, decide_eq_true_eq, Bool.not_eq_true', not_or, Bool.not_eq_false, ne_eq, Classical.not_not] at h2
          have e2 := (strncmpEq_iff c.netmask mask hc.2.2 h2.1).1 h2.2
          cases hi : p.ip with
          | none => rw [hi] at h; simp at h
          | some ip =>
            simp only [hi] at h
            by_cases h3 : (decide (c.ip.length ≠ ip.length) || strncmpEq ip.length c.ip ip) = true
            · rw [if_pos h3] at h; simp at h
            · rw [if_neg h3] at h
              simp only [Bool.or_eq_true, decide_eq_true_eq, not_or, ne_eq, Classical.not_not] at h3
              have e3 : c.ip ≠ ip := fun e => h3.2 ((strncmpEq_iff c.ip ip hc.2.1 h3.1).2 e)
              cases user with
              | false => simp at h
              | true =>
                refine ⟨by rw [e1], by rw [e2], rfl, ip, rfl, e3.symm, ?_⟩
                simp only [Bool.not_true, Bool.false_eq_true, if_false] at h
                cases hr : p.routing with
                | none =>
                  rw [hr] at h
                  simp only [Except.ok.injEq, Option.some.injEq] at h
                  rw [← h, ← e2]; rfl
                | some x =>
                  simp only [hr] at h
                  split at h
                  · simp at h
                  · simp only [Except.ok.injEq, Option.some.injEq] at h
                    rw [← h, ← e2]; rfl

/-- Such a node without a route becomes one, if its address has as many characters as ours. -/
theorem C209_accepted_partial (hash : Text → Subject) (c : Cfg) (hc : GoodCfg c) (stack ip : Text) (hi : ip ≠ c.ip) (hl : ip.length = c.ip.length) :
    authorize hash c stack { domain := some c.domain, netmask := some c.netmask, ip := some ip, routing := none } true = .ok (some { subject := dataSubject hash c ip, route := none }) := by
  unfold authorize
  have e1 := (strncmpEq_iff c.domain c.domain hc.1 rfl).2 rfl
  have e2 := (strncmpEq_iff c.netmask c.netmask hc.2.2 rfl).2 rfl
  have e3 : strncmpEq c.ip.length c.ip ip = false := by
    rw [← hl]
    cases q : strncmpEq ip.length c.ip ip with
    | false => rfl
    | true => exact absurd ((strncmpEq_iff c.ip ip hc.2.1 hl.symm).1 q).symm hi
  simp [e1, e2, e3, hl, dataSubject]

example : GoodCfg alice ∧ bob.ip ≠ alice.ip ∧ bob.ip.length = alice.ip.length := by
  refine ⟨⟨?_, ?_, ?_⟩, by decide, by decide⟩ <;> (unfold NoZero; decide)

/-- A node whose address has more or fewer characters never does, whatever the user says: 10.0.0.1 and 10.0.0.10 cannot be peers. -/
theorem C209_length_refuted (hash : Text → Subject) (c : Cfg) (stack ip : Text) (hl : ip.length ≠ c.ip.length) (domain netmask routing : Option Text) (user : Bool) :
    authorize hash c stack { domain := domain, netmask := netmask, ip := some ip, routing := routing } user = .ok none := by
  unfold authorize
  cases domain with
  | none => rfl
  | some dom =>
    simp only
    split
    · rfl
    · cases netmask with
      | none => rfl
      | some mask =>
        simp only
        split
        · rfl
        · rw [if_pos]
          simp only [Bool.or_eq_true, decide_eq_true_eq]
          exact Or.inl (fun e => hl e.symm)

example : (ipText 10 0 0 10).length ≠ alice.ip.length := by decide

/-- A peer with a route of more than 16 bytes overwrites the stack. -/
theorem C209_overflow_refuted (hash : Text → Subject) (c : Cfg) (hc : GoodCfg c) (stack ip route : Text) (hi : ip ≠ c.ip) (hl : ip.length = c.ip.length) (hr : 16 < route.length) :
    authorize hash c stack { domain := some c.domain, netmask := some c.netmask, ip := some ip, routing := some route } true = .error .outOfBounds := by
  unfold authorize routeText
  have e1 := (strncmpEq_iff c.domain c.domain hc.1 rfl).2 rfl
  have e2 := (strncmpEq_iff c.netmask c.netmask hc.2.2 rfl).2 rfl
  have e3 : strncmpEq c.ip.length c.ip ip = false := by
    rw [← hl]
    cases q : strncmpEq ip.length c.ip ip with
    | false => rfl
    | true => exact absurd ((strncmpEq_iff c.ip ip hc.2.1 hl.symm).1 q).symm hi
  simp [e1, e2, e3, hl, hr]

/-- A shorter route is followed by what was on the stack before. -/
theorem C209_route_refuted : routeText [49, 49, 49, 49, 49, 49, 49, 53, 0, 49, 49, 49, 49, 49, 49, 49] [49, 46, 49, 46, 49, 46, 49] = .ok [49, 46, 49, 46, 49, 46, 49, 53] := by
  decide

/-! ## C210: starting and stopping -/

/-- In every history of calls that meets no undefined behaviour, packets flow while the tunnel is running, and only then. -/
theorem C210_flows_partial (hash : Text → Subject) (c : Cfg) (os : List Op) (t : Tun) (h : run hash c {} os = .ok t) :
    (t.status = .running → Flows t) ∧ (t.status ≠ .running → Quiet t) := inv_run (t := {}) ⟨fun h => by simp at h, fun _ => ⟨rfl, rfl⟩⟩ h

/-- A first start brings the tunnel up; stopping and destroying it after that brings it down. -/
theorem C210_start_partial (hash : Text → Subject) (c : Cfg) (y : Sys) (hf : y.file > 0) :
    ∃ t, run hash c {} [.start y] = .ok t ∧ t.status = .running ∧ t.watched = some y.file ∧ t.up = true ∧ t.enabled = true ∧ t.data = dataSubject hash c c.ip ∧
      ∃ u, run hash c {} [.start y, .stop, .destroy y] = .ok u ∧ u.status = .uninitialized ∧ Quiet u ∧ u.up = false := by
  have hs : Tun.start hash c y {} = startRest { status := .stopped, fd := y.file, ctl := 0#256 ^^^ hash ctlName ^^^ hash c.domain, data := dataSubject hash c c.ip, device := true, callbacks := 1 } := by
    unfold Tun.start
    rw [init_fresh hash c y hf]
    rfl
  simp only [run, step, hs]
  refine ⟨_, rfl, rfl, rfl, rfl, rfl, rfl, _, rfl, rfl, ⟨rfl, rfl⟩, rfl⟩

example : works.file > 0 := by decide

/-- A tunnel that was stopped cannot be started again: the tunnel is freed while it is used. -/
theorem C210_restart_refuted (hash : Text → Subject) (c : Cfg) (y : Sys) (hf : y.file > 0) : run hash c {} [.start y, .stop, .start y] = .error .freed := by
  have hs : Tun.start hash c y {} = startRest { status := .stopped, fd := y.file, ctl := 0#256 ^^^ hash ctlName ^^^ hash c.domain, data := dataSubject hash c c.ip, device := true, callbacks := 1 } := by
    unfold Tun.start
    rw [init_fresh hash c y hf]
    rfl
  simp only [run, step, hs]
  rfl

/-- Destroying a running tunnel writes outside of the request. -/
theorem C210_destroy_refuted (hash : Text → Subject) (c : Cfg) (y : Sys) (hf : y.file > 0) (hn : y.numeric = true) : run hash c {} [.start y, .destroy y] = .error .outOfBounds := by
  have hs : Tun.start hash c y {} = startRest { status := .stopped, fd := y.file, ctl := 0#256 ^^^ hash ctlName ^^^ hash c.domain, data := dataSubject hash c c.ip, device := true, callbacks := 1 } := by
    unfold Tun.start
    rw [init_fresh hash c y hf]
    rfl
  simp only [run, step, hs, startRest, destroy, hn]
  rfl

/-- Errors while it is set up are forgotten: without a valid address and without its attributes the tunnel is running. -/
theorem C210_error_refuted (hash : Text → Subject) (c : Cfg) : ∃ t, run hash c {} [.start { file := 3, numeric := false, attributes := false }] = .ok t ∧ t.status = .running :=
  let ⟨t, h1, h2, _⟩ := C210_start_partial hash c { file := 3, numeric := false, attributes := false } (by decide)
  ⟨t, h1, h2⟩

/-- A stop before the first start: the next start does not set anything up and reads packets from the standard input. -/
theorem C210_stop_first_refuted (hash : Text → Subject) (c : Cfg) (y : Sys) :
    ∃ t, run hash c {} [.stop, .start y] = .ok t ∧ t.status = .running ∧ t.watched = some 0 ∧ t.up = false ∧ t.data = 0#256 := by
  refine ⟨_, rfl, rfl, rfl, rfl, rfl⟩

/-! ## C211: the interface gets the network of the netmask -/

/-- The number of bits is rounded up to a multiple of 8. -/
theorem C211_bits_partial : ∀ n : Nat, 0 < n → n ≤ 32 → prefixBits (maskByte n 0) (maskByte n 1) (maskByte n 2) (maskByte n 3) = .ok (8 * ((n + 7) / 8)) := by
  have : ∀ k : Fin 33, 0 < k.val → prefixBits (maskByte k.val 0) (maskByte k.val 1) (maskByte k.val 2) (maskByte k.val 3) = .ok (8 * ((k.val + 7) / 8)) := by decide
  intro n h0 h
  exact this ⟨n, by omega⟩ h0

/-- So that it is right for these only. -/
theorem C211_bits_refuted (n : Nat) (h0 : 0 < n) (h : n ≤ 32) : prefixBits (maskByte n 0) (maskByte n 1) (maskByte n 2) (maskByte n 3) = .ok n ↔ n % 8 = 0 := by
  rw [C211_bits_partial n h0 h]
  simp only [Except.ok.injEq]
  omega

example : maskByte 22 0 = 255 ∧ maskByte 22 1 = 255 ∧ maskByte 22 2 = 252 ∧ maskByte 22 3 = 0 := by decide

/-- For a netmask of 0 the behaviour is undefined. -/
theorem C211_zero_refuted : prefixBits (maskByte 0 0) (maskByte 0 1) (maskByte 0 2) (maskByte 0 3) = .error .clz := by decide

/-! ## C212: routes -/

/-- Asking for a route stays inside of the request. -/
theorem C212_add_partial (numeric : Bool) : routeRequest false numeric = .ok () := by cases numeric <;> rfl

/-- But the kernel sees none of what was written: it is behind the end of the request. -/
theorem C212_add_refuted : ∀ o ∈ attributeOffsets false, requestLength ≤ o := by decide

/-- Asking to delete one writes outside of the request. -/
theorem C212_delete_refuted : routeRequest true true = .error .outOfBounds := by decide

end Np.Tun
