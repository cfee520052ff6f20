import Verif.Addr.Lemmas

/-! # Interfaces and the own address -/
namespace Np.Addr

open Np.Dhkey
open _root_.Np.Addr.Spec

set_option linter.unusedSimpArgs false
set_option linter.unusedVariables false

theorem Out.bind_ok {α β : Type} {x : Out α} {f : α → Out β} {b : β} (h : x.bind f = .ok b) : ∃ a, x = .ok a ∧ f a = .ok b := by
  cases x with
  | ok a => exact ⟨a, rfl, h⟩
  | crash => exact absurd h (by simp [Out.bind])

/-- `n` is the node structure of the main address. -/
structure Pinned (P : Str → Prop) (n : Node) (s : St) : Prop where
  main : s.mainIp = some n.ip
  here : ∃ i ∈ s.ifaces, i.node = n
  only : ∀ i ∈ s.ifaces, i.node.ip = n.ip → i.node = n
  ips : ∀ i ∈ s.ifaces, P i.node.ip
  p : P n.ip

theorem mem_insert {α : Type} (l : List α) (m : Nat) (x y : α) : y ∈ l.take m ++ x :: l.drop m ↔ y = x ∨ y ∈ l := by
  have h : y ∈ l ↔ y ∈ l.take m ∨ y ∈ l.drop m := by rw [← List.mem_append, List.take_append_drop]
  rw [List.mem_append, List.mem_cons, h]
  constructor
  · rintro (h | h | h)
    · exact .inr (.inl h)
    · exact .inl h
    · exact .inr (.inr h)
  · rintro (h | h | h)
    · exact .inr (.inl h)
    · exact .inl h
    · exact .inr (.inr h)

/-- The parts of a state `listenOn` leaves alone, and the two ways it can end. -/
theorem listenOn_cases {e : Env} {s s' : St} {proto : Sock} {ip port : Str} {r : Ret} (h : listenOn e s proto ip port = .ok (r, s')) :
    (s.mainIp.map (·.take 50) = some (ip.take 50) ∧ r = .ok ∧ s' = s) ∨
    (s.mainIp.map (·.take 50) ≠ some (ip.take 50) ∧ ∃ i, newIface e (hsToken s.nodeKey proto ip port) = .ok i ∧
      s'.ifaces = s.ifaces.take e.place ++ i :: s.ifaces.drop e.place ∧ s'.mainIp = some (s.mainIp.getD (ip.take 50)) ∧ s'.nodeKey = s.nodeKey ∧
      s'.identity = s.identity ∧ s'.peers = s.peers ∧ (r = .ok ↔ e.startup = true) ∧ (r = .ok → s'.running = s.running)) := by
  unfold listenOn at h
  split at h
  · rename_i hm
    simp only [Out.ok.injEq, Prod.mk.injEq] at h
    exact .inl ⟨hm, h.1.symm, h.2.symm⟩
  · rename_i hm
    obtain ⟨i, hi, h⟩ := Out.bind_ok h
    refine .inr ⟨hm, i, hi, ?_⟩
    split at h
    · rename_i hs
      simp only [Out.ok.injEq, Prod.mk.injEq] at h
      obtain ⟨h1, h2⟩ := h
      subst h2
      exact ⟨rfl, rfl, rfl, rfl, rfl, by simp [← h1, hs], fun _ => rfl⟩
    · rename_i hs
      simp only [Out.ok.injEq, Prod.mk.injEq] at h
      obtain ⟨h1, h2⟩ := h
      subst h2
      exact ⟨rfl, rfl, rfl, rfl, rfl, by simp [← h1, hs], fun h => by rw [← h1] at h; exact absurd h (by simp)⟩

theorem newIface_node {e : Env} {k : Dhkey} {p : Proto} {ip port : Str} {i : Iface} (hi : ip.length ≤ 40) (hp : port.length ≤ 5) (hc : ':' ∉ port)
    (h : newIface e (hsToken k p.code ip port) = .ok i) :
    i = ⟨⟨keyText k, p.code, ip, port⟩, p.active && e.binds p.code ip port⟩ := by
  unfold newIface at h
  rw [iface_of_token k p ip port hi hp hc] at h
  simp only [Out.ok.injEq] at h
  rw [← h, active_iff, Bool.not_not]

theorem listenSafe_cases {e : Env} {s s' : St} {protocol host port : Str} {r : Ret} (h : listenSafe e s protocol host port = .ok (r, s')) :
    (r = .invalidArgument ∧ s' = s) ∨
    ∃ p ip, names protocol p ∧ e.localIp (host.take 255) p.code = some ip ∧ listenOn e s p.code ip port = .ok (r, s') := by
  unfold listenSafe at h
  split at h
  · simp only [Out.ok.injEq, Prod.mk.injEq] at h
    exact .inl ⟨h.1.symm, h.2.symm⟩
  · rename_i hu
    obtain ⟨p, hp⟩ := (parse_unknown _).mp hu
    rw [(parse_iff _ _).mpr hp] at h
    cases hl : e.localIp (host.take 255) p.code with
    | none =>
      rw [hl] at h
      simp only [Out.ok.injEq, Prod.mk.injEq] at h
      exact .inl ⟨h.1.symm, h.2.symm⟩
    | some ip =>
      rw [hl] at h
      exact .inr ⟨p, ip, hp, hl, h⟩

theorem pinned_listenOn {P : Str → Prop} (hP : Locals P) {n : Node} {e : Env} {s s' : St} {p : Proto} {ip port : Str} {r : Ret} (hi : P ip)
    (hq : port.length ≤ 5) (hc : ':' ∉ port) (hs : Pinned P n s) (h : listenOn e s p.code ip port = .ok (r, s')) : Pinned P n s' := by
  rcases listenOn_cases h with ⟨_, _, rfl⟩ | ⟨hm, i, hn, h1, h2, h3, h4, h5, h6, h7⟩
  · exact hs
  · have := newIface_node (hP.short ip hi) hq hc hn
    rw [hs.main] at hm h2
    have hne : ip ≠ n.ip := by
      rintro rfl
      exact hm rfl
    have hip : i.node.ip = ip := by rw [this]
    refine ⟨h2, ?_, ?_, ?_, hs.p⟩
    · obtain ⟨j, hj, hjn⟩ := hs.here
      exact ⟨j, by rw [h1, mem_insert]; exact .inr hj, hjn⟩
    · intro j hj hjn
      rw [h1, mem_insert] at hj
      rcases hj with rfl | hj
      · exact absurd (hip.symm.trans hjn) hne
      · exact hs.only j hj hjn
    · intro j hj
      rw [h1, mem_insert] at hj
      rcases hj with rfl | hj
      · rw [hip]; exact hi
      · exact hs.ips j hj

theorem pinned_listenSafe {P : Str → Prop} (hP : Locals P) {n : Node} {e : Env} {s s' : St} {protocol host port : Str} {r : Ret} (he : reports e P)
    (hq : port.length ≤ 5) (hc : ':' ∉ port) (hs : Pinned P n s) (h : listenSafe e s protocol host port = .ok (r, s')) : Pinned P n s' := by
  rcases listenSafe_cases h with ⟨_, rfl⟩ | ⟨p, ip, _, hl, h⟩
  · exact hs
  · exact pinned_listenOn hP (he _ _ _ hl) hq hc hs h

theorem port_take (port : BitVec 16) : (decimal port.toNat).take 6 = decimal port.toNat :=
  List.take_of_length_le (Nat.le_trans (decimal_port port) (by omega))

theorem pinned_listen {P : Str → Prop} (hP : Locals P) {n : Node} {e : Env} {s s' : St} {protocol host : Str} {port : BitVec 16} {r : Ret}
    (he : reports e P) (hs : Pinned P n s) (h : listen e s protocol host port = .ok (r, s')) : Pinned P n s' := by
  unfold listen at h
  rw [port_take] at h
  exact pinned_listenSafe hP he (decimal_port port) (fun hm => (decimal_chars _ _ hm).1 rfl) hs h

theorem reachOrListen_cases {e : Env} {s s' : St} {n : Node} {r : Bool} (h : reachOrListen e s n = .ok (r, s')) :
    s' = s ∨ ∃ ip q, listenSafe e s (protocolString (n.protocol ||| passive)) ip ['3', '1', '4', '1', '5'] = .ok (q, s') := by
  unfold reachOrListen at h
  obtain ⟨a, _, h⟩ := Out.bind_ok h
  split at h
  · simp only [Out.ok.injEq, Prod.mk.injEq] at h
    exact .inl h.2.symm
  · split at h
    · simp only [Out.ok.injEq, Prod.mk.injEq] at h
      exact .inl h.2.symm
    · rename_i ip _
      obtain ⟨⟨q, t⟩, ht, h⟩ := Out.bind_ok h
      have : t = s' := by
        simp only at h
        split at h
        · simp only [Out.ok.injEq, Prod.mk.injEq] at h
          exact h.2
        · obtain ⟨b, _, h⟩ := Out.bind_ok h
          simp only [Out.ok.injEq, Prod.mk.injEq] at h
          exact h.2
      subst this
      exact .inr ⟨ip, q, ht⟩

theorem joinNode_cases {e : Env} {s s' : St} {n : Node} {f : Effect} (h : joinNode e s n = .ok (f, s')) :
    (f = .nothing ∧ s' = s) ∨ ∃ r, reachOrListen e s { n with ip := (e.resolve n.ip n.protocol).take 63 } = .ok (r, s') ∧
      flagCmp n.protocol passive = false ∧
      f = if r then contactNode e { n with ip := (e.resolve n.ip n.protocol).take 63 } else .nothing := by
  unfold joinNode at h
  split at h
  · simp only [Out.ok.injEq, Prod.mk.injEq] at h
    exact .inl ⟨h.1.symm, h.2.symm⟩
  · rename_i hp
    simp only at h
    split at h
    · simp only [Out.ok.injEq, Prod.mk.injEq] at h
      exact .inl ⟨h.1.symm, h.2.symm⟩
    · obtain ⟨⟨r, t⟩, ht, h⟩ := Out.bind_ok h
      simp only [Out.ok.injEq, Prod.mk.injEq] at h
      obtain ⟨h1, h2⟩ := h
      subst h2
      exact .inr ⟨r, ht, by simpa using hp, h1.symm⟩

theorem join_cases {e : Env} {s s' : St} {a : Str} {r : Ret} {f : Effect} (h : join e s a = .ok (r, f, s')) :
    (f = .nothing ∧ s' = s) ∨ (10 < a.length ∧ a.length < 500 ∧ s.running = true ∧ r = .ok ∧
      ∃ n, decode a = .ok (some n) ∧ joinNode e s n = .ok (f, s')) := by
  unfold join at h
  split at h
  · simp only [Out.ok.injEq, Prod.mk.injEq] at h
    exact .inl ⟨h.2.1.symm, h.2.2.symm⟩
  split at h
  · simp only [Out.ok.injEq, Prod.mk.injEq] at h
    exact .inl ⟨h.2.1.symm, h.2.2.symm⟩
  split at h
  · simp only [Out.ok.injEq, Prod.mk.injEq] at h
    exact .inl ⟨h.2.1.symm, h.2.2.symm⟩
  rename_i h1 h2 h3
  rw [List.length_take] at h1 h2
  rw [List.take_of_length_le (by omega)] at h
  obtain ⟨⟨f', t⟩, ht, h⟩ := Out.bind_ok h
  simp only [Out.ok.injEq, Prod.mk.injEq] at h
  obtain ⟨rfl, rfl, rfl⟩ := h
  unfold sendJoin at ht
  obtain ⟨d, hd, ht⟩ := Out.bind_ok ht
  cases d with
  | none =>
    simp only [Out.ok.injEq, Prod.mk.injEq] at ht
    exact .inl ⟨ht.1.symm, ht.2.symm⟩
  | some n => exact .inr ⟨by omega, by omega, by simpa using h3, rfl, n, hd, ht⟩

theorem pinned_join {P : Str → Prop} (hP : Locals P) {n : Node} {e : Env} {s s' : St} {a : Str} {r : Ret} {f : Effect}
    (he : reports e P) (hs : Pinned P n s) (h : join e s a = .ok (r, f, s')) : Pinned P n s' := by
  rcases join_cases h with ⟨_, rfl⟩ | ⟨_, _, _, _, m, _, hj⟩
  · exact hs
  · rcases joinNode_cases hj with ⟨_, rfl⟩ | ⟨q, hr, _, _⟩
    · exact hs
    · rcases reachOrListen_cases hr with rfl | ⟨ip, q', hl⟩
      · exact hs
      · exact pinned_listenSafe hP he (by decide) (by decide) hs hl

theorem pinned_step {P : Str → Prop} (hP : Locals P) {n : Node} {s s' : St} {o : Op} (he : ∀ e, env o = some e → reports e P)
    (hs : Pinned P n s) (h : step s o = .ok s') : Pinned P n s' := by
  cases o with
  | listen e protocol host port =>
    obtain ⟨⟨r, t⟩, ht, h⟩ := Out.bind_ok h
    simp only [Out.ok.injEq] at h
    subst h
    exact pinned_listen hP (he e rfl) hs ht
  | join e a =>
    obtain ⟨⟨r, f, t⟩, ht, h⟩ := Out.bind_ok h
    simp only [Out.ok.injEq] at h
    subst h
    exact pinned_join hP (he e rfl) hs ht
  | run e =>
    simp only [step] at h
    rw [if_neg (by rw [hs.main]; simp)] at h
    simp only [Out.ok.injEq] at h
    subst h
    exact ⟨hs.main, hs.here, hs.only, hs.ips, hs.p⟩
  | stop =>
    simp only [step, Out.ok.injEq] at h
    subst h
    exact ⟨hs.main, hs.here, hs.only, hs.ips, hs.p⟩
  | peers l =>
    simp only [step, Out.ok.injEq] at h
    subst h
    exact ⟨hs.main, hs.here, hs.only, hs.ips, hs.p⟩

theorem pinned_run {P : Str → Prop} (hP : Locals P) {n : Node} : ∀ (ops : List Op) (s s' : St), reportsAll ops P → Pinned P n s →
    run s ops = .ok s' → Pinned P n s'
  | [], s, s', _, hs, h => by
    simp only [run, Out.ok.injEq] at h
    exact h ▸ hs
  | o :: os, s, s', he, hs, h => by
    obtain ⟨t, ht, h⟩ := Out.bind_ok h
    exact pinned_run hP os t s' (fun o ho => he o (List.mem_cons_of_mem _ ho)) (pinned_step hP (he o List.mem_cons_self) hs ht) h

/-- The first interface decides about the own address. -/
theorem pinned_first {P : Str → Prop} (hP : Locals P) {e : Env} {k id : Dhkey} {s' : St} {p : Proto} {ip port : Str} {r : Ret} (hi : P ip)
    (hq : port.length ≤ 5) (hc : ':' ∉ port) (h : listenOn e (St.init k id) p.code ip port = .ok (r, s')) :
    Pinned P ⟨keyText k, p.code, ip, port⟩ s' := by
  rcases listenOn_cases h with ⟨h, _⟩ | ⟨hm, i, hn, h1, h2, h3, h4, h5, h6, h7⟩
  · exact absurd h (by simp [St.init])
  · have hi' := newIface_node (hP.short ip hi) hq hc hn
    have hk : (St.init k id).nodeKey = k := rfl
    have he : (St.init k id).ifaces = [] := rfl
    rw [he] at h1
    simp only [List.take_nil, List.drop_nil, List.nil_append] at h1
    rw [hk] at hi'
    have hnode : i.node = ⟨keyText k, p.code, ip, port⟩ := by rw [hi']
    refine ⟨?_, ⟨i, by rw [h1]; simp, hnode⟩, ?_, ?_, hi⟩
    · rw [h2]
      show some ((none : Option Str).getD (ip.take 50)) = some ip
      rw [Option.getD_none, List.take_of_length_le (Nat.le_trans (hP.short ip hi) (by omega))]
    · intro j hj _
      rw [h1, List.mem_singleton] at hj
      rw [hj, hnode]
    · intro j hj
      rw [h1, List.mem_singleton] at hj
      rw [hj, hnode]
      exact hi

/-- The search for the main interface finds it. -/
theorem pinned_main {P : Str → Prop} (hP : Locals P) {n : Node} {s : St} (hs : Pinned P n s) : ∃ i, mainIface s = .ok (some i) ∧ i.node = n := by
  unfold mainIface
  rw [hs.main]
  simp only [Out.ok.injEq]
  unfold findIface
  have hlen := hP.short _ hs.p
  obtain ⟨j, hj, hjn⟩ := hs.here
  have hpm : prefixMatch j.node.ip n.ip 46 = true := by
    unfold prefixMatch
    rw [List.take_of_length_le (by omega), hjn, List.isPrefixOf_iff_prefix]
    exact List.prefix_refl _
  cases hf : s.ifaces.find? (fun i => prefixMatch i.node.ip n.ip 46) with
  | none =>
    rw [List.find?_eq_none] at hf
    exact absurd hpm (hf j hj)
  | some i =>
    have h1 := List.find?_some hf
    have h2 := List.mem_of_find?_eq_some hf
    refine ⟨i, rfl, hs.only i h2 ?_⟩
    simp only [prefixMatch] at h1
    rw [List.take_of_length_le (by omega), List.isPrefixOf_iff_prefix] at h1
    exact (hP.free _ _ hs.p (hs.ips i h2) h1).symm

/-- `np_get_address` for a node whose main interface is known. -/
theorem getAddress_main {s : St} {i : Iface} {buf : Str} {max : BitVec 32} (hm : mainIface s = .ok (some i))
    (hl : (connectionString i.node).length < 2 ^ 32) :
    getAddress s buf max = if (connectionString i.node).length > max.toNat then .ok (.invalidArgument, buf)
      else .ok (.ok, strncpy buf (connectionString i.node) max.toNat) := by
  unfold getAddress
  rw [hm]
  simp only [Out.bind]
  generalize connectionString i.node = str at *
  rw [List.length_take]
  have hmx := max.isLt
  by_cases hw : max.toNat + 1 < 2 ^ 32
  · have e : (max + 1).toNat = max.toNat + 1 := by
      rw [BitVec.toNat_add, show BitVec.toNat (1 : BitVec 32) = 1 from rfl]
      exact Nat.mod_eq_of_lt hw
    rw [e]
    by_cases h : str.length > max.toNat
    · rw [if_pos h, if_pos (by omega)]
    · rw [if_neg h, if_neg (by omega)]
  · have e : (max + 1).toNat = 0 := by
      rw [BitVec.toNat_add, show BitVec.toNat (1 : BitVec 32) = 1 from rfl, show max.toNat + 1 = 2 ^ 32 by omega]
    rw [e, if_neg (by omega), if_neg (by omega)]

theorem cString_text (str rest : Str) (h : '\x00' ∉ str) : cString (str ++ '\x00' :: rest) = some str := by
  induction str with
  | nil => simp [cString]
  | cons c cs ih =>
    simp only [List.mem_cons, not_or] at h
    rw [List.cons_append, cString, if_neg (Ne.symm h.1), ih h.2]
    rfl

theorem cString_none (str : Str) (h : '\x00' ∉ str) : cString str = none := by
  induction str with
  | nil => rfl
  | cons c cs ih =>
    simp only [List.mem_cons, not_or] at h
    rw [cString, if_neg (Ne.symm h.1), ih h.2]
    rfl

theorem strncpy_text {buf str : Str} {max : Nat} (h : str.length < max) (hn : '\x00' ∉ str) : cString (strncpy buf str max) = some str := by
  unfold strncpy
  obtain ⟨m, hm⟩ : ∃ m, max - str.length = m + 1 := ⟨max - str.length - 1, by omega⟩
  rw [hm, List.take_of_length_le (by omega), List.replicate_succ, List.append_assoc, List.cons_append]
  exact cString_text _ _ hn

theorem key_no_nul (k : Dhkey) : '\x00' ∉ keyText k := by
  intro h
  have := keyText_chars k _ h
  unfold Np.Spec.isLowerHex at this
  revert this
  decide

theorem name_no_nul (p : Proto) : '\x00' ∉ p.name.toList := by cases p <;> decide

theorem fields_no_nul {a b c d : Str} (ha : '\x00' ∉ a) (hb : '\x00' ∉ b) (hc : '\x00' ∉ c) (hd : '\x00' ∉ d) : '\x00' ∉ fields a b c d := by
  simp only [fields, List.mem_append, List.mem_singleton, not_or]
  exact ⟨⟨⟨⟨⟨⟨ha, by decide⟩, hb⟩, by decide⟩, hc⟩, by decide⟩, hd⟩

/-! ## Joining -/

theorem contains_iff : ∀ s sub : Str, contains s sub = true ↔ occurs sub s
  | [], sub => by
    unfold contains occurs
    constructor
    · intro h
      rw [List.isEmpty_iff] at h
      exact ⟨[], [], by simp [h]⟩
    · rintro ⟨a, b, h⟩
      have := congrArg List.length h
      simp only [List.length_nil, List.length_append] at this
      rw [List.isEmpty_iff]
      exact List.eq_nil_of_length_eq_zero (by omega)
  | c :: cs, sub => by
    have ih := contains_iff cs sub
    rw [contains, Bool.or_eq_true, ih, List.isPrefixOf_iff_prefix]
    constructor
    · rintro (⟨t, ht⟩ | ⟨a, b, h⟩)
      · exact ⟨[], t, by rw [← ht]; rfl⟩
      · exact ⟨c :: a, b, by rw [h]; rfl⟩
    · rintro ⟨a, b, h⟩
      cases a with
      | nil => exact .inl ⟨b, by rw [h]; rfl⟩
      | cons x xs =>
        rw [List.cons_append, List.cons_append, List.cons.injEq] at h
        exact .inr ⟨xs, b, h.2⟩

/-- The key a decoded node is contacted under. -/
theorem searchKey_key (e : Env) (k : Dhkey) (hk : k ≠ Dhkey.zero) (p : Sock) (ip port : Str) :
    searchKey e ⟨keyText k, p, ip, port⟩ = some k := by
  unfold searchKey
  have hh : (keyText k).head? ≠ some '*' := by
    intro h
    have := keyText_chars k _ (List.mem_of_head? h)
    unfold Np.Spec.isLowerHex at this
    revert this
    decide
  rw [if_neg hh, if_pos (by rw [List.length_take, keyText_length]; rfl)]
  have := fromHash_keyText k []
  rw [List.append_nil] at this
  rw [this]

theorem join_contact {e : Env} {s s' : St} {a : Str} {r : Ret} {k' : Dhkey} {n : Node} (h : join e s a = .ok (r, .contact k' n, s')) :
    r = .ok ∧ s.running = true ∧ 10 < a.length ∧ a.length < 500 ∧ ∃ k p ho q, IsAddress (a.take 255) k p ho q ∧ p.active = true ∧
      n = ⟨if fromHash k = Dhkey.zero then ['*'] else k.take 64, p.code, (e.resolve (ho.take 40) p.code).take 63, q.take 5⟩ ∧
      searchKey e n = some k' := by
  rcases join_cases h with ⟨h, _⟩ | ⟨h1, h2, h3, h4, m, hd, hj⟩
  · exact absurd h (by simp)
  · refine ⟨h4, h3, h1, h2, ?_⟩
    obtain ⟨k, p, ho, q, ha, rfl⟩ := decode_some hd
    rcases joinNode_cases hj with ⟨h, _⟩ | ⟨b, _, hp, hf⟩
    · exact absurd h (by simp)
    · cases b with
      | false => exact absurd hf (by simp)
      | true =>
        simp only [if_true] at hf
        unfold contactNode at hf
        simp only at hp
        rw [active_iff] at hp
        refine ⟨k, p, ho, q, ha, by simpa using hp, ?_⟩
        split at hf
        · rename_i x hx
          simp only [Effect.contact.injEq] at hf
          obtain ⟨rfl, rfl⟩ := hf
          exact ⟨rfl, hx⟩
        · exact absurd hf (by simp)

/-! ## Classes of addresses -/

theorem private4_iff (a : BitVec 32) : private4 a = true ↔ Private4 a := by
  have := a.isLt
  simp only [private4, Private4, octet, Bool.or_eq_true, Bool.and_eq_true, decide_eq_true_eq, BitVec.le_def, BitVec.toNat_ofNat,
    Nat.reducePow, Nat.reduceMod, Nat.reduceSub]
  omega

theorem xor_octet (a b : BitVec 32) (i : Nat) : octet (a ^^^ b) i = octet a i ^^^ octet b i := by
  unfold octet
  have e : 256 ^ (3 - i) = 2 ^ (8 * (3 - i)) := by rw [Nat.pow_mul]
  rw [e, BitVec.toNat_xor, ← Nat.shiftRight_eq_div_pow, ← Nat.shiftRight_eq_div_pow, ← Nat.shiftRight_eq_div_pow, Nat.shiftRight_xor_distrib]
  exact Nat.xor_mod_two_pow (n := 8)

theorem xor_eq_zero (x y : Nat) : x ^^^ y = 0 ↔ x = y := by
  constructor
  · intro h
    apply Nat.eq_of_testBit_eq
    intro i
    have := congrArg (fun z => z.testBit i) h
    simp only [Nat.testBit_xor, Nat.zero_testBit] at this
    revert this
    cases x.testBit i <;> cases y.testBit i <;> decide
  · rintro rfl
    exact Nat.xor_self x

theorem common4_eq (a b : BitVec 32) (h : a ≠ b) : common4 a b = .ok (commonOctets a b) := by
  have hx : a ^^^ b ≠ 0#32 := fun hz => h (BitVec.xor_eq_zero_iff.mp hz)
  have ho : ∀ i, octet a i = octet b i ↔ octet (a ^^^ b) i = 0 := fun i => by rw [xor_octet, xor_eq_zero]
  unfold common4 clz commonOctets
  rw [if_neg hx]
  simp only [Out.bind, Out.ok.injEq, Ne, ho]
  generalize a ^^^ b = d at *
  have hd : d.toNat ≠ 0 := fun hz => hx (BitVec.eq_of_toNat_eq hz)
  have hl := d.isLt
  have l8 := Nat.log2_lt hd (k := 8)
  have l16 := Nat.log2_lt hd (k := 16)
  have l24 := Nat.log2_lt hd (k := 24)
  have l32 := Nat.log2_lt hd (k := 32)
  rw [Nat.shiftRight_eq_div_pow]
  simp only [Nat.reducePow] at l8 l16 l24 l32 hl
  have o0 : octet d 0 = d.toNat / 16777216 % 256 := rfl
  have o1 : octet d 1 = d.toNat / 65536 % 256 := rfl
  have o2 : octet d 2 = d.toNat / 256 % 256 := rfl
  have o3 : octet d 3 = d.toNat / 1 % 256 := rfl
  rw [Nat.div_one] at o3
  by_cases h0 : octet d 0 = 0 <;> by_cases h1 : octet d 1 = 0 <;> by_cases h2 : octet d 2 = 0 <;>
    by_cases h3 : octet d 3 = 0 <;> simp only [h0, h1, h2, h3, not_true_eq_false, not_false_eq_true, if_true, if_false] <;> omega

end Np.Addr
