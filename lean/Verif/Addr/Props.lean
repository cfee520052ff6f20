import Verif.Addr.Lemmas3

/-! # Properties of addresses -/
namespace Np.Addr

open Np.Dhkey
open _root_.Np.Addr.Spec

set_option linter.unusedVariables false

/-! ## An environment for the examples -/

/-- A machine in the network 192.168.1.0/24 with the addresses 192.168.1.5 and 192.168.1.50 whose names are written as addresses. -/
def lan : Env where
  resolve h _ := h
  outgoing _ _ := some "192.168.1.5".toList
  localIp h _ := if h = "192.168.1.5".toList ∨ h = "192.168.1.50".toList then some h else none
  pton4 s := if s = "192.168.1.5".toList then some 0xC0A80105#32 else if s = "192.168.1.50".toList then some 0xC0A80132#32
    else if s = "192.168.1.7".toList then some 0xC0A80107#32 else if s = "10.0.0.1".toList then some 0x0A000001#32
    else if s = "93.184.216.34".toList then some 0x5DB8D822#32 else if s = "193.184.216.34".toList then some 0xC1B8D822#32 else none
  pton6 _ := none
  hash _ := rep 7#32
  binds _ _ _ := true
  startup := true
  place := 0

/-- The same machine with a public address. -/
def wan : Env := { lan with
  outgoing := fun _ _ => some "93.184.216.34".toList
  localIp := fun h _ => if h = "93.184.216.34".toList then some h else none }

/-- Key of the node in the examples. -/
def myKey : Dhkey := ⟨1, 2, 3, 4, 5, 6, 7, 8⟩

/-- A running node that listens on port 3141 of the address 192.168.1.5. -/
def lanNode : St :=
  ⟨myKey, myKey, some "192.168.1.5".toList, [⟨⟨keyText myKey, 0x12#16, "192.168.1.5".toList, "3141".toList⟩, true⟩], [], true⟩

/-- A running node that listens on port 3141 of the address 93.184.216.34. -/
def wanNode : St :=
  ⟨myKey, myKey, some "93.184.216.34".toList, [⟨⟨keyText myKey, 0x12#16, "93.184.216.34".toList, "3141".toList⟩, true⟩], [], true⟩

/-- Both are what `np_listen` leads to. -/
example : run (St.init myKey myKey) [.listen lan "udp4".toList "192.168.1.5".toList 3141#16, .run lan] = .ok lanNode := by decide +kernel
example : run (St.init myKey myKey) [.listen wan "udp4".toList "93.184.216.34".toList 3141#16, .run wan] = .ok wanNode := by decide +kernel

/-- The address of another node. -/
def peerKey : Dhkey := ⟨9, 9, 9, 9, 9, 9, 9, 10⟩

/-! ## C87: the own address -/

/-- The first four characters of a protocol survive the copy of five. -/
theorem names_take {b : Str} {p : Proto} (h : names b p) : names (b.take 5) p := by
  rw [names_iff] at *
  rw [List.take_take]
  exact h

/-- C87 (partial): the first `np_listen` of a node with key `k` decides about its address. After any further history `np_get_address` reports the text
`key:protocol:ip:port` of that call, and a node that calls `np_join` with this text contacts nothing but key `k` on that protocol, host and port.
Partial: own addresses have at most 40 characters and none is the beginning of another. -/
theorem C87_own_address_partial (P : Str → Prop) (hP : Locals P) (k id : Dhkey) (hk : k ≠ Dhkey.zero) (e : Env) (he : reports e P)
    (protocol host : Str) (port : BitVec 16) (p : Proto) (ip : Str) (hp : names protocol p) (hh : host.length ≤ 255)
    (hl : e.localIp host p.code = some ip) (r : Ret) (s1 s2 : St) (h1 : listen e (St.init k id) protocol host port = .ok (r, s1)) (ops : List Op)
    (ho : reportsAll ops P) (h2 : run s1 ops = .ok s2) (buf : Str) (max : BitVec 32) (hmax : 117 ≤ max.toNat) :
    ∃ buf' text q, getAddress s2 buf max = .ok (.ok, buf') ∧ cString buf' = some text ∧
      text = fields (keyText k) p.name.toList ip q ∧ numeral q = port.toNat ∧
      ∀ e' t f t' r', join e' t text = .ok (r', f, t') →
        f = .nothing ∨ f = .contact k ⟨keyText k, p.code, (e'.resolve ip p.code).take 63, q⟩ := by
  have hq := decimal_port port
  have hc : ':' ∉ decimal port.toNat := fun hm => (decimal_chars _ _ hm).1 rfl
  have hnul : '\x00' ∉ decimal port.toNat := fun hm => (decimal_chars _ _ hm).2 rfl
  have hip := he _ _ _ hl
  have hlen := hP.short ip hip
  have hpin : Pinned P ⟨keyText k, p.code, ip, decimal port.toNat⟩ s1 := by
    unfold listen at h1
    rw [port_take, List.take_of_length_le hh] at h1
    rcases listenSafe_cases h1 with ⟨_, hs⟩ | ⟨p', ip', hp', hl', h⟩
    · exfalso
      unfold listenSafe at h1
      rw [List.take_of_length_le hh, if_neg ((parse_unknown _).mpr ⟨p, names_take hp⟩), (parse_iff _ _).mpr (names_take hp), hl] at h1
      simp only at h1
      rcases listenOn_cases h1 with ⟨hm, _⟩ | ⟨_, i, _, hi, _⟩
      · exact absurd hm (by simp [St.init])
      · rw [hs] at hi
        exact absurd hi (by simp [St.init])
    · rw [List.take_of_length_le hh] at hl'
      have : p' = p := names_unique hp' (names_take hp)
      subst this
      rw [hl] at hl'
      have : ip = ip' := Option.some.inj hl'
      subst this
      exact pinned_first hP hip hq hc h
  have hpin2 := pinned_run hP ops s1 s2 ho hpin h2
  obtain ⟨i, hi, hin⟩ := pinned_main hP hpin2
  have htext := connection_fields i.node p (by rw [hin])
  rw [hin] at htext
  simp only at htext
  have hflen : (fields (keyText k) p.name.toList ip (decimal port.toNat)).length ≤ 116 := by
    rw [fields_length, keyText_length, name_length]
    omega
  have hfnul : '\x00' ∉ fields (keyText k) p.name.toList ip (decimal port.toNat) :=
    fields_no_nul (key_no_nul k) (name_no_nul p) (hP.text ip hip) hnul
  have haddr : IsAddress (fields (keyText k) p.name.toList ip (decimal port.toNat)) (keyText k) p ip (decimal port.toNat) :=
    ⟨p.name.toList, by simpa using names_self p [], keyText_no_colon k, name_no_colon p, hc, rfl⟩
  refine ⟨strncpy buf (fields (keyText k) p.name.toList ip (decimal port.toNat)) max.toNat,
    fields (keyText k) p.name.toList ip (decimal port.toNat), decimal port.toNat, ?_, ?_, rfl, decimal_value port, ?_⟩
  · rw [getAddress_main hi (by rw [hin, htext]; omega), hin, htext, if_neg (by omega)]
  · exact strncpy_text (by omega) hfnul
  · intro e' t f t' r' hj
    cases f with
    | nothing => exact .inl rfl
    | contact k' n =>
      right
      rcases join_cases hj with ⟨h, _⟩ | ⟨_, _, _, _, m, hd, hj'⟩
      · exact absurd h (by simp)
      · rw [decode_address (by omega) haddr] at hd
        have hz := fromHash_keyText k []
        rw [List.append_nil] at hz
        rw [hz, if_neg hk, List.take_of_length_le (Nat.le_of_eq (keyText_length k)), List.take_of_length_le hlen, List.take_of_length_le hq] at hd
        simp only [Out.ok.injEq, Option.some.injEq] at hd
        subst hd
        rcases joinNode_cases hj' with ⟨h, _⟩ | ⟨b, _, _, hf⟩
        · exact absurd h (by simp)
        · cases b with
          | false => exact absurd hf (by simp)
          | true =>
            simp only [if_true] at hf
            unfold contactNode at hf
            rw [searchKey_key e' k hk] at hf
            exact hf

/-- The hypotheses are met by the node of the examples. -/
example : ∃ s1, Locals (fun ip => ip = "192.168.1.5".toList) ∧ myKey ≠ Dhkey.zero ∧
    listen { lan with localIp := fun _ _ => some "192.168.1.5".toList } (St.init myKey myKey) "udp4".toList "localhost".toList 3141#16 =
      .ok (.ok, s1) ∧
    join wan wanNode (connectionString ⟨keyText myKey, 0x12#16, "93.184.216.34".toList, "3141".toList⟩) =
      .ok (.ok, .contact myKey ⟨keyText myKey, 0x12#16, "93.184.216.34".toList, "3141".toList⟩, wanNode) :=
  ⟨{ lanNode with running := false },
    ⟨fun ip h => by subst h; decide, fun ip h => by subst h; decide, fun a b ha hb _ => by subst ha hb; rfl⟩, by decide, by decide +kernel,
    by decide +kernel⟩

/-- C87 refuted: own addresses are compared by their beginning. A node that listens on 192.168.1.5 and then on 192.168.1.50 reports another address than
before. -/
theorem C87_address_changes_refuted : ∃ (e : Env) (s1 s2 : St) (b1 b2 : Str),
    listen e (St.init myKey myKey) "udp4".toList "192.168.1.5".toList 3141#16 = .ok (.ok, s1) ∧
    listen e s1 "udp4".toList "192.168.1.50".toList 3142#16 = .ok (.ok, s2) ∧
    getAddress s1 (List.replicate 200 'x') 200#32 = .ok (.ok, b1) ∧ getAddress s2 (List.replicate 200 'x') 200#32 = .ok (.ok, b2) ∧
    cString b1 = some (fields (keyText myKey) "udp4".toList "192.168.1.5".toList "3141".toList) ∧
    cString b2 = some (fields (keyText myKey) "udp4".toList "192.168.1.50".toList "3142".toList) := by
  refine ⟨lan, { lanNode with running := false }, { lanNode with running := false, ifaces :=
    ⟨⟨keyText myKey, 0x12#16, "192.168.1.50".toList, "3142".toList⟩, true⟩ :: lanNode.ifaces }, _, _, ?_, ?_, rfl, rfl, ?_, ?_⟩ <;> decide +kernel

/-! ## C88: malformed addresses -/

/-- C88: the return value of `np_join` depends on the length of the text and on the state of the node, and on nothing else. -/
theorem C88_return_value (e : Env) (s s' : St) (a : Str) (r : Ret) (f : Effect) (h : join e s a = .ok (r, f, s')) :
    r = if a.length ≤ 10 ∨ 500 ≤ a.length then .invalidArgument else if s.running then .ok else .invalidOperation := by
  unfold join at h
  split at h
  · rename_i hl
    rw [List.length_take] at hl
    simp only [Out.ok.injEq, Prod.mk.injEq] at h
    rw [if_pos (by omega)]
    exact h.1.symm
  split at h
  · rename_i hl
    rw [List.length_take] at hl
    simp only [Out.ok.injEq, Prod.mk.injEq] at h
    rw [if_pos (by omega)]
    exact h.1.symm
  rename_i h1 h2
  rw [List.length_take] at h1 h2
  rw [if_neg (by omega)]
  split at h
  · rename_i hr
    simp only [Out.ok.injEq, Prod.mk.injEq] at h
    rw [if_neg (by simpa using hr)]
    exact h.1.symm
  · rename_i hr
    obtain ⟨x, _, h⟩ := Out.bind_ok h
    simp only [Out.ok.injEq, Prod.mk.injEq] at h
    rw [if_pos (by simpa using hr)]
    exact h.1.symm

/-- C88 (partial): a text that is no address never leads to a connection attempt: if `np_join` contacts a peer, the text (its first 255 characters) is an
address of a protocol one can connect to. Missing: the call does not report the error. -/
theorem C88_malformed_ignored_partial (e : Env) (s s' : St) (a : Str) (r : Ret) (k : Dhkey) (n : Node)
    (h : join e s a = .ok (r, .contact k n, s')) : ∃ key p host port, p.active = true ∧ IsAddress (a.take 255) key p host port := by
  obtain ⟨_, _, _, _, k', p, ho, q, ha, hp, _, _⟩ := join_contact h
  exact ⟨k', p, ho, q, hp, ha⟩

/-- A contact happens. -/
example : join wan wanNode "*:udp4:93.184.216.34:3142".toList =
    .ok (.ok, .contact (rep 7#32) ⟨['*'], 0x12#16, "93.184.216.34".toList, "3142".toList⟩, wanNode) := by decide +kernel

/-- C88 refuted: `np_join` returns `np_ok` for a text that is no address, although `np_invalid_argument` is documented. -/
theorem C88_malformed_accepted_refuted : ∃ (e : Env) (s : St) (a : Str), (∀ key p host port, ¬ IsAddress a key p host port) ∧
    join e s a = .ok (.ok, .nothing, s) := by
  refine ⟨lan, lanNode, "not an address".toList, ?_, by decide +kernel⟩
  rintro key p host port ⟨b, _, _, _, _, h⟩
  have : ':' ∈ "not an address".toList := by rw [h]; simp [fields]
  revert this
  decide

/-! ## C89: the buffer for the own address -/

/-- C89 (partial): for a node with a main interface whose address text has no NUL: if the text is shorter than `max`, the buffer holds it as a C string
and nothing behind the first `max` bytes is written; if it is longer than `max` the call fails and the buffer is unchanged. Missing: a text of exactly
`max` characters. -/
theorem C89_buffer_partial (s : St) (i : Iface) (buf : Str) (max : BitVec 32) (hm : mainIface s = .ok (some i))
    (hl : (connectionString i.node).length < 2 ^ 32) (hn : '\x00' ∉ connectionString i.node) (hb : max.toNat ≤ buf.length) :
    ((connectionString i.node).length < max.toNat → ∃ buf', getAddress s buf max = .ok (.ok, buf') ∧
      cString buf' = some (connectionString i.node) ∧ buf'.length = buf.length ∧ buf'.drop max.toNat = buf.drop max.toNat) ∧
    ((connectionString i.node).length > max.toNat → getAddress s buf max = .ok (.invalidArgument, buf)) := by
  rw [getAddress_main hm hl]
  constructor
  · intro h
    refine ⟨_, if_neg (by omega), strncpy_text h hn, ?_, ?_⟩
    · unfold strncpy
      simp only [List.length_append, List.length_take, List.length_replicate, List.length_drop]
      omega
    · unfold strncpy
      rw [List.drop_append_of_le_length (by simp only [List.length_append, List.length_take, List.length_replicate]; omega),
        List.drop_of_length_le (by simp only [List.length_append, List.length_take, List.length_replicate]; omega), List.nil_append]
  · intro h
    rw [if_pos h]

/-- The hypotheses are met, with a buffer that is large enough and with one that is not. -/
example : ∃ i, mainIface lanNode = .ok (some i) ∧ (connectionString i.node).length = 86 ∧ '\x00' ∉ connectionString i.node :=
  ⟨⟨⟨keyText myKey, 0x12#16, "192.168.1.5".toList, "3141".toList⟩, true⟩, by decide +kernel, by decide +kernel, by decide +kernel⟩

/-- C89 refuted: if the text fills the buffer exactly, the call succeeds and leaves no terminating NUL. -/
theorem C89_unterminated_refuted : ∃ (s : St) (buf buf' : Str) (max : BitVec 32), max.toNat = buf.length ∧
    getAddress s buf max = .ok (.ok, buf') ∧ cString buf' = none :=
  ⟨lanNode, List.replicate 86 'x', connectionString ⟨keyText myKey, 0x12#16, "192.168.1.5".toList, "3141".toList⟩, 86#32, by decide, by decide +kernel, by decide +kernel⟩

/-- C89 refuted: without a listening address the call returns `np_operation_failed`; documented is `np_invalid_operation`. -/
theorem C89_not_listening_refuted : ∃ (s : St) (buf : Str) (max : BitVec 32), s.ifaces = [] ∧ getAddress s buf max = .ok (.operationFailed, buf) :=
  ⟨St.init myKey myKey, [], 0#32, rfl, by decide⟩

/-! ## C90: `np_join` contacts the named node -/

/-- C90: whatever `np_join` contacts is what the text names: if the key field is the text of a key, the peer is contacted under this key; protocol and port
are those of the text (the port cut after five characters), and the address is what the name of the host (cut after 40 characters) resolves to. -/
theorem C90_contacts_named_partial (e : Env) (s s' : St) (a : Str) (r : Ret) (k' : Dhkey) (n : Node) (h : join e s a = .ok (r, .contact k' n, s')) :
    ∃ key p host port, IsAddress (a.take 255) key p host port ∧ n.protocol = p.code ∧ n.port = port.take 5 ∧
      n.ip = (e.resolve (host.take 40) p.code).take 63 ∧ ∀ k, k ≠ Dhkey.zero → key = keyText k → k' = k := by
  obtain ⟨_, _, _, _, key, p, host, port, ha, hp, rfl, hs⟩ := join_contact h
  refine ⟨key, p, host, port, ha, rfl, rfl, rfl, ?_⟩
  rintro k hk rfl
  have hz := fromHash_keyText k []
  rw [List.append_nil] at hz
  rw [hz, if_neg hk, List.take_of_length_le (Nat.le_of_eq (keyText_length k)), searchKey_key e k hk] at hs
  exact (Option.some.inj hs).symm

/-- C90 (partial): a running node with public addresses that joins the address of a node with a public address contacts this node, unless a known peer's
address and port both occur in the text `ip:port` of the new one. Missing: names of more than 40 characters, texts of known peers that only occur in the
new one, own private addresses. -/
theorem C90_reaches_partial (e : Env) (s : St) (i : Iface) (a : Str) (k : Dhkey) (p : Proto) (host port : Str) (hrun : s.running = true)
    (hm : mainIface s = .ok (some i)) (h6 : ∀ ip b, e.pton6 ip = some b → b.length = 16) (hl : ∀ j ∈ s.ifaces, ¬ PrivateIp e j.node.ip)
    (hlen : a.length ≤ 255) (hk : k ≠ Dhkey.zero) (ha : IsAddress a (keyText k) p host port) (hp : p.active = true) (hh : host.length ≤ 40)
    (hq : port.length ≤ 5) (hip : (e.resolve host p.code).length ≤ 45) (hpub : ¬ PrivateIp e (e.resolve host p.code))
    (hnew : ∀ k' m, (k', m) ∈ s.peers → k' ≠ s.nodeKey → k' ≠ s.identity →
      ¬ (occurs m.ip (e.resolve host p.code ++ ':' :: port) ∧ occurs m.port (e.resolve host p.code ++ ':' :: port))) :
    join e s a = .ok (.ok, .contact k ⟨keyText k, p.code, e.resolve host p.code, port⟩, s) := by
  have npub : ∀ ip, ¬ PrivateIp e ip → isPrivate e ip = false := fun ip h => by
    cases hx : isPrivate e ip with
    | false => rfl
    | true => exact absurd (isPrivate_sound (fun b hb => by rw [h6 _ _ hb]; omega) hx) h
  have hlong : 10 < a.length := by
    obtain ⟨b, _, _, _, _, rfl⟩ := ha
    rw [fields_length, keyText_length]
    omega
  have hd := decode_address hlen ha
  have hz := fromHash_keyText k []
  rw [List.append_nil] at hz
  rw [hz, if_neg hk, List.take_of_length_le (Nat.le_of_eq (keyText_length k)), List.take_of_length_le hh, List.take_of_length_le hq] at hd
  rw [join_decoded hrun hlong (by omega) hd,
    joinNode_new (by rw [active_iff, hp]; rfl) hip hq hnew (canBeReached_public (npub _ hpub) (fun j hj => npub _ (hl j hj)) hm)]
  simp only [Out.bind]
  unfold contactNode
  rw [searchKey_key e k hk]

/-- The hypotheses are met. -/
example : ∃ a i, mainIface wanNode = .ok (some i) ∧ IsAddress a (keyText peerKey) .udp4 "193.184.216.34".toList "3141".toList ∧
    a.length ≤ 255 ∧ peerKey ≠ Dhkey.zero ∧ ¬ PrivateIp wan "193.184.216.34".toList ∧ (∀ j ∈ wanNode.ifaces, ¬ PrivateIp wan j.node.ip) := by
  have h1 : ∀ ip, isPrivate wan ip = false → ¬ PrivateIp wan ip := by
    intro ip h hp
    rcases hp with ⟨b, h4, hb⟩ | ⟨_, b, h6, _⟩
    · rw [isPrivate_4 h4 hb] at h; exact absurd h (by simp)
    · exact absurd (show none = some b from h6) (by simp)
  refine ⟨fields (keyText peerKey) "udp4".toList "193.184.216.34".toList "3141".toList,
    ⟨⟨keyText myKey, 0x12#16, "93.184.216.34".toList, "3141".toList⟩, true⟩, by decide +kernel,
    ⟨"udp4".toList, List.prefix_refl _, keyText_no_colon _, by decide, by decide, rfl⟩, by decide +kernel, by decide, h1 _ (by decide +kernel), ?_⟩
  intro j hj
  simp only [wanNode, List.mem_singleton] at hj
  subst hj
  exact h1 _ (by decide +kernel)

/-- C90 refuted: a peer is taken for connected if the address and the port of a known peer occur in the text of the new one. A node that knows
93.184.216.34:3141 cannot join 193.184.216.34:31415; the call returns `np_ok`. -/
theorem C90_similar_peer_refuted : ∃ (e : Env) (s : St) (a : Str),
    IsAddress a (keyText peerKey) .udp4 "193.184.216.34".toList "31415".toList ∧ ¬ knows s "193.184.216.34".toList "31415".toList ∧
    (∃ f, join e { s with peers := [] } a = .ok (.ok, .contact peerKey f, { s with peers := [] })) ∧ join e s a = .ok (.ok, .nothing, s) := by
  refine ⟨wan, { wanNode with peers := [(rep 3#32, ⟨keyText (rep 3#32), 0x12#16, "93.184.216.34".toList, "3141".toList⟩)] },
    fields (keyText peerKey) "udp4".toList "193.184.216.34".toList "31415".toList,
    ⟨"udp4".toList, List.prefix_refl _, keyText_no_colon _, by decide, by decide, rfl⟩, ?_, ⟨⟨keyText peerKey, 0x12#16, "193.184.216.34".toList, "31415".toList⟩, ?_⟩, ?_⟩
  · rintro ⟨k, n, hm, _, _, h, _⟩
    simp only [List.mem_singleton, Prod.mk.injEq] at hm
    rw [hm.2] at h
    revert h
    decide
  · decide +kernel
  · decide +kernel

/-- C90 refuted: a key field with a typing error is taken for the wildcard; the node joins whoever answers at the address. -/
theorem C90_wrong_key_refuted : ∃ (e : Env) (s : St) (a key : Str) (k : Dhkey) (n : Node),
    IsAddress a key .udp4 "193.184.216.34".toList "3141".toList ∧ key.length = 64 ∧ n.hostKey = ['*'] ∧ join e s a = .ok (.ok, .contact k n, s) := by
  refine ⟨wan, wanNode, fields ('o' :: (keyText peerKey).drop 1) "udp4".toList "193.184.216.34".toList "3141".toList,
    'o' :: (keyText peerKey).drop 1, rep 7#32, ⟨['*'], 0x12#16, "193.184.216.34".toList, "3141".toList⟩,
    ⟨"udp4".toList, List.prefix_refl _, ?_, by decide, by decide, rfl⟩, ?_, rfl, ?_⟩
  · decide +kernel
  · decide +kernel
  · decide +kernel

/-- C90 refuted: names of hosts are cut after 40 characters and the rest is asked for. -/
theorem C90_long_name_refuted : ∃ (e : Env) (s : St) (a host : Str) (n : Node), host.length = 41 ∧ IsAddress a (keyText peerKey) .udp4 host "3141".toList ∧
    (∀ h p, e.resolve h p = h) ∧ join e s a = .ok (.ok, .contact peerKey n, s) ∧ n.ip ≠ host := by
  refine ⟨wan, wanNode, fields (keyText peerKey) "udp4".toList (List.replicate 41 'h') "3141".toList, List.replicate 41 'h',
    ⟨keyText peerKey, 0x12#16, List.replicate 40 'h', "3141".toList⟩, by decide,
    ⟨"udp4".toList, List.prefix_refl _, keyText_no_colon _, by decide, by decide, rfl⟩, fun _ _ => rfl, ?_, ?_⟩
  · decide +kernel
  · decide +kernel

/-- C90 refuted: a node with a private address that joins another node on the same address (a second node on the same machine) computes the number of
leading zeros of zero, which is undefined. -/
theorem C90_same_machine_refuted : ∃ (e : Env) (s : St) (a : Str), IsAddress a (keyText peerKey) .udp4 "192.168.1.5".toList "3142".toList ∧
    s.running = true ∧ listening s = [(0x12#16, "192.168.1.5".toList, "3141".toList)] ∧ join e s a = .crash := by
  refine ⟨lan, lanNode, fields (keyText peerKey) "udp4".toList "192.168.1.5".toList "3142".toList,
    ⟨"udp4".toList, List.prefix_refl _, keyText_no_colon _, by decide, by decide, rfl⟩, rfl, by decide +kernel, by decide +kernel⟩

/-- C90 refuted: if `np_run` could not open its default interface, `np_join` stops the program. -/
theorem C90_no_interface_refuted : ∃ (e : Env) (s : St) (a : Str), IsAddress a (keyText peerKey) .udp4 "10.0.0.1".toList "3142".toList ∧
    run (St.init myKey myKey) [.run e] = .ok s ∧ join e s a = .crash := by
  refine ⟨lan, { St.init myKey myKey with running := true }, fields (keyText peerKey) "udp4".toList "10.0.0.1".toList "3142".toList,
    ⟨"udp4".toList, List.prefix_refl _, keyText_no_colon _, by decide, by decide, rfl⟩, by decide +kernel, by decide +kernel⟩

/-! ## C91: `np_listen` -/

/-- C91 (partial): if `np_listen` returns `np_ok`, its address differs from the main address of the node, the socket can be opened and the protocol is not
passive, then the node listens on this protocol, address and port, and keeps all its other sockets. Missing: the main address itself, a socket that
cannot be opened. -/
theorem C91_listens_partial (e : Env) (s s' : St) (protocol host : Str) (port : BitVec 16) (p : Proto) (ip : Str) (hp : names protocol p)
    (ha : p.active = true) (hh : host.length ≤ 255) (hl : e.localIp host p.code = some ip) (hi : ip.length ≤ 40)
    (hm : ∀ m, s.mainIp = some m → m.length ≤ 50 ∧ m ≠ ip) (hb : ∀ q, e.binds p.code ip q = true)
    (h : listen e s protocol host port = .ok (.ok, s')) :
    (∃ q, numeral q = port.toNat ∧ (p.code, ip, q) ∈ listening s') ∧ ∀ x ∈ listening s, x ∈ listening s' := by
  unfold listen at h
  rw [port_take, List.take_of_length_le hh] at h
  rcases listenSafe_cases h with ⟨h, _⟩ | ⟨p', ip', hp', hl', h⟩
  · exact absurd h (by simp)
  · rw [List.take_of_length_le hh] at hl'
    have : p' = p := names_unique hp' (names_take hp)
    subst this
    rw [hl] at hl'
    have : ip = ip' := Option.some.inj hl'
    subst this
    rcases listenOn_cases h with ⟨hc, _⟩ | ⟨_, i, hn, h1, _⟩
    · exfalso
      cases hs : s.mainIp with
      | none => rw [hs] at hc; exact absurd hc (by simp)
      | some m =>
        rw [hs] at hc
        obtain ⟨hm1, hm2⟩ := hm m hs
        simp only [Option.map_some, Option.some.injEq] at hc
        rw [List.take_of_length_le hm1, List.take_of_length_le (by omega)] at hc
        exact hm2 hc
    · have hi' := newIface_node hi (decimal_port port) (fun hm => (decimal_chars _ _ hm).1 rfl) hn
      have hsub : ∀ x ∈ s.ifaces, x ∈ s'.ifaces := fun x hx => by rw [h1, mem_insert]; exact .inr hx
      constructor
      · refine ⟨decimal port.toNat, decimal_value port, ?_⟩
        unfold listening
        rw [List.mem_map]
        refine ⟨i, ?_, by rw [hi']⟩
        rw [List.mem_filter]
        refine ⟨by rw [h1, mem_insert]; exact .inl rfl, ?_⟩
        rw [hi', ha, hb]
        rfl
      · intro x hx
        unfold listening at *
        rw [List.mem_map] at *
        obtain ⟨y, hy, rfl⟩ := hx
        rw [List.mem_filter] at hy
        exact ⟨y, List.mem_filter.mpr ⟨hsub y hy.1, hy.2⟩, rfl⟩

/-- The hypotheses are met for a second address. -/
example : ∃ s', listen lan lanNode "tcp4".toList "192.168.1.50".toList 3142#16 = .ok (.ok, s') ∧
    listening s' = [(0x22#16, "192.168.1.50".toList, "3142".toList), (0x12#16, "192.168.1.5".toList, "3141".toList)] :=
  ⟨{ lanNode with ifaces := ⟨⟨keyText myKey, 0x22#16, "192.168.1.50".toList, "3142".toList⟩, true⟩ :: lanNode.ifaces }, by decide +kernel,
    by decide +kernel⟩

/-- C91: sockets once opened by `np_listen` stay open, whatever it returns. -/
theorem C91_keeps_sockets (e : Env) (s s' : St) (protocol host : Str) (port : BitVec 16) (r : Ret)
    (h : listen e s protocol host port = .ok (r, s')) : ∀ x ∈ listening s, x ∈ listening s' := by
  intro x hx
  unfold listen at h
  rcases listenSafe_cases h with ⟨_, rfl⟩ | ⟨p, ip, _, _, h⟩
  · exact hx
  · rcases listenOn_cases h with ⟨_, _, rfl⟩ | ⟨_, i, _, h1, _⟩
    · exact hx
    · unfold listening at *
      rw [List.mem_map] at *
      obtain ⟨y, hy, rfl⟩ := hx
      rw [List.mem_filter] at hy
      exact ⟨y, List.mem_filter.mpr ⟨by rw [h1, mem_insert]; exact .inr hy.1, hy.2⟩, rfl⟩

/-- C91 refuted: a second `np_listen` on the main address returns `np_ok`, but the node does not listen on the second port, nor on a second protocol. -/
theorem C91_second_port_refuted : ∃ (e : Env) (s : St), listen e s "udp4".toList "192.168.1.5".toList 3142#16 = .ok (.ok, s) ∧
    listen e s "tcp4".toList "192.168.1.5".toList 3141#16 = .ok (.ok, s) ∧ listening s = [(0x12#16, "192.168.1.5".toList, "3141".toList)] :=
  ⟨lan, lanNode, by decide +kernel, by decide +kernel, by decide +kernel⟩

/-- C91 refuted: `np_listen` returns `np_ok` if the socket could not be opened, for example because the port is in use. -/
theorem C91_port_in_use_refuted : ∃ (e : Env) (s' : St), listen e (St.init myKey myKey) "udp4".toList "192.168.1.5".toList 3141#16 = .ok (.ok, s') ∧
    listening s' = [] :=
  ⟨{ lan with binds := fun _ _ _ => false },
    ⟨myKey, myKey, some "192.168.1.5".toList, [⟨⟨keyText myKey, 0x12#16, "192.168.1.5".toList, "3141".toList⟩, false⟩], [], false⟩,
    by decide +kernel, by decide +kernel⟩

/-- C91 refuted: port zero is documented to select the default port 3141; the socket is opened for port zero. -/
theorem C91_default_port_refuted : ∃ (e : Env) (s' : St), listen e (St.init myKey myKey) "udp4".toList "192.168.1.5".toList 0#16 = .ok (.ok, s') ∧
    listening s' = [(0x12#16, "192.168.1.5".toList, "0".toList)] :=
  ⟨lan, ⟨myKey, myKey, some "192.168.1.5".toList, [⟨⟨keyText myKey, 0x12#16, "192.168.1.5".toList, "0".toList⟩, true⟩], [], false⟩,
    by decide +kernel, by decide +kernel⟩

/-! ## C92: private networks -/

/-- C92: the test for private IPv4 addresses accepts exactly 10/8, 172.16/12 and 192.168/16. -/
theorem C92_private_ipv4 (e : Env) (ip : Str) (a : BitVec 32) (h : e.pton4 ip = some a) : isPrivate e ip = true ↔ Private4 a := by
  unfold isPrivate
  rw [h]
  exact private4_iff a

/-- C92 (partial): every IPv6 address that is taken for private is one; all unique local addresses and the link local addresses fe80::/16 are
recognized. Missing: the rest of fe80::/10. -/
theorem C92_private_ipv6_partial (e : Env) (ip : Str) (b0 b1 : BitVec 8) (rest : List (BitVec 8)) (h4 : e.pton4 ip = none)
    (h6 : e.pton6 ip = some (b0 :: b1 :: rest)) :
    (isPrivate e ip = true → Private6 (b0 :: b1 :: rest)) ∧
    (Private6 (b0 :: b1 :: rest) → b0 ≠ 0xfe#8 ∨ b1 = 0x80#8 → isPrivate e ip = true) := by
  have he : isPrivate e ip = private6 (b0 :: b1 :: rest) := by
    unfold isPrivate
    rw [h4, h6]
  rw [he]
  refine ⟨private6_sound (by simp), ?_⟩
  rintro ⟨c0, c1, r, hc, hp⟩ hor
  simp only [List.cons.injEq] at hc
  obtain ⟨rfl, rfl, rfl⟩ := hc
  simp only [private6, List.getElem?_cons_zero, List.getElem?_cons_succ, Bool.or_eq_true, Bool.and_eq_true, beq_iff_eq, Option.some.injEq]
  rcases hp with hp | ⟨hp, _⟩
  · left
    have := b0.isLt
    have hv : b0.toNat = 252 ∨ b0.toNat = 253 := by omega
    rcases hv with hv | hv
    · exact .inl (BitVec.eq_of_toNat_eq hv)
    · exact .inr (BitVec.eq_of_toNat_eq hv)
  · rcases hor with hor | hor
    · exact absurd hp hor
    · exact .inr ⟨hp, hor⟩

/-- C92 refuted: fe90:: is link local and not recognized. -/
theorem C92_link_local_refuted : ∃ (e : Env) (ip : Str) (a : List (BitVec 8)), e.pton6 ip = some a ∧ a.length = 16 ∧ Private6 a ∧ isPrivate e ip = false :=
  ⟨{ lan with pton6 := fun _ => some (0xfe#8 :: 0x90#8 :: List.replicate 14 0#8) }, "fe90::".toList, _, rfl, by decide,
    ⟨_, _, _, rfl, .inr (by decide)⟩, by decide +kernel⟩

/-- C92 (partial): the comparison of two different IPv4 addresses counts the leading numbers they have in common. Missing: equal addresses. -/
theorem C92_common_numbers_partial (a b : BitVec 32) (h : a ≠ b) : common4 a b = .ok (commonOctets a b) := common4_eq a b h

example : common4 0xC0A80105#32 0xC0A80107#32 = .ok 3 ∧ commonOctets 0xC0A80105#32 0xC0A80107#32 = 3 := by decide +kernel

/-- C92 refuted: for equal addresses the result is undefined. -/
theorem C92_equal_addresses_refuted (a : BitVec 32) : common4 a a = .crash := by
  unfold common4 clz
  rw [BitVec.xor_self, if_pos (by rfl)]
  rfl

/-- C92: a node whose interfaces are public is willing to contact every peer with a public address. -/
theorem C92_public_reachable (e : Env) (s : St) (i : Iface) (remote : Str) (p : Sock) (h6 : ∀ ip b, e.pton6 ip = some b → b.length = 16)
    (hm : mainIface s = .ok (some i)) (hl : ∀ j ∈ s.ifaces, ¬ PrivateIp e j.node.ip) (hr : ¬ PrivateIp e remote) :
    canBeReached e s remote p = .ok true := by
  have npub : ∀ ip, ¬ PrivateIp e ip → isPrivate e ip = false := fun ip h => by
    cases hx : isPrivate e ip with
    | false => rfl
    | true => exact absurd (isPrivate_sound (fun b hb => by rw [h6 _ _ hb]; omega) hx) h
  exact canBeReached_public (npub _ hr) (fun j hj => npub _ (hl j hj)) hm

example : canBeReached wan wanNode "193.184.216.34".toList 0x12#16 = .ok true := by decide +kernel

/-- C92: a node whose interfaces all are private IPv4 addresses and not passive never contacts a peer with a public address on its own. -/
theorem C92_private_to_public_refused (e : Env) (s : St) (remote : Str) (p : Sock) (h6 : ∀ ip b, e.pton6 ip = some b → b.length = 16)
    (hl : ∀ j ∈ s.ifaces, (∃ a, e.pton4 j.node.ip = some a ∧ Private4 a) ∧ flagCmp j.node.protocol passive = false)
    (hr : ¬ PrivateIp e remote) (hlo : isLoopback remote = false) : canBeReached e s remote p ≠ .ok true := by
  intro h
  obtain ⟨i, hi, b, h⟩ := canBeReached_from h
  have hpr : isPrivate e remote = false := by
    cases hx : isPrivate e remote with
    | false => rfl
    | true => exact absurd (isPrivate_sound (fun b hb => by rw [h6 _ _ hb]; omega) hx) hr
  obtain ⟨⟨a, h4, ha⟩, hpas⟩ := hl i hi
  have hpi := isPrivate_4 h4 ha
  have np : ∀ j ∈ s.ifaces, flagCmp j.node.protocol (passive ||| (maskIp &&& p)) = false := fun j hj => by
    cases hx : flagCmp j.node.protocol (passive ||| (maskIp &&& p)) with
    | false => rfl
    | true => exact absurd (flagCmp_or hx) (by rw [(hl j hj).2]; simp)
  unfold reachFrom at h
  rw [if_neg (by simp [hlo])] at h
  simp only [hpr, hpi, Bool.false_and, Bool.false_eq_true, if_false, Out.bind, Bool.false_or, Bool.not_false, Bool.true_and, if_true, np i hi,
    Bool.and_true] at h
  rw [if_neg (by omega)] at h
  split at h
  · cases hm : mainIface s with
    | crash => rw [hm] at h; exact absurd h (by simp)
    | ok m =>
      rw [hm] at h
      cases m with
      | none => exact absurd h (by simp)
      | some m =>
        simp only [Out.ok.injEq] at h
        rw [np m (mainIface_mem hm)] at h
        exact absurd h (by simp)
  · exact absurd h (by simp)

example : canBeReached lan lanNode "93.184.216.34".toList 0x12#16 = .ok false := by decide +kernel

/-- C92: a node in a private IPv4 network never contacts a peer in a private network with another first number. -/
theorem C92_other_private_refused (e : Env) (s : St) (remote : Str) (b : BitVec 32) (p : Sock) (hc : ':' ∉ remote) (hr : e.pton4 remote = some b)
    (hb : Private4 b) (hl : ∀ j ∈ s.ifaces, isLoopback j.node.ip = false ∧ ∃ a, e.pton4 j.node.ip = some a ∧ Private4 a ∧ octet a 0 ≠ octet b 0) :
    canBeReached e s remote p ≠ .ok true := by
  intro h
  obtain ⟨i, hi, c, h⟩ := canBeReached_from h
  obtain ⟨hlo, a, h4, ha, hne⟩ := hl i hi
  have hpi := isPrivate_4 h4 ha
  have hpr := isPrivate_4 hr hb
  have hct : commonTuples e remote i.node.ip = .ok 0 := by
    unfold commonTuples
    split
    · rfl
    · rw [hr, h4]
      simp only
      rw [common4_eq b a (fun hab => hne (by rw [hab]))]
      unfold commonOctets
      rw [if_pos (Ne.symm hne)]
  unfold reachFrom at h
  simp only [hlo, hpi, hpr, hct, Bool.false_and, Bool.false_eq_true, if_false, Bool.and_self, if_true, Out.bind, Bool.and_false, Bool.not_true,
    Bool.or_self, gt_iff_lt, Nat.lt_irrefl, Out.ok.injEq] at h

example : canBeReached lan lanNode "10.0.0.1".toList 0x12#16 = .ok false ∧ canBeReached lan lanNode "192.168.1.7".toList 0x12#16 = .ok true := by
  decide +kernel

/-- C92 refuted: loopback addresses are recognized by the beginning of the text: 127.0.0.1 and also ::1234, but not 127.0.0.2. -/
theorem C92_loopback_refuted : isLoopback "127.0.0.1".toList = true ∧ isLoopback "::1234".toList = true ∧ isLoopback "127.0.0.2".toList = false := by
  decide +kernel

end Np.Addr
