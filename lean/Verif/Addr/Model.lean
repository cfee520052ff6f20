import Verif.Dhkey.Model

/-! # Addresses: `np_listen`, `np_get_address` and `np_join`

Texts are lists of characters without the terminating NUL; one character stands for one byte. Calls into the operating system (name resolution, the
routing table, opening a socket, `inet_pton`) are fields of `Env`; every call of the API gets an `Env` of its own, so answers may change between calls.
Not modelled: logging, reference counts, what happens after a peer was contacted. -/
namespace Np.Addr

open Np.Dhkey

/-- Text of a C string. -/
abbrev Str := List Char

/-- `socket_type`, include/np_network.h:44. -/
abbrev Sock := BitVec 16

/-- `UNKNOWN_PROTO`, include/np_network.h:46. -/
def unknown : Sock := 0x001#16
/-- `IPv4`, include/np_network.h:47. -/
def ipv4 : Sock := 0x002#16
/-- `IPv6`, include/np_network.h:48. -/
def ipv6 : Sock := 0x004#16
/-- `MASK_IP`, include/np_network.h:49. -/
def maskIp : Sock := 0x00f#16
/-- `UDP`, include/np_network.h:50. -/
def udp : Sock := 0x010#16
/-- `TCP`, include/np_network.h:51. -/
def tcp : Sock := 0x020#16
/-- `PASSIVE`, include/np_network.h:53. -/
def passive : Sock := 0x100#16

/-- `FLAG_CMP`, include/np_util.h:53. -/
def flagCmp (data flag : Sock) : Bool := data &&& flag == flag

/-- `_np_network_parse_protocol_string`, src/np_network.c:155-183: `strnlen(.., 4) == 4` and `strncmp(.., 4) == 0` compare the first four characters. -/
def parseProtocol (s : Str) : Sock :=
  if s.take 4 = ['t', 'c', 'p', '4'] then tcp ||| ipv4
  else if s.take 4 = ['t', 'c', 'p', '6'] then tcp ||| ipv6
  else if s.take 4 = ['p', 'a', 's', '4'] then passive ||| ipv4
  else if s.take 4 = ['p', 'a', 's', '6'] then passive ||| ipv6
  else if s.take 4 = ['u', 'd', 'p', '4'] then udp ||| ipv4
  else if s.take 4 = ['u', 'd', 'p', '6'] then udp ||| ipv6
  else unknown

/-- `_np_network_get_protocol_string`, src/np_network.c:185-200. -/
def protocolString (p : Sock) : Str :=
  if flagCmp p (passive ||| ipv4) then ['p', 'a', 's', '4']
  else if flagCmp p (passive ||| ipv6) then ['p', 'a', 's', '6']
  else if flagCmp p (tcp ||| ipv4) then ['t', 'c', 'p', '4']
  else if flagCmp p (tcp ||| ipv6) then ['t', 'c', 'p', '6']
  else if flagCmp p (udp ||| ipv4) then ['u', 'd', 'p', '4']
  else if flagCmp p (udp ||| ipv6) then ['u', 'd', 'p', '6']
  else "UNKNOWN_PROTOCOL".toList

/-- `strchr(s, ':')`: the text before and after the first colon. -/
def splitFirst : Str → Option (Str × Str)
  | [] => none
  | c :: cs =>
    if c = ':' then some ([], cs)
    else match splitFirst cs with
      | none => none
      | some (a, b) => some (c :: a, b)

/-- `strrchr(s, ':')`: the text before and after the last colon. -/
def splitLast : Str → Option (Str × Str)
  | [] => none
  | c :: cs =>
    match splitLast cs with
    | some (a, b) => some (c :: a, b)
    | none => if c = ':' then some ([], cs) else none

/-- `struct __node_from_string_s`, src/np_node.c:120-125. -/
structure Details where
  dhkey : Str
  protocol : Str
  hostname : Str
  port : Str
deriving DecidableEq, Repr

/-- `__get_node_details_from_string`, src/np_node.c:127-165: cut at the first two colons and at the last one; `none` stands for the result with null
pointers. The last colon has to differ from the second (line 145), so it is the last one of the text behind the second. -/
def details (s : Str) : Option Details :=
  match splitFirst s with
  | none => none
  | some (k, r) =>
    match splitFirst r with
    | none => none
    | some (p, r) =>
      match splitLast r with
      | none => none
      | some (h, port) => some ⟨k, p, h, port⟩

/-- The part of `np_node_t` that describes an address, include/np_node.h. -/
structure Node where
  hostKey : Str
  protocol : Sock
  ip : Str
  port : Str
deriving DecidableEq, Repr

/-- `_np_node_update`, src/np_node.c:530-547: at most 40 characters of the host and 5 of the port are kept. -/
def update (hostKey : Str) (proto : Sock) (hostname port : Str) : Node := ⟨hostKey, proto, hostname.take 40, port.take 5⟩

/-- The eight copies of four bytes in `np_dhkey_create_from_hash`, src/np_dhkey.c:98-105. -/
def ofBytes : List (BitVec 8) → Dhkey
  | [a0, a1, a2, a3, b0, b1, b2, b3, c0, c1, c2, c3, d0, d1, d2, d3, e0, e1, e2, e3, f0, f1, f2, f3, g0, g1, g2, g3, h0, h1, h2, h3] =>
    ⟨wordOf a0 a1 a2 a3, wordOf b0 b1 b2 b3, wordOf c0 c1 c2 c3, wordOf d0 d1 d2 d3, wordOf e0 e1 e2 e3, wordOf f0 f1 f2 f3, wordOf g0 g1 g2 g3,
      wordOf h0 h1 h2 h3⟩
  | _ => Dhkey.zero

/-- `np_dhkey_create_from_hash`, src/np_dhkey.c:77-108: the zero key unless the first 64 characters exist and are hex digits. The digit test `isxdigit`
accepts exactly what `sodium_hex2bin` reads, so it is part of `strId`. -/
def fromHash (s : Str) : Dhkey :=
  if (s.take 64).length = 64 then
    match strId (s.take 64) with
    | some id => ofBytes id
    | none => Dhkey.zero
  else Dhkey.zero

/-- An outcome that is not a value: a failed assertion, a null pointer that is followed, or behaviour the C standard leaves undefined. -/
inductive Out (α : Type) where
  | ok (a : α)
  | crash
deriving DecidableEq, Repr

/-- `>>=` for outcomes: a crash ends the program. -/
def Out.bind {α β : Type} : Out α → (α → Out β) → Out β
  | .ok a, f => f a
  | .crash, _ => .crash

/-- `_np_node_decode_from_str`, src/np_node.c:219-290. The inner `none` is the result `NULL`. The two characters written at lines 271-272 change no part
of the text that is read later. -/
def decode (key : Str) : Out (Option Node) :=
  if key = [] then .crash
  else .ok (match details (key.take 255) with
    | none => none
    | some d =>
      let proto := parseProtocol d.protocol
      if flagCmp proto unknown then none
      else some (update (if fromHash d.dhkey = Dhkey.zero then ['*'] else d.dhkey.take 64) proto d.hostname d.port))

/-- The part of a handshake token that names an interface, see src/np_token_factory.c:336-350. -/
structure HsToken where
  issuer : Str
  subject : Str
deriving DecidableEq, Repr

/-- `_NP_URN_NODE_PREFIX`, include/core/np_comp_msgproperty.h:48-50. -/
def urnPrefix : Str := ['u', 'r', 'n', ':', 'n', 'p', ':', 'n', 'o', 'd', 'e']

/-- `_np_token_factory_new_handshake_token`, src/np_token_factory.c:309-350: issuer is the id of the node, the subject is cut after 253 characters. -/
def hsToken (nodeKey : Dhkey) (protocol : Sock) (localIp port : Str) : HsToken :=
  ⟨idStr nodeKey.bytes, (urnPrefix ++ ':' :: protocolString protocol ++ ':' :: localIp ++ ':' :: port).take 253⟩

/-- `_np_node_from_token`, src/np_node.c:355-426, for a token of the expected type: the text starts one character before the end of the prefix, so the
first of the four parts is the letter `e`. The attributes read at lines 430-463 are not modelled. -/
def nodeFromToken (t : HsToken) : Option Node :=
  match details ((t.subject.drop (urnPrefix.length - 1)).take 255) with
  | none => none
  | some d =>
    let proto := parseProtocol d.protocol
    if flagCmp proto unknown then none else some (update (t.issuer.take 64) proto d.hostname d.port)

/-- Answers of the operating system during one call. -/
structure Env where
  /-- `_np_network_get_remote_ip`, src/np_network.c:1616-1663; the empty text if resolution fails (the buffer stays zero). -/
  resolve : Str → Sock → Str
  /-- `_np_network_get_outgoing_ip`, src/np_network.c:1459-1510. -/
  outgoing : Str → Sock → Option Str
  /-- `_np_network_get_local_ip`, src/np_network.c:1548-1614. -/
  localIp : Str → Sock → Option Str
  /-- `inet_pton(AF_INET, ..)` followed by `ntohl`. -/
  pton4 : Str → Option (BitVec 32)
  /-- `inet_pton(AF_INET6, ..)`, 16 bytes. -/
  pton6 : Str → Option (List (BitVec 8))
  /-- Hash of a name in `np_dhkey_create_from_hostport`, src/np_dhkey.c:110-116. -/
  hash : Str → Dhkey
  /-- `_np_network_init` opens the listening socket, src/core/np_comp_identity.c:275-282. -/
  binds : Sock → Str → Str → Bool
  /-- `_np_jobqueue_init`, `_np_network_module_init` and `_np_statistics_enable`, src/np_legacy.c:518-534. -/
  startup : Bool
  /-- Place of a new interface in the key cache, which is ordered by the fingerprint of its token. -/
  place : Nat

/-- An interface in the key cache: its node structure and whether a listening socket belongs to it. -/
structure Iface where
  node : Node
  socket : Bool
deriving DecidableEq, Repr

/-- Names of the codes in `enum np_return`, include/neuropil.h. -/
inductive Ret where
  | ok | operationFailed | invalidArgument | invalidOperation | startup
deriving DecidableEq, Repr

/-- The parts of `np_state_t` and of the key cache that the modelled functions use. `peers` are the entries whose type is exactly
`np_key_type_node` and that carry a node structure; entries of interfaces have two type flags (src/core/np_comp_identity.c:157) and are not among them. -/
structure St where
  nodeKey : Dhkey
  identity : Dhkey
  mainIp : Option Str
  ifaces : List Iface
  peers : List (Dhkey × Node)
  running : Bool
deriving DecidableEq, Repr

/-- `strncmp(a, b, strnlen(b, n)) == 0`: the first `n` characters of `b` are a prefix of `a`. -/
def prefixMatch (a b : Str) (n : Nat) : Bool := (b.take n).isPrefixOf a

/-- `_np_keycache_find_interface` with `port == NULL`, src/np_keycache.c:157-182; `INET6_ADDRSTRLEN` is 46. -/
def findIface (ifaces : List Iface) (ip : Str) : Option Iface := ifaces.find? fun i => prefixMatch i.node.ip ip 46

/-- `_np_keycache_find_interface(context, context->main_ip, NULL)`: a null pointer is read as soon as there is an interface to compare with. -/
def mainIface (s : St) : Out (Option Iface) :=
  match s.mainIp with
  | some ip => .ok (findIface s.ifaces ip)
  | none => if s.ifaces = [] then .ok none else .crash

/-- The interface created for a token by `__np_create_identity_network`, src/core/np_comp_identity.c:246-300: without a node structure a null pointer is
followed (line 265); a socket is opened unless the protocol is passive. -/
def newIface (e : Env) (t : HsToken) : Out Iface :=
  match nodeFromToken t with
  | none => .crash
  | some n => .ok ⟨n, !flagCmp n.protocol passive && e.binds n.protocol n.ip n.port⟩

/-- `_np_listen_safe` after the own address is known, src/np_legacy.c:486-541. -/
def listenOn (e : Env) (s : St) (proto : Sock) (ip port : Str) : Out (Ret × St) :=
  if (s.mainIp.map (·.take 50)) = some (ip.take 50) then .ok (.ok, s)
  else (newIface e (hsToken s.nodeKey proto ip port)).bind fun i =>
    let s' := { s with ifaces := s.ifaces.take e.place ++ i :: s.ifaces.drop e.place, mainIp := some (s.mainIp.getD (ip.take 50)) }
    if e.startup then .ok (.ok, s') else .ok (.startup, { s' with running := false })

/-- `_np_listen_safe`, src/np_legacy.c:450-541. -/
def listenSafe (e : Env) (s : St) (protocol host port : Str) : Out (Ret × St) :=
  if parseProtocol protocol = unknown then .ok (.invalidArgument, s)
  else match e.localIp (host.take 255) (parseProtocol protocol) with
    | none => .ok (.invalidArgument, s)
    | some ip => listenOn e s (parseProtocol protocol) ip port

/-- One decimal digit. -/
def digit (n : Nat) : Char := Char.ofNat (48 + n)

/-- Decimal digits of a number below `10 ^ f`. -/
def digits : Nat → Nat → Str
  | 0, _ => []
  | f + 1, n => if n < 10 then [digit n] else digits f (n / 10) ++ [digit (n % 10)]

/-- `snprintf("%" PRIu16)`; a 16 bit number has at most five digits. -/
def decimal (n : Nat) : Str := digits 5 n

/-- `np_listen`, src/neuropil.c:289-307. -/
def listen (e : Env) (s : St) (protocol host : Str) (port : BitVec 16) : Out (Ret × St) :=
  listenSafe e s (protocol.take 5) (host.take 255) ((decimal port.toNat).take 6)

/-- `np_build_connection_string` with the hash, src/np_legacy.c:543-553, as called by `np_get_connection_string_from`, src/np_legacy.c:426-448. -/
def connectionString (n : Node) : Str := n.hostKey ++ ':' :: protocolString n.protocol ++ ':' :: n.ip ++ ':' :: n.port

/-- `strncpy(address, str, max)` into a buffer of at least `max` bytes: the rest of the `max` bytes is filled with NUL. -/
def strncpy (buf str : Str) (max : Nat) : Str := str.take max ++ List.replicate (max - str.length) '\x00' ++ buf.drop max

/-- `np_get_address`, src/neuropil.c:522-541: `max + 1` is computed in 32 bits. -/
def getAddress (s : St) (buf : Str) (max : BitVec 32) : Out (Ret × Str) :=
  (mainIface s).bind fun i =>
    match i with
    | none => .ok (.operationFailed, buf)
    | some i =>
      let str := connectionString i.node
      if (str.take (max + 1).toNat).length > max.toNat then .ok (.invalidArgument, buf) else .ok (.ok, strncpy buf str max.toNat)

/-- `strstr(s, sub) != NULL`. -/
def contains : Str → Str → Bool
  | [], sub => sub.isEmpty
  | c :: cs, sub => sub.isPrefixOf (c :: cs) || contains cs sub

/-- `_np_keycache_find_by_details` as called by `np_send_join` (own keys are skipped, address and port are required), src/np_keycache.c:184-228. -/
def findByDetails (s : St) (text : Str) : Bool :=
  s.peers.any fun (k, n) => !(k == s.nodeKey || k == s.identity) && contains text n.ip && contains text n.port

/-- `_np_network_is_loopback_address`, src/np_network.c:1512-1515. -/
def isLoopback (ip : Str) : Bool := prefixMatch ip "127.0.0.1".toList 9 || prefixMatch ip "::1".toList 3

/-- The IPv4 ranges in `_np_network_is_private_address`, src/np_network.c:1529-1539. -/
def private4 (a : BitVec 32) : Bool :=
  (0x0A000000#32 ≤ a && a ≤ 0x0AFFFFFF#32) || (0xAC100000#32 ≤ a && a ≤ 0xAC1FFFFF#32) || (0xC0A80000#32 ≤ a && a ≤ 0xC0A8FFFF#32)

/-- The IPv6 ranges in `_np_network_is_private_address`, src/np_network.c:1540-1545. -/
def private6 (a : List (BitVec 8)) : Bool :=
  a[0]? == some 0xFC#8 || a[0]? == some 0xFD#8 || (a[0]? == some 0xFE#8 && a[1]? == some 0x80#8)

/-- `_np_network_is_private_address`, src/np_network.c:1517-1546. -/
def isPrivate (e : Env) (ip : Str) : Bool :=
  match e.pton4 ip with
  | some a => private4 a
  | none =>
    match e.pton6 ip with
    | some a => private6 a
    | none => false

/-- `__builtin_clz`: the number of leading zero bits of a non-zero value; undefined for zero. -/
def clz (d : BitVec 32) : Out Nat := if d = 0#32 then .crash else .ok (31 - d.toNat.log2)

/-- The comparison of IPv4 addresses in `_np_network_count_common_tuples`, src/np_network.c:1422-1426. -/
def common4 (a b : BitVec 32) : Out Nat := (clz (a ^^^ b)).bind fun z => .ok (z >>> 3)

/-- The comparison of IPv6 addresses in `_np_network_count_common_tuples`, src/np_network.c:1446-1453. -/
def common6 : List (BitVec 8) → List (BitVec 8) → Nat
  | a :: a' :: as, b :: b' :: bs => if a = b ∧ a' = b' then common6 as bs + 1 else 0
  | _, _ => 0

/-- `_np_network_count_common_tuples`, src/np_network.c:1403-1457. -/
def commonTuples (e : Env) (remote loc : Str) : Out Nat :=
  if (':' ∈ loc) ≠ (':' ∈ remote) then .ok 0
  else if ':' ∉ remote then
    match e.pton4 remote, e.pton4 loc with
    | some a, some b => common4 a b
    | _, _ => .ok 0
  else
    match e.pton6 remote, e.pton6 loc with
    | some a, some b => .ok (common6 a b)
    | _, _ => .ok 0

/-- The rest of `_np_glia_node_can_be_reached` after the interface was chosen, src/np_glia.c:176-222. `main` is the search for the interface of the main
address at line 209. -/
def reachFrom (e : Env) (n : Node) (isMain : Bool) (main : Out (Option Iface)) (remote : Str) (proto : Sock) : Out Bool :=
  if isLoopback n.ip && isLoopback remote && flagCmp proto (n.protocol &&& maskIp) then .ok true
  else (if isPrivate e remote && isPrivate e n.ip then commonTuples e remote n.ip else .ok 0).bind fun common =>
    if common > 0 then .ok true
    else if (isPrivate e remote && isLoopback n.ip) || (isPrivate e n.ip && !isPrivate e remote) then
      if !flagCmp n.protocol (passive ||| (maskIp &&& proto)) && isPrivate e n.ip && !isMain then
        main.bind fun m =>
          match m with
          | none => .crash
          | some m => .ok (flagCmp m.node.protocol (passive ||| (maskIp &&& proto)))
      else .ok (flagCmp n.protocol (passive ||| (maskIp &&& proto)))
    else .ok (!isPrivate e remote && !isPrivate e n.ip)

/-- `_np_glia_node_can_be_reached`, src/np_glia.c:144-236: if there is no route the local address stays empty and every interface matches it. -/
def canBeReached (e : Env) (s : St) (remote : Str) (proto : Sock) : Out Bool :=
  match findIface s.ifaces ((e.outgoing remote proto).getD []) with
  | some i => reachFrom e i.node false (mainIface s) remote proto
  | none => (mainIface s).bind fun m =>
    match m with
    | none => .crash
    | some i => reachFrom e i.node true (mainIface s) remote proto

/-- What `np_send_join` does for the user: nothing, or an attempt to connect to a peer under a key of the key cache. -/
inductive Effect where
  | nothing
  | contact (key : Dhkey) (node : Node)
deriving DecidableEq, Repr

/-- The key a peer is entered under, src/np_legacy.c:682-697, `none` if the key text has neither form. -/
def searchKey (e : Env) (n : Node) : Option Dhkey :=
  if n.hostKey.head? = some '*' then
    some (e.hash (('*' :: ':' :: protocolString n.protocol ++ ':' :: n.ip ++ ':' :: n.port).take 254))
  else if (n.hostKey.take 64).length = 64 then some (fromHash n.hostKey)
  else none

/-- The end of `np_send_join`, src/np_legacy.c:682-709. -/
def contactNode (e : Env) (n : Node) : Effect :=
  match searchKey e n with
  | some k => .contact k n
  | none => .nothing

/-- The part of `np_send_join` that opens a passive interface if there is no way to the peer, src/np_legacy.c:625-682. -/
def reachOrListen (e : Env) (s : St) (n : Node) : Out (Bool × St) :=
  (canBeReached e s n.ip n.protocol).bind fun r =>
    if r then .ok (true, s)
    else match e.outgoing n.ip n.protocol with
      | none => .ok (false, s)
      | some ip => (listenSafe e s (protocolString (n.protocol ||| passive)) ip "31415".toList).bind fun (ret, s') =>
        if ret ≠ .ok then .ok (false, s') else (canBeReached e s' n.ip n.protocol).bind fun r => .ok (r, s')

/-- `np_send_join` for a decoded node, src/np_legacy.c:567-709. -/
def joinNode (e : Env) (s : St) (n : Node) : Out (Effect × St) :=
  if flagCmp n.protocol passive then .ok (.nothing, s)
  else
    let n' := { n with ip := (e.resolve n.ip n.protocol).take 63 }
    if findByDetails s ((n'.ip ++ ':' :: n'.port).take 63) then .ok (.nothing, s)
    else (reachOrListen e s n').bind fun (r, s') => .ok (if r then contactNode e n' else .nothing, s')

/-- `np_send_join`, src/np_legacy.c:561-708. -/
def sendJoin (e : Env) (s : St) (address : Str) : Out (Effect × St) :=
  (decode address).bind fun d =>
    match d with
    | none => .ok (.nothing, s)
    | some n => joinNode e s n

/-- `np_join` with an address that is not null, src/neuropil.c:607-624. -/
def join (e : Env) (s : St) (address : Str) : Out (Ret × Effect × St) :=
  if (address.take 500).length ≤ 10 then .ok (.invalidArgument, .nothing, s)
  else if (address.take 500).length ≥ 500 then .ok (.invalidArgument, .nothing, s)
  else if !s.running then .ok (.invalidOperation, .nothing, s)
  else (sendJoin e s (address.take 500)).bind fun (f, s') => .ok (.ok, f, s')

/-- A fresh context: the node key exists, nothing listens. -/
def St.init (nodeKey identity : Dhkey) : St := ⟨nodeKey, identity, none, [], [], false⟩

/-- What happens to a node: calls of the API, `np_run` starting the node (src/neuropil.c:997-1030, a passive interface is opened if there is none), and
any change of the known peers by traffic from the network. -/
inductive Op where
  | listen (e : Env) (protocol host : Str) (port : BitVec 16)
  | join (e : Env) (address : Str)
  | run (e : Env)
  | stop
  | peers (l : List (Dhkey × Node))

/-- One operation; the returned values of the calls are the subject of the theorems about the single calls. -/
def step (s : St) : Op → Out St
  | .listen e protocol host port => (listen e s protocol host port).bind fun (_, s') => .ok s'
  | .join e address => (join e s address).bind fun (_, _, s') => .ok s'
  | .run e =>
    if s.mainIp = none then
      (listen e s (protocolString (passive ||| ipv4)) "localhost".toList 31415#16).bind fun (_, s') => .ok { s' with running := true }
    else .ok { s with running := true }
  | .stop => .ok { s with running := false }
  | .peers l => .ok { s with peers := l }

/-- A history. -/
def run (s : St) : List Op → Out St
  | [] => .ok s
  | o :: os => (step s o).bind fun s' => run s' os

end Np.Addr
