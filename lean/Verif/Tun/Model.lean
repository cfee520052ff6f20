import Verif.Json.Model
/-!
# Model of the tunnel, framework/tuntap/np_tuntap.c and framework/tuntap/np_tuntap_linux.c

Linux only.  Texts and packets are lists of bytes; the texts of a configuration are taken without their final zero.  The hash of a text is a parameter.  The structure
of a tunnel starts as zero, as the device and the kernel's answers are parameters or part of the state.  Not modelled: the attributes and properties of the
subjects other than those named, DNS entries (`np_tuntap_dns_add` is empty, framework/tuntap/np_tuntap_linux.c:284-286), logging.
-/
namespace Np.Tun

abbrev Text := List Nat
abbrev Subject := BitVec 256

/-- Undefined behaviour: reading bytes that were never written, memory outside of an object, memory that was freed, and `__builtin_clz(0)`. -/
inductive Fault
  | uninitialised
  | outOfBounds
  | freed
  | clz
  deriving DecidableEq, Repr

/-- The part of `struct np_tuntap` that the user fills in, framework/tuntap/np_tuntap.h:44-50. -/
structure Cfg where
  domain : Text
  ip : Text
  netmask : Text
  deriving DecidableEq, Repr

/-- "urn:np:tuntap:control:v1", framework/tuntap/np_tuntap.c:34. -/
def ctlName : Text := "urn:np:tuntap:control:v1".toList.map Char.toNat

/-- "urn:np:tuntap:data:v1", framework/tuntap/np_tuntap.c:35. -/
def dataName : Text := "urn:np:tuntap:data:v1".toList.map Char.toNat

/-- `np_generate_subject`, src/neuropil.c:136-143: the hash is added to what is there. -/
def generate (hash : Text → Subject) (s : Subject) (t : Text) : Subject := s ^^^ hash t

/-- The text `inet_ntop` makes of four bytes. -/
def ipText (a b c d : Nat) : Text := Json.digits 3 a ++ 46 :: (Json.digits 3 b ++ 46 :: (Json.digits 3 c ++ 46 :: Json.digits 3 d))

/-- The subject a packet for `dst` is sent to, framework/tuntap/np_tuntap.c:323-335. -/
def dataSubject (hash : Text → Subject) (c : Cfg) (dst : Text) : Subject :=
  generate hash (generate hash (generate hash (generate hash 0#256 dataName) c.domain) dst) c.netmask

/-- What becomes of a packet of the host. -/
inductive Sent
  | dropped
  | noReceiver
  | to (s : Subject) (packet : List Nat)
  deriving DecidableEq, Repr

/-- `_np_tuntap_read_callback`, framework/tuntap/np_tuntap.c:269-354: `n` is the result of `read` and `buf` what it wrote.  The result is put into a `size_t`, so that an
error is taken for a length; the destination is read from bytes 16 to 19 whatever the length. -/
def fromHost (hash : Text → Subject) (c : Cfg) (receiver : Subject → Bool) (n : Int) (buf : List Nat) : Except Fault Sent :=
  if n = 0 then .ok .dropped
  else if n < 0 then .error .uninitialised
  else if buf.length < 20 then .error .uninitialised
  else
    let dst := ipText (buf.getD 16 0) (buf.getD 17 0) (buf.getD 18 0) (buf.getD 19 0)
    if dst = c.ip then .ok .dropped
    else if buf.getD 0 0 / 16 ≠ 4 then .ok .dropped
    else if receiver (dataSubject hash c dst) then .ok (.to (dataSubject hash c dst) buf)
    else .ok .noReceiver

/-- `_handle_tuntap_traffic`, framework/tuntap/np_tuntap.c:51-143: what it writes to the device, and what it returns.  There are two calls of `write`, lines 120 and 123. -/
def toHost (data : Option (List Nat)) : List (List Nat) × Bool :=
  match data with
  | none => ([], false)
  | some p =>
    if p.length < 20 then ([], false)
    else if p.getD 0 0 / 16 ≠ 4 then ([], false)
    else if p.length ≠ 256 * p.getD 2 0 + p.getD 3 0 then ([], false)
    else if p.getD 0 0 % 16 < 5 then ([], false)
    else ([p, p], true)

/-- `strncmp` of two byte sequences is 0. -/
def strncmpEq : Nat → Text → Text → Bool
  | 0, _, _ => true
  | _ + 1, [], [] => true
  | _ + 1, [], b :: _ => b == 0
  | _ + 1, a :: _, [] => a == 0
  | n + 1, a :: as, b :: bs => a == b && (a == 0 || strncmpEq n as bs)

/-- The attributes of the token of a peer. -/
structure Peer where
  domain : Option Text
  netmask : Option Text
  ip : Option Text
  routing : Option Text

/-- What is done for a peer: the subject that is set up for sending, and the additional route. -/
structure Accepted where
  subject : Subject
  route : Option Text
  deriving DecidableEq, Repr

/-- The additional route, framework/tuntap/np_tuntap.c:255-258: `strncpy` into 16 bytes on the stack that hold `stack` before. -/
def routeText (stack data : Text) : Except Fault Text :=
  if data.length > 16 then .error .outOfBounds
  else
    let copied := data.takeWhile (· ≠ 0)
    let buf := copied ++ List.replicate (data.length - copied.length) 0 ++ stack.drop data.length
    if (buf.take 16).all (· ≠ 0) then .error .outOfBounds else .ok (buf.takeWhile (· ≠ 0))

/-- `_tuntap_authorize_peers`, framework/tuntap/np_tuntap.c:151-267; `user` is the answer of the user's callback, `none` in the result: the peer is rejected. -/
def authorize (hash : Text → Subject) (c : Cfg) (stack : Text) (p : Peer) (user : Bool) : Except Fault (Option Accepted) :=
  match p.domain with
  | none => .ok none
  | some dom =>
    if c.domain.length ≠ dom.length || !strncmpEq dom.length c.domain dom then .ok none
    else match p.netmask with
    | none => .ok none
    | some mask =>
      if c.netmask.length ≠ mask.length || !strncmpEq mask.length c.netmask mask then .ok none
      else match p.ip with
      | none => .ok none
      | some ip =>
        if c.ip.length ≠ ip.length || strncmpEq ip.length c.ip ip then .ok none
        else if !user then .ok none
        else
          let s := generate hash (generate hash (generate hash (generate hash 0#256 dataName) c.domain) ip) mask
          match p.routing with
          | none => .ok (some { subject := s, route := none })
          | some r => match routeText stack r with
            | .error f => .error f
            | .ok t => .ok (some { subject := s, route := some t })

/-- `enum np_status`, include/neuropil.h:107-113. -/
inductive Status
  | error
  | uninitialized
  | running
  | stopped
  deriving DecidableEq, Repr

/-- `status < np_running`. -/
def Status.early : Status → Bool
  | .error => true
  | .uninitialized => true
  | _ => false

/-- The tunnel and its surroundings: `fd` is the file the packets are read from, `watched` the one the event loop watches, `used` whether the watchers point to
something, `device` whether the interface is there and `up` whether it is up, `enabled` whether the subjects are, `callbacks` how often the
shutdown callback was added. -/
structure Tun where
  status : Status := .uninitialized
  fd : Int := 0
  ctl : Subject := 0#256
  data : Subject := 0#256
  used : Bool := false
  watched : Option Int := none
  device : Bool := false
  up : Bool := false
  enabled : Bool := false
  callbacks : Nat := 0
  deriving DecidableEq, Repr

/-- What the system answers: the file of the device, or a negative number; whether address and netmask are numbers and the kernel takes them; whether the attributes of the
subject can be set. -/
structure Sys where
  file : Int
  numeric : Bool
  attributes : Bool

/-- The places in the 1052 bytes of the request at which `np_tuntap_route_add`, framework/tuntap/np_tuntap_linux.c:150-192, and `np_tuntap_route_delete`, framework/tuntap/np_tuntap_linux.c:227-268, write
the three attributes.  The header has 16 bytes, and the offset is counted in headers; for the last attribute of the second it is counted in requests. -/
def attributeOffsets (delete : Bool) : List Nat := [16 * 28, 16 * (28 + 4), (if delete then 1052 else 16) * (28 + 8)]

/-- The length of the request that is told to the kernel, framework/tuntap/np_tuntap_linux.c:157, 179, 185 and 192. -/
def requestLength : Nat := 28 + 4 + 4 + 4

/-- Both functions; each attribute has 8 bytes.  Nothing is done if the addresses are no numbers, framework/tuntap/np_tuntap_linux.c:142-147 and 218-224. -/
def routeRequest (delete numeric : Bool) : Except Fault Unit :=
  if !numeric then .ok ()
  else if (attributeOffsets delete).any (· + 8 > 1052) then .error .outOfBounds
  else .ok ()

/-- `np_tuntap_stop`, framework/tuntap/np_tuntap.c:623-633; taking the interface down is a request to delete it, framework/tuntap/np_tuntap_linux.c:316-342. -/
def stop (t : Tun) : Tun := { t with watched := none, device := false, up := false, enabled := false, status := .stopped }

/-- `np_tuntap_destroy`, framework/tuntap/np_tuntap.c:635-651. -/
def destroy (y : Sys) (t : Tun) : Except Fault Tun :=
  if t.status ≠ .stopped then
    match routeRequest true y.numeric with
    | .error f => .error f
    | .ok () => .ok { stop t with status := .uninitialized }
  else .ok { t with status := .uninitialized }

/-- `_np_tuntap_init_subjects`, framework/tuntap/np_tuntap.c:424-562. -/
def initSubjects (hash : Text → Subject) (c : Cfg) (y : Sys) (t : Tun) : Tun :=
  { t with
    ctl := generate hash (generate hash t.ctl ctlName) c.domain
    data := generate hash (generate hash (generate hash (generate hash t.data dataName) c.domain) c.ip) c.netmask
    status := if y.attributes then t.status else .error }

/-- The part of `np_tuntap_init` after an error was cleared, framework/tuntap/np_tuntap.c:572-599. -/
def initRest (hash : Text → Subject) (c : Cfg) (y : Sys) (t : Tun) : Except Fault Tun :=
  if t.status.early then
    let t := { t with callbacks := t.callbacks + 1, fd := y.file }
    if y.file > 0 then
      match routeRequest false y.numeric with
      | .error f => .error f
      | .ok () => .ok { initSubjects hash c y { t with device := true, status := if y.numeric then t.status else .error } with status := .stopped }
    else .ok t
  else .ok t

/-- `np_tuntap_init`, framework/tuntap/np_tuntap.c:564-600. -/
def init (hash : Text → Subject) (c : Cfg) (y : Sys) (t : Tun) : Except Fault Tun :=
  if t.status = .error then
    match destroy y t with
    | .error f => .error f
    | .ok t => initRest hash c y { t with status := .uninitialized }
  else initRest hash c y t

/-- The second half of `np_tuntap_start`, framework/tuntap/np_tuntap.c:610-620: `_np_tuntap_start_evloop`, lines 388-422, frees what the watcher points to, which is the tunnel itself,
and goes on with it. -/
def startRest (t : Tun) : Except Fault Tun :=
  if t.status = .stopped then
    if t.used then .error .freed
    else .ok { t with enabled := true, up := t.device, used := true, watched := some t.fd, status := .running }
  else .ok t

/-- `np_tuntap_start`, framework/tuntap/np_tuntap.c:602-621. -/
def start (hash : Text → Subject) (c : Cfg) (y : Sys) (t : Tun) : Except Fault Tun :=
  if t.status.early then
    match init hash c y t with
    | .error f => .error f
    | .ok t => startRest t
  else startRest t

/-- `32 - __builtin_clz(mask.s_addr)`, framework/tuntap/np_tuntap_linux.c:82, for the four bytes of the netmask on a machine with the lowest byte first. -/
def prefixBits (a b c d : Nat) : Except Fault Nat :=
  let w := a + 2 ^ 8 * b + 2 ^ 16 * c + 2 ^ 24 * d
  if w = 0 then .error .clz else .ok (Nat.log2 w + 1)

end Np.Tun
