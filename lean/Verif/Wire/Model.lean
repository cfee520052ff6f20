/-! # Model of the reading and writing of sockets

`_np_network_send_data`, `_np_network_write` and `_np_network_read` of `src/np_network.c`. What the operating system answers to `send`, `recv` and
`recvfrom` is an argument of each step, so every way of splitting a stream and every order of events is covered.

Left out: the state of the keys that decides which key a packet is handed to (area Keys), statistics and logging. Whether the limit of messages per
second lets a packet pass is an argument (see area Rate). That `_np_network_write` may find the lock taken and do nothing is the same as not being
called. -/
namespace Np.Wire

abbrev Byte := BitVec 8
abbrev Packet := List Byte

/-- `MSG_CHUNK_SIZE_1024 + MSG_INSTRUCTIONS_SIZE`, include/np_settings.h:169,173: the size of a packet. -/
def size : Nat := 1024 + 22

/-! ## TCP -/

/-- The `do … while` loop of `_np_network_send_data`, src/np_network.c:321-356: the results of the successive calls of `send` and the bytes written
so far; the bytes written in the end. `send` never accepts more bytes than it is given. No further result means that `send` fails. -/
def sendLoop : List Int → Nat → Nat
  | [], done => done
  | r :: rs, done =>
    if 0 < r then
      let done1 := done + min r.toNat (size - done)
      if done1 < size then sendLoop rs done1 else done1
    else done

/-- The `do … while` loop of `_np_network_read`, src/np_network.c:626-661, for a TCP socket: the results of the successive calls of `recv`, the
bytes read so far and the bytes waiting in the socket; afterwards the bytes read, the bytes still waiting, and `stop`. A negative result is an
error (`EAGAIN` included), zero the end of the stream. `recv` never returns more bytes than asked for or waiting, and fails with `EAGAIN` if none
are waiting; no further result means the same. -/
def recvLoop : List Int → List Byte → List Byte → List Byte × List Byte × Bool
  | [], buf, wait => (buf, wait, true)
  | r :: rs, buf, wait =>
    if r < 0 then (buf, wait, true)
    else if r = 0 then (buf, wait, false)
    else
      let n := min r.toNat (min (size - buf.length) wait.length)
      if n = 0 then (buf, wait, true)
      else
        let buf1 := buf ++ wait.take n
        if buf1.length < size then recvLoop rs buf1 (wait.drop n) else (buf1, wait.drop n, false)

/-- One direction of a TCP connection. -/
structure Tcp where
  /-- `out_events` of the sender's `np_network_t`, include/np_network.h:82. -/
  queue : List Packet
  /-- The bytes under way: accepted by `send` on one side and not yet returned by `recv` on the other. -/
  wait : List Byte
  /-- `can_be_enabled` of the receiver's `np_network_t`, include/np_network.h:88; also that its watcher runs. -/
  enabled : Bool
  /-- The packets handed to the key component, src/np_network.c:695-812, in order. -/
  got : List Packet
  /-- Ghost: all packets ever taken into the queue. -/
  asked : List Packet
  /-- Ghost: all bytes ever accepted by `send`. -/
  sent : List Byte

/-- A fresh connection. -/
def Tcp.init : Tcp := { queue := [], wait := [], enabled := true, got := [], asked := [], sent := [] }

inductive TcpStep
  /-- `sll_append(…, out_events, packet)`, src/core/np_comp_node.c:1562, 1702. -/
  | append (p : Packet)
  /-- `_np_network_write`, src/np_network.c:387-434. `pass`: the limit of messages per second was not exceeded. -/
  | write (pass : Bool) (rs : List Int)
  /-- `_np_network_read`, src/np_network.c:592-855. -/
  | read (pass : Bool) (rs : List Int)

/-- `_np_network_write` with `_np_network_send_data`, src/np_network.c:272-434: the first packet leaves the queue only if all of it was written. -/
def Tcp.write (s : Tcp) (pass : Bool) (rs : List Int) : Tcp :=
  match s.queue with
  | [] => s
  | p :: q =>
    if pass then
      let n := sendLoop rs 0
      let s1 := { s with wait := s.wait ++ p.take n, sent := s.sent ++ p.take n }
      if n = size then { s1 with queue := q } else s1
    else s

/-- `_np_network_read`, src/np_network.c:592-855: after an error everything read is thrown away; otherwise a packet of the right size is handed on
(unless the limit of messages per second is exceeded), nothing at all switches the network off, and any other number of bytes is thrown away. -/
def Tcp.read (s : Tcp) (pass : Bool) (rs : List Int) : Tcp :=
  if s.enabled then
    let r := recvLoop rs [] s.wait
    let s1 := { s with wait := r.2.1 }
    if r.2.2 then s1
    else if r.1.length = size then if pass then { s1 with got := s1.got ++ [r.1] } else s1
    else if r.1.length = 0 then { s1 with enabled := false }
    else s1
  else s

/-- One step. -/
def Tcp.step (s : Tcp) : TcpStep → Tcp
  | .append p => { s with queue := s.queue ++ [p], asked := s.asked ++ [p] }
  | .write pass rs => s.write pass rs
  | .read pass rs => s.read pass rs

def Tcp.run (s : Tcp) (l : List TcpStep) : Tcp := l.foldl Tcp.step s

/-! ## UDP -/

/-- The same loop, src/np_network.c:626-661, for a UDP socket: whether each call of `recvfrom` succeeds, the bytes read so far and the datagrams
waiting with their senders; afterwards the bytes read, the last sender, the datagrams still waiting, and `stop`. `recvfrom` returns the first datagram, cut to the room left in
the buffer. No further result means an error. -/
def recvFromLoop {α : Type} : List Bool → List Byte → Option α → List (α × List Byte) → List Byte × Option α × List (α × List Byte) × Bool
  | [], buf, a, wait => (buf, a, wait, true)
  | false :: _, buf, a, wait => (buf, a, wait, true)
  | true :: _, buf, a, [] => (buf, a, [], true)
  | true :: rs, buf, _, (a, d) :: wait =>
    let part := d.take (size - buf.length)
    let buf1 := buf ++ part
    if 0 < part.length ∧ buf1.length < size then recvFromLoop rs buf1 (some a) wait else (buf1, some a, wait, false)

/-- The receiving side of a UDP socket. -/
structure Udp (α : Type) where
  /-- The datagrams waiting in the socket. -/
  wait : List (α × List Byte)
  /-- `can_be_enabled`, include/np_network.h:88; also that the watcher runs. It is set to true only when the socket is created
  (src/core/np_comp_identity.c:296). -/
  enabled : Bool
  /-- The packets handed on, with the address they are attributed to, src/np_network.c:695-812. -/
  got : List (α × Packet)

def Udp.init (α : Type) : Udp α := { wait := [], enabled := true, got := [] }

inductive UdpStep (α : Type)
  /-- A datagram arrives from the network. -/
  | arrive (a : α) (d : List Byte)
  /-- `_np_network_read`, src/np_network.c:592-855. -/
  | read (pass : Bool) (rs : List Bool)

/-- `_np_network_read` for a UDP socket, src/np_network.c:592-855. -/
def Udp.read {α : Type} (s : Udp α) (pass : Bool) (rs : List Bool) : Udp α :=
  if s.enabled then
    let r := recvFromLoop rs [] none s.wait
    let s1 := { s with wait := r.2.2.1 }
    if r.2.2.2 then s1
    else if r.1.length = size then
      match r.2.1 with
      | some a => if pass then { s1 with got := s1.got ++ [(a, r.1)] } else s1
      | none => s1
    else if r.1.length = 0 then { s1 with enabled := false }
    else s1
  else s

def Udp.step {α : Type} (s : Udp α) : UdpStep α → Udp α
  | .arrive a d => { s with wait := s.wait ++ [(a, d)] }
  | .read pass rs => s.read pass rs

def Udp.run {α : Type} (s : Udp α) (l : List (UdpStep α)) : Udp α := l.foldl Udp.step s

end Np.Wire
