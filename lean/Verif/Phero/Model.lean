import Verif.Bloom.Model

/-! # Model of the pheromone table

`src/np_pheromones.c` and the part of `src/np_dendrit.c` that feeds it from the network.  `none` stands for `ABORT`, a failed
`ASSERT` and accesses outside an array. -/
namespace Np.Phero

open Np.Dhkey Np.Bloom

/-- `struct np_pheromone_details_s`, src/np_pheromones.c:42-45.  The `double` time stamps are numbers of clock ticks here. -/
structure Hop where
  id : Dhkey
  ts : Nat
  deriving DecidableEq

/-- `np_pheromone_t`, include/np_pheromones.h:36-48. -/
structure Slot where
  bloom : Nb
  send : List Hop
  recv : List Hop

/-- `np_pheromone_entry_t`, src/np_pheromones.c:28-31: `zero` is the first of the 32 elements, `slots` are the following
`_count - 1` ones. -/
structure Entry where
  zero : Nb
  slots : List Slot

/-- The module: 257 entries, and how often the module lock has been taken without being released. -/
structure Table where
  entry : Nat → Option Entry
  held : Nat

def Table.empty : Table := { entry := fun _ => none, held := 0 }

/-- The arguments of `_np_pheromone_inhale`; `_subject` is always NULL in the callers. -/
structure Scent where
  pos : Int
  bloom : Nb
  sender : Dhkey
  receiver : Dhkey

/-- `NP_PHEROMONES_MAX_NEXTHOP_KEYS`, include/np_settings.h:337-338. -/
def maxHops : Nat := 19

/-- `_np_pheromone_calc_table_position`, src/np_pheromones.c:117-129. -/
def position (target : Dhkey) (sender : Bool) : Int :=
  if sender then (target.t0.toNat % 257 : Nat) + 1 else -((target.t0.toNat % 257 : Nat) : Int) - 1

/-- `__np_remove_dhkey`, src/np_pheromones.c:166-187: removes the last element with this id. -/
def removeHop (id : Dhkey) : List Hop → Option (List Hop)
  | [] => none
  | h :: r =>
    match removeHop id r with
    | some r' => some (h :: r')
    | none => if equal h.id id then some r else none

/-- `__np_remove_oldest_dhkey`, src/np_pheromones.c:189-214: the last element older than the first one, else the first one. -/
def removeOlder (t : Nat) : List Hop → Option (List Hop)
  | [] => none
  | h :: r =>
    match removeOlder t r with
    | some r' => some (h :: r')
    | none => if h.ts < t then some r else none

def removeOldest : List Hop → List Hop
  | [] => []
  | h :: r =>
    match removeOlder h.ts (h :: r) with
    | some l => l
    | none => r

/-- The loop of `__np_insert_dhkey`, src/np_pheromones.c:233-245, which leaves the last result of the comparison. -/
def insertWalk (own : Dhkey) (d : Dhkey) : List Hop → Int
  | [] => 1
  | [h] => cmp d (distance own h.id)
  | h :: r => if cmp d (distance own h.id) < 0 then insertWalk own d r else cmp d (distance own h.id)

/-- `__np_insert_dhkey`, src/np_pheromones.c:216-260. -/
def insertHop (own : Dhkey) (now : Nat) (id : Dhkey) (l : List Hop) : List Hop :=
  let c := insertWalk own (distance own id) l
  if c < 0 then l ++ [{ id := id, ts := now }]
  else if c > 0 then { id := id, ts := now } :: l
  else l

/-- The removal of the former entry of the peer, src/np_pheromones.c:328-333 and 361-366. -/
def forget (bloom : Nb) (l : List Hop) (id : Dhkey) : Nb × List Hop :=
  match removeHop id l with
  | some l' => (bloom.countDecrement, l')
  | none => (bloom, l)

/-- The limit on the number of next hops, src/np_pheromones.c:337-345 and 370-378. -/
def limit (bloom : Nb) (l : List Hop) : Nb × List Hop :=
  if l.length > maxHops then (bloom.countDecrement, removeOldest l) else (bloom, l)

/-- The update of a matching filter and list, src/np_pheromones.c:325-348 and 358-381. -/
def refresh (own : Dhkey) (now : Nat) (scent : Nb) (id : Dhkey) (bloom : Nb) (l : List Hop) : Option (Nb × List Hop) :=
  let a := forget bloom l id
  let b := limit a.1 (insertHop own now id a.2)
  (b.1.union scent).map fun f => (f, b.2)

def refreshSend (own : Dhkey) (now : Nat) (s : Scent) (x : Slot) : Option (Slot × Bool) :=
  if s.pos < 0 ∧ s.sender ≠ Dhkey.zero then
    (refresh own now s.bloom s.sender x.bloom x.send).map fun r => ({ x with bloom := r.1, send := r.2 }, true)
  else some (x, false)

def refreshRecv (own : Dhkey) (now : Nat) (s : Scent) (x : Slot) : Option (Slot × Bool) :=
  if s.pos > 0 ∧ s.receiver ≠ Dhkey.zero then
    (refresh own now s.bloom s.receiver x.bloom x.recv).map fun r => ({ x with bloom := r.1, recv := r.2 }, true)
  else some (x, false)

/-- What one round of the loop does to an element, src/np_pheromones.c:311-400. -/
def visit (own : Dhkey) (now : Nat) (s : Scent) (x : Slot) : Option (Slot × Bool) :=
  if x.bloom.intersectTest s.bloom then
    (refreshSend own now s x).bind fun a => (refreshRecv own now s a.1).map fun b => (b.1, a.2 || b.2)
  else some (x, false)

/-- The union into element 0 and the reset of its counter, src/np_pheromones.c:402-418. -/
def collect (zero : Nb) (x : Slot) : Option Nb :=
  if zero.free + x.bloom.free ≥ 64 then (zero.union x.bloom).map fun f => { f with free := 64 } else none

/-- The loop, src/np_pheromones.c:309-437.  Yields element 0, the elements and `update_filter`. -/
def inhaleLoop (own : Dhkey) (now : Nat) (s : Scent) : Nb → List Slot → Option (Nb × List Slot × Bool)
  | zero, [] => some (zero, [], false)
  | zero, x :: r =>
    (visit own now s x).bind fun v =>
    (collect zero v.1).bind fun z =>
    (inhaleLoop own now s z r).map fun w => (w.1, v.1 :: w.2.1, v.2 || w.2.2)

/-- A new element, src/np_pheromones.c:456-497. -/
def newSlot (own : Dhkey) (now : Nat) (s : Scent) : Option Slot :=
  (Nb.create.union s.bloom).map fun f =>
    { bloom := f,
      send := if s.pos > 0 then [] else insertHop own now s.sender [],
      recv := if s.pos > 0 then insertHop own now s.receiver [] else [] }

def Table.set (t : Table) (i : Nat) (e : Entry) : Table := { t with entry := fun j => if j = i then some e else t.entry j }

/-- The end of the locked section, src/np_pheromones.c:439-503.  Outside of debug builds the check at 446 leaves the function
without releasing the lock. -/
def finish (debug : Bool) (own : Dhkey) (now : Nat) (s : Scent) (t : Table) (i : Nat) (w : Nb × List Slot × Bool) : Option (Table × Bool) :=
  if 32 ≤ w.2.1.length + 1 then
    if debug then none else some ({ (t.set i { zero := w.1, slots := w.2.1 }) with held := t.held + 1 }, false)
  else if w.2.2 then some (t.set i { zero := w.1, slots := w.2.1 }, true)
  else if w.1.free + s.bloom.free ≥ 64 then
    (w.1.union s.bloom).bind fun z => (newSlot own now s).map fun n => (t.set i { zero := z, slots := w.2.1 ++ [n] }, true)
  else none

/-- `_np_pheromone_inhale`, src/np_pheromones.c:262-508. -/
def inhale (debug : Bool) (own : Dhkey) (now : Nat) (t : Table) (s : Scent) : Option (Table × Bool) :=
  if s.pos = 0 then none
  else if s.pos.natAbs - 1 ≥ 257 then none
  else
    let slots := match t.entry (s.pos.natAbs - 1) with | some e => e.slots | none => []
    (inhaleLoop own now s Nb.create slots).bind fun w => finish debug own now s t (s.pos.natAbs - 1) w

/-- `_np_pheromone_inhale_target`, src/np_pheromones.c:131-164, for one direction. -/
def scentOf (target source : Dhkey) (sender : Bool) : Option Scent :=
  (Nb.create.add target).map fun f =>
    { pos := position target sender, bloom := f,
      sender := if sender then Dhkey.zero else source, receiver := if sender then source else Dhkey.zero }

/-- The next hops of the elements that contain the id, src/np_pheromones.c:544-568. -/
def hops (id : Dhkey) (sender : Bool) (slots : List Slot) : List Dhkey :=
  slots.flatMap fun x => if x.bloom.check id then (if sender then x.send else x.recv).map Hop.id else []

/-- `_np_pheromone_snuffle_sender` and `_np_pheromone_snuffle_receiver`, src/np_pheromones.c:510-617: the list and the new target
probability, in units of 1/256. -/
def snuffle (t : Table) (id : Dhkey) (prob : Nat) (sender : Bool) : List Dhkey × Nat :=
  match t.entry (id.t0.toNat % 257) with
  | none => ([], 0)
  | some e =>
    if e.zero.check id then
      if prob ≤ e.zero.heuristic id then (hops id sender e.slots, e.zero.heuristic id) else ([], e.zero.heuristic id)
    else ([], 0)

/-- The shortening of a list, src/np_pheromones.c:685-698. -/
def shorten (bloom : Nb) (l : List Hop) : Nb × List Hop :=
  if l.length > 1 then (bloom.countDecrement, removeOldest l) else (bloom, l)

def shortenBoth (x : Slot) : Slot :=
  let a := shorten x.bloom x.recv
  let b := shorten a.1 x.send
  { bloom := b.1, send := b.2, recv := a.2 }

/-- The loop of `_np_pheromone_exhale`, src/np_pheromones.c:638-714.  `n` is `_count`: when an element is removed the elements up
to `_pheromone[_count]` are moved, which does not exist for a full entry. -/
def exhaleLoop (zero : Nb) : Nat → List Slot → Option (List Slot)
  | _, [] => some []
  | n, x :: r =>
    let y := { x with bloom := x.bloom.ageDecrement }
    if zero.intersectAge y.bloom = 0 then
      if n = 32 then none else exhaleLoop zero (n - 1) r
    else (exhaleLoop zero n r).map fun l => shortenBoth y :: l

/-- `_np_pheromone_exhale`, src/np_pheromones.c:619-719; the random index is an argument. -/
def exhale (t : Table) (i : Nat) : Option Table :=
  match t.entry i with
  | none => some t
  | some e =>
    (exhaleLoop e.zero.ageDecrement (e.slots.length + 1) e.slots).map fun l => t.set i { zero := e.zero.ageDecrement, slots := l }

/-! ## Scents from the network -/

/-- A scent as it arrives: the key of the element of the body, the value stored for the number of free items, and the other
elements, which are positions with two bytes. -/
structure Wire where
  key : Int
  free : Option Nat
  bytes : List (Nat × Nat × Nat)

/-- One byte of `_bitset`. -/
def setByte (f : Nb) (p v : Nat) : Option Nb :=
  if p < 2 * cells then
    some (if p % 2 = 0 then { f with age := fun i => if i = p / 2 then v % 256 else f.age i }
          else { f with count := fun i => if i = p / 2 then v % 256 else f.count i })
  else none

/-- The loop of `_np_neuropil_bloom_deserialize`, src/util/np_bloom.c:1499-1508. -/
def setBytes : Nb → List (Nat × Nat × Nat) → Option Nb
  | f, [] => some f
  | f, (p, a, c) :: r =>
    if p % 65536 < 2 * cells then (setByte f (p % 65536) a).bind fun g => (setByte g (p % 65536 + 1) c).bind fun k => setBytes k r
    else none

/-- `_np_neuropil_bloom_deserialize`, src/util/np_bloom.c:1490-1510.  A missing counter is a NULL dereference. -/
def deserialize (w : Wire) : Option Nb :=
  match w.free with
  | none => none
  | some n => setBytes { Nb.create with free := n % 65536 } w.bytes

def ageBy : Nat → Nb → Nb
  | 0, f => f
  | n + 1, f => ageBy n f.ageDecrement

/-- `_np_in_pheromone`, src/np_dendrit.c:796-888, for one element of the body: `delay` is the number of agings for the time the
message has been under way, `last` the peer it came from.  The lookup whose result is only logged and forwarding are not
modelled. -/
def inPheromone (debug : Bool) (own : Dhkey) (now : Nat) (t : Table) (w : Wire) (delay : Nat) (last : Dhkey) : Option (Table × Bool) :=
  (deserialize w).bind fun f0 =>
    let f := ageBy delay f0
    if f.intersectAge f = 0 then some (t, false)
    else if w.key < 0 then
      if w.key ≥ -257 then inhale debug own now t { pos := w.key, bloom := f, sender := last, receiver := Dhkey.zero } else none
    else if 0 < w.key ∧ w.key ≤ 257 then
      inhale debug own now t { pos := w.key, bloom := f, sender := Dhkey.zero, receiver := last }
    else none

/-! ## Histories -/

inductive Op
  | inhale (s : Scent)
  | exhale (i : Nat)

/-- One operation at a time. -/
def step (debug : Bool) (own : Dhkey) (t : Table) : Nat × Op → Option Table
  | (now, .inhale s) => (inhale debug own now t s).map (·.1)
  | (_, .exhale i) => exhale t i

def run (debug : Bool) (own : Dhkey) : Table → List (Nat × Op) → Option Table
  | t, [] => some t
  | t, o :: r => (step debug own t o).bind fun t' => run debug own t' r

end Np.Phero
