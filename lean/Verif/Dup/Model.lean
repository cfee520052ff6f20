import Verif.Dhkey.Model

/-! # Model of the check for messages that were handled before

The decaying bloom filter of `src/util/np_bloom.c` and its use in `src/core/np_comp_alias.c`. Several threads may handle parts of messages at the same
time; the check and the later entry into the filter are separate critical sections, so they are separate steps.

Left out: the reassembly of parts (area Chunk). Whether a part completes its message is an argument of the step. -/
namespace Np.Dup

open Np.Dhkey

/-- How a run can fail. -/
inductive Fault
  /-- `ABORT`, include/np_util.h:58-66: the process ends. -/
  | abort
  /-- A loop that does not end. -/
  | hang
  deriving DecidableEq

/-- `np_bloom_t` with `_type == decaying_bf` and `_d == 16`, include/util/np_bloom.h:67-93: `_size`, `_p`, `_bitset` as a function of the position,
`_free_items`. -/
structure Filter where
  size : Nat
  p : Nat
  cell : Nat → BitVec 16
  free : Nat

/-- `NP_MSG_PART_FILTER_SIZE`, include/np_settings.h:346. -/
def baseSize : Nat := 8192

/-- `_np_decaying_bloom_create` as called in src/neuropil.c:269-270; src/util/np_bloom.c:684-698. -/
def Filter.create : Filter := { size := baseSize, p := 1, cell := fun _ => 0, free := baseSize % 65536 }

/-- `id.t[k] % bloom->_size` for the eight words, src/util/np_bloom.c:738, 764. -/
def positions (size : Nat) (id : Dhkey) : List Nat := id.words.map fun w => w.toNat % size

/-- The loop of `_np_decaying_bloom_add`, src/util/np_bloom.c:737-756. -/
def mark (c : Nat → BitVec 16) (ps : List Nat) : Nat → BitVec 16 := fun q => if q ∈ ps then c q ||| 0x8000#16 else c q

/-- `_np_decaying_bloom_add`, src/util/np_bloom.c:732-758. -/
def Filter.add (f : Filter) (id : Dhkey) : Except Fault Filter :=
  if f.free = 0 then .error .abort else .ok { f with cell := mark f.cell (positions f.size id), free := f.free - 1 }

/-- `_np_decaying_bloom_check`, src/util/np_bloom.c:760-784. -/
def Filter.check (f : Filter) (id : Dhkey) : Bool := (positions f.size id).all fun q => f.cell q != 0

/-- The number of cells that are zero. -/
def zeros (size : Nat) (c : Nat → BitVec 16) : Nat := (List.range size).countP fun q => c q == 0

/-- `_np_decaying_bloom_decay`, src/util/np_bloom.c:700-730. The counter of the loop is a `uint16_t`: it never reaches a larger size. `_free_items`
is a `uint16_t`. -/
def Filter.decay (f : Filter) : Except Fault Filter :=
  if 65535 < f.size then .error .hang
  else
    let c : Nat → BitVec 16 := fun q => f.cell q >>> f.p
    .ok { f with cell := c, free := zeros f.size c % 65536 }

/-- `floor(cbrt(_peer_nodes))` for a `uint16_t`, src/core/np_comp_alias.c:207; `cbrt` is taken to be exact enough for the floor to be right. -/
def modifier (peers : Nat) : Nat := (List.range 41).countP fun m => decide ((m + 1) ^ 3 ≤ peers)

/-- The second half of `_np_alias_cleanup_msgpart_cache`, src/core/np_comp_alias.c:205-241, with `_np_standard_bloom_clear`,
src/util/np_bloom.c:496-506. -/
def Filter.adjust (f : Filter) (peers : Nat) : Filter :=
  let m := modifier peers
  let size := if m > 0 then m * baseSize else baseSize
  let f1 := if f.size ≠ size then { f with size := size, cell := fun _ => 0, free := size % 65536 } else f
  { f1 with p := if m > 1 then m else 1 }

/-- The filter, what each thread found in its check (`_seen_before`), and the messages handed on to their channels, in order. -/
structure Node where
  filter : Filter
  found : Nat → Option (Dhkey × Bool)
  handed : List Dhkey

def Node.init : Node := { filter := Filter.create, found := fun _ => none, handed := [] }

inductive Step
  /-- Thread `t` has a part of message `id` and checks the filter, src/core/np_comp_alias.c:60-68. -/
  | check (t : Nat) (id : Dhkey)
  /-- Thread `t` goes on, src/core/np_comp_alias.c:70-167: a message seen before is dropped, otherwise, if it is complete with this part (always for a
  message of one part), it is entered into the filter and handed on. -/
  | commit (t : Nat) (complete : Bool)
  /-- The first half of `_np_alias_cleanup_msgpart_cache`, src/core/np_comp_alias.c:176-202. -/
  | decay
  /-- The second half. -/
  | adjust (peers : Nat)

def Node.step (s : Node) : Step → Except Fault Node
  | .check t id => .ok { s with found := fun u => if u = t then some (id, s.filter.check id) else s.found u }
  | .commit t complete =>
    match s.found t with
    | some (id, false) =>
      if complete then
        match s.filter.add id with
        | .error e => .error e
        | .ok f => .ok { filter := f, found := fun u => if u = t then none else s.found u, handed := s.handed ++ [id] }
      else .ok { s with found := fun u => if u = t then none else s.found u }
    | _ => .ok { s with found := fun u => if u = t then none else s.found u }
  | .decay =>
    match s.filter.decay with
    | .error e => .error e
    | .ok f => .ok { s with filter := f }
  | .adjust peers => .ok { s with filter := s.filter.adjust peers }

def Node.run : Node → List Step → Except Fault Node
  | s, [] => .ok s
  | s, x :: l =>
    match s.step x with
    | .error e => .error e
    | .ok s1 => Node.run s1 l

end Np.Dup
