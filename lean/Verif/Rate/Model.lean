import Verif.Dhkey.Model

/-! # Model of the limit of messages per second

The counting bloom filter of `src/util/np_bloom.c` and its use in `src/np_network.c`. The filter is always created with 8192 cells of 8 bits and a
shift of 1. `none` stands for `ABORT`, which ends the process (include/np_util.h:58-66). The two filters, for packets received and sent, are used in the
same way; the model is of one of them. -/
namespace Np.Rate

open Np.Dhkey

/-- `filter_size`, src/np_network.c:124. -/
def cells : Nat := 8192

/-- The largest value of `_free_items`, `(_size * _d) >> 4`, src/util/np_bloom.c:843. -/
def budget : Nat := 4096

/-- `np_bloom_t` with `_type == counting_bf`: `_bitset`, `_free_items`, include/util/np_bloom.h:67-93. The bytes as a function of the position. -/
structure Filter where
  cell : Nat → BitVec 8
  free : Nat

/-- `_np_counting_bloom_create`, src/util/np_bloom.c:827-846. -/
def Filter.create : Filter := { cell := fun _ => 0, free := budget }

/-- `id.t[k] % bloom->_size`, and `id.t[k] & (bloom->_size - 1)` which is the same for a power of two, src/util/np_bloom.c:872, 937; the eight
positions of an id. -/
def positions (id : Dhkey) : List Nat := id.words.map fun w => w.toNat % cells

/-- The loop of `_np_counting_bloom_add`, src/util/np_bloom.c:871-885: `(*_current_val)++` on a `uint8_t`. -/
def bump (c : Nat → BitVec 8) : List Nat → (Nat → BitVec 8)
  | [] => c
  | p :: ps => bump (fun q => if q = p then c q + 1 else c q) ps

/-- `_np_counting_bloom_add`, src/util/np_bloom.c:866-887. -/
def Filter.add (f : Filter) (id : Dhkey) : Option Filter :=
  if f.free = 0 then none else some { cell := bump f.cell (positions id), free := f.free - 1 }

/-- The loop of `_np_counting_bloom_check_r`, src/util/np_bloom.c:936-951, with the value of `*count`. -/
def checkR (c : Nat → BitVec 8) : List Nat → Nat → Nat
  | [], count => count
  | p :: ps, count => if c p = 0 ∨ c p = 255 then count else checkR c ps (if (c p).toNat > count then (c p).toNat else count)

/-- `zeroed_blocks`, src/util/np_bloom.c:854-856. -/
def zeroed (c : Nat → BitVec 8) : Nat := 1 + (List.range cells).countP fun k => c k == 1

/-- `*item_count` after the loop, src/util/np_bloom.c:855-859, for the shifted cells. -/
def itemCount (c : Nat → BitVec 8) : Nat := (List.range cells).foldl (fun m k => if (c k).toNat > m then (c k).toNat else m) 0

/-- `_np_counting_bloom_clear_r`, src/util/np_bloom.c:853-864. `_free_items` is a `uint16_t`. -/
def Filter.clearR (f : Filter) : Filter :=
  let c : Nat → BitVec 8 := fun k => f.cell k >>> 1
  let free := (f.free + 2 * (itemCount c * zeroed f.cell)) % 65536
  { cell := c, free := if free > budget then budget else free }

/-- `max_msgs_per_sec` of the module, src/np_network.c:120-122, include/np_settings.h:286. -/
def limit (setting : Nat) : Nat := if setting > 0 then setting else 256

/-- The filter and, as a ghost, the addresses of the packets that passed, in order. -/
structure State where
  filter : Filter
  passed : List Dhkey

def State.init : State := { filter := Filter.create, passed := [] }

inductive Step
  /-- A packet of this address arrives (or is to be sent to it). -/
  | packet (id : Dhkey)
  /-- `__np_network_module_periodic_capacity_reset`, src/np_network.c:90-114, every 0.88 seconds. -/
  | reset

/-- The check and the counting of a packet, src/np_network.c:695-724 (received), 300-319 and 370-373 (sent). -/
def State.packet (max : Nat) (s : State) (id : Dhkey) : Option State :=
  if checkR s.filter.cell (positions id) 0 > max then some s
  else match s.filter.add id with
    | none => none
    | some f => some { filter := f, passed := s.passed ++ [id] }

def State.step (max : Nat) (s : State) : Step → Option State
  | .packet id => s.packet max id
  | .reset => some { s with filter := s.filter.clearR }

def State.run (max : Nat) : State → List Step → Option State
  | s, [] => some s
  | s, x :: l =>
    match s.step max x with
    | none => none
    | some s1 => State.run max s1 l

end Np.Rate
