import Verif.Dhkey.Model

/-! # Model of the bloom filters and of the attribute policies

`src/util/np_bloom.c` and `src/neuropil_attributes.c`.  `none` stands for the abnormal outcomes of an operation: `ABORT`, a
failed `ASSERT`, an access outside the bit array. -/
namespace Np.Bloom

open Np.Dhkey

/-! ## Standard filter -/

/-- `np_bloom_t` with `_type == standard_bf`: `_size`, `_bitset` and `_free_items`, include/util/np_bloom.h:61-90. -/
structure Std where
  size : Nat
  bytes : List (BitVec 8)
  free : Nat
  deriving DecidableEq

/-- `_np_standard_bloom_create`, src/util/np_bloom.c:379-402.  `_free_items` is a `uint16_t`. -/
def Std.create (size : Nat) : Std := { size := size, bytes := List.replicate (size / 8) 0, free := size / 16 % 65536 }

/-- `0x80 >> (_bit_array_pos % 8)`, src/util/np_bloom.c:420. -/
def mask (p : Nat) : BitVec 8 := 0x80#8 >>> (p % 8)

/-- One round of the loop of `_np_standard_bloom_add`, src/util/np_bloom.c:414-421. -/
def setBit (bytes : List (BitVec 8)) (p : Nat) : Option (List (BitVec 8)) :=
  match bytes[p / 8]? with
  | some b => some (bytes.set (p / 8) (b ||| mask p))
  | none => none

/-- `id.t[k] % bloom->_size`; a size of 0 is left to the bounds check, because the array is empty then. -/
def pos (size : Nat) (w : BitVec 32) : Nat := w.toNat % size

def setBits (size : Nat) : List (BitVec 8) → List (BitVec 32) → Option (List (BitVec 8))
  | bytes, [] => some bytes
  | bytes, w :: ws =>
    match setBit bytes (pos size w) with
    | some b => setBits size b ws
    | none => none

/-- `_np_standard_bloom_add`, src/util/np_bloom.c:409-438. -/
def Std.add (f : Std) (id : Dhkey) : Option Std :=
  if f.free = 0 then none
  else match setBits f.size f.bytes id.words with
    | some b => some { f with bytes := b, free := f.free - 1 }
    | none => none

def checkBits (size : Nat) (bytes : List (BitVec 8)) : List (BitVec 32) → Option Bool
  | [] => some true
  | w :: ws =>
    match bytes[pos size w / 8]? with
    | none => none
    | some b => if b &&& mask (pos size w) = 0 then some false else checkBits size bytes ws

/-- `_np_standard_bloom_check`, src/util/np_bloom.c:440-460. -/
def Std.check (f : Std) (id : Dhkey) : Option Bool := checkBits f.size f.bytes id.words

/-- The loops over `_size / 8` bytes use a `uint16_t` and do not end for larger arrays, src/util/np_bloom.c:473, 491. -/
def loopEnds (size : Nat) : Bool := decide (size / 8 ≤ 65535)

/-- `_np_standard_bloom_intersect`, src/util/np_bloom.c:462-478.  The boolean result is not modelled. -/
def Std.intersect (r f : Std) : Option Std :=
  if f.size = r.size ∧ loopEnds r.size = true then
    some { r with bytes := List.zipWith (· &&& ·) r.bytes f.bytes, free := 0 }
  else none

/-- `_np_standard_bloom_union`, src/util/np_bloom.c:480-494. -/
def Std.union (r f : Std) : Option Std :=
  if f.size = r.size ∧ loopEnds r.size = true ∧ f.free + r.free ≥ r.size / 16 then
    some { r with bytes := List.zipWith (· ||| ·) r.bytes f.bytes, free := r.free + f.free - r.size / 16 }
  else none

/-- How a filter came about. -/
inductive Build
  | new
  | add (b : Build) (id : Dhkey)
  | union (a b : Build)
  | intersect (a b : Build)

def Build.eval (size : Nat) : Build → Option Std
  | .new => some (Std.create size)
  | .add b id => (b.eval size).bind (·.add id)
  | .union a b => (a.eval size).bind fun x => (b.eval size).bind fun y => x.union y
  | .intersect a b => (a.eval size).bind fun x => (b.eval size).bind fun y => x.intersect y

/-! ## Neuropil filter -/

/-- `_num_blocks * _size`: four blocks of 3 * 5 * 17 cells, src/util/np_bloom.c:1000-1020. -/
def cells : Nat := 1020

/-- `SCALE3D_FREE_ITEMS`. -/
def capacity : Nat := 64

/-- `np_bloom_t` with `_type == neuropil_bf`: cell `i` is the pair of bytes at `2 * i`, an age and a count. -/
structure Nb where
  age : Nat → Nat
  count : Nat → Nat
  free : Nat

/-- `_np_neuropil_bloom_create`, src/util/np_bloom.c:1006-1020, and `_np_neuropil_bloom_clear`, 1023-1033. -/
def Nb.create : Nb := { age := fun _ => 0, count := fun _ => 0, free := capacity }

/-- The cell of word number `k`, src/util/np_bloom.c:1042-1048. -/
def cellOf (k : Nat) (w : BitVec 32) : Nat :=
  k / 2 * 255 + ((w.toNat % 3 + 1) * (w.toNat % 5 + 1) * (w.toNat % 17 + 1) - 1)

/-- The eight cells of an id. -/
def cellsOf (id : Dhkey) : List Nat :=
  [cellOf 0 id.t0, cellOf 1 id.t1, cellOf 2 id.t2, cellOf 3 id.t3, cellOf 4 id.t4, cellOf 5 id.t5, cellOf 6 id.t6, cellOf 7 id.t7]

/-- `(*_current_age) |= 0x80; (*_current_count)++`, src/util/np_bloom.c:1049-1056. -/
def Nb.touch (f : Nb) (c : Nat) : Nb :=
  { f with age := fun i => if i = c then f.age c % 128 + 128 else f.age i,
           count := fun i => if i = c then (f.count c + 1) % 256 else f.count i }

/-- `_np_neuropil_bloom_add`, src/util/np_bloom.c:1034-1070. -/
def Nb.add (f : Nb) (id : Dhkey) : Option Nb :=
  if f.free = 0 then none
  else
    let g := (cellsOf id).foldl Nb.touch f
    some { g with free := f.free - 1 }

/-- `_np_neuropil_bloom_check`, src/util/np_bloom.c:1105-1137. -/
def Nb.check (f : Nb) (id : Dhkey) : Bool := (cellsOf id).all fun c => f.age c ≠ 0 ∧ f.count c ≠ 0

/-- `_np_neuropil_bloom_age_decrement`, src/util/np_bloom.c:1139-1150. -/
def Nb.ageDecrement (f : Nb) : Nb := { f with age := fun i => if f.age i > 8 then f.age i - 8 else 0 }

/-- `_np_neuropil_bloom_count_decrement`, src/util/np_bloom.c:1166-1176. -/
def Nb.countDecrement (f : Nb) : Nb :=
  if f.free < capacity then { f with count := fun i => if f.count i > 0 then f.count i - 1 else f.count i, free := f.free + 1 }
  else f

/-- `_np_neuropil_bloom_get_heuristic`, src/util/np_bloom.c:1178-1212, in units of 1/256. -/
def heuristicLoop (f : Nb) : List Nat → Nat → Nat
  | [], r => r
  | c :: cs, r => if f.count c = 0 then 0 else heuristicLoop f cs (min r (f.age c))

def Nb.heuristic (f : Nb) (id : Dhkey) : Nat := heuristicLoop f (cellsOf id) 256

/-- `_np_neuropil_bloom_intersect_test`, src/util/np_bloom.c:1247-1280: the ages have the same support, and the two sums of
counts (`uint16_t`) agree. -/
def Nb.intersectTest (r f : Nb) : Bool :=
  decide (∀ i < cells, (r.age i > 0 ↔ f.age i > 0)) &&
  decide ((((List.range cells).map fun i => if r.age i > 0 ∧ f.age i > 0 then f.count i else 0).sum) % 65536 =
    (((List.range cells).map fun i => if r.age i > 0 ∧ f.age i > 0 ∧ r.count i ≥ f.count i then f.count i else 0).sum) % 65536)

/-- `_np_neuropil_bloom_intersect_age`, src/util/np_bloom.c:1282-1323, in units of 1/256: the smallest age of the cells in use;
zero if the sum of the counts, a `uint8_t`, is zero. -/
def Nb.intersectAge (r f : Nb) : Nat :=
  if (((List.range cells).map fun i => if f.age i > 0 then f.count i else 0).sum) % 256 = 0 then 0
  else (List.range cells).foldl (fun a i => if f.age i > 0 then min a (r.age i) else a) 256

/-- `_np_neuropil_bloom_intersect_ignore_age`, src/util/np_bloom.c:1325-1347. -/
def Nb.intersectIgnoreAge (r f : Nb) : Option Nb :=
  if f.free + r.free ≥ capacity then
    some { r with count := fun i => if r.count i > 0 ∧ f.count i > 0 then (r.count i + f.count i) % 256 else 0, free := 0 }
  else none

/-- `_np_neuropil_bloom_union`, src/util/np_bloom.c:1349-1375.  `_free_items` are `uint16_t`, the sums in the assertion are
`int`. -/
def Nb.union (r f : Nb) : Option Nb :=
  if ((capacity : Int) - r.free) + ((capacity : Int) - f.free) ≤ capacity then
    some { age := fun i => min 255 (r.age i + f.age i), count := fun i => (r.count i + f.count i) % 256,
           free := (r.free + f.free - capacity) % 65536 }
  else none

/-- `_np_neuropil_bloom_cmp`, src/util/np_bloom.c:1559-1577: `true` for the result 0. -/
def Nb.same (a b : Nb) : Bool := decide (∀ i < cells, (a.count i = 0 ↔ b.count i = 0))

/-- Additions and agings. -/
inductive NbOp
  | add (id : Dhkey)
  | age

def nbStep (f : Nb) : NbOp → Option Nb
  | .add id => f.add id
  | .age => some f.ageDecrement

def nbRun : Nb → List NbOp → Option Nb
  | f, [] => some f
  | f, op :: r => (nbStep f op).bind fun g => nbRun g r

/-! ## Policies -/

/-- The hash functions: `np_dhkey_create_from_hostport(key, "required")` and `_np_dhkey_generate_hash(value)`. -/
structure Hash where
  key : String → Dhkey
  value : List (BitVec 8) → Dhkey

/-- `_np_policy_set_key`, src/neuropil_attributes.c:201-205, and `_np_policy_set_bin`, 207-215. -/
def setKey (h : Hash) (f : Nb) (k : String) : Option Nb := f.add (h.key k)

def setBin (h : Hash) (f : Nb) (k : String) (v : List (BitVec 8)) : Option Nb :=
  (setKey h f k).bind fun g => g.add (h.value v)

/-- What a channel requires: a key with or without a value, as given to `np_set_mxp_attr_policy_bin`,
src/neuropil_attributes.c:149-199. -/
def setPolicy (h : Hash) (f : Nb) : String × Option (List (BitVec 8)) → Option Nb
  | (k, none) => setKey h f k
  | (k, some v) => setBin h f k v

def policyOf (h : Hash) : Nb → List (String × Option (List (BitVec 8))) → Option Nb
  | f, [] => some f
  | f, r :: rs => (setPolicy h f r).bind fun g => policyOf h g rs

/-- `__np_policy_classic_build_attribute_bloom`, src/neuropil_attributes.c:232-273: the key is entered twice. -/
def addAttribute (h : Hash) (f : Nb) (a : String × List (BitVec 8)) : Option Nb :=
  (setKey h f a.1).bind fun g => setBin h g a.1 a.2

/-- `_np_attribute_build_bloom`, src/neuropil_attributes.c:275-282, over the entries in the order of iteration. -/
def buildBloom (h : Hash) : Nb → List (String × List (BitVec 8)) → Option Nb
  | f, [] => some f
  | f, a :: r => (addAttribute h f a).bind fun g => buildBloom h g r

/-- `_np_policy_check_compliance`, src/neuropil_attributes.c:284-315.  `attrs` is `none` when the iteration over the attributes
fails. -/
def checkCompliance (h : Hash) (policy : Option Nb) (attrs : Option (List (String × List (BitVec 8)))) : Option Bool :=
  match policy with
  | none => some true
  | some p =>
    if Nb.create.same p then some true
    else match attrs with
      | none => some false
      | some l =>
        (buildBloom h Nb.create l).bind fun all =>
        (Nb.create.union p).bind fun rel =>
        (rel.intersectIgnoreAge all).bind fun rel => some (p.same rel)

end Np.Bloom
