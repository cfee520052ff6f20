import Verif.Cbor.Model

/-! # Model of datablocks

`src/neuropil_data.c` and the functions for datablocks of `src/util/s11n_impl/np_serialize_qcbor.c`.  A datablock is the list of the bytes
of the memory handed to `np_init_datablock`. -/
namespace Np.Data

open Np.Cbor

/-- What a call can do instead of returning: fail an assertion, loop for ever, or access memory it must not access. -/
inductive Fault | abort | hang | ub
  deriving DecidableEq

/-- `enum np_data_return`, include/neuropil_data.h:17-38. -/
inductive Ret
  | ok | keyNotFound | insufficientMemory | invalidStructure | invalidArguments | couldNotWriteTotalLength
  | couldNotReadMagicno | couldNotReadTotalLength | couldNotReadUsedLength | couldNotReadObjectCount
  deriving DecidableEq

abbrev Key := List Byte

/-- A value with its type, `enum np_data_type`, `data_size` and `np_data_value`, include/neuropil_data.h:40-59.  The bytes behind a pointer
are part of the value; that the pointer could point into the same block is not modelled. -/
inductive Value
  | bin (b : List Byte)
  | str (b : List Byte)
  | int (v : BitVec 32)
  | uint (v : BitVec 32)
  deriving DecidableEq

/-- `NP_CBOR_REGISTRY_ENTRIES + np_treeval_type_long`, include/np_settings.h:88 and include/util/np_treeval.h:58. -/
def tagLong : Nat := 31415 + 3
/-- `NP_CBOR_REGISTRY_ENTRIES + np_treeval_type_unsigned_long`, include/util/np_treeval.h:67. -/
def tagUlong : Nat := 31415 + 12

/-- The items written by `np_serializer_write_object`, src/util/s11n_impl/np_serialize_qcbor.c:641-662. -/
def pieces (k : Key) : Value → List (List Byte)
  | .bin b => [head 3 k.length, k, head 2 b.length, b]
  | .str b => [head 3 k.length, k, head 3 b.length, b]
  | .int v => [head 3 k.length, k, head 6 tagLong, intItem v.toInt]
  | .uint v => [head 3 k.length, k, head 6 tagUlong, head 0 v.toNat]

/-- The value of the second item, src/util/s11n_impl/np_serialize_qcbor.c:696-720.  Integers that do not fit into 32 bits leave the former
contents of the variable; that counts as a fault here. -/
def valueOf : Item → Option Nat → Except Fault (Option Value)
  | .bytes b, _ => .ok (some (.bin b))
  | .text b, _ => .ok (some (.str b))
  | .int v, tag =>
    if tag = some tagLong then if -2147483648 ≤ v ∧ v < 2147483648 then .ok (some (.int (BitVec.ofInt 32 v))) else .error .ub
    else if tag = some tagUlong then if 0 ≤ v ∧ v < 4294967296 then .ok (some (.uint (BitVec.ofInt 32 v))) else .error .ub
    else .ok none
  | _, _ => .ok none

/-- The key is copied without any check into `char key[255]`, src/util/s11n_impl/np_serialize_qcbor.c:686-687: `strncpy` stops at a zero
byte.  The item is taken for a string whatever its type is. -/
def keyOf : Item → Except Fault Key
  | .bytes b => if b.length ≤ 254 then .ok (b.takeWhile (· ≠ 0)) else .error .ub
  | .text b => if b.length ≤ 254 then .ok (b.takeWhile (· ≠ 0)) else .error .ub
  | _ => .error .ub

/-- `np_serializer_read_object`, src/util/s11n_impl/np_serialize_qcbor.c:673-731: key, value and the bytes behind; `none` for every return
value other than `np_data_ok`, which the callers do not tell apart. -/
def readObject (b : List Byte) : Except Fault (Option (Key × Value × List Byte)) :=
  match getNext b with
  | none => .ok none
  | some (i, _, r) =>
    match keyOf i with
    | .error f => .error f
    | .ok k =>
      match getNext r with
      | none => .ok none
      | some (j, tag, s) =>
        match valueOf j tag with
        | .error f => .error f
        | .ok none => .ok none
        | .ok (some v) => .ok (some (k, v, s))

/-- `np_datablock_header_t`, include/util/np_serialization.h:83-89. -/
structure Header where
  total : Nat
  used : Nat
  count : Nat
  deriving DecidableEq

/-- The size of the header, src/util/s11n_impl/np_serialize_qcbor.c:762-768. -/
def headerSize : Nat := 21

/-- `NP_DATA_MAGIC_NO`, include/neuropil_data.h:15. -/
def magicNo : Nat := 22964591

/-- The bytes of the header, src/util/s11n_impl/np_serialize_qcbor.c:854-880. -/
def headerBytes (h : Header) : List Byte := head 4 4 ++ (head 0 magicNo ++ (head4 0 h.total ++ (head4 0 h.used ++ head4 0 h.count)))

/-- An unsigned 32 bit number, as the checks with `QCBOR_Int64ToUInt32` demand. -/
def getU32 (b : List Byte) : Option (Nat × List Byte) :=
  match getNext b with
  | some (.int v, _, r) => if 0 ≤ v ∧ v < 4294967296 then some (v.toNat, r) else none
  | _ => none

/-- `np_serializer_read_datablock_header`, src/util/s11n_impl/np_serialize_qcbor.c:773-833.  If it fails the object count stays 0. -/
def readHeader (buf : List Byte) : Except Fault (Ret × Header) :=
  if buf.length < headerSize then .error .ub
  else
    let bad (r : Ret) : Except Fault (Ret × Header) := .ok (r, { total := 0, used := 0, count := 0 })
    match getNext (buf.take headerSize) with
    | some (.array n, _, r0) =>
      if n ≠ 4 then bad .invalidArguments
      else match getU32 r0 with
        | none => bad .couldNotReadMagicno
        | some (m, r1) =>
          if m ≠ magicNo then bad .couldNotReadMagicno
          else match getU32 r1 with
            | none => bad .couldNotReadTotalLength
            | some (t, r2) =>
              match getU32 r2 with
              | none => bad .couldNotReadUsedLength
              | some (u, r3) =>
                match getU32 r3 with
                | none => bad .couldNotReadObjectCount
                | some (c, _) => .ok (.ok, { total := t, used := u, count := c })
    | _ => bad .invalidArguments

/-- A write of bytes into the block. -/
def writeAt (buf : List Byte) (off : Nat) (b : List Byte) : Except Fault (List Byte) :=
  if off + b.length ≤ buf.length then .ok (buf.take off ++ (b ++ buf.drop (off + b.length))) else .error .ub

/-- The loop of `np_serializer_search_object`, src/util/s11n_impl/np_serialize_qcbor.c:747-757.  If an object cannot be read nothing
changes and the loop does not end.  `read` is a `uint16_t`.  `fuel` bounds the number of objects, each of which takes at least a byte.
Yields the offset, the value and the size of the object found. -/
def searchLoop (k : Key) (count : Nat) : Nat → Nat → Nat → List Byte → Except Fault (Option (Nat × Value × Nat))
  | fuel, read, off, b =>
    if read < count then
      match readObject b with
      | .error f => .error f
      | .ok none => .error .hang
      | .ok (some (k', v, r)) =>
        if k' = k then .ok (some (off, v, b.length - r.length))
        else match fuel with
          | 0 => .error .hang
          | f + 1 => searchLoop k count f ((read + 1) % 65536) (off + (b.length - r.length)) r
    else .ok none

/-- `np_serializer_search_object`, src/util/s11n_impl/np_serialize_qcbor.c:733-759, after the header has been read. -/
def search (buf : List Byte) (h : Header) (k : Key) : Except Fault (Option (Nat × Value × Nat)) :=
  if h.count = 0 then .ok none
  else if h.used < headerSize ∨ buf.length < h.used then .error .ub
  else searchLoop k h.count buf.length 0 headerSize ((buf.take h.used).drop headerSize)

/-- The additional bytes of a length, src/util/s11n_impl/np_serialize_qcbor.c:900-903 and 909-912. -/
def lengthExtra (n : Nat) : Nat := if n > 255 then 2 else if n > 24 then 1 else 0

/-- The additional bytes of a number, src/util/s11n_impl/np_serialize_qcbor.c:921-923 and 927-932. -/
def numberExtra (n : Nat) : Nat := if n > 65535 then 4 else if n > 255 then 2 else if n > 24 then 1 else 0

/-- `np_serializer_calculate_object_size`, src/util/s11n_impl/np_serialize_qcbor.c:891-938.  The negation of the smallest `int32_t` is
undefined. -/
def objectSize (k : Key) (v : Value) : Except Fault Nat :=
  let s := 1 + k.length + (if k.length > 24 then 1 else 0)
  match v with
  | .bin b => .ok (s + lengthExtra b.length + 1 + b.length)
  | .str b => .ok (s + lengthExtra b.length + 1 + b.length)
  | .int i => if i.toInt = -2147483648 then .error .ub else .ok (s + 4 + numberExtra i.toInt.natAbs)
  | .uint u => .ok (s + 4 + numberExtra u.toNat)

/-- `np_serializer_write_datablock_header`, src/util/s11n_impl/np_serialize_qcbor.c:835-889, for a used length other than 0.  What is
written of a header that does not fit is left out. -/
def writeHeader (buf : List Byte) (h : Header) : Except Fault (Ret × List Byte) :=
  if h.total < headerSize then .ok (.invalidStructure, buf)
  else (writeAt buf 0 (headerBytes h)).map fun b => (.ok, b)

/-- `np_init_datablock`, src/neuropil_data.c:18-25, for the whole of the memory. -/
def init (buf : List Byte) : Except Fault (Ret × List Byte) :=
  writeHeader (List.replicate buf.length 0) { total := buf.length, used := headerSize, count := 0 }

/-- Moves the objects behind the one replaced, src/neuropil_data.c:173-181: `memmove` from `src` to `src + new - old`. -/
def moveTail (buf : List Byte) (used src new old : Nat) : Except Fault (List Byte) :=
  if src + new < old ∨ used < src ∨ buf.length < used then .error .ub
  else writeAt buf (src + new - old) ((buf.take used).drop src)

/-- The end of `np_set_data`, src/neuropil_data.c:184-203: writes the object at `start`, then the header. -/
def store (buf : List Byte) (k : Key) (v : Value) (start new : Nat) (h : Header) : Except Fault (Ret × List Byte) :=
  let e := emit new (pieces k v)
  match writeAt buf start e.1 with
  | .error f => .error f
  | .ok b =>
    if e.2 then
      if e.1.length ≠ new then .error .abort else writeHeader b h
    else .ok (.couldNotWriteTotalLength, b)

/-- `np_set_data`, src/neuropil_data.c:130-208.  The key is a C string of at most 254 characters. -/
def setData (buf : List Byte) (k : Key) (v : Value) : Except Fault (Ret × List Byte) :=
  match readHeader buf with
  | .error f => .error f
  | .ok (r, h) =>
    if r ≠ .ok then .ok (r, buf)
    else match search buf h k with
      | .error f => .error f
      | .ok found =>
        match (match found with | some (_, w, _) => objectSize k w | none => .ok 0) with
        | .error f => .error f
        | .ok old =>
          match objectSize k v with
          | .error f => .error f
          | .ok new =>
            if new > (h.total + 18446744073709551616 - h.used + old) % 18446744073709551616 then .ok (.insufficientMemory, buf)
            else match found with
              | some (off, _, len) =>
                match moveTail buf h.used (off + len) new old with
                | .error f => .error f
                | .ok b => store b k v off new { h with used := h.used + new - old }
              | none => store buf k v h.used new { h with used := h.used + new, count := (h.count + 1) % 4294967296 }

/-- `np_get_data`, src/neuropil_data.c:210-233. -/
def getData (buf : List Byte) (k : Key) : Except Fault (Ret × Option Value) :=
  match readHeader buf with
  | .error f => .error f
  | .ok (_, h) => (search buf h k).map fun r => match r with | some (_, v, _) => (.ok, some v) | none => (.keyNotFound, none)

/-- `np_get_data_size`, src/neuropil_data.c:235-248. -/
def getDataSize (buf : List Byte) : Except Fault (Ret × Nat) := (readHeader buf).map fun r => (r.1, if r.1 = .ok then r.2.used else 0)

/-- `np_get_object_count`, src/neuropil_data.c:250-263. -/
def getObjectCount (buf : List Byte) : Except Fault (Ret × Nat) := (readHeader buf).map fun r => (r.1, if r.1 = .ok then r.2.count else 0)

/-- The loop of `np_iterate_data`, src/neuropil_data.c:73-93.  The end of the input handed to the decoder lies behind the last object, for
the first object at no valid address at all; here it is the end of the block.  `seen` is a `uint16_t`. -/
def iterateLoop {σ : Type} (cb : σ → Key → Value → σ × Bool) (count : Nat) : Nat → Nat → List Byte → σ → Except Fault (Ret × σ)
  | fuel, seen, b, s =>
    if seen < count then
      match readObject b with
      | .error f => .error f
      | .ok none => .ok (.invalidStructure, s)
      | .ok (some (k, v, r)) =>
        if (cb s k v).2 then
          match fuel with
          | 0 => .error .hang
          | f + 1 => iterateLoop cb count f ((seen + 1) % 65536) r (cb s k v).1
        else .ok (.invalidArguments, (cb s k v).1)
    else .ok (.ok, s)

/-- `np_iterate_data`, src/neuropil_data.c:53-95. -/
def iterate {σ : Type} (buf : List Byte) (cb : σ → Key → Value → σ × Bool) (s : σ) : Except Fault (Ret × σ) :=
  match readHeader buf with
  | .error f => .error f
  | .ok (r, h) => if r ≠ .ok then .ok (r, s) else iterateLoop cb h.count buf.length 0 (buf.drop headerSize) s

/-- The loop of `np_merge_data`, src/neuropil_data.c:277-296. -/
def mergeLoop (count : Nat) : Nat → Nat → List Byte → List Byte → Except Fault (Ret × List Byte)
  | fuel, read, b, dest =>
    if read < count then
      match readObject b with
      | .error f => .error f
      | .ok none => .ok (.invalidStructure, dest)
      | .ok (some (k, v, r)) =>
        match setData dest k v with
        | .error f => .error f
        | .ok (ret, d) =>
          if ret ≠ .ok then .ok (ret, d)
          else match fuel with
            | 0 => .error .hang
            | f + 1 => mergeLoop count f ((read + 1) % 65536) r d
    else .ok (.ok, dest)

/-- `np_merge_data`, src/neuropil_data.c:265-300, for a source and a destination that do not overlap. -/
def merge (dest src : List Byte) : Except Fault (Ret × List Byte) :=
  match readHeader src with
  | .error f => .error f
  | .ok (r, h) =>
    if r ≠ .ok then .ok (r, dest)
    else if h.count = 0 then .ok (.ok, dest)
    else if h.used < headerSize ∨ src.length < h.used then .error .ub
    else mergeLoop h.count src.length 0 ((src.take h.used).drop headerSize) dest

/-- A sequence of `np_set_data`: the return values and the block. -/
def run : List Byte → List (Key × Value) → Except Fault (List Ret × List Byte)
  | buf, [] => .ok ([], buf)
  | buf, (k, v) :: r =>
    match setData buf k v with
    | .error f => .error f
    | .ok (ret, b) =>
      match run b r with
      | .error f => .error f
      | .ok (rets, c) => .ok (ret :: rets, c)

end Np.Data
