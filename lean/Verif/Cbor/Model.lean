/-! # Model of the CBOR encoder and decoder

QCBOR (ext_tools/qcbor) is an external library whose source is not part of the checkout; this is its documented behaviour (RFC 8949,
heads of minimal length), as far as `src/util/s11n_impl/np_serialize_qcbor.c` uses it. -/
namespace Np.Cbor

abbrev Byte := BitVec 8

def byte (n : Nat) : Byte := BitVec.ofNat 8 n

/-- `n` in `k` bytes, most significant first. -/
def be : Nat → Nat → List Byte
  | 0, _ => []
  | k + 1, n => be k (n / 256) ++ [byte n]

def unbe (l : List Byte) : Nat := l.foldl (fun a b => a * 256 + b.toNat) 0

/-- The head of a data item: `QCBOREncode_AddUInt64`, `QCBOREncode_AddTag`, and the first part of `QCBOREncode_AddBytes` and
`QCBOREncode_AddText`. -/
def head (major n : Nat) : List Byte :=
  if n < 24 then [byte (major * 32 + n)]
  else if n < 256 then byte (major * 32 + 24) :: be 1 n
  else if n < 65536 then byte (major * 32 + 25) :: be 2 n
  else if n < 4294967296 then byte (major * 32 + 26) :: be 4 n
  else byte (major * 32 + 27) :: be 8 n

/-- The head written by `AppendCBORHeadWithSize` with size 4. -/
def head4 (major n : Nat) : List Byte := byte (major * 32 + 26) :: be 4 n

/-- `QCBOREncode_AddInt64`. -/
def intItem (v : Int) : List Byte := if 0 ≤ v then head 0 v.toNat else head 1 (-1 - v).toNat

/-- How many bytes follow the first one. -/
def following (ai : Nat) : Option Nat :=
  if ai < 24 then some 0 else if ai = 24 then some 1 else if ai = 25 then some 2 else if ai = 26 then some 4 else if ai = 27 then some 8 else none

/-- Reads a head: major type, argument and the bytes behind. -/
def readHead : List Byte → Option (Nat × Nat × List Byte)
  | [] => none
  | b :: r =>
    match following (b.toNat % 32) with
    | none => none
    | some 0 => some (b.toNat / 32, b.toNat % 32, r)
    | some k => if r.length < k then none else some (b.toNat / 32, unbe (r.take k), r.drop k)

/-- What `QCBORDecode_VGetNext` yields. -/
inductive Item
  | int (v : Int)
  | bytes (b : List Byte)
  | text (b : List Byte)
  | array (n : Nat)
  | other
  deriving DecidableEq

/-- `QCBORDecode_VGetNext`: the item, its tag and the bytes behind; `none` stands for `QCBOR_TYPE_NONE`.  Simplified: the conversions QCBOR
applies to the content of the tags it knows are left out (such an item is not written by the library). -/
def getItem : Nat → Option Nat → List Byte → Option (Item × Option Nat × List Byte)
  | fuel, tag, b =>
    match readHead b with
    | none => none
    | some (m, n, r) =>
      if m = 0 then some (if n < 9223372036854775808 then .int n else .other, tag, r)
      else if m = 1 then if n < 9223372036854775808 then some (.int (-1 - n), tag, r) else none
      else if m = 2 then if r.length < n then none else some (.bytes (r.take n), tag, r.drop n)
      else if m = 3 then if r.length < n then none else some (.text (r.take n), tag, r.drop n)
      else if m = 4 then some (.array n, tag, r)
      else if m = 6 then
        match fuel with
        | 0 => none
        | f + 1 => getItem f (some n) r
      else some (.other, tag, r)

/-- At most four tags. -/
def getNext (b : List Byte) : Option (Item × Option Nat × List Byte) := getItem 4 none b

/-- An encoder that writes pieces into a buffer of `cap` bytes: from the first piece that does not fit nothing more is written, and
`QCBOREncode_Finish` reports the error. -/
def emit : Nat → List (List Byte) → List Byte × Bool
  | _, [] => ([], true)
  | cap, p :: r => if cap < p.length then ([], false) else (p ++ (emit (cap - p.length) r).1, (emit (cap - p.length) r).2)

end Np.Cbor
