import Verif.Data.Model

/-! # What is asked of datablocks -/
namespace Np.Data.Spec

open Np.Cbor Np.Data

/-- The size of the head of a CBOR data item (RFC 8949, section 3). -/
def headSize (n : Nat) : Nat := if n < 24 then 1 else if n < 256 then 2 else if n < 65536 then 3 else if n < 4294967296 then 5 else 9

/-- The size of the encoding of an entry: the key as a text string, then the value as a byte string, a text string, or a number with a tag of
three bytes. -/
def entrySize (k : Key) (v : Value) : Nat :=
  headSize k.length + k.length +
    match v with
    | .bin b => headSize b.length + b.length
    | .str b => headSize b.length + b.length
    | .int i => 3 + headSize (if 0 ≤ i.toInt then i.toInt.toNat else (-1 - i.toInt).toNat)
    | .uint u => 3 + headSize u.toNat

/-- A C string that fits into `char key[255]`. -/
def IsKey (k : Key) : Prop := k.length ≤ 254 ∧ (0 : Byte) ∉ k

instance (k : Key) : Decidable (IsKey k) := inferInstanceAs (Decidable (_ ∧ _))

/-- The entries whose size the library computes correctly: the length of the key is not 24, data has neither 24 nor more than 65535 bytes,
numbers are none of 24, -256, -65536 and -2147483648. -/
def Regular (k : Key) (v : Value) : Prop :=
  IsKey k ∧ k.length ≠ 24 ∧
    match v with
    | .bin b => b.length ≠ 24 ∧ b.length ≤ 65535
    | .str b => b.length ≠ 24 ∧ b.length ≤ 65535
    | .int i => i.toInt ≠ 24 ∧ i.toInt ≠ -256 ∧ i.toInt ≠ -65536 ∧ i.toInt ≠ -2147483648
    | .uint u => u.toNat ≠ 24

instance (k : Key) (v : Value) : Decidable (Regular k v) := by
  unfold Regular; cases v <;> exact inferInstance

/-- The value of the last call for the key that returned `np_data_ok`. -/
def lastOk (k : Key) : List ((Key × Value) × Ret) → Option Value
  | [] => none
  | (op, r) :: rest => (lastOk k rest).or (if op.1 = k ∧ r = .ok then some op.2 else none)

/-- The keys of the calls that returned `np_data_ok`, each once, in the order of the first such call. -/
def firstOrder (seen : List Key) : List ((Key × Value) × Ret) → List Key
  | [] => []
  | (op, r) :: rest => if r = .ok ∧ op.1 ∉ seen then op.1 :: firstOrder (op.1 :: seen) rest else firstOrder seen rest

/-- The bytes in use after the calls. -/
def usedAfter (calls : List ((Key × Value) × Ret)) : Nat :=
  21 + ((firstOrder [] calls).map fun k => match lastOk k calls with | some v => entrySize k v | none => 0).sum

/-- All keys of the calls are among fewer than 65536 ones. -/
def FewKeys (ops : List (Key × Value)) : Prop := ∃ ks : List Key, ks.length < 65536 ∧ ∀ op ∈ ops, op.1 ∈ ks

/-- The block after `np_init_datablock` on `n` bytes of memory and then these calls of `np_set_data`, with these return values; all entries are
regular. -/
structure Built (n : Nat) (calls : List ((Key × Value) × Ret)) (buf : List Byte) : Prop where
  size : 21 ≤ n ∧ n < 4294967296
  regular : ∀ c ∈ calls, Regular c.1.1 c.1.2
  few : FewKeys (calls.map Prod.fst)
  made : ∃ mem b0, mem.length = n ∧ init mem = .ok (.ok, b0) ∧ run b0 (calls.map Prod.fst) = .ok (calls.map Prod.snd, buf)

/-- The entries after the calls: the keys in the order in which they came in, with their last values. -/
def entries (calls : List ((Key × Value) × Ret)) : List (Key × Value) :=
  (firstOrder [] calls).filterMap fun k => (lastOk k calls).map fun v => (k, v)

/-- A callback is called for one entry after the other, until it returns false. -/
def visit {σ : Type} (cb : σ → Key → Value → σ × Bool) (s : σ) : List (Key × Value) → Ret × σ
  | [] => (.ok, s)
  | (k, v) :: r => if (cb s k v).2 then visit cb (cb s k v).1 r else (.invalidArguments, (cb s k v).1)

/-- What is read from the block. -/
def Readable (buf : List Byte) (f : Key → Option Value) : Prop :=
  ∀ k, IsKey k → getData buf k = .ok (match f k with | some v => (.ok, some v) | none => (.keyNotFound, none))

end Np.Data.Spec
