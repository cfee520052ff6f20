/-!
# Model of `src/np_dhkey.c` and of the id functions in `src/neuropil.c`

`np_dhkey_t` is a struct of eight `uint32_t` words (`include/np_dhkey.h:18-28`), `np_id` the same 32 bytes.
The machine is assumed little-endian (as the byte view of the words is used by `_np_dhkey_index`).
-/
namespace Np

/-- `struct np_dhkey_s { uint32_t t[8]; }`, include/np_dhkey.h:18-28. -/
structure Dhkey where
  t0 : BitVec 32
  t1 : BitVec 32
  t2 : BitVec 32
  t3 : BitVec 32
  t4 : BitVec 32
  t5 : BitVec 32
  t6 : BitVec 32
  t7 : BitVec 32
deriving DecidableEq, Repr

namespace Dhkey

/-- The words `t[0..7]` in index order, as every loop of np_dhkey.c walks them. -/
def words (k : Dhkey) : List (BitVec 32) := [k.t0, k.t1, k.t2, k.t3, k.t4, k.t5, k.t6, k.t7]

/-- The same word in every position; builds `__dhkey_min/half/max`. -/
def rep (w : BitVec 32) : Dhkey := ⟨w, w, w, w, w, w, w, w⟩

/-- `dhkey_zero`, include/np_dhkey.h:32, and `__dhkey_min`, src/np_dhkey.c:286. -/
def zero : Dhkey := rep 0
/-- `__dhkey_half`, src/np_dhkey.c:282-285: `(UINT32_MAX >> 1) + 1` in each word. -/
def half : Dhkey := rep 0x80000000
/-- `__dhkey_max`, src/np_dhkey.c:284. -/
def max : Dhkey := rep 0xffffffff

/-- Word-wise application of a binary operation. -/
def map2 (f : BitVec 32 → BitVec 32 → BitVec 32) (a b : Dhkey) : Dhkey :=
  ⟨f a.t0 b.t0, f a.t1 b.t1, f a.t2 b.t2, f a.t3 b.t3, f a.t4 b.t4, f a.t5 b.t5, f a.t6 b.t6, f a.t7 b.t7⟩

/-- `_np_dhkey_add`, src/np_dhkey.c:167-183: word-wise modulo 2^32, no carry. -/
def add (a b : Dhkey) : Dhkey := map2 (· + ·) a b
/-- `_np_dhkey_sub`, src/np_dhkey.c:185-191: word-wise modulo 2^32, no borrow. -/
def sub (a b : Dhkey) : Dhkey := map2 (· - ·) a b
/-- `_np_dhkey_and`, src/np_dhkey.c:193-207. -/
def and (a b : Dhkey) : Dhkey := map2 (· &&& ·) a b
/-- `_np_dhkey_or`, src/np_dhkey.c:209-223. -/
def or (a b : Dhkey) : Dhkey := map2 (· ||| ·) a b
/-- `_np_dhkey_xor`, src/np_dhkey.c:225-239. -/
def xor (a b : Dhkey) : Dhkey := map2 (· ^^^ ·) a b

/-- The loop of `_np_dhkey_equal`, src/np_dhkey.c:150-154. -/
def equalLoop : List (BitVec 32) → List (BitVec 32) → Bool
  | a :: as, b :: bs => if a ≠ b then false else equalLoop as bs
  | _, _ => true

/-- `_np_dhkey_equal`, src/np_dhkey.c:150-154. -/
def equal (a b : Dhkey) : Bool := equalLoop a.words b.words

/-- The loop of `_np_dhkey_cmp`, src/np_dhkey.c:160-164. -/
def cmpLoop : List (BitVec 32) → List (BitVec 32) → Int
  | a :: as, b :: bs => if a > b then 1 else if a < b then -1 else cmpLoop as bs
  | _, _ => 0

/-- `_np_dhkey_cmp`, src/np_dhkey.c:156-165, for non-NULL arguments. -/
def cmp (a b : Dhkey) : Int := cmpLoop a.words b.words

/-- `_np_dhkey_cmp` with its NULL handling, src/np_dhkey.c:157-158 (`none` is NULL). -/
def cmpPtr : Option Dhkey → Option Dhkey → Int
  | none, _ => -1
  | some _, none => 1
  | some a, some b => cmp a b

/-- `_np_dhkey_distance`, src/np_dhkey.c:313-326. -/
def distance (k1 k2 : Dhkey) : Dhkey :=
  let diff := if cmp k1 k2 > 0 then sub k1 k2 else sub k2 k1
  if cmp half diff < 0 then sub max diff else diff

/-- `__builtin_popcount`: number of one bits of a word. -/
def popcount (w : BitVec 32) : Nat := ((List.range 32).filter fun i => w.getLsbD i).length

/-- `_np_dhkey_hamming_distance`, src/np_dhkey.c:328-359: the sum of the eight popcounts in a `uint8_t`. -/
def hammingDistance (x y : Dhkey) : BitVec 8 :=
  (List.zipWith (fun a b => popcount (a ^^^ b)) x.words y.words).foldl (fun d n => d + BitVec.ofNat 8 n) 0

/-- `_np_dhkey_between`, src/np_dhkey.c:396-425. -/
def between (test left right : Dhkey) (includeBounds : Bool) : Bool :=
  let comp_lt := cmp left test
  let comp_tr := cmp test right
  let comp_lr := cmp left right
  if comp_lt = 0 ∨ comp_tr = 0 then includeBounds
  else if comp_lr < 0 then decide (comp_lt < 0 ∧ comp_tr < 0)
  else decide (comp_lt < 0 ∨ comp_tr < 0)

/-- `_np_dhkey_midpoint`, src/np_dhkey.c:427-432. -/
def midpoint (key : Dhkey) : Dhkey := if cmp key half < 0 then add key half else sub key half

/-- The four bytes of a `uint32_t` in memory on a little-endian machine. -/
def wordBytes (w : BitVec 32) : List (BitVec 8) :=
  [w.extractLsb' 0 8, w.extractLsb' 8 8, w.extractLsb' 16 8, w.extractLsb' 24 8]

/-- The 32 bytes of a key in memory; also the conversion `np_dhkey_t` → `np_id` by `memcpy`. -/
def bytes (k : Dhkey) : List (BitVec 8) := k.words.flatMap wordBytes

/-- `memcpy(&t[i], &id[4*i], 4)` on a little-endian machine, e.g. src/np_dhkey.c:98-105. -/
def wordOf (b0 b1 b2 b3 : BitVec 8) : BitVec 32 := b3 ++ b2 ++ b1 ++ b0

/-- The loop of `_np_dhkey_index`, src/np_dhkey.c:452-463, from byte pointers `_pos_a`, `_pos_b`. -/
def indexLoop : List (BitVec 8) → List (BitVec 8) → Nat → Nat
  | a :: as, b :: bs, ret =>
    if a &&& 0xf0#8 ≠ b &&& 0xf0#8 then ret
    else if a &&& 0x0f#8 ≠ b &&& 0x0f#8 then ret + 1
    else indexLoop as bs (ret + 2)
  | _, _, ret => ret

/-- `_np_dhkey_index`, src/np_dhkey.c:443-464 (`ret` is a `uint8_t`; it never exceeds 64). -/
def index (a b : Dhkey) : Nat := indexLoop a.bytes b.bytes 0

/-- `_np_dhkey_hexalpha_at`, src/np_dhkey.c:471-513, for a non-negative index. `none` stands for the
read behind `key->t[7]` (undefined behaviour) when the index is 64 or larger. -/
def hexalphaAt (k : Dhkey) (i : Nat) : Option Nat :=
  let tuple := i / 8
  let tupleRest := i % 8
  match k.words[tuple]? with
  | none => none
  | some w =>
    match (wordBytes w)[tupleRest / 2]? with
    | none => none
    | some b => some ((if tupleRest % 2 = 0 then b >>> 4 else b) &&& 0x0f#8).toNat

/-- Body of `_np_dhkey_rotate_left`, src/np_dhkey.c:249-278, for one word and its successor: shift left
and take over the top bits of the successor. Shift counts 0 and ≥ 32 are undefined behaviour in C and excluded
by the precondition `0 < bits < 32` of the theorems. -/
def rotWord (w next : BitVec 32) (bits : Nat) : BitVec 32 :=
  let left_shift := 32 - bits
  let bit_mask : BitVec 32 := 0xffffffff#32 <<< left_shift
  (w <<< bits) ||| ((next &&& bit_mask) >>> left_shift)

/-- `_np_dhkey_rotate_left`, src/np_dhkey.c:241-279. -/
def rotateLeft (k : Dhkey) (bits : Nat) : Dhkey :=
  ⟨rotWord k.t0 k.t1 bits, rotWord k.t1 k.t2 bits, rotWord k.t2 k.t3 bits, rotWord k.t3 k.t4 bits,
   rotWord k.t4 k.t5 bits, rotWord k.t5 k.t6 bits, rotWord k.t6 k.t7 bits, rotWord k.t7 k.t0 bits⟩

/-- `np_generate_subject`, src/neuropil.c:136-143: the hash of the part is xor-ed into the id passed in.
`hash` stands for `_np_dhkey_generate_hash` (BLAKE2b, src/np_dhkey.c:39-61). -/
def generateSubject {Part : Type} (hash : Part → Dhkey) (subject : Dhkey) (part : Part) : Dhkey :=
  xor (hash part) subject

/-- An application that composes a subject from several parts by repeated calls. -/
def generateSubjects {Part : Type} (hash : Part → Dhkey) (subject : Dhkey) (parts : List Part) : Dhkey :=
  parts.foldl (generateSubject hash) subject

end Dhkey

/-! ## `np_id` text form -/

/-- One hex digit as written by libsodium's `sodium_bin2hex` (external, contract: lower case). -/
def hexDigit (n : Nat) : Char := if n < 10 then Char.ofNat (48 + n) else Char.ofNat (87 + n)

/-- One hex digit as read by libsodium's `sodium_hex2bin` (external, contract: both cases accepted). -/
def hexVal (c : Char) : Option Nat :=
  if 48 ≤ c.toNat ∧ c.toNat ≤ 57 then some (c.toNat - 48)
  else if 97 ≤ c.toNat ∧ c.toNat ≤ 102 then some (c.toNat - 87)
  else if 65 ≤ c.toNat ∧ c.toNat ≤ 70 then some (c.toNat - 55)
  else none

/-- `np_id_str`, src/neuropil.c:1069-1074, the text before the terminating NUL. -/
def idStr (id : List (BitVec 8)) : List Char :=
  id.flatMap fun b => [hexDigit (b.toNat / 16), hexDigit (b.toNat % 16)]

/-- The digit loop of `sodium_hex2bin` as called by `np_str_id`: at most `n` bytes, `none` if a character is no hex digit. -/
def hex2bin : Nat → List Char → Option (List (BitVec 8))
  | 0, _ => some []
  | n + 1, c :: d :: cs =>
    match hexVal c, hexVal d, hex2bin n cs with
    | some x, some y, some r => some (BitVec.ofNat 8 (16 * x + y) :: r)
    | _, _, _ => none
  | _ + 1, _ => none

/-- `np_str_id`, src/neuropil.c:1076-1089: exactly 64 characters are read; `none` is the failing `ASSERT`. -/
def strId (str : List Char) : Option (List (BitVec 8)) := hex2bin 32 str

end Np
