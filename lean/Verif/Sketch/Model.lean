import Verif.Bloom.Model

/-! # Model of the signatures of texts, src/util/np_minhash.c, and of the index made of them, framework/search/np_index.c -/
namespace Np.Sketch

abbrev Byte := BitVec 8
abbrev Word := BitVec 32

/-- How an operation can go wrong. -/
inductive Fault where
  /-- Memory outside of an array is read or written. -/
  | bounds
  /-- The process is aborted. -/
  | abort
  deriving DecidableEq, Repr

abbrev Out (α : Type) := Except Fault α

/-- `crypto_shorthash_siphash24` with the two halves of the seed, src/util/np_minhash.c:173-176: a function of the bytes. -/
structure Hash where
  v1 : List Byte → BitVec 64
  v2 : List Byte → BitVec 64

/-- `(uint32_t)((v1 + i * v2) & 0xFFFFFFFF)`, src/util/np_minhash.c:184. -/
def Hash.at (h : Hash) (i : Nat) (x : List Byte) : Word := (h.v1 x + BitVec.ofNat 64 i * h.v2 x).setWidth 32

/-- `enum np_mixhash_mode`, include/util/np_minhash.h:56-61. -/
inductive Mode where
  | multi
  | single
  | fix
  | flex
  deriving DecidableEq, Repr

/-- `struct np_minhash_s`, include/util/np_minhash.h:68-80; the seed is part of `Hash`. -/
structure Sig where
  size : Nat
  mode : Mode
  mins : List Word
  pos : Nat
  deriving DecidableEq, Repr

/-- `np_minhash_init`, src/util/np_minhash.c:197-239: for a size that is not even the process is aborted. -/
def init (size : Nat) (mode : Mode) : Out Sig :=
  if size % 2 = 0 then .ok ⟨size, mode, List.replicate (size / 2) 0xFFFFFFFF ++ List.replicate (size / 2) 0, 0⟩ else .error .abort

/-- The body of the loop of `np_minhash_push_multi`, src/util/np_minhash.c:183-192. -/
def multiStep (h : Hash) (half : Nat) (x : List Byte) (a : List Word) (i : Nat) : List Word :=
  let a' := if (h.at i x).toNat < (a.getD i 0).toNat then a.set i (h.at i x) else a
  if (h.at i x).toNat > (a'.getD (i + half) 0).toNat then a'.set (i + half) (h.at i x) else a'

/-- `np_minhash_push_multi`, src/util/np_minhash.c:166-193. -/
def pushMulti (h : Hash) (s : Sig) (x : List Byte) : Sig :=
  { s with mins := (List.range (s.size / 2)).foldl (multiStep h (s.size / 2) x) s.mins }

/-- `np_minhash_push_dd_fix`, src/util/np_minhash.c:76-124: a full signature ignores the element. -/
def pushFix (h : Hash) (s : Sig) (x : List Byte) : Sig :=
  let half := s.size / 2
  if s.pos ≥ half then s
  else
    let a := (h.v1 x).setWidth 32
    let b := (h.v2 x).setWidth 32
    let lo := if a.toNat > b.toNat then b else a
    let hi := if a.toNat > b.toNat then a else b
    { s with mins := (s.mins.set s.pos lo).set (s.pos + half) hi, pos := s.pos + 1 }

/-- `np_minhash_push_dd_flex`, src/util/np_minhash.c:26-72. `fresh` is what the memory holds that `realloc` adds. The `memmove` moves `_dd_pos` bytes from
`_minimums[_dd_pos + half]` to `_minimums[size / 2]`, which is the same place if `_dd_pos` is `half`, as it always is (`C119_flex_position`): it changes nothing.
`half` is that of the old size. Simplified: the size does not reach 65536. -/
def pushFlex (h : Hash) (fresh : Nat → Word) (s : Sig) (x : List Byte) : Sig :=
  let half := s.size / 2
  let s' := if s.pos ≥ half then { s with size := s.size + s.size, mins := s.mins ++ (List.range s.size).map fresh } else s
  let v := (h.v1 x + 3 * h.v2 x).setWidth 32
  let m := s'.mins.set s'.pos (s'.mins.getD s'.pos 0 - v)
  { s' with mins := m.set (s'.pos + half) (m.getD (s'.pos + half) 0 + v), pos := s'.pos + 1 }

/-- `np_minhash_merge`, src/util/np_minhash.c:428-445. The test of the sizes compares the sizes of two fields and never fails. The second loop begins one
behind the middle. -/
def merge (s t : Sig) : Out Sig :=
  if s.mode ≠ t.mode then .ok s
  else if t.mins.length < s.size then .error .bounds
  else
    let a := (List.range (s.size / 2)).foldl (fun a i => if (t.mins.getD i 0).toNat < (a.getD i 0).toNat then a.set i (t.mins.getD i 0) else a) s.mins
    let b := (List.range' (s.size / 2 + 1) (s.size - (s.size / 2 + 1))).foldl
      (fun a i => if (t.mins.getD i 0).toNat > (a.getD i 0).toNat then a.set i (t.mins.getD i 0) else a) a
    .ok { s with mins := b }

/-- One round of the loop of `np_minhash_similarity`, src/util/np_minhash.c:403-420: what is added to the number of matches, and what is subtracted from the
size of the union. -/
def weigh (mode : Mode) (a b : Word) : Nat × Nat :=
  if mode ≠ .multi ∧ (a = 0xFFFFFFFF ∨ b = 0xFFFFFFFF) then (0, if a = b then 1 else 0)
  else if mode ≠ .multi ∧ (a = 0 ∨ b = 0) then (0, if a = b then 1 else 0)
  else (if a = b then 1 else 0, 0)

/-- `np_minhash_similarity`, src/util/np_minhash.c:375-423: numerator and denominator of the result. For modes other than the flexible one the size of the
first signature is used for both. -/
def similarity (s t : Sig) : Out (Nat × Nat) :=
  if s.mode ≠ t.mode then .ok (0, 1)
  else
    let compare := if s.mode = .flex then min s.size t.size else s.size
    let union := if s.mode = .flex then max s.size t.size else s.size
    if s.mins.length < compare ∨ t.mins.length < compare then .error .bounds
    else
      let w := (List.range compare).map fun i => weigh s.mode (s.mins.getD i 0) (t.mins.getD i 0)
      .ok ((w.map (·.1)).sum, union - (w.map (·.2)).sum)

/-! ## Texts -/

/-- `strncat(target, str, 512)` for each of the words, src/util/np_minhash.c:338-342, into a buffer of 512 bytes that holds `acc` and a zero. -/
def concat : List Byte → List (List Byte) → Out (List Byte)
  | acc, [] => .ok acc
  | acc, w :: ws => if acc.length + min w.length 512 + 1 > 512 then .error .bounds else concat (acc ++ w) ws

/-- The loop over the values of `np_minhash_push_tree`, src/util/np_minhash.c:317-355, for a tree whose values are texts, with `include_keys` false: the
elements that are pushed. `part` are the last words, `i` is a counter of 16 bits. -/
def shingleLoop (n : Nat) : Nat → List (List Byte) → List (List Byte) → Out (List (List Byte))
  | _, _, [] => .ok []
  | i, part, w :: ws =>
    let part := part.set (n - 1) w
    let next := part.drop 1 ++ part.drop (n - 1)
    if i ≥ n - 1 then
      match concat [] part with
      | .error f => .error f
      | .ok x =>
        match shingleLoop n ((i + 1) % 65536) next ws with
        | .error f => .error f
        | .ok xs => .ok (x :: xs)
    else shingleLoop n ((i + 1) % 65536) next ws

/-- `np_minhash_push_tree`, src/util/np_minhash.c:266-358: for a tree with fewer values than asked for, all of them form one element. -/
def shingles (n : Nat) (words : List (List Byte)) : Out (List (List Byte)) :=
  if n = 0 then .error .abort
  else
    let m := if words.length < n then words.length else n
    shingleLoop m 0 (List.replicate m []) words

/-! ## The index -/

/-- A counting filter of 85 bytes with room for a number of additions, src/util/np_bloom.c:827-846, framework/search/np_index.c:67-76. -/
structure Count where
  cells : List Byte
  free : Nat
  deriving DecidableEq, Repr

/-- `_np_counting_bloom_add`, src/util/np_bloom.c:866-887. -/
def Count.add (c : Count) (id : Dhkey) : Out Count :=
  if c.free = 0 then .error .abort
  else .ok ⟨id.words.foldl (fun a w => a.set (w.toNat % 85) (a.getD (w.toNat % 85) 0 + 1)) c.cells, c.free - 1⟩

/-- Additions one after the other. -/
def Count.addAll (c : Count) : List Dhkey → Out Count
  | [] => .ok c
  | k :: ks =>
    match c.add k with
    | .error f => .error f
    | .ok d => d.addAll ks

/-- `struct np_index_s`: two counting filters and a filter for attributes. -/
structure Index where
  cbl : Count
  counter : Count
  clk : Bloom.Nb

/-- `np_index_init`, framework/search/np_index.c:62-85. -/
def Index.init : Index := ⟨⟨List.replicate 85 0, 340⟩, ⟨List.replicate 85 0, 340⟩, Bloom.Nb.create⟩

/-- Word `k` of the sum for a band, framework/search/np_index.c:33-46: the loop over `j` adds entry `j` to word `j % 8` of band `j / 8 % bands`. -/
def bandWord (mins : List Word) (bands rows b k : Nat) : Word := (List.range rows).foldl (fun a r => a + mins.getD (8 * (r * bands + b) + k) 0) 0

/-- The sum for a band. -/
def bandKey (mins : List Word) (bands rows b : Nat) : Dhkey :=
  ⟨bandWord mins bands rows b 0, bandWord mins bands rows b 1, bandWord mins bands rows b 2, bandWord mins bands rows b 3,
   bandWord mins bands rows b 4, bandWord mins bands rows b 5, bandWord mins bands rows b 6, bandWord mins bands rows b 7⟩

/-- The sums are added to the filter for attributes as soon as they are complete, framework/search/np_index.c:48-50. -/
def addClk (f : Bloom.Nb) : List Dhkey → Out Bloom.Nb
  | [] => .ok f
  | k :: ks =>
    match f.add k with
    | none => .error .abort
    | some g => addClk g ks

/-- `_split_minhash_into_bands`, framework/search/np_index.c:14-60: `bands` sums of `rows` parts; each is added `rows` times to the first counting filter. -/
def split (x : Index) (s : Sig) (inBands : Nat) : Out Index :=
  if ¬ inBands ≤ s.size / 8 then .error .abort
  else if s.size / 8 % inBands ≠ 0 then .error .abort
  else
    let bands := s.size / 8 / inBands
    let rows := s.size / 8 / bands
    let keys := (List.range bands).map (bandKey s.mins bands rows)
    match addClk x.clk keys with
    | .error f => .error f
    | .ok clk =>
      match x.cbl.addAll (keys.flatMap fun k => List.replicate rows k) with
      | .error f => .error f
      | .ok cbl =>
        match x.counter.addAll keys with
        | .error f => .error f
        | .ok counter => .ok ⟨cbl, counter, clk⟩

/-- The loop of `np_index_update_with_minhash`, framework/search/np_index.c:104-107. -/
def splitLoop (s : Sig) : Nat → Nat → Index → Out Index
  | 0, _, x => .ok x
  | fuel + 1, bands, x =>
    if bands > 1 then
      match split x s bands with
      | .error f => .error f
      | .ok y => splitLoop s fuel (bands >>> 1) y
    else .ok x

/-- `np_index_update_with_minhash`, framework/search/np_index.c:93-108. -/
def Index.update (x : Index) (s : Sig) : Out Index := splitLoop s 8 (s.size / 8 % 256) x

/-- A signature of elements pushed one after the other. -/
def signature (h : Hash) (size : Nat) (xs : List (List Byte)) : Out Sig :=
  match init size .multi with
  | .error f => .error f
  | .ok s => .ok (xs.foldl (pushMulti h) s)

/-- The index of a text, framework/search/np_search.c:2259-2290: words, elements, signature, index. -/
def indexOf (h : Hash) (size n : Nat) (words : List (List Byte)) : Out Index :=
  match shingles n words with
  | .error f => .error f
  | .ok xs =>
    match signature h size xs with
    | .error f => .error f
    | .ok s => Index.init.update s

end Np.Sketch
