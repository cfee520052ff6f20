/-! # Model of the cupidtrie, src/util/np_cupidtrie.c, and of the filter built on it, src/util/np_cupidbloom.c

A trie over the nibbles of keys that all have the same length. A branch has the position of a nibble and up to 16 subtries; a leaf has a key and a value.
Simplified: keys are copies (`alloc_key_memory`), memory does not run out, and keys are shorter than 8192 bytes (the header allows 256), so that the counter
of bits of src/util/np_cupidtrie.c:281 does not wrap. -/
namespace Np.Trie

abbrev Byte := BitVec 8

mutual
/-- `union _qp_union`, src/util/np_cupidtrie.c:15-30: a leaf with key and data, or a branch with a shift and its subtries. -/
inductive Trie (V : Type) where
  | leaf (key : List Byte) (val : V)
  | branch (shift : Nat) (kids : Kids V)
/-- The subtries whose bit is set in the mask of a branch, in the order of the bits. The array has 16 slots; slots without a bit are not modelled. -/
inductive Kids (V : Type) where
  | nil
  | cons (pos : Nat) (t : Trie V) (rest : Kids V)
end

/-- `__extract_nibble`, src/util/np_cupidtrie.c:99-100. -/
def nibble (key : List Byte) (shift : Nat) : Nat :=
  (((key.getD (shift >>> 1) 0).toNat <<< ((shift &&& 1) <<< 2)) &&& 0xF0) >>> 4

variable {V : Type}

/-- `__idx_has_next`, src/util/np_cupidtrie.c:107-108. -/
def Kids.has (n : Nat) : Kids V → Bool
  | .nil => false
  | .cons p _ r => p == n || r.has n

/-- A slot is written and its bit set. -/
def Kids.put (n : Nat) (t : Trie V) : Kids V → Kids V
  | .nil => .cons n t .nil
  | .cons p u r => if n < p then .cons n t (.cons p u r) else if n = p then .cons p t r else .cons p u (r.put n t)

mutual
/-- `__find_qpe`, src/util/np_cupidtrie.c:140-161. -/
def Trie.find (key : List Byte) : Trie V → Option V
  | .leaf k v => if k = key then some v else none
  | .branch s ks => ks.findAt (nibble key s) key
/-- The subtrie at this position. -/
def Kids.findAt (n : Nat) (key : List Byte) : Kids V → Option V
  | .nil => none
  | .cons p t r => if p = n then t.find key else r.findAt n key
end

mutual
/-- The walk to the lowest bit in every mask, src/util/np_cupidtrie.c:265-272: none if a mask is 0, where `__builtin_ctz` is undefined. -/
def Trie.leftmost : Trie V → Option (List Byte)
  | .leaf k _ => some k
  | .branch _ ks => ks.leftmost
/-- The first subtrie. -/
def Kids.leftmost : Kids V → Option (List Byte)
  | .nil => none
  | .cons _ t _ => t.leftmost
end

mutual
/-- The first loop of `__insert_qpe`, src/util/np_cupidtrie.c:251-273: the key of the leaf that is reached, and the number of branches, from the root on,
that have a subtrie for the key. The last of them is `ins_bb_branch`. -/
def Trie.walk (key : List Byte) : Trie V → Option (List Byte × Nat)
  | .leaf k _ => some (k, 0)
  | .branch s ks =>
    match ks.walkAt (nibble key s) key with
    | some r => r.map fun x => (x.1, x.2 + 1)
    | none => ks.leftmost.map fun k => (k, 0)
/-- The walk in the subtrie at this position, none if there is none. -/
def Kids.walkAt (n : Nat) (key : List Byte) : Kids V → Option (Option (List Byte × Nat))
  | .nil => none
  | .cons p t r => if p = n then some (t.walk key) else r.walkAt n key
end

mutual
/-- The value of the leftmost leaf is written. -/
def Trie.leftmostSet (f : V → V) : Trie V → Trie V
  | .leaf k v => .leaf k (f v)
  | .branch s ks => .branch s (ks.leftmostSet f)
def Kids.leftmostSet (f : V → V) : Kids V → Kids V
  | .nil => .nil
  | .cons p t r => .cons p (t.leftmostSet f) r
end

mutual
/-- The value of the leaf that the walk reaches is written, src/util/np_cupidtrie.c:286-289. -/
def Trie.update (key : List Byte) (f : V → V) : Trie V → Trie V
  | .leaf k v => .leaf k (f v)
  | .branch s ks => if ks.has (nibble key s) then .branch s (ks.updateAt (nibble key s) key f) else .branch s (ks.leftmostSet f)
def Kids.updateAt (n : Nat) (key : List Byte) (f : V → V) : Kids V → Kids V
  | .nil => .nil
  | .cons p t r => if p = n then .cons p (t.update key f) r else .cons p t (r.updateAt n key f)
end

/-- The position of the first nibble in which two keys differ, src/util/np_cupidtrie.c:275-291; none if they are the same. `__builtin_clz(xor) - 24` is the
number of leading zeros in the byte. -/
def diff : List Byte → List Byte → Nat → Option Nat
  | a :: as, b :: bs, bits =>
    let x := (a ^^^ b).toNat
    if 0 < x then some ((bits + (7 - Nat.log2 x)) >>> 2) else diff as bs (bits + 8)
  | _, _, _ => none

/-- `np_new_branch`, src/util/np_cupidtrie.c:321-339: the subtrie moves below a new branch, at the nibble of the leaf that was reached. -/
def fork (shift : Nat) (old key : List Byte) (v : V) (t : Trie V) : Trie V :=
  .branch shift ((Kids.nil.put (nibble old shift) t).put (nibble key shift) (.leaf key v))

mutual
/-- The second loop of `__insert_qpe`, src/util/np_cupidtrie.c:306-349. It begins at `ins_bb_branch`, `skip` branches below the root. None: the assertion of
line 304 or 330 fails, or a slot without a bit is entered. -/
def Trie.place (skip shift : Nat) (old key : List Byte) (v : V) : Trie V → Option (Trie V)
  | .leaf k w => some (fork shift old key v (.leaf k w))
  | .branch s ks =>
    if skip = 0 ∧ shift = s then
      if ks.has (nibble key s) then none else some (.branch s (ks.put (nibble key s) (.leaf key v)))
    else if skip = 0 ∧ shift < s then some (fork shift old key v (.branch s ks))
    else (ks.placeAt (nibble key s) (skip - 1) shift old key v).map (.branch s)
def Kids.placeAt (n skip shift : Nat) (old key : List Byte) (v : V) : Kids V → Option (Kids V)
  | .nil => none
  | .cons p t r => if p = n then (t.place skip shift old key v).map fun u => .cons p u r else (r.placeAt n skip shift old key v).map fun q => .cons p t q
end

mutual
/-- `__delete_qpe`, src/util/np_cupidtrie.c:163-226: none if the key is not there; otherwise what is left, `some none` if the mask is 0 or the leaf is gone. -/
def Trie.remove (key : List Byte) : Trie V → Option (Option (Trie V))
  | .leaf k _ => if k = key then some none else none
  | .branch s ks =>
    match ks.removeAt (nibble key s) key with
    | none => none
    | some .nil => some none
    | some (.cons p t r) => some (some (.branch s (.cons p t r)))
def Kids.removeAt (n : Nat) (key : List Byte) : Kids V → Option (Kids V)
  | .nil => none
  | .cons p t r =>
    if p = n then
      match t.remove key with
      | none => none
      | some none => some r
      | some (some u) => some (.cons p u r)
    else (r.removeAt n key).map fun q => .cons p t q
end

mutual
/-- `__iterate_qpe_data`, src/util/np_cupidtrie.c:658-685: the leaves one after the other. -/
def Trie.entries : Trie V → List (List Byte × V)
  | .leaf k v => [(k, v)]
  | .branch _ ks => ks.entries
def Kids.entries : Kids V → List (List Byte × V)
  | .nil => []
  | .cons _ t r => t.entries ++ r.entries
end

/-- How an operation can go wrong. -/
inductive Fault where
  /-- Memory that was freed is read. -/
  | useAfterFree
  /-- Memory is freed again. -/
  | doubleFree
  /-- An assertion fails, or a slot that was never written is read. -/
  | broken
  /-- The bound on the depth of calls was too small. -/
  | depth
  /-- A number is divided by 0. -/
  | divide
  deriving DecidableEq, Repr

abbrev Out (α : Type) := Except Fault α

/-- `trie->tree`: no memory, a trie, or a branch with mask 0 whose subtries were freed by `__delete_qpe` (line 213), which does not reset the pointer. -/
inductive Root (V : Type) where
  | null
  | node (t : Trie V)
  | dead (shift : Nat)

/-- `np_cupidtrie_find`, src/util/np_cupidtrie.c:563-566. -/
def Root.find (key : List Byte) : Root V → Option V
  | .null => none
  | .node t => t.find key
  | .dead _ => none

/-- `np_cupidtrie_insert`, src/util/np_cupidtrie.c:550-561, and the caller's write to the slot it gets: `f` is applied to what the slot holds, which is zero
for a new leaf. On a dead branch the walk goes to freed memory (line 262). -/
def Root.insert (zero : V) (key : List Byte) (f : V → V) : Root V → Out (Root V)
  | .null => .ok (.node (.leaf key (f zero)))
  | .dead _ => .error .useAfterFree
  | .node t =>
    match t.walk key with
    | none => .error .broken
    | some (old, k) =>
      match diff key old 0 with
      | none => .ok (.node (t.update key f))
      | some shift =>
        match t.place (k - 1) shift old key (f zero) with
        | none => .error .broken
        | some u => .ok (.node u)

/-- `np_cupidtrie_delete`, src/util/np_cupidtrie.c:574-577: none if the key is not there. -/
def Root.delete (key : List Byte) : Root V → Option (Root V)
  | .null => none
  | .dead _ => none
  | .node t =>
    match t.remove key with
    | none => none
    | some (some u) => some (.node u)
    | some none =>
      match t with
      | .leaf _ _ => some .null
      | .branch s _ => some (.dead s)

mutual
/-- The slot that `__delete_qpe` hands out (line 191) is part of an array that it frees (line 213): the branch above the leaf has no other subtrie. -/
def Trie.slotFreed (key : List Byte) : Trie V → Bool
  | .leaf _ _ => false
  | .branch s ks => ks.slotFreedAt (nibble key s) key (match ks with | .cons _ _ .nil => true | _ => false)
def Kids.slotFreedAt (n : Nat) (key : List Byte) (alone : Bool) : Kids V → Bool
  | .nil => false
  | .cons p t r =>
    if p = n then
      match t with
      | .leaf _ _ => alone
      | .branch _ _ => t.slotFreed key
    else r.slotFreedAt n key alone
end

/-- A call of a user: insert and write to the slot, or delete. -/
inductive Op (V : Type) where
  | put (key : List Byte) (v : V)
  | del (key : List Byte)

/-- A call. -/
def Root.step (zero : V) (r : Root V) : Op V → Out (Root V)
  | .put k v => r.insert zero k fun _ => v
  | .del k => .ok ((r.delete k).getD r)

/-- Calls one after the other. -/
def Root.run (zero : V) (r : Root V) : List (Op V) → Out (Root V)
  | [] => .ok r
  | o :: os =>
    match r.step zero o with
    | .error f => .error f
    | .ok r' => r'.run zero os

/-- The entries of a trie. -/
def Root.entries : Root V → List (List Byte × V)
  | .null => []
  | .node t => t.entries
  | .dead _ => []

/-- `np_cupidtrie_free`, src/util/np_cupidtrie.c:710-714, with `__free_qpe`, 124-138: the array of a dead branch is freed a second time. -/
def Root.free : Root V → Out (Root V)
  | .dead _ => .error .doubleFree
  | _ => .ok .null

/-- `__union_qpe`, src/util/np_cupidtrie.c:516-542, for the leaves of the other trie in order. The combination may change the slot and report a failure, which
ends the loops; the result is true if there was none. -/
def Root.unionList (zero : V) (combine : V → V → V × Bool) : List (List Byte × V) → Root V → Out (Root V × Bool)
  | [], r => .ok (r, true)
  | (k, w) :: es, r =>
    match r.insert zero k fun v => (combine v w).1 with
    | .error f => .error f
    | .ok r' => if (combine ((r.find k).getD zero) w).2 then r'.unionList zero combine es else .ok (r', false)

/-- `np_cupidtrie_union`, src/util/np_cupidtrie.c:579-587. -/
def Root.union (zero : V) (combine : V → V → V × Bool) (r other : Root V) : Out (Root V × Bool) := r.unionList zero combine other.entries

/-! ## Intersection -/

/-- The subtrie at this position. -/
def Kids.get (n : Nat) : Kids V → Option (Trie V)
  | .nil => none
  | .cons p t r => if p = n then some t else r.get n

/-- The bit of a position is cleared. -/
def Kids.drop (n : Nat) : Kids V → Kids V
  | .nil => .nil
  | .cons p t r => if p = n then r else .cons p t (r.drop n)

/-- A leaf is combined with a value: the value is changed even if the combination fails. -/
def meetLeaf (combine : V → V → V × Bool) (k : List Byte) (v : V) : Option V → Trie V × Bool
  | some w => (.leaf k (combine v w).1, (combine v w).2)
  | none => (.leaf k v, false)

/-- The mask of a branch is not 0. -/
def Trie.any : Trie V → Bool
  | .leaf _ _ => true
  | .branch _ .nil => false
  | .branch _ _ => true

/-- `__intersect_qpe`, src/util/np_cupidtrie.c:352-514: the trie as it is changed, and whether `np_ok` is returned. `broken` stands for a bit that is set for a
slot that was never written (lines 476, 514), which the next access takes for a leaf with a null pointer as its key. `fuel` bounds the depth of the calls. -/
def meet (combine : V → V → V × Bool) : Nat → Trie V → Trie V → Out (Trie V × Bool)
  | 0, _, _ => .error .depth
  | fuel + 1, r, j =>
    match r, j with
    | .leaf k v, j => .ok (meetLeaf combine k v (j.find k))
    | .branch s ks, .leaf k w =>
      match (Trie.branch s ks).find k with
      | none => .ok (.branch s ks, false)
      | some v => .ok ((Trie.branch s ks).update k (fun _ => (combine v w).1), (combine v w).2)
    | .branch s ks, .branch s' js =>
      if s = s' then
        match meetKids (meet combine fuel) ks js with
        | .error f => .error f
        | .ok ks' => .ok (.branch s ks', (Trie.branch s ks').any)
      else if s < s' then
        match (Trie.branch s' js).leftmost with
        | none => .error .broken
        | some k =>
          match ks.get (nibble k s) with
          | none => .error .broken
          | some c =>
            match meet combine fuel c (.branch s' js) with
            | .error f => .error f
            | .ok (c', true) => .ok (.branch s (.cons (nibble k s) c' .nil), true)
            | .ok (_, false) => .ok (.branch s .nil, false)
      else
        match (Trie.branch s ks).leftmost with
        | none => .error .broken
        | some k =>
          match js.get (nibble k s') with
          | none => .ok (.branch s ks, (Trie.branch s ks).any)
          | some c =>
            match meet combine fuel (.branch s ks) c with
            | .error f => .error f
            | .ok (r', true) => .ok (r', r'.any)
            | .ok (.leaf _ _, false) => .error .broken
            | .ok (.branch t ks', false) =>
              if ks'.has (nibble k s') then .ok (.branch t (ks'.drop (nibble k s')), (Trie.branch t (ks'.drop (nibble k s'))).any)
              else .error .broken
where
  /-- The loops of lines 372-391: the subtries that both have, as far as they intersect. -/
  meetKids (go : Trie V → Trie V → Out (Trie V × Bool)) : Kids V → Kids V → Out (Kids V)
    | .nil, _ => .ok .nil
    | .cons p t r, js =>
      match js.get p with
      | none => meetKids go r js
      | some u =>
        match go t u with
        | .error f => .error f
        | .ok (t', ok) =>
          match meetKids go r js with
          | .error f => .error f
          | .ok q => .ok (if ok then .cons p t' q else q)

mutual
/-- The number of nodes. -/
def Trie.size : Trie V → Nat
  | .leaf _ _ => 1
  | .branch _ ks => ks.size + 1
def Kids.size : Kids V → Nat
  | .nil => 0
  | .cons _ t r => t.size + r.size
end

/-- `np_cupidtrie_intersect`, src/util/np_cupidtrie.c:589-599, on two tries: with a null pointer as other trie nothing happens (line 358), and the result of
the work is not looked at (line 617). -/
def Root.intersect (combine : V → V → V × Bool) : Root V → Root V → Out (Root V)
  | .null, _ => .ok .null
  | r, .null => .ok r
  | .node t, .node u =>
    match meet combine (t.size + u.size + 1) t u with
    | .error f => .error f
    | .ok (t', _) => .ok (.node t')
  | r, _ => .ok r

/-! ## The filter -/

/-- A word of a key: four bytes, the lowest first. -/
def word (k : List Byte) : Nat := (k.getD 0 0).toNat + 256 * (k.getD 1 0).toNat + 65536 * (k.getD 2 0).toNat + 16777216 * (k.getD 3 0).toNat

/-- The bit of a word within its block, src/util/np_cupidbloom.c:21-24, 80-82: the word divided by its upper 24 bits, modulo 256. None if they are 0: the
division is by 0. -/
def bitOf (k : List Byte) : Option Nat := if word k >>> 8 = 0 then none else some ((word k / (word k >>> 8)) &&& 0xFF)

/-- The blocks: 256 bits; `none` is the null pointer of a new slot. -/
abbrev Block := Option Nat

/-- The slot after `np_cupidbloom_add` set a bit. -/
def addBit (b : Nat) (x : Block) : Block := some (x.getD 0 ||| (1 <<< b))

/-- `np_cupidbloom_add`, src/util/np_cupidbloom.c:65-85, for the eight words of a key. Simplified: the division comes
before the insertion. -/
def bloomAdd (r : Root Block) : List (List Byte) → Out (Root Block)
  | [] => .ok r
  | k :: ks =>
    match bitOf k with
    | none => .error .divide
    | some b =>
      match r.insert none k (addBit b) with
      | .error f => .error f
      | .ok r' => bloomAdd r' ks

/-- `np_cupidbloom_check`, src/util/np_cupidbloom.c:92-105. -/
def bloomCheck (r : Root Block) : List (List Byte) → Out Bool
  | [] => .ok true
  | k :: ks =>
    match r.find k with
    | none => .ok false
    | some x =>
      match bitOf k with
      | none => .error .divide
      | some b => if (x.getD 0).testBit b then bloomCheck r ks else .ok false

end Np.Trie
