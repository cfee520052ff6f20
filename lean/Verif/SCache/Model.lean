/-! # Model of the simple cache, src/util/np_scache.c

`none` stands for undefined behaviour: a key buffer that ends before its 32nd byte, a table without buckets.  Values are pointers,
here of an arbitrary type. -/
namespace Np.SCache

/-- `NP_FINGERPRINT_BYTES`, include/neuropil.h. -/
def keyBytes : Nat := 32

abbrev Bytes := List (BitVec 8)

/-- `np_simple_cache_table_t`, include/util/np_scache.h:50-56: the buckets are singly linked lists of a key and a value.  The time of
insertion is not read by any function.  The spin locks serialise the operations on a bucket. -/
structure Table (α : Type) where
  size : Nat
  bucket : Nat → List (Bytes × α)

/-- `np_cache_init`, src/util/np_scache.c:29-42. -/
def Table.init (α : Type) (size : Nat) : Table α := { size := size % 65536, bucket := fun _ => [] }

/-- The bucket of a key, src/util/np_scache.c:70-78; `hash` is siphash with the seed of the table. -/
def Table.index {α : Type} (hash : Bytes → Nat) (t : Table α) (key : Bytes) : Option Nat :=
  if key.length < keyBytes ∨ t.size = 0 then none else some (hash (key.take keyBytes) % 65536 % t.size)

/-- The search loop, src/util/np_scache.c:84-93 and 128-136: `memcmp` of 32 bytes. -/
def search {α : Type} (key : Bytes) : List (Bytes × α) → Option α
  | [] => none
  | (k, v) :: r => if k.take keyBytes = key.take keyBytes then some v else search key r

/-- `np_simple_cache_get`, src/util/np_scache.c:62-97: the result, and what is written to `*value` if anything. -/
def get {α : Type} (hash : Bytes → Nat) (t : Table α) (key : Bytes) : Option (Option α) :=
  (t.index hash key).map fun b => search key (t.bucket b)

/-- `np_simple_cache_add`, src/util/np_scache.c:99-150. -/
def add {α : Type} (hash : Bytes → Nat) (t : Table α) (key : Bytes) (v : α) : Option (Table α × Bool) :=
  (t.index hash key).map fun b =>
    match search key (t.bucket b) with
    | some _ => (t, false)
    | none => ({ t with bucket := fun j => if j = b then t.bucket b ++ [(key.take keyBytes, v)] else t.bucket j }, true)

/-- A sequence of insertions. -/
def run {α : Type} (hash : Bytes → Nat) : Table α → List (Bytes × α) → Option (Table α)
  | t, [] => some t
  | t, (k, v) :: r => (add hash t k v).bind fun x => run hash x.1 r

end Np.SCache
