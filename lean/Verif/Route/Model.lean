import Verif.Dhkey.Model

/-!
# Model of `src/np_route.c`, of the sorting and search of keys in `src/np_keycache.c`, and of the callers in
`src/core/np_comp_node.c`

Keys are represented by their `dhkey`; two keys with the same id are the same object (the key cache guarantees this).
Latency and success rate of nodes are arbitrary: comparisons of these floating point numbers are parameters.
Every function runs in the lock of the routing module; the flags of the nodes are read and written together with it (the
code comments that the lock of the other node is missing, this race is not modelled).
Lists are sequences: the list operations used here are covered by `Verif/Lists`.
-/
namespace Np.Route

open Np.Dhkey

/-! ## Sorting and searching, src/np_keycache.c -/

variable {α : Type}

/-- The inner loop of `_np_keycache_sort_keys_kd`, src/np_keycache.c:524-538: exchange `curr` with the first later element
that is nearer (`lt`).  The result is the new value of `curr` and the rest of the list. -/
def swapFirst (lt : α → α → Bool) (curr : α) : List α → Option (α × List α)
  | [] => none
  | y :: r =>
    if lt y curr then some (y, curr :: r)
    else match swapFirst lt curr r with
      | some (z, r') => some (z, y :: r')
      | none => none

/-- One round of `_np_keycache_sort_keys_kd`, src/np_keycache.c:516-540, and the flag `swap`.  The first argument is the
number of elements. -/
def pass (lt : α → α → Bool) : Nat → List α → List α × Bool
  | n + 1, x :: r =>
    match swapFirst lt x r with
    | some (y, r') => (y :: (pass lt n r').1, true)
    | none => (x :: (pass lt n r).1, (pass lt n r).2)
  | _, l => (l, false)

/-- The `do … while (swap)` loop of `_np_keycache_sort_keys_kd`, src/np_keycache.c:515-541, with at most `n` rounds. -/
def sortLoop (lt : α → α → Bool) : Nat → List α → List α
  | 0, l => l
  | n + 1, l => if (pass lt l.length l).2 then sortLoop lt n (pass lt l.length l).1 else (pass lt l.length l).1

/-- `_np_dhkey_cmp(&dif2, &dif1) < 0` with the distances to `key`. -/
def nearer (key a b : Dhkey) : Bool := cmp (distance a key) (distance b key) < 0

/-- `_np_keycache_sort_keys_kd`, src/np_keycache.c:505-542.  The loop ends after at most `n * n + 1` rounds, which is
proved (`sortLoop_sorted`). -/
def sortKd (key : Dhkey) (l : List Dhkey) : List Dhkey := sortLoop (nearer key) (l.length * l.length + 1) l

/-- The inner loop of `_np_keycache_sort_keys_cpm`, src/np_keycache.c:482-498: the final value at `iter1` and the rest. -/
def bubble (lt : α → α → Bool) (x : α) : List α → α × List α
  | [] => (x, [])
  | y :: r =>
    if lt y x then ((bubble lt y r).1, x :: (bubble lt y r).2)
    else ((bubble lt x r).1, y :: (bubble lt x r).2)

/-- The outer loop of `_np_keycache_sort_keys_cpm`, src/np_keycache.c:477-499.  The first argument is the number of
elements. -/
def selectSort (lt : α → α → Bool) : Nat → List α → List α
  | n + 1, x :: r => (bubble lt x r).1 :: selectSort lt n (bubble lt x r).2
  | _, l => l

/-- The comparison of `_np_keycache_sort_keys_cpm`, src/np_keycache.c:483-497: longer common prefix, then nearer. -/
def better (key a b : Dhkey) : Bool :=
  if index key a > index key b then true
  else if index key b = index key a then cmp (distance a key) (distance b key) < 0
  else false

/-- `_np_keycache_sort_keys_cpm`, src/np_keycache.c:465-500. -/
def sortCpm (key : Dhkey) (l : List Dhkey) : List Dhkey := selectSort (better key) l.length l

/-- The loop of `_np_keycache_find_closest_key_to`, src/np_keycache.c:445-457, with the state `(min_key, minDif)`, which is
`none` in the first run. -/
def closestLoop (key : Dhkey) : Option (Dhkey × Dhkey) → List Dhkey → Option (Dhkey × Dhkey)
  | s, [] => s
  | none, x :: r => closestLoop key (some (x, distance key x)) r
  | some (m, d), x :: r =>
    if cmp (distance key x) d ≤ 0 then closestLoop key (some (x, distance key x)) r else closestLoop key (some (m, d)) r

/-- `_np_keycache_find_closest_key_to`, src/np_keycache.c:431-460. -/
def closest (key : Dhkey) (l : List Dhkey) : Option Dhkey := (closestLoop key none l).map (·.1)

/-! ## Leafset -/

/-- The leafset part of `np_module_struct(route)`, src/np_route.c:36-53. -/
structure Leafset where
  me : Dhkey
  cap : Nat
  left : List Dhkey := []
  right : List Dhkey := []
  lrange : Dhkey
  rrange : Dhkey

/-- `_np_route_init`, src/np_route.c:87-120. -/
def Leafset.init (me : Dhkey) (cap : Nat) : Leafset := { me := me, cap := cap, lrange := me, rrange := me }

/-- `_np_route_leafset_range_update`, src/np_route.c:667-684. -/
def Leafset.rangeUpdate (s : Leafset) : Leafset :=
  { s with rrange := s.right.getLast?.getD s.me, lrange := s.left.getLast?.getD s.me }

/-- Insert into one side if `room`, and cut it to its size: src/np_route.c:252-272 and 276-293.  The result is the side,
`add_to` and `deleted_from`. -/
def insertSide (me : Dhkey) (cap : Nat) (room : Bool) (side : List Dhkey) (x : Dhkey) :
    List Dhkey × Option Dhkey × Option Dhkey :=
  if room then
    if (sortKd me (x :: side)).length > cap then
      ((sortKd me (x :: side)).dropLast, some x, (sortKd me (x :: side)).getLast?)
    else (sortKd me (x :: side), some x, none)
  else if side.length > cap then (side.dropLast, none, side.getLast?)
  else (side, none, none)

/-- The end of `_np_route_leafset_update`, src/np_route.c:294-319. -/
def Leafset.finish (s : Leafset) (added deleted : Option Dhkey) : Leafset × Option Dhkey × Option Dhkey :=
  if deleted.isSome ∧ deleted = added then (s, none, none)
  else if deleted.isSome ∨ added.isSome then (s.rangeUpdate, added, deleted)
  else (s, none, none)

/-- `_np_route_leafset_update` with `joined`, src/np_route.c:185-332. -/
def Leafset.join (s : Leafset) (x : Dhkey) : Leafset × Option Dhkey × Option Dhkey :=
  if x = s.me then (s, none, none)
  else if x ∈ s.right ∨ x ∈ s.left then (s, none, none)
  else if between x s.me (add s.me half) true then
    let r := insertSide s.me s.cap (decide (s.right.length < s.cap) || between x s.me s.rrange false) s.right x
    Leafset.finish { s with right := r.1 } r.2.1 r.2.2
  else
    let l := insertSide s.me s.cap (decide (s.left.length < s.cap) || between x s.lrange s.me false) s.left x
    Leafset.finish { s with left := l.1 } l.2.1 l.2.2

/-- `_np_route_leafset_update` without `joined`, src/np_route.c:185-332. -/
def Leafset.leave (s : Leafset) (x : Dhkey) : Leafset × Option Dhkey × Option Dhkey :=
  if x = s.me then (s, none, none)
  else if x ∈ s.right then Leafset.finish { s with right := s.right.erase x } none (some x)
  else if x ∈ s.left then Leafset.finish { s with left := s.left.erase x } none (some x)
  else (s, none, none)

/-! ## Routing table -/

/-- `table[NP_ROUTES_TABLE_SIZE]`, src/np_route.c:40. -/
abbrev Table := Nat → Option Dhkey

/-- `__MAX_COL`, `__MAX_ENTRY`, include/np_settings.h:325-327. -/
def maxCol : Nat := 16
def maxEntry : Nat := 3

def Table.set (t : Table) (i : Nat) (v : Option Dhkey) : Table := fun j => if j = i then v else t j

/-- The index of the first entry for `x`, src/np_route.c:788-793.  `none`: the assertion fails. -/
def slot (me x : Dhkey) : Option Nat :=
  match hexalphaAt x (index me x) with
  | some j => some (maxEntry * (j + maxCol * index me x))
  | none => none

inductive Scan
  | empty (k : Nat)
  | present
  | full (slowest : Option (Nat × Dhkey))

/-- The choice of the entry to replace, src/np_route.c:820-840. -/
def slowest (slower : Dhkey → Dhkey → Bool) (k : Nat) (y : Dhkey) : Option (Nat × Dhkey) → Option (Nat × Dhkey)
  | none => some (k, y)
  | some (p, z) => if slower y z then some (k, y) else some (p, z)

/-- The loop of `_np_route_update` for a join, src/np_route.c:802-843.  `slower a b`: the latency of `a` is higher. -/
def scan (t : Table) (slower : Dhkey → Dhkey → Bool) (x : Dhkey) (base : Nat) :
    List Nat → Option (Nat × Dhkey) → Scan
  | [], s => .full s
  | k :: ks, s =>
    match t (base + k) with
    | none => .empty k
    | some y =>
      if equal y x then .present
      else scan t slower x base ks (slowest slower k y s)

/-- `_np_route_update` with `joined`, src/np_route.c:762-898: the table, `added` and `deleted`.  `faster x y`: the latency of
`y` exceeds that of `x` by more than π/1000. -/
def tableJoin (me : Dhkey) (t : Table) (slower faster : Dhkey → Dhkey → Bool) (x : Dhkey) :
    Table × Option Dhkey × Option Dhkey :=
  if equal me x then (t, none, none)
  else match slot me x with
    | none => (t, none, none)
    | some base =>
      match scan t slower x base (List.range maxEntry) none with
      | .empty k => (t.set (base + k) (some x), some x, none)
      | .present => (t, none, none)
      | .full none => (t, none, none)
      | .full (some (k, y)) => if faster x y then (t.set (base + k) (some x), some x, some y) else (t, none, none)

/-- The loop of `_np_route_update` for a leave, src/np_route.c:865-879. -/
def removeScan (t : Table) (x : Dhkey) (base : Nat) : List Nat → Option Nat
  | [] => none
  | k :: ks =>
    match t (base + k) with
    | some y => if equal y x then some k else removeScan t x base ks
    | none => removeScan t x base ks

/-- `_np_route_update` without `joined`. -/
def tableLeave (me : Dhkey) (t : Table) (x : Dhkey) : Table × Option Dhkey × Option Dhkey :=
  if equal me x then (t, none, none)
  else match slot me x with
    | none => (t, none, none)
    | some base =>
      match removeScan t x base (List.range maxEntry) with
      | some k => (t.set (base + k) none, none, some x)
      | none => (t, none, none)

/-! ## The routing module and the flags of the nodes -/

/-- `np_module_struct(route)`, src/np_route.c:36-53, with the flags `is_in_routing_table` and `is_in_leafset` of all
nodes. -/
structure State where
  leaf : Leafset
  table : Table := fun _ => none
  count : Nat := 0
  inTable : Dhkey → Bool := fun _ => false
  inLeaf : Dhkey → Bool := fun _ => false

def State.init (me : Dhkey) (cap : Nat) : State := { leaf := Leafset.init me cap }

def setFlag (f : Dhkey → Bool) (x : Option Dhkey) (v : Bool) : Dhkey → Bool :=
  match x with
  | none => f
  | some x => fun y => if y = x then v else f y

/-- The counter `route_count`, a `uint16_t`, src/np_route.c:888-898. -/
def countUpdate (n : Nat) (added deleted : Option Dhkey) : Nat :=
  let n := if added.isSome then (n + 1) % 65536 else n
  if deleted.isSome then (n + 65535) % 65536 else n

inductive Op
  /-- `__np_node_update`, src/core/np_comp_node.c:857-884: a connection works long enough -/
  | joinTable (x : Dhkey) (slower faster : Dhkey → Dhkey → Bool)
  /-- `__np_node_remove_from_routing_table`, src/core/np_comp_node.c:617-649 -/
  | leaveTable (x : Dhkey)
  /-- `__np_node_add_to_leafset`, src/core/np_comp_node.c:541-580 -/
  | joinLeaf (x : Dhkey)
  /-- `__np_node_remove_from_routing_leafset`, src/core/np_comp_node.c:582-615 -/
  | leaveLeaf (x : Dhkey)

def step (s : State) : Op → State
  | .joinTable x slower faster =>
    if s.inTable x then s
    else
      let r := tableJoin s.leaf.me s.table slower faster x
      { s with table := r.1, count := countUpdate s.count r.2.1 r.2.2,
               inTable := setFlag (setFlag s.inTable r.2.1 true) r.2.2 false }
  | .leaveTable x =>
    if s.inTable x then
      let r := tableLeave s.leaf.me s.table x
      { s with table := r.1, count := countUpdate s.count r.2.1 r.2.2, inTable := setFlag s.inTable r.2.2 false }
    else s
  | .joinLeaf x =>
    if s.inLeaf x then s
    else
      let r := s.leaf.join x
      { s with leaf := r.1,
               inLeaf := setFlag (if r.2.1.isSome then setFlag s.inLeaf (some x) true else s.inLeaf) r.2.2 false }
  | .leaveLeaf x =>
    if s.inLeaf x then
      let r := s.leaf.leave x
      { s with leaf := r.1, inLeaf := setFlag s.inLeaf r.2.2 false }
    else s

def run : State → List Op → State
  | s, [] => s
  | s, op :: r => run (step s op) r

/-- `_np_route_has_connection`, src/np_route.c:914-919, with `_np_get_route_count` and `_np_route_count_neighbors`. -/
def hasConnection (s : State) : Bool := decide (s.count + (s.leaf.left.length + s.leaf.right.length) > 0)

/-! ## Selection of the next hop -/

/-- The entries of the cell that begins at `base`. -/
def cell (t : Table) (base : Nat) : List Dhkey := (List.range maxEntry).filterMap fun k => t (base + k)

/-- The entries of row `i` with a good connection, src/np_route.c:594-614. -/
def goodRow (t : Table) (good : Dhkey → Bool) (i : Nat) : List Dhkey :=
  (List.range maxCol).flatMap fun j => (cell t (maxEntry * (j + maxCol * i))).filter good

/-- The search upwards, src/np_route.c:590-618. -/
def goodRows (t : Table) (good : Dhkey → Bool) : Nat → List Dhkey
  | 0 => goodRow t good 0
  | i + 1 => if goodRow t good (i + 1) = [] then goodRows t good i else goodRow t good (i + 1)

/-- The loop over the cell, src/np_route.c:545-562.  `worse a b`: the metric of `a` is larger. -/
def fastest (worse : Dhkey → Dhkey → Bool) (x : Dhkey) : List Dhkey → Dhkey
  | [] => x
  | y :: r => if !equal y x && worse x y then fastest worse y r else fastest worse x r

/-- `_np_route_lookup`, src/np_route.c:467-659.  `none`: the assertion on the index fails and the process is aborted.
`good`: the success rate is above `BAD_LINK`. -/
def lookup (s : State) (good : Dhkey → Bool) (worse : Dhkey → Dhkey → Bool) (key : Dhkey) (count : Nat) :
    Option (List Dhkey) :=
  if count = 1 ∧ between key s.leaf.lrange s.leaf.rrange true = true then
    some (closest key (s.leaf.right ++ s.leaf.left)).toList
  else match slot s.leaf.me key with
    | none => none
    | some base =>
      match (cell s.table base).find? good with
      | some x =>
        if 1 ≤ count then some [fastest worse x (cell s.table base)]
        else some [s.leaf.me]
      | none =>
        if count = 0 then some [s.leaf.me]
        else
          let l := goodRows s.table good (index s.leaf.me key)
          if count = 1 then some (closest key l).toList
          else some (sortCpm key l).head?.toList

end Np.Route
