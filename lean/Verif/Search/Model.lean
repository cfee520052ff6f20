import Verif.Dhkey.Model

/-!
# Model of the search node, `framework/search/np_search.c`

Modelled: the choice of tables, adding entries, queries, the collection of results, what the application gets, queries and results of other
nodes, the table of search peers and the choice of peers.  The tables are taken as maps (their tries are area Trie, which shows for which keys
that is right); the order in which a table is walked is that of insertion.  Left out: making an index from a text (areas Sketch and Bloom), the
aging of entries, the transport of the messages, floating point rounding (quotients are compared exactly).
-/
namespace Np.Search

/-- The ways in which the program ends or leaves the language. -/
inductive Fault
  | divisionByZero
  /-- An array is read or written outside its bounds. -/
  | outOfBounds
  /-- A shift by the width of the word or more. -/
  | badShift
  | nullPointer
  | useAfterFree
  deriving DecidableEq, Repr

/-! ## Bits of keys -/

/-- `__builtin_popcount`. -/
def ones (w : BitVec 32) : Nat := (List.range 32).countP fun i => w.getLsbD i

/-- Ones of a key, counted in a `uint8_t`: `_np_dhkey_hamming_distance` from the key zero, src/np_dhkey.c:328-359. -/
def weight (k : Dhkey) : Nat := ((k.words.map ones).sum) % 256

/-- `_np_dhkey_hamming_distance`, src/np_dhkey.c:328-359: the result is a `uint8_t`. -/
def distance (a b : Dhkey) : Nat := weight (a.xor b)

/-- One word shifted, with the bits carried over from the next one, src/np_dhkey.c:246-250. -/
def shiftWord (bits : Nat) (w next : BitVec 32) : BitVec 32 := (w <<< bits) ||| (next >>> (32 - bits))

/-- `_np_dhkey_rotate_left`, src/np_dhkey.c:241-279.  The mask is shifted by `32 - bits` (a `uint8_t`): only 1 to 31 are in the language. -/
def rotate (bits : Nat) (k : Dhkey) : Except Fault Dhkey :=
  if bits = 0 ∨ 32 ≤ bits then .error .badShift
  else .ok ⟨shiftWord bits k.t0 k.t1, shiftWord bits k.t1 k.t2, shiftWord bits k.t2 k.t3, shiftWord bits k.t3 k.t4, shiftWord bits k.t4 k.t5,
    shiftWord bits k.t5 k.t6, shiftWord bits k.t6 k.t7, shiftWord bits k.t7 k.t0⟩

/-! ## Primes -/

/-- `__is_prime`, framework/search/np_search.c:1506-1515, for numbers without the factors 2 and 3; `o` alternates between 4 and 2.  The bound of
the recursion is larger than the number of rounds. -/
def isPrimeLoop : Nat → Nat → Nat → Nat → Bool
  | 0, _, _, _ => true
  | f + 1, x, i, o =>
    if x / i < i then true
    else if x = x / i * i then false
    else isPrimeLoop f x ((i + (6 - o)) % 256) (6 - o)

def isPrime (x : Nat) : Bool := isPrimeLoop 64 x 5 4

/-- The loop in `__get_next_prime`, framework/search/np_search.c:1527-1528, in `uint8_t`; `i` alternates between 2 and 4. -/
def nextPrimeLoop : Nat → Nat → Nat → Nat
  | 0, number, _ => number
  | f + 1, number, i => if isPrime number then number else nextPrimeLoop f ((number + (6 - i)) % 256) (6 - i)

/-- `__get_next_prime`, framework/search/np_search.c:1517-1530. -/
def nextPrime (number : Nat) : Nat :=
  if number ≤ 2 then 2
  else if number = 3 then 3
  else if number ≤ 5 then 5
  else
    let k := number / 6
    let o := if number - 6 * k < 2 then 1 else 5
    nextPrimeLoop 256 ((6 * k + o) % 256) ((3 + o) / 2)

/-! ## Entries -/

/-- The counts of a neuropil bloom filter, in the order of its cells. -/
abbrev Filter := List Nat

/-- The sums of the smaller and of the larger counts, src/util/np_bloom.c:1389-1412 (cells where one count is zero add nothing to the first). -/
def sums : Filter → Filter → Nat × Nat
  | a :: as, b :: bs => (min a b + (sums as bs).1, max a b + (sums as bs).2)
  | _, _ => (0, 0)

/-- `_np_neuropil_bloom_similarity`, src/util/np_bloom.c:1377-1415: numerator and denominator; the sums are `uint16_t`. -/
def similarity (a b : Filter) : Nat × Nat :=
  let i := (sums a b).1 % 65536
  let u := (sums a b).2 % 65536
  if 0 < u then (i, u) else (0, 1)

/-- One fraction is larger than another. -/
def larger (a b : Nat × Nat) : Bool := decide (b.1 * a.2 < a.1 * b.2)

/-- `np_searchentry_t`, framework/search/np_search.h:36-46: the index, the filter, the subject of the intent. -/
structure Entry where
  index : Dhkey
  filter : Filter
  subject : List Char
  deriving DecidableEq

/-- `np_searchquery_t`, framework/search/np_search.h:48-54. -/
structure Query where
  id : Nat
  uuid : Nat
  target : Nat × Nat
  index : Dhkey
  filter : Filter

/-- `_cmp_all_searchentries` returns 0, framework/search/np_search.c:209-240: `_dist_common / _dist_diff > 0.66`. -/
def near (q e : Dhkey) : Bool :=
  let common := weight (q.and e)
  let diff := weight (q.xor e)
  decide (0 < common) && (decide (diff = 0) || decide (66 * diff < 100 * common))

/-- An entry is taken by `map`, framework/search/np_search.c:337-381. -/
def matches? (q : Query) (e : Entry) : Bool := near q.index e.index && larger (similarity e.filter q.filter) q.target

/-- `np_searchresult_t`, framework/search/np_search.h:56-66; `hits` is a `uint8_t`. -/
structure Result where
  label : List Char
  hits : Nat
  level : Nat × Nat
  entry : Entry
  deriving DecidableEq

/-- The tree of results, by subject. -/
abbrev Results := List Result

/-- `_reduce_np_searchentry`, framework/search/np_search.c:383-415. -/
def reduce (f : Filter) (rs : Results) (e : Entry) : Results :=
  match rs with
  | [] => [{ label := e.subject, hits := 1, level := similarity f e.filter, entry := e }]
  | r :: rest =>
    if r.label = e.subject then
      { r with hits := (r.hits + 1) % 256, level := if larger (similarity f e.filter) r.level then similarity f e.filter else r.level } :: rest
    else r :: reduce f rest e

/-! ## The node -/

/-- A table: a map from the index to the entry. -/
abbrev Table := List Entry

/-- `np_cupidtrie_insert` and the assignment after it, framework/search/np_search.c:1300-1315: an entry with the same index is replaced. -/
def Table.put (t : Table) (e : Entry) : Table := t.filter (fun x => x.index ≠ e.index) ++ [e]

/-- `struct search_pipeline_result`, framework/search/np_search.c:101-117, of a query. -/
structure Pipe where
  uuid : Nat
  start : Nat
  stop : Nat
  deriving DecidableEq

/-- `np_searchnode_t` and the module, framework/search/np_search.c:48-84.  `server`: `node_type` is `SEARCH_NODE_SERVER`. -/
structure Node where
  id : Dhkey
  server : Bool
  count : Nat
  shift : Nat
  tables : Nat → Table
  results : Nat → Option Results
  queries : Nat → Option Query
  nextId : Nat
  pipes : List Pipe

/-- `np_searchnode_init`, framework/search/np_search.c:1551-1611; `BKTREE_ARRAY_SIZE` is 32, the quotient becomes a `uint8_t`. -/
def Node.init (id : Dhkey) (server : Bool) (count : Nat) : Except Fault Node :=
  if count = 0 then .error .divisionByZero
  else if 32 < count then .error .outOfBounds
  else .ok { id := id, server := server, count := count, shift := nextPrime (256 / count % 256), tables := fun _ => [], results := fun _ => none,
             queries := fun _ => none, nextId := 0, pipes := [] }

/-- `max_query_count`, `max_create_count`, framework/search/np_search.c:1019-1022, 1226-1229. -/
def Node.used (n : Node) : Nat := if n.count < 16 then n.count else 16

/-- The keys of the tables: the id of the node rotated again and again, framework/search/np_search.c:1029-1034, 1237-1243. -/
def positions (shift : Nat) : Nat → Dhkey → Except Fault (List Dhkey)
  | 0, _ => .ok []
  | k + 1, key =>
    match rotate shift key with
    | .error f => .error f
    | .ok r =>
      match positions shift k r with
      | .error f => .error f
      | .ok l => .ok (r :: l)

/-- The buckets: distance and number of each table, framework/search/np_search.c:1027-1045, 1234-1253.  All rounds of the outer loop compute the
same. -/
def buckets (index : Dhkey) (l : List Dhkey) : List (Nat × Nat) := l.zipIdx.map fun p => (distance index p.1, p.2)

/-- `qsort` by the distance, framework/search/np_search.c:1047-1050, 1255-1258. -/
def insertBucket (b : Nat × Nat) : List (Nat × Nat) → List (Nat × Nat)
  | [] => [b]
  | c :: r => if b.1 ≤ c.1 then b :: c :: r else c :: insertBucket b r

def sortBuckets : List (Nat × Nat) → List (Nat × Nat)
  | [] => []
  | b :: r => insertBucket b (sortBuckets r)

/-- The tables an entry is put in, framework/search/np_search.c:1275-1325: the first ones of equal distance.  If that is all, the condition of the
loop reads the bucket after the last one. -/
def chosen (sorted : List (Nat × Nat)) : Except Fault (List Nat) :=
  match sorted with
  | [] => .error .outOfBounds
  | b :: r =>
    if (r.all fun c => c.1 == b.1) then .error .outOfBounds
    else .ok (((b :: r).takeWhile fun c => c.1 == b.1).map Prod.snd)

/-- `__np_search_add_entry`, framework/search/np_search.c:1183-1333; `remote`: to how many peers the entry was sent. -/
def Node.store (n : Node) (e : Entry) (remote : Nat) : Except Fault Node :=
  if remote ≤ 6 then
    match positions n.shift n.used n.id with
    | .error f => .error f
    | .ok l =>
      match chosen (sortBuckets (buckets e.index l)) with
      | .error f => .error f
      | .ok ts => .ok { n with tables := fun i => if i ∈ ts then (n.tables i).put e else n.tables i }
  else .ok n

/-- `np_search_add_entry` and `pysearch_entry`, framework/search/np_search.c:2451-2506, 2896-2923.  An entry that was sent to more than six peers
is freed, 1323-1331, and read again afterwards, 2914-2917. -/
def Node.add (n : Node) (e : Entry) (remote : Nat) : Except Fault Node :=
  if n.server then
    if 6 < remote then .error .useAfterFree else n.store e remote
  else .ok n

/-- One table is searched: `np_cupidtrie_map_reduce`, src/util/np_cupidtrie.c:687-708 with 658-685. -/
def searchTable (q : Query) (rs : Results) (t : Table) : Results := (t.filter fun e => matches? q e).foldl (reduce q.filter) rs

/-- The tables are searched one after the other, framework/search/np_search.c:1065-1101. -/
def searchTables (q : Query) (tables : Nat → Table) : List Nat → Results → Results
  | [], rs => rs
  | i :: r, rs => searchTables q tables r (searchTable q rs (tables i))

/-- `__np_search_query`, framework/search/np_search.c:937-1181.  `sender`: `sending_peer_dhkey` of the pipeline.  The messages sent are those in
the second component.  There are 255 places for results and their locks. -/
def Node.search (n : Node) (q : Query) (sender : Dhkey) (remote : Nat) : Except Fault (Node × List (Dhkey × Result)) :=
  if sender = Dhkey.zero ∧ 255 ≤ q.id then .error .outOfBounds
  else
    let start : Results := if sender = Dhkey.zero then (n.results q.id).getD [] else []
    if remote ≤ 6 then
      match positions n.shift n.used n.id with
      | .error f => .error f
      | .ok l =>
        let found := searchTables q n.tables ((sortBuckets (buckets q.index l)).map Prod.snd) start
        if sender = Dhkey.zero then
          .ok ({ n with results := fun i => if i = q.id then (n.results i).map (fun _ => found) else n.results i }, [])
        else .ok (n, found.map fun r => (sender, r))
    else .ok (n, [])

/-- `np_create_searchquery`, framework/search/np_search.c:2331-2448: the number of the query.  `query_id` is a `uint8_t`. -/
def Node.newId (n : Node) : Nat × Node := (n.nextId, { n with nextId := (n.nextId + 1) % 256 })

/-- `np_search_query`, framework/search/np_search.c:2509-2593. -/
def Node.query (n : Node) (q : Query) (remote now : Nat) : Except Fault Node :=
  if 255 ≤ q.id then .error .outOfBounds
  else
    let n' : Node := { n with queries := fun i => if i = q.id then some q else n.queries i
                              results := fun i => if i = q.id then some [] else n.results i
                              pipes := n.pipes ++ [{ uuid := q.uuid, start := now, stop := now }] }
    if n.server then (n'.search q Dhkey.zero remote).map Prod.fst else .ok n'

/-- `pysearch_query`, framework/search/np_search.c:2927-2953: a new query with the next number. -/
def Node.ask (n : Node) (uuid : Nat) (target : Nat × Nat) (index : Dhkey) (filter : Filter) (remote now : Nat) : Except Fault Node :=
  n.newId.2.query { id := n.newId.1, uuid := uuid, target := target, index := index, filter := filter } remote now

/-- A query from another node: `_np_new_searchquery_cb`, `__np_search_query`, framework/search/np_search.c:2703-2747.  The id of the sender is not
taken from the message: it is zero (2719-2721).  `none`: the message has not all parts, 2731-2736. -/
def Node.remoteQuery (n : Node) (q : Option Query) (remote : Nat) : Except Fault (Node × List (Dhkey × Result)) :=
  match q with
  | none => .error .nullPointer
  | some q => n.search q Dhkey.zero remote

/-- An entry from another node: `_np_new_searchentry_cb`, `__np_search_add_entry`, framework/search/np_search.c:2662-2701. -/
def Node.remoteEntry (n : Node) (e : Option Entry) (remote : Nat) : Except Fault Node :=
  match e with
  | none => .error .nullPointer
  | some e => n.store e remote

/-- A result from another node: `_np_searchresult_receive_cb`, framework/search/np_search.c:2772-2878.  The pipeline is found by the uuid in the
message, the query by the number in the message. -/
def Node.receive (n : Node) (uuid id : Nat) (e : Entry) : Except Fault Node :=
  match n.pipes.find? (fun p => p.uuid = uuid) with
  | none => .ok n
  | some p =>
    if p.start < p.stop then .ok n
    else if 255 ≤ id then .error .outOfBounds
    else
      match n.queries id, n.results id with
      | some q, some rs => .ok { n with results := fun i => if i = id then some (reduce q.filter rs e) else n.results i }
      | _, _ => .error .nullPointer

/-- The insertion into the tree for the application, framework/search/np_search.c:2637-2639: by the number of hits; if there is one already
nothing happens (src/util/np_tree.c:356-372). -/
def byHits (out : Results) (r : Result) : Results := if out.any (fun x => x.hits == r.hits) then out else out ++ [r]

/-- `np_search_get_resultset`, framework/search/np_search.c:2595-2654.  `none`: the function returns false. -/
def Node.collect (n : Node) (uuid id now : Nat) : Except Fault (Node × Option Results) :=
  match n.pipes.find? (fun p => p.uuid = uuid) with
  | none => .error .nullPointer
  | some _ =>
    if 255 ≤ id then .error .outOfBounds
    else
      let n' : Node := { n with pipes := n.pipes.map fun p => if p.uuid = uuid then { p with stop := now } else p }
      match n.results id with
      | none => .error .nullPointer
      | some rs => if rs = [] then .ok (n', none) else .ok (n', some (rs.foldl byHits []))

/-- `__np_search_cleanup_pipeline`, framework/search/np_search.c:128-148: the first expired one is removed.  `NP_SEARCH_CLEANUP_INTERVAL` is 60. -/
def Node.cleanup (n : Node) (now : Nat) : Node := { n with pipes := n.pipes.eraseP fun p => decide (p.stop + 60 < now) }

/-! ## Search peers -/

/-- `peers[8][32]`: `dhkey_zero` is an empty place. -/
abbrev Peers := Nat → Nat → Dhkey

/-- `_np_dhkey_hamming_distance_each`, src/np_dhkey.c:361-394: the distance of the words with number `j`. -/
def rowDistance (a b : Dhkey) (j : Nat) : Nat := ones ((a.xor b).words.getD j 0)

/-- The loop over the rows in `__np_search_authorize_node_cb`, framework/search/np_search.c:635-738. -/
def authorizeRows (self peer : Dhkey) : List Nat → Peers → Except Fault Peers
  | [], p => .ok p
  | j :: r, p =>
    let i := rowDistance peer self j
    if 32 ≤ i then .error .outOfBounds
    else if distance peer self < distance (p j i) self ∨ p j i = Dhkey.zero then
      authorizeRows self peer r fun a b => if a = j ∧ b = i then peer else p a b
    else authorizeRows self peer r p

/-- `__np_search_authorize_node_cb`, framework/search/np_search.c:525-744.  `peer`, `typeSize`: the attributes of the token (`none` if there is
none).  `known`: the answer of the filter of known peers. -/
def authorize (self : Dhkey) (p : Peers) (peer : Option Dhkey) (typeSize : Option Nat) (known : Bool) : Except Fault Peers :=
  match peer, typeSize with
  | some k, some s =>
    if k = self ∨ k = Dhkey.zero then .ok p
    else if 22 ≤ s then .error .outOfBounds
    else if known then .ok p
    else authorizeRows self k (List.range 8) p
  | _, _ => .ok p

/-- The walk through a row in `__check_remote_peer_distribution`, framework/search/np_search.c:1387-1420: from `index` towards `stop`, remembering
the best place so far and its distance.  The bound of the recursion is the number of places. -/
def walk (p : Nat → Dhkey) (key : Dhkey) (j : Nat) (up : Bool) (stop : Nat) : Nat → Nat → Option Nat → Nat → Except Fault (Option Nat)
  | 0, _, best, _ => .ok best
  | f + 1, index, best, target =>
    if index = 0 then .ok best
    else if 32 ≤ index then .error .outOfBounds
    else
      let d := rowDistance key (p index) j
      let better : Bool := decide (p index ≠ Dhkey.zero) && decide (d < target)
      let best' := if better then some index else best
      let target' := if better then d else target
      let next := if index = stop then 0 else if up then index + 1 else index - 1
      walk p key j up stop f (if 32 ≤ next then 0 else next) best' target'

/-- One row of `__check_remote_peer_distribution`, framework/search/np_search.c:1367-1428: the place of the peer that gets the object. -/
def choose (self : Dhkey) (p : Peers) (key : Dhkey) (j : Nat) : Except Fault (Option Nat) :=
  let mine := rowDistance key self j
  if 32 ≤ mine then .error .outOfBounds
  else
    let first := rowDistance key (p j mine) j
    walk (p j) key j (decide (first < mine)) mine 33 first none mine

/-- The key by which the peers for an object are chosen: for one of another node its index (2686-2687, 2729-2730), for one of the own application
`search_index` is never set and zero, framework/search/np_search.c:2451-2506, 2509-2593. -/
def routingKey (own : Bool) (index : Dhkey) : Dhkey := if own then Dhkey.zero else index

end Np.Search
