# Formal model of pi-lar/neuropil in Lean 4 — design

## Layout

* `properties.jsonl` – the English properties.
* `lean/Verif/<Area>/Model.lean` – executable model of the C code, every definition cites file and lines in `/repo`.
* `lean/Verif/<Area>/Spec.lean` – small, independent specification in terms of maps, lists, sets; no reference to the model's helpers.
* `lean/Verif/<Area>/Lemmas.lean` – helper lemmas.
* `lean/Verif/<Area>/Props.lean` – the property theorems (`Cnn_…`), each followed by an `example` that meets its hypotheses.
* `MANIFEST.json` – property → theorems → status.
* `seeded/LOG.jsonl` – realistic bugs seeded into a scratch copy of the model, and what failed.

## Trusted base

* Lean 4.33.0 kernel. Axioms: every property theorem depends on a subset of `propext`, `Classical.choice`, `Quot.sound`. No own axioms, no `sorry`,
  no `native_decide`, no `bv_decide`.
* Faithfulness of the hand-written model to the C text: the code is neither compiled nor run. Every definition cites the lines it models.
* libsodium, QCBOR, libev, the C allocator, the C library and the OS are not modelled. Hashes, signatures, key exchange and random numbers are
  parameters of the model (arbitrary functions, or functions with an explicitly stated law such as `Spec.Lawful`). QCBOR's source is not in the
  checkout: it is represented by its documented behaviour (RFC 8949, heads of minimal length, 15 levels of nesting, 65534 entries per map), in
  `Verif/Cbor` and `Verif/Ser`; how it writes and reads floating point numbers is the parameter `Lib`.
* `memcmp`, `strncmp`: only the sign of the result is used, taken over unsigned bytes.
* Concurrency: where the code holds a lock around an operation the operation is one atomic step, and theorems quantify over all sequences of
  operations. `JobQueue`, `Mem`, `Life` and `Subj` model individual critical sections (or individual shared accesses) as steps and quantify over
  all interleavings of any number of threads. Data races inside a step, and weak memory, are outside the model.
* `assert` is taken to be active (it aborts). Where out-of-bounds access or another undefined behaviour, an abort or an endless loop is reachable
  it is a distinct outcome (`none`, `Fault`, `Stop`).
* Time is an arbitrary parameter (integers or naturals standing for `double`; only comparison and addition are used). `double` keys of trees are
  integers: multiples of 2^-1074, so comparison is exact; NaN is a separate value.
* The host is little endian.

## Conventions

* A property that the code violates is kept in full; the model proves its negation with a concrete witness (`Cnn_…_refuted`) and the strongest
  true part as `Cnn_…_partial`.

## Plan per property

| id | model | proof |
|----|-------|-------|
| C01 | `np_generate_subject` over 8×32-bit words, hash a parameter | algebra of xor, induction over permutations |
| C02 | hex encoder/decoder on byte lists | round trip by cases on a nibble, induction |
| C03 | `_np_dhkey_cmp` lexicographic loop | induction over words |
| C04 | `_np_dhkey_distance` word-wise | symmetry and bound proved; identity of indiscernibles refuted by witness |
| C05 | `_np_dhkey_between` | refinement to arithmetic on the 256-bit number |
| C06 | `_np_dhkey_index` on the 64 nibbles | induction |
| C07–C12 | byte-level CBOR codec, data block with header, search loop, splice, estimate function | refinement of the byte buffer to an association list, then to a map |
| C13 | bucket array with hash parameter | refinement to a map |
| C14,C15 | 1-based array heap, two job queues | heap invariant, multiset preservation, induction over operations |
| C16 | pointer-level model of `dll`, `pll`, `sll` (heap of nodes, first/last/size) | refinement to `List` over all histories; clearing an `sll` and `pll_find` refuted |
| C17 | comparator plus search tree | per key type refinement to map; collisions refuted by witness |
| C18–C20 | chunk arithmetic with 16-bit truncation, slot array with base counter | arithmetic, permutation argument, refutation witnesses |
| C21–C23 | bit/cell arrays | monotonicity, counting arguments |
| C24–C28 | channel state machines over operation lists | invariants by induction |
| C29–C31 | token record, hash and signature scheme as parameters | decision logic, list arithmetic, refutation witnesses |
| C32–C33 | authorization decision, ledger list | case analysis, invariant over operation lists, refutation witnesses |
| C34–C35 | generic state machine interpreter and the key state table | invariants over event lists |
| C36 | event chain interpreter with arbitrary handler | queue refinement |
| C37–C39 | table cell, leafset, next-hop list | invariants over operation lists, refutation witnesses |
| C40 | closest search and exchange sorts | permutation and sortedness |
| C41–C42 | API status machine, property record | case analysis, induction |
| C43, C49, C50 | CBOR value codec for trees and tokens | round trip by structural induction |
| C44 | session id arithmetic, role selection | algebra, refutation for equal priorities |
| C45 | iterator over sorted key list | liveness argument by counting rounds |
| C46 | reference counter | invariant over ref/unref sequences |
| C47 | tower-list skip list | refinement to a sorted set |
| C48 | table of built-in subjects | case analysis |
| C49, C50, C54, C55 | token ↔ public struct, token ↔ tree of named values | round trip, decision logic |
| C51 | flush of the channel cache with sessions | induction over the cache |
| C52 | reassembly of arbitrary packets | invariant; hostile packets refuted by witness |
| C53 | message encryption framing | algebra with a parameter cipher |
| C56–C58 | intent ledger on a heap of tokens | invariant over operation lists, crash as outcome |
| C59, C60 | join and leave in the key state machine | invariant over event lists with arbitrary oracles |
| C61, C62 | route count, lookup | counting, progress measure |
| C63 | attribute policies over neuropil blooms | cell-wise arithmetic |
| C64, C65 | pheromone table | invariant over operations, overflow witnesses |
| C66 | simple cache | eviction loop |
| C67 | datablock functions on arbitrary memory | termination measure |
| C68–C70 | concrete red-black tree, typed keys | colour/height invariant, refinement to sorted lists |
| C71–C73 | acknowledgement containers and redelivery list over the tree | invariant over operation lists |
| C74 | enable/disable | invariant; receiving direction refuted |
| C75–C77 | life cycle calls as interleaved threads, thread start loop with 8-bit counters | invariant over interleavings, arithmetic |
| C78 | byte size counter of trees | induction over operation lists against the written bytes |
| C79 | one direction of a TCP connection; the answers of `send` and `recv` are arguments of each step | invariant over histories; refuted for calls stopped in the middle of a packet |
| C80 | the receiving side of a UDP socket | invariant over histories of arrivals and reads; refuted for short datagrams |
| C81–C83 | counting bloom filter, its use and periodic reset | refinement to one counter per address for private positions; refuted for the default limit, steady traffic, floods, slow traffic and collisions |
| C84–C86 | decaying bloom filter and its use for message parts; check and entry are separate steps of interleaved threads | invariants over histories (bit levels, count of zero cells); refuted for races, resizing, decay, collisions and 512 peers |
| C87–C92 | addresses: `np_listen`, `np_get_address`, `np_join` with the texts they read and write, the known peers and interfaces, classes of IP addresses; answers of the operating system are arguments of every call | grammar of address texts, invariant over histories (the main interface stays), round trip, bit vectors for the ranges; refuted for prefixes of addresses, malformed texts, full buffers, similar peers, wrong keys, equal private addresses, second ports, ports in use |
| C93–C98 | identity files: the CBOR forms, the file system with names, permissions and times, `errno`, the five calls | round trips over the decoder, invariants over histories of calls; refuted for used tokens, replaced keys, saves in one second, privileged processes, missing directories and long files |
| C99–C100 | the key store: its skip list of tokens, its two filters, storing, checking, saving | invariant over histories of calls: the list is sorted and holds what was stored; refuted for every store with two identities, and for every saving |
| C101–C104 | the stable filter with its random numbers; the check before a part is sent to a node; the check of requests about tokens | values of cells over histories of additions; refuted by seeds that prune a cell four times, by a chosen audience, by a copied attribute signature; counting for fairness |
| C105–C110 | the handlers of system messages with tokens and nodes as trees; reading a body; end-to-end encryption with the sessions of a channel | decision logic over all trees with faults as outcomes; refuted by missing, mistyped and short fields; the round trip is composed of C43 and C19 with the laws of an authenticated cipher; sessions taken over by an initial session |
| C111–C115 | A trie as a tree of branches (position of a nibble, subtries) and leaves; insertion as the two loops of the code (walk to a leaf, then from the last matching branch), deletion, union, intersection, and the filter on top | Refinement to a function from keys to optional values, by induction over histories with an invariant on the shape (`Good`, `Radix`); intersection by induction on its depth. Counterexamples by evaluation |
| C116–C121 | Signatures as arrays of 32 bit words with the two hash functions as parameters; the push, merge and similarity loops; the windows of words with the buffer of 512 bytes; the index with its counting filters and the neuropil filter of the search key | Least and greatest entries by induction over the pushed elements; equality of arrays from uniqueness of these; windows by induction over the words with the ring of the last words as invariant; number of filter additions by induction. Counterexamples for all hashes where possible |
| C122–C123 | The memory of the decoder as a list of bytes with the one the code does not set as parameter; the loop over positions and the outer loop with fuel, running out of which is an outcome of its own | First pass by induction over the encoding, with the bytes behind the zero as part of the invariant; termination by the number of bytes other than zero. Counterexamples by evaluation and for every text |
| C124–C130 | The functions that choose the hops of outgoing messages, on top of the models of the routing and the pheromone table; probabilities in 1/256, which decide the comparisons of the code exactly; the search loops by rounds, "not finished" and crash as outcomes | The loops are reduced to one closed form each, by induction over the rounds; the rest follows from what C39, C61 and C62 prove of the tables. The endless loop is proved for every number of rounds. Counterexamples by evaluation on tables filled by single announcements |
| C131–C137 | The metrics registry: the reserved size, the calls of `snprintf` with their bounds modulo 2^32 and the memory by offset, the lock as a counter, values rounded to the 24 bits of a float, rates as pairs of increase and time, labels as lists | The bound after each call is known modulo 2^32 from the sum of all positions, which is at least the reserved size (induction over the metrics); contents of the memory by induction over the pieces; counters by induction over the history |
| C138–C142 | The random number generator with its 64-bit words as bit vectors, the loop of the bounded draw by rounds | Full period of x ↦ ax+c modulo 2^k by induction on k (2^k steps add an odd multiple of 2^k); the output function is inverted bit by bit; termination follows since a state with an accepted output is reached |
| C143–C147 | Quality of the link to a peer: windows of outcomes and times, averages, pings, routing table decisions, dropping. Ring buffer refinement (the window read from the oldest is the tail of credit ++ history), induction over histories; decisions stated outright. |
| C148–C154 | The log: selection of messages, entries, list of waiting entries, writing with arbitrary answers of `write`, rotation of files, names, the log function of the application, several threads. Bit arguments for the selection; induction over histories (written ++ waiting = lines; files are the end of what was written); counting for schedules of threads. |
| C155–C161 | The search node: choice of tables, additions, queries, result sets, foreign queries, entries and results, table of search peers, choice of peers. Exhaustive evaluation for the 8 bit primes; bit arguments for the rotation; induction over histories for what is stored and over sequences of authorisations for the table of peers; invariant of the walk through a row. |
| C162–C166 | Connection attempts: handshakes, joins, giving up, joining by address alone. State machine over checks, tokens, session, authentication and shutdown with times as natural numbers of nanoseconds; invariants by induction over all histories (spacing, last handshake, window of times), counting of spaced times in a window. |
| C167–C170 | The generic state machine: first rule that applies, requested transitions, automatic transitions, building the table. Functions of the user are arbitrary functions of the machine; induction over the list of rules. |
| C171–C176 | The http interface: arguments of a query, requests on one connection, handlers, codes, the page for unknown paths, what is sent. Functions on lists of bytes; round trip for queries, induction over the calls of the parser, the requests of a connection, the registrations and the results of `send`; writes behind a buffer are a result of their own. |
| C177–C183 | The http parser: a request read as written, cutting of the input, malformed requests, several requests, declared lengths, the buffer, the state after an error. The automaton byte by byte, with calls as output; lemmas per segment of a request, induction over the input for cutting and for the buffer, literal requests evaluated by the kernel for the refutations. |
| C184–C190 | The reports of the nodes: the newest one, who sent it, the list of all, age, pages, order of calls, joining by a page. The cache as a list of pairs; an invariant over histories of reports and questions that relates it to the reports received so far, a loop with fuel for the removal of old ones, composition with the dispatch of area Http for the pages. |
| C191–C199 | The sharing of files: contents, effects on the process, what is shared and listed, ending it, types, headers, storing of received files, lines for the search. A directory tree as a nested inductive type and the two recursive functions that walk it; an invariant over histories (every file is closed); mutual induction on the tree for what is shared and listed, with the directories numbered in the order they are met; induction on the lines for the index. |
| C200–C202 | Ids: that they are made from different things, one for each message, and apart for different kinds. The formatted line byte by byte, with the time as a number of steps of the clock and its decimal digits; fixed-width digits and the fields after the last two colons can be read back, which gives injectivity; composition with area Ack for two messages with the same id. |
| C203–C206 | The JSON of a tree: that it shows the tree, lists, numbers, safety. Trees and values as two mutual inductive types, the loop with its object, its list and its flag; a relation between a tree and its JSON is shown by mutual structural induction with the names so far as accumulator, and following a path by induction on the path. |
| C207–C212 | The tunnel: where packets go, what the host gets, who becomes a peer, starting and stopping, the network of the interface, routes. Subjects are 256 bits to which hashes are added, so that equal hashes cancel; packets and attributes byte by byte; dotted addresses can be read back; an invariant over all histories of calls. The number of network bits is checked for all 33 cases. |
| C213–C215 | The handler of searches over http as a function of the request, the results found, their titles and the times of the clean-up; composed with the model of `np_tree2json` (area Json). The listing is proved to be the beginning of the results that fits, by induction over the results; the status is characterised outright; refutations by entries with other kinds of titles and by large results. |
| C216–C218 | Packets as bytes, the cipher as a parameter with the law that it inverts itself; encryption for a link, decryption, expiry and forwarding as functions on packets, the way over a list of nodes by recursion. C216 by induction over the list, composed with the reassembly of C19; C217 by the nonces of the packets of a message (C53) and their last ten bytes; C218 as an equality of two runs with different memory; refutations for messages whose nonce is never written. |
| C219–C222 | The sender's side of a channel as a state machine: its newest and its announced intent, the tree of sessions, the messages with keys sent so far; events are a new intent, an announcement, the coming and the loss of a receiver's intent. C219 and C220 by invariants over histories, given that ids of sessions (sums and exclusive ors of fingerprints) do not clash; C221 and the bound of C222 by invariants without that assumption; refutations for the window between a new intent and its announcement, for sessions left behind under old intents, and for the growth of the number of messages. |
| C223–C225 | The tokens a node makes, on top of area Token: derivation from a private token, intents, handshake and identity tokens. The functions on attributes are parameters with the laws of area Data (a set value is found, others stay, merging does not touch keys the source has not). What a receiver does with the token is the model of area Token, so the theorems join both ends: encode, decode, checks. Refutations for attributes without room and for the public token of a node. |
| C226 | Intents (area Issue) with the functions on attributes of area Data in place of the parameters: which limits of parallel messages can be written into an intent. Positive part from C08 (what fits can be set), refutation for 24 from the wrongly computed size of that number, followed through the making of the intent to the assertion. |
| C227–C228 | The six caches of attributes with datablocks of area Data as contents, histories of calls that set attributes, and the three merges into a message, intent or identity. Specification: the documented meaning of the scopes and the last successful value per scope and key. By induction over the history (each cache is a block built from the calls of its scope), then three merges. Refutations: room (computed with the sizes of the library), the overwritten result. |
| C229 | Reading an attribute of a message as a function of the block, the key, whether there is a configuration, and the size of the caller's memory; reading or following anything unset, null or too short is the outcome `ub`. From C07 and C08. |
| C230 | Setting a policy for both directions of a channel on top of the filters of area Bloom; a direction is described by the requirements it was given. Refusal of intents from C63. Refutation for channels used for receiving only, for every hash function and requirement. |

## What is modelled, by area

| area | C code | left out |
|------|--------|----------|
| Dhkey | `np_dhkey.c` (all but logging), `np_id_str`, `np_str_id`, `np_generate_subject` | hashing itself (parameter) |
| Cbor, Data | `neuropil_data.c` 18-300, datablock functions of `np_serialize_qcbor.c` 641-940 | pointers of values into the same block |
| SCache | `np_scache.c` 29-157 | locks |
| Heap, JobQueue | `np_heap.h`, `np_jobqueue.c` (submit, select, take, reinsert) | what jobs do; `binheap_find` (unused) |
| Lists | `np_list.h`: `dll`, `pll`, `sll` at pointer level | allocation failure |
| Rb, Tree | `include/tree/tree.h` `RB_` macros, `np_tree.c` 43-604 | reference counting of nested trees |
| Ser | `np_serialize_qcbor.c` 57-634, `np_treeval.c` sizes and copies, `byte_size` in `np_tree.c` | after the first CBOR error nothing more is read |
| Chunk | chunk/reassembly in `np_message.c` 150-466, packets in `np_comp_node.c` 1492-1608, `np_comp_alias.c` 51-60 | encryption between neighbours |
| Bloom | standard and neuropil filters of `np_bloom.c`, `neuropil_attributes.c` policies | the other filter types (see Rate and Dup) |
| Phero | `np_pheromones.c` 28-719, `_np_in_pheromone` 796-888 | the sending of updates |
| Channel | message caches, duplicate filter, thresholds, callbacks of `np_comp_msgproperty.c`, setters in `neuropil.c` | reply handling |
| Ack | `np_comp_msgproperty.c` 555-658, 954-992, 2197-2246, `np_message.c` 817-847, `np_axon.c` 61-117, `np_dendrit.c` 573-618 | acknowledgements of pings |
| Mx | channel settings in `np_comp_msgproperty.c` 288-466, 1425-1561 and the API functions around them | |
| Token | `np_aaatoken.c`, `np_token_factory.c` 438-480, identity functions of `neuropil.c` 351-495 | cryptography (parameters) |
| Authz | `np_comp_intent.c`, authorization in `np_comp_identity.c`, intents in `np_comp_msgproperty.c`, `np_comp_alias.c` 511-544 | sending |
| Keys | `np_key.c` state table, `np_statemachine.c`, conditions and actions of the four components, `_np_in_join`, `_np_in_leave` | results of unmodelled code are oracles |
| Events | `np_eventqueue.c` | |
| Route | `np_route.c` leafset, table, lookup; sorts of `np_keycache.c` 431-542 | latency measurement (parameter) |
| KeyCache | `_np_keycache_exists_state` | |
| Mem | reference counters of `np_memory.c` | growth and shrinking of the pools |
| Life | `np_new_context`, `np_run`, `np_destroy`, `np_shutdown.c`, thread start loop | what modules do |
| Subj | `np_generate_subject` with its table of internal names, `neuropil.c` 90-144 | |
| Skip | `np_skiplist.c` at pointer level | freed addresses are not reused |
| Wire | `_np_network_send_data`, `_np_network_write`, `_np_network_read`, `np_network.c` 272-432, 592-855 | which key a packet goes to; the limit of messages per second is an argument |
| Rate | counting filter, `np_bloom.c` 827-887, 932-952; `np_network.c` 90-140, 300-319, 370-373, 695-724 | |
| Dup | decaying filter, `np_bloom.c` 684-790, 496-506; `np_comp_alias.c` 38-244 | reassembly (area Chunk); whether a part completes its message is an argument; `cbrt` is exact enough |
| Addr | `neuropil.c` 289-307, 522-541, 607-624; `np_legacy.c` 426-709; `np_node.c` 120-290, 355-426, 530-549; `np_network.c` 154-200, 1403-1457, 1512-1546; `np_glia.c` 144-233; `np_keycache.c` 157-228; `np_comp_identity.c` 246-300; `np_token_factory.c` 309-350 | name resolution, routes, sockets and `inet_pton` (arguments); what follows the first contact; entries with several type flags |
| Ident | `framework/identity/np_identity.c`; `np_serialize_qcbor.c` 1026-1541 | QCBOR (modelled by its documentation, definite lengths only), the secret box, the random nonce, the clock and the operating system are parameters; `np_use_token` and `np_use_identity` after loading |
| Keystore | `framework/identity/np_keystore.c` | `memcmp` and the key derivation are parameters, mapping of the file, loading of the store (`np_keystore_load_identities` never returns `np_ok`) |
| Stable | stable filter, `np_bloom.c` 508-606; `np_pcg_rng.c`; `np_comp_node.c` 1720-1770; `np_comp_identity.c` 396-494 | the seeds and the hash are arguments; the counter of free items |
| Inbox | `np_dendrit.c` 154-789, 937-1040; `np_comp_identity.c` 305-374; `np_aaatoken.c` 170-257; `np_node.c` 292-352; `np_message.c` 581-815; `np_crypto.c` 205-275; `np_comp_intent.c` 674-718, 865-907; `np_comp_msgproperty.c` 1995-2053 | the check of tokens, fingerprints, keys and the cipher are parameters; events sent to other components are recorded only |
| Trie | `src/util/np_cupidtrie.c` (insert, find, delete, union, intersect, free, iterate), `src/util/np_cupidbloom.c` (add, check) | Memory is that of `calloc` and does not run out; slots whose bit is not set are not modelled, entering one is the outcome `broken`; `map_reduce`, the union and intersection of filters and the key memory are not modelled |
| Sketch | `src/util/np_minhash.c` (init, push, push_tree, similarity, merge), `framework/search/np_index.c` (init, update_with_minhash) | The hash functions of the signatures are parameters; a tree is the list of its text values; the single mode push and the digest of a signature are not modelled; the size of a flexible signature does not reach 65536 |
| Url | `framework/http/urldecode.c` (all) | `isxdigit` is that of the C locale; the length argument is that of the text |
| Axon | `src/np_axon.c` (167-786 without ping and piggy messages), the forwarding parts of `_np_in_pheromone` and `_np_in_update` in `src/np_dendrit.c` | The two tables do not change during a call; the aging at the end of some functions is the operation of area Phero; jobs are never rejected by the queue; whether an id is in the key cache and has a node is a parameter |
| Prom | `framework/prometheus/prometheus.c`, `_np_http_handle_metrics` in `src/np_statistics.c` | What `"%f"` prints for a value is given as text; `snprintf` takes bounds above `INT_MAX` as they are (glibc); arguments of counters are integers; rates of rates are left out; the quotient of a rate is kept as a pair |
| Rng | `src/util/np_pcg_rng.c`, the lifetime in `_np_token_factory_new_node_token`, the slot in `_np_pheromone_exhale` | The variant of the rotation without assembler; the seeds from libsodium are arbitrary; the lock around the global generator is taken to work |
| Link | `src/core/np_comp_node.c` (`__np_node_handle_response`, `__np_node_update`, `__is_node_invalid`, `__has_to_leave`), `src/np_node.c` (`_np_node_t_new`) | floating point arithmetic (rationals instead), piggy messages, the routing table's own decision (a parameter), sending of the messages |
| Log | `src/np_log.c` (whole file except the formatting of the prefix), `include/np_log.h`, `include/np_settings.h` (log constants) | text of time stamps and prefix (a parameter), `realpath`, memory failure; the answers of `write` and `open` are parameters |
| Search | `framework/search/np_search.c` (tables, additions, queries, results, peers), `src/np_dhkey.c` (rotation, distances), `src/util/np_bloom.c` (`_np_neuropil_bloom_similarity`) | making indexes from text, aging of entries, transport of the messages, tries as tables (area Trie), floating point rounding; the order of walking a table is that of insertion |
| Dial | `src/core/np_comp_node.c` (`__np_node_handle_completion`, `__np_node_update_token`, the two upgrades, `__is_node_invalid`, `__is_wildcard_invalid`), `src/np_key.c` (transitions of `IN_SETUP_NODE`, `IN_SETUP_WILDCARD`) | sending of the messages themselves, creation of the network (a parameter: it may fail), membership in the tables and validity of the token (parameters of each check), the key after setup; `double` seconds are natural numbers of nanoseconds |
| Sm | `src/util/np_statemachine.c` | names of states, the error function (never called), output to stdout, allocation failure; conditions with side effects; missing states |
| Http | `framework/http/np_http.c` (functions called by the parser, dispatch, registration, answer) | accepting and closing connections, the event loop, freeing of memory, the order of headers in an answer, keys of 255 and more bytes, bodies in chunks; the parser is area Htp |
| Htp | `framework/http/htparse.c` (`htparser_run` for requests, `str_to_uint64`) | scheme, host and port in the request line, method CONNECT, responses, the keep-alive flags, calls that `np_http.c` leaves empty, `tolower` outside ASCII, the sign of `char` (a table entry of -1 is taken to be recognised) |
| Sys | `framework/sysinfo/np_sysinfo.c` (all but the sending of the own report and its contents) | the order of the cache, keys of 255 and more bytes beyond what `put` says, more than 32767 reports, rounding of times, values of another type under "timestamp" and single characters under "source_hash", the text of the JSON; the clock stands still during one call |
| Files | `framework/files/file.c` (all but the text of the JSON, the settings of subjects and the query of the search, 589-639) | the hash of a name is a parameter `id`; names up to 256 bytes; two threads at once; a file that changes between `stat` and `mmap`; symbolic links and other kinds of entries; failures of `chdir`, `opendir` and `malloc`; paths with more than one part given to `np_files_open` |
| Uuid | `np_uuid_create` of `src/np_util.c` and its six callers | blake2b is a parameter, and the theorems say that what is hashed differs; times before 2004 and after 2038; that `printf` rounds to nearest, ties to even |
| Json | `np_tree2json`, `np_treeval2json` of `src/np_util.c`; of `np_treeval_to_str` only that a single character gives a dangling pointer | parson (replaces a name that is there, no value for texts that are not UTF-8 and numbers that are not finite), the texts of the other values, the text of a fraction as a key |
| Tun | `framework/tuntap/np_tuntap.c` and `framework/tuntap/np_tuntap_linux.c` | the versions for other systems, the event loop, the kernel (a request to delete the interface deletes it), the hash, the tokens of the peers, DNS; the tunnel starts as zero |
| Web | framework/search/np_search.c `__np_search_handle_http_get`, the age limit of `__np_search_cleanup_pipeline` | Finding of results (area Search), decoding of the argument (area Url), text of the JSON, the waiting, log messages; the sizes of trees and UTF-8 are parameters; addresses below 2^32 are assumed not to be in use |
| Hop | src/core/np_comp_node.c `__np_node_send_encrypted`, `_np_node_build_network_packet`; src/core/np_comp_alias.c `__np_alias_decrypt`, `__is_msgpart_expired`; src/np_axon.c `_np_out_forward` (what it does to a packet); src/np_message.c `np_messagepart_clone`, `_np_message_create` (memory), `_np_message_encrypt_payload` | Choice of the next node (areas Axon, Route), session set-up (area Link), duplicate filters (area Dup), queues; the cipher is a parameter; time is a natural number; a session key is assumed to be set |
| Group | src/core/np_comp_intent.c `_np_intent_update_session` (sender), `_np_intent_update_receiver_session`, `__np_intent_check` (receivers), src/core/np_comp_msgproperty.c `_np_msgproperty_upsert_token` and `__np_msgproperty_send_available_messages` (what they do to sessions) | The agreement on the keys of private and initial sessions (area Authz), who is authorized (area Authz), delivery of the messages; the tree is a list; one own intent at a time |
| Issue | src/np_token_factory.c `__np_token_factory_derive`, `_np_token_factory_new_message_intent_token`, `_np_token_factory_new_handshake_token`, `np_token_factory_get_public_ident_token`, `np_token_factory_get_public_node_token`; `np_aaatoken_set_partner_fp`; src/core/np_comp_msgproperty.c 1511-1513 | The functions on attributes (parameters, see area Data), cryptography (parameters), the name of the interface in a handshake (area Addr), logging |
| Attr | src/neuropil_attributes.c `np_set_ident_attr_bin`, the caches in `np_set_mxp_attr_bin`, `np_get_msg_attr_bin`, `np_set_mxp_attr_policy_bin`; the merges in src/neuropil.c `np_send_to`, src/np_token_factory.c | The attributes of a channel in `np_set_mxp_attr_bin`, reading attributes of tokens, the filters of policies (area Bloom) |

## The citations

`tools/citations.py` compares the citations in the model with `/repo`: file and lines exist, and a citation that follows the name of a function lies in
that function. A first run led to corrections on about 160 lines, mostly by one to twenty lines, two of them past the end of the file. The cause: ranges had
been written from memory. In the areas with the larger errors (Trie, Sketch, SCache, Events, Dup) the C code was read again and nothing was seen that
contradicts the model, but the definitions were not compared with it line by line. In area Dial that check did find a wrong definition (corrected).
What the tool still prints are ranges that cover several functions. It cannot tell whether a range inside a function is the right one, and it does not
look at ranges that follow a first one after a comma.

## The mutation log

`tools/mutate.py` edits one definition in a scratch copy and rebuilds. `failed_first` is what the compiler rejected; a build stops at the first bad
module. `theorems_failed` is derived: the property theorems whose kernel proof terms (of the unedited development) depend on a rejected declaration.
Mutants under which a theorem survived although its claim was broken led to the entries in `tightened`.

How far the log goes: an entry lists the theorems whose proofs no longer check, including those that only depend on a helper lemma that broke. Where a
helper lemma spells out a definition (for example `complete_cases` in area Dial) any edit of that definition breaks it, and with it every theorem that
uses it. Such an entry shows that the proof noticed the edit; it does not show that every listed theorem is false of the edited program.

## Where the code does not do what the property says

Each of these is a theorem with a concrete witness (`Cnn_…_refuted`); the property text is kept and the strongest true part is `Cnn_…_partial`.
* C04: Symmetric, zero on the diagonal, bounded by half; the claim that distance zero identifies ids is false of the code (C04_identity_refuted), exact zero set in C04_zero_iff. (`C04_identity_refuted`, `C04_ring_distance_refuted`, `C04_hamming_refuted`)
* C07: Proved for every memory size from 21 bytes to 4 GB, every sequence of np_set_data calls with regular entries (Spec.Regular: the entries whose size the library computes correctly) and fewer than 65536 keys: calls return and a key reads as the last value accepted. Refuted without the bound on keys: with 65536 keys np_get_data for an absent key never returns. Irregular entries: see C08/C09. (`C07_many_refuted`)
* C08: Proved for regular entries: accepted iff the entries then in the block fit. Refuted: a key of 24 characters, 24 or more than 65535 bytes of data, or the number 24 are never accepted; -256 and -65536 fail an assertion. (`C08_sizes_refuted`, `C08_assert_refuted`)
* C09: Proved for regular entries and for every entry with a new key. Refuted: replacing a value by one of 24 bytes fails and destroys the block. (`C09_replace_refuted`)
* C10: No access outside the block and no endless loop for any key and value except -2147483648 (undefined negation, refuted) on blocks built with regular entries; the recorded used size is exact. (`C10_negation_refuted`)
* C14: Conservation, ordering, refusal, selection and aborts proved for all interleavings of submitters and workers (capacity 511..32768). Not early only if selections do not overlap; overlapping selections run a job early (C14_not_early_refuted) and the configured size is not honoured (C14_configured_size_refuted). (`C14_not_early_refuted`, `C14_configured_size_refuted`)
* C15: Insert/take histories refine a priority queue with no bound but 32768 places; removal at an index only sifts down (C15_remove_refuted), larger heaps overflow a 16-bit child index (C15_large_refuted). (`C15_remove_refuted`, `C15_large_refuted`, `C15_increase_refuted`)
* C16: Double linked and priority lists: full refinement for all histories at pointer level (no use after free, no leak). Single linked list: use after free after clear (C16_sll_refuted), otherwise full; pll_find wrong for three-way comparators (C16_pll_find_refuted). (`C16_pll_find_refuted`, `C16_sll_refuted`, `C16_sll_prepend_refuted`)
* C17: Proved over the concrete red-black tree for every history with keys of one kind: texts up to 255 bytes, ids, uuids, finite doubles, integers within a window of 32768 values. Refuted outside: keys of different types match each other, unsigned keys 65536 apart are the same key, integers far apart get lost, texts over 255 bytes are not found again. (`C17_types_refuted`, `C17_lost_refuted`, `C17_ulong_refuted`, `C17_int_refuted`, `C17_long_refuted`)
* C18: Proved for serialized payloads up to 64800 bytes; above that the 16-bit truncation loses data for every payload (C18_large_refuted). (`C18_large_refuted`, `C18_nothing_sent_refuted`)
* C19: Any number of messages interleaved, every arrival order, byte-level round trip; start values whose counter overflows are outside the quantifier and shown to corrupt memory (C19_counter_wrap_refuted). (`C19_counter_wrap_refuted`)
* C20: Proved if chunk 0 of each message arrives first; otherwise a duplicate can be counted twice (C20_refuted). (`C20_refuted`)
* C21: All build histories of additions, unions and intersections for every size; an operation that aborts (full filter, size over the 16-bit counter, union over capacity) or accesses memory outside the array is a distinct outcome, and C21_limits_refuted shows when that happens. (`C21_limits_refuted`)
* C22: Found for at least fifteen agings (full). Expiry at the sixteenth aging is proved for ids that were not in the filter when added; it is false for ids added again while still found, which survive up to 30 further agings (C22_refresh_refuted). Everything is gone after 32 agings. (`C22_refresh_refuted`)
* C23: Compliant tokens pass if policy entries plus three per attribute fit into 64; beyond that the check aborts the process (C23_large_token_refuted). The attributes are the list the iteration of the data block yields. (`C23_large_token_refuted`)
* C25: At most once until a clean-up later than the first recorded expiry; redelivered copies with a later expiry break the claim (C25_at_most_once_refuted). (`C25_at_most_once_refuted`)
* C26: The limit is never enforced by the code (C26_never_breached, C26_max_parallel_refuted, C26_unbounded); only the counter facts are proved. (`C26_max_parallel_refuted`)
* C27: Order and stop proved for the channel dispatch; np_add_receive_cb ignores the user's result (C27_stop_on_reject_refuted). (`C27_stop_on_reject_refuted`)
* C28: Proved for np_set_mx_authorize_cb; the three global setters overwrite (C28_global_set_once_refuted). (`C28_global_set_once_refuted`, `C28_global_set_once_refuted'`)
* C29: Exact acceptance condition for every received token and history of checks. The start of the validity period is never checked (C29_not_before_refuted) and an expiry that is not a number never passes (C29_nan_refuted). (`C29_not_before_refuted`, `C29_nan_refuted`)
* C30: Proved what acceptance implies; the key the issuer signature is checked with is taken from the token itself, so anyone can forge an issuer (C30_forgery, C30_refuted), and the entry's type and size are unchecked (C30_memory_refuted). (`C30_refuted`, `C30_memory_refuted`)
* C31: Uuid, key, times and the concatenated text are covered; text can move between realm, issuer, subject and audience (C31_refuted) and the type is not covered (C31_type_refuted). (`C31_refuted`, `C31_type_refuted`)
* C32: Proved for every reachable state: a peer's intent becomes authorized only by a callback saying yes to it, or by taking the place of an authorized one; and the exact decision formula. Refuted: a channel callback's no is overruled by the global callback; with callbacks for both directions the yes of the receiving direction is lost. (`C32_channel_denial_overruled_refuted`, `C32_inbound_grant_lost_refuted`)
* C33: Invariant over all histories without single sender/receiver patterns: an authorized intent has the key and uuid of one that was granted. Refuted with SINGLE_SENDER announced by the peer (takes over uuid and authorization) and for another issuer with the same key and uuid. (`C33_single_sender_steals_refuted`, `C33_other_issuer_refuted`)
* C34: Proved for sending. Receiving is refuted: np_mx_properties_disable starts the event of the receiving direction at the key of the subject and not at the receiving key, so arriving messages are still delivered. (`C34_disabled_channel_receives_nothing_refuted`)
* C38: Statement proved for every history. The stronger reading of the title (the nearest peers are kept) is refuted by C38_nearest_refuted. (`C38_nearest_refuted`)
* C39: Bounded (19 per list, 31 lists) and without duplicates for every history, including scents composed by remote nodes. The order is not kept (C39_order_refuted). (`C39_order_refuted`)
* C41: Torn down at most once holds for every interleaving. Sequential histories and the checks of np_run and np_use_identity for calls that begin after the status is set are proved. Refuted: after np_destroy every call uses freed memory, a concurrent np_run revives a context in shutdown, the identity can change while running, workers can be started twice. (`C41_after_destroy_refuted`, `C41_revived_refuted`, `C41_identity_refuted`, `C41_workers_refuted`)
* C42: Proved for every history, over all channels, in which the channel is opened for receiving before it becomes a mere sender and gets a sending role before np_send. Refuted otherwise: nothing is read back for a provider, zero resets a provider's values, np_send reverts replaced settings, settings given on hold are lost for sending; intent_update_after 0 means 3, fractions of a second are cut, reply id and audience are never reported. (`C42_provider_refuted`, `C42_former_refuted`, `C42_revert_refuted`, `C42_update_refuted`, `C42_fraction_refuted`, `C42_audience_refuted`, `C42_hold_refuted`)
* C43: Round trip at the level of bytes for all trees with keys of one kind and values that arrive. Refuted: one-character keys and texts, numbers from 2^63 on, floats, unsigned characters, uuid keys. (`C43_short_key_refuted`, `C43_short_text_refuted`, `C43_large_refuted`, `C43_float_refuted`, `C43_unsigned_char_refuted`, `C43_uuid_refuted`)
* C44: Channel partners: full agreement on ids, roles and keys, given libsodium's key exchange law. Handshake: proved for different priorities, refuted for equal ones. (`C44_equal_priority_refuted`)
* C45: Bound 2*(n/10+1) calls for every history in which the key where a call stopped survives until the next call; unconditional for an unchanging cache. Refuted in general: C45_starved_refuted. (`C45_starved_refuted`)
* C46: The full statement is refuted: np_memory_new and the first reference are two steps, and np_memory_unref_obj's release check is a separate step from its decrement, so a late release check can free another thread's new object (C46_never_early_refuted) or touch memory given back (C46_no_abort_refuted). Proved for all interleavings where creation is not interrupted and memory is given back only while no unref runs. (`C46_never_early_refuted`, `C46_no_abort_refuted`)
* C48: Proved for every interleaving after one undisturbed call. Refuted: concurrent first calls spoil the table; a buffer of 64 bytes overflows by one. (`C48_overflow_refuted`, `C48_race_refuted`)
* C49: Both directions proved for ids; a realm text that is no id is lost (C49_realm_refuted). (`C49_realm_refuted`)
* C51: Cached messages are released if all have a session; head-of-line blocking otherwise (C51_release_refuted). (`C51_release_refuted`)
* C52: Safe for all arrivals of packets of well-formed messages; hostile packets write out of bounds (C52_memory_safe_refuted). (`C52_memory_safe_refuted`)
* C55: Rejection proved; but the call fails for every token, valid or not (C55_refuted). (`C55_refuted`)
* C56: All crashing steps are characterised for every reachable state; refuted by a partner fingerprint of wrong size (ASSERT) and by an authorized intent before the channel has an own intent (null dereference). A channel that has an own intent keeps one. (`C56_partner_fp_refuted`, `C56_no_own_intent_refuted`)
* C59: Refuted in general: a join message may carry the (public) token of another peer. Proved: a connection comes into use only from the waiting state and only by the notice of an accepted token. (`C59_join_is_bound_to_the_connection_refuted`)
* C60: Refuted in general: a leave message with the public token of another peer ends that peer's membership, even on an unauthenticated connection. Proved: the event must carry a valid node token with the public key of the peer that is marked as left. (`C60_leave_ends_own_membership_refuted`)
* C62: Latency and success metrics are arbitrary parameters. C62_own_id_refuted: a lookup with count >= 2 for the own id aborts. (`C62_own_id_refuted`)
* C63: A passing token covers all required keys and values cell-wise; that the values belong to the keys is false for every hash function (C63_values_under_other_keys_refuted). (`C63_values_under_other_keys_refuted`)
* C64: Proved while the 8 bit counters of the position have room, the clock moved and distances differ; refuted in general: the 255th refresh of a target with two words in one cell makes it unfindable (C64_overflow_refuted). (`C64_overflow_refuted`)
* C65: Proved for scents of single targets, at most 30 per position, peers at different distances. Refuted: the 32nd target at one position keeps the table locked or aborts a debug build; several kinds of remote scents abort the process. (`C65_lock_refuted`, `C65_remote_refuted`)
* C66: False: C66_oldest_refuted. Proved: what is dropped is the oldest or at least older than the first element. (`C66_oldest_refuted`)
* C67: Proved: reading the header of any memory returns, iterating over any memory ends. Refuted: a block of 21 bytes that claims to hold an object makes np_get_data and np_set_data loop forever; a key that is a number is used as an address. (`C67_hang_refuted`, `C67_wild_refuted`)
* C69: For trees with keys of one kind. Refuted for in-place trees with texts over 255 bytes. (`C69_long_refuted`)
* C71: Refuted: the handler is looked up as text in a tree keyed by uuid, so any acknowledgement marks the handler at the root of the tree. Proved when only one message waits. (`C71_other_refuted`, `C71_unknown_refuted`)
* C73: Proved if at most 31 messages wait. Refuted for more: a check looks only at the first 31 in uuid order. (`C73_many_refuted`)
* C74: Sending stops until enabled, for every history. Refuted for receiving (the event goes to the wrong key) and for a channel without a sending half. (`C74_receiving_refuted`, `C74_early_refuted`)
* C75: At most once for every interleaving; exact list and order for sequential histories with callbacks added after np_run. Refuted: callbacks added before np_run are lost, a null callback hides the later ones, a callback that adds a callback deadlocks. (`C75_lost_refuted`, `C75_null_refuted`, `C75_deadlock_refuted`)
* C76: Proved when listening never fails; refuted otherwise: the failure is forgotten. (`C76_forgotten_refuted`)
* C77: Proved up to 130 threads; refuted from 131 to 255 (never ends) and for multiples of 256 (none). (`C77_forever_refuted`, `C77_none_refuted`)
* C78: Proved for all histories except for unsigned 16-bit numbers from 32768 on and hashes longer than 255 bytes, which are refuted. (`C78_uint_refuted`, `C78_hash_refuted`)
* C79: Proved for histories in which no send or recv call stops in the middle of a packet; refuted otherwise: a partly written packet is written again from its start, a partly read one is thrown away, and the stream is out of step from then on. Unconditional: what is handed on are unbroken pieces of the written bytes, in order. (`C79_partial_send_refuted`, `C79_partial_recv_refuted`)
* C80: Proved if no datagram is shorter than a packet; refuted for short ones: a short datagram is put before the next packet of another peer, and an empty one stops the interface for good. Unconditional: a packet ends with bytes sent by the peer it is attributed to. (`C80_short_then_other_refuted`, `C80_empty_datagram_refuted`)
* C81: Proved for limits up to 253 and addresses whose hash positions do not collide: the filter then is exactly one counter per address, halved at each reset. Refuted: with the default setting (256), or any of 254 or more, nothing is ever dropped; and with a smaller limit a peer that steadily sends 88% of it has packets dropped. (`C81_default_refuted`, `C81_steady_refuted`)
* C82: Proved for at most 4096 packets between two resets from the start. Refuted: 4097 packets within 0.88 seconds end the process, and so does any slow traffic of at most one packet per address between two resets, with its 4097th packet. (`C82_flood_refuted`, `C82_quiet_refuted`)
* C83: Proved for private hash positions, and for low traffic in total. Refuted: one shared position of eight is enough for one peer to have the packets of another dropped. (`C83_shared_refuted`)
* C84: Proved if parts are handled one at a time, the size of the filter stays and less than 16 bits are shifted out; with threads, for every part checked after the message was handed on. Refuted: two threads that check before either enters the message both hand it on; a new size of the filter (8 peers, 27, ...) forgets all; 16 decays forget a message. (`C84_race_refuted`, `C84_resize_refuted`, `C84_forgotten_refuted`)
* C85: Proved for messages with a position that no handled message has; refuted: a message whose positions are covered by others is lost. (`C85_collision_refuted`)
* C86: Proved below 512 peers: with one thread for all histories, with many threads for at most 67 parts between two decays. Refuted: with 512 peers the next message aborts the process and the next clean-up never ends. (`C86_peers_abort_refuted`, `C86_peers_hang_refuted`)
* C87: Proved for every history if own addresses have at most 40 characters and none is the beginning of another. Refuted: after listening on 192.168.1.5 and 192.168.1.50 the reported address changes. (`C87_address_changes_refuted`)
* C88: Proved: the exact return value, and that a text that is no address leads to no contact. Refuted: np_join returns np_ok for a malformed address. (`C88_malformed_accepted_refuted`)
* C89: Proved for texts that do not have exactly max characters. Refuted: no terminating NUL for exactly max characters; np_operation_failed instead of np_invalid_operation without an interface. (`C89_unterminated_refuted`, `C89_not_listening_refuted`)
* C90: Proved: whatever is contacted is what the text names up to the cuts; a public node contacts a new public peer. Refuted: peers whose address and port contain those of a known peer are skipped, a key with a typing error becomes the wildcard, long host names are cut, joining a node on the same private address is undefined behaviour, a node without interface aborts. (`C90_similar_peer_refuted`, `C90_wrong_key_refuted`, `C90_long_name_refuted`, `C90_same_machine_refuted`, `C90_no_interface_refuted`)
* C91: Proved if the address is not the main address and the socket can be opened; opened sockets stay. Refuted: a second port or protocol on the main address, a port in use, the documented default port. (`C91_second_port_refuted`, `C91_port_in_use_refuted`, `C91_default_port_refuted`)
* C92: Proved: IPv4 private ranges exactly, the count of common leading numbers of different IPv4 addresses, the three rules for contacts. Refuted: link local IPv6 addresses outside fe80::/16, equal IPv4 addresses (undefined), loopback by prefix of the text. (`C92_link_local_refuted`, `C92_equal_addresses_refuted`, `C92_loopback_refuted`)
* C93: Proved: round trip into a fresh token over any history of unprivileged calls; saving succeeds. Missing: files written over older ones, privileged processes. Refuted: loading into a used token keeps the end of its subject. (`C93_reused_refuted`)
* C94: Proved: round trip of saved and created keys as long as the file is unchanged, and that the first save succeeds. Refuted: an unprivileged process can replace a key only if errno happens to be ENOENT. (`C94_replace_refuted`)
* C96: Proved: for unprivileged processes and saves in different seconds. Refuted: two saves in one second, and privileged processes. (`C96_same_second_refuted`, `C96_root_refuted`)
* C97: Proved: no file outside an existing directory changes, loading changes none, the current directory is restored. Refuted: a failing load of a secret key stays in the other directory; a directory that does not exist is silently replaced by the current one. (`C97_load_refuted`, `C97_missing_refuted`)
* C98: Proved: saving; loading of files that are not longer than the buffer and do not open. Missing: files made with the passphrase by another program. Refuted: longer files overflow the buffer before anything is checked. (`C98_long_refuted`)
* C99: Proved: what is found was stored; a single identity is found. Refuted for every store: of two identities with different fingerprints at most one is found, because the comparison of the search is the wrong way round; the other cannot be stored again; 65 identities abort the program. (`C99_others_refuted`, `C99_second_refuted`, `C99_capacity_refuted`)
* C100: Proved: a newly stored identity has a token file that loads. Refuted for every store that is not empty: saving the store fails because the file is one byte or more too small, and only one fingerprint is put into it. (`C100_never_saved_refuted`, `C100_only_one_refuted`)
* C101: Proved: an immediate repeat is never sent; nor a later one as long as no cell was pruned more than three times in between. Refuted: one other part in between can be enough. (`C101_forgotten_refuted`)
* C102: Proved: the first part is sent; a part is held back only if all its cells were set by earlier ones. Refuted for every hash function: a part with a chosen audience shadows any other part. (`C102_shadowed_refuted`)
* C103: Proved: only valid tokens of the right type are handled; a valid one is handled unless all cells of its attribute signature were set before. Refuted: any token that carries a copy of the attribute signature makes the node ignore the valid one. (`C103_preempted_refuted`)
* C105: Packets with another subject, and handshakes with well-formed fields, never fault; refuted by packets that claim more parts, that carry no token, and by some token fields. (`C105_parts_refuted`, `C105_no_token_refuted`, `C105_packets_refuted`)
* C106: Proved for bodies with the expected fields; refuted by a missing field, a number in place of a text, a subject that is no id, and messages of each kind. (`C106_missing_refuted`, `C106_number_refuted`, `C106_subject_refuted`, `C106_messages_refuted`)
* C108: Proved for bodies that are a complete map; refuted: a body that is cut off goes on in the 124 bytes behind it. (`C108_over_refuted`)
* C109: The trip through encryption, packets in any order and reading is proved, and that whatever is delivered is authentic; the counter in the mac must not overflow, and a forged message with the same uuid that comes first makes the genuine one be dropped. The encryption is a parameter with the laws of an authenticated cipher. (`C109_forged_first_refuted`)
* C110: Only initial sessions can change sessions, and only those the body names; refuted: they can name those of other senders. (`C110_takeover_refuted`)
* C111: Proved for histories whose keys are pairwise apart (behind a nibble in which they differ they agree in at most one nibble) and that do not insert after emptying the trie; for one-byte keys without the first condition. False in general: five insertions lose the first key, and seven insertions fail an assertion or enter an unwritten slot. (`C111_lost_refuted`, `C111_broken_refuted`)
* C112: Proved under the conditions of C111. False in general: after the last key of a branch is deleted the next insertion reads freed memory and freeing the trie frees twice; the slot handed out can lie in freed memory. (`C112_emptied_refuted`, `C112_slot_refuted`)
* C113: Proved for keys that are pairwise apart and a combination that succeeds. False in general: a union loses a key of the first trie. (`C113_lost_refuted`)
* C114: Proved for keys that are pairwise apart: common keys are kept with the combination of their values and no keys appear, if the work ends. False in general: keys that only the first trie has are kept, and disjoint tries of different depth leave a slot that was never written. (`C114_kept_refuted`, `C114_broken_refuted`)
* C115: Proved for words of at least 256 that are pairwise apart: the check is exact on words. False in general: a word below 256 divides by zero, and a key of eight words is added and not found. (`C115_divide_refuted`, `C115_lost_refuted`)
* C117: Proved for every entry but the first of the upper half; refuted there for every hash and size, and for signatures of different size. (`C117_middle_refuted`, `C117_sizes_refuted`)
* C118: Symmetry proved for equal sizes (any sizes in the flexible mode), range, self similarity and equal sets proved; refuted for empty signatures of the single modes (0/0) and for different sizes (read out of bounds). (`C118_empty_refuted`, `C118_sizes_refuted`)
* C119: Proved for the fixed mode up to half of the size; refuted beyond, and for a growing flexible signature (uninitialised memory, changed entry of an earlier element). (`C119_full_refuted`, `C119_flex_refuted`, `C119_overwritten_refuted`)
* C120: Proved for 256 entries, texts of up to 65536 words and elements below 512 bytes; refuted for 512 entries (abort for every text) and for longer words (stack overflow). (`C120_512_refuted`, `C120_overflow_refuted`)
* C122: Proved for all texts in which nothing looks encoded and all encodings of them, if the byte behind the text is zero; refuted for other texts (decoded twice, or not, depending on what follows). (`C122_twice_refuted`, `C122_context_refuted`)
* C123: Proved for all arguments if the byte behind the text, which the code does not set, is zero; refuted for every argument and every other value of that byte. (`C123_unterminated_refuted`)
* C125: Proved in full for messages and forwarded messages, of any strength. For discovery messages only for trails of at least 52/256; refuted for weaker ones. (`C125_weak_refuted`)
* C126: Proved if at most two elements (discovery: one) list the previous hop. Refuted for more, with a history of single announcements. (`C126_back_refuted`)
* C127: The number of copies is at most the number of elements that list the peer. Refuted for several elements. (`C127_copies_refuted`)
* C128: Proved for neighbours and for trails of at least 90/256 with a receiver. Refuted for weaker trails, known nodes outside of the tables, trails without receivers (does not return) and ids without a node (crash). (`C128_weak_refuted`, `C128_dropped_refuted`, `C128_hang_refuted`, `C128_crash_refuted`)
* C129: Proved for directions other than the own id. Refuted for the own id (abort) and for announcements along a trail (sent to a second peer). (`C129_own_id_refuted`, `C129_targeted_refuted`)
* C130: Proved for announcements that start at the node. Refuted for those passed on (fixed direction, missing token) and for the end of the way. (`C130_nearest_refuted`, `C130_direction_refuted`, `C130_missing_refuted`)
* C131: Holds for the empty registry only; refuted for every registry with a metric: the bound is reduced by the position instead of the increment, wraps, and the last write is behind the memory. (`C131_rendering_in_bounds_refuted`)
* C132: Proved if the bound for each piece suffices; refuted: for a name of 20 characters the time is cut. (`C132_page_complete_refuted`)
* C133: Never too short for values of at most 20 characters; refuted: bytes of old memory are sent behind the text, and a value of 10^13 does not fit. (`C133_announced_length_refuted`, `C133_announced_length_refuted_big`)
* C134: Proved for registering and rendering; refuted: asking for the size never gives the lock back. (`C134_registry_released_refuted`)
* C135: Exact up to 2^24, in any order; refuted beyond: the counter stops. (`C135_counter_exact_refuted`)
* C136: Proved after the first report; refuted for the first one, which is related to the time since the epoch. (`C136_rate_refuted`)
* C137: Proved unless a rate carries a label of that name the metric does not; refuted for the name of the interval label. (`C137_replace_label_refuted`)
* C138: Proved for every bound but zero, with termination; refuted for zero (division). (`C138_bounded_below_refuted`)
* C141: Proved up to the highest bit of the second seed, which is lost. (`C141_seeds_differ_refuted`)
* C142: At least the minimum; refuted: up to the sum of both, from every seed. (`C142_node_lifetime_refuted`)
* C144: Proved after 31 outcomes if an update came first and times are positive, and for a first answer before any update. Refuted: with an update before the first answer the made-up 0.01 s stays in the mean (2 s read as 0.074 s); a first answer without delay gives a negative latency. (`C144_first_latency_refuted`, `C144_negative_latency_refuted`)
* C147: All decisions proved. Refuted: a new peer which answered 16 requests in a row loses its place with its first failure, because the credited failures still count. (`C147_one_loss_refuted`)
* C148: Proved for every selection that fits in 32 bits. Refuted: LOG_GLOBAL has bit 35, the setting has 32 bits, so selecting it has no effect. (`C148_global_refuted`)
* C149: Proved for one flushing thread if each write fails or takes the whole line; proved for any schedule of threads that no entry is lost or doubled. Refuted: a write that takes a part and then fails repeats the part; two threads can exchange lines. (`C149_two_threads_refuted`, `C149_torn_write_refuted`)
* C150: Proved for at most 31 (32 at shutdown) waiting entries. Refuted: with 32 waiting entries the error itself is not written; with 40 at shutdown 8 are lost. (`C150_backlog_refuted`, `C150_shutdown_loses_refuted`)
* C151: Proved while log files rotate, for histories of fewer than 2^32-1 steps. Refuted: without rotation (debug builds) the log is emptied at ten million bytes; a restart empties the first file of the earlier run. (`C151_without_rotation_refuted`, `C151_restart_refuted`)
* C152: Refuted for every accepted message: the text is never stored in callback mode, so the callback and free get a pointer never set. Proved: the length is right. (`C152_callback_refuted`)
* C153: Proved for names with a dot in the last component and an extension of at most 13 characters after it. Refuted for the others. (`C153_names_refuted`)
* C154: Proved without a function of the application for messages with text and at most three levels, and files that open. Refuted: empty message, four levels, log file that cannot be opened at a rotation. (`C154_faults_refuted`)
* C155: The stride is the least prime for all values up to 251 (refuted for 252 to 255); one table and 9 to 32 tables give different positions. Refuted: with 2 to 8 tables every addition and query shifts by 32 or more; 0 divides by zero, more than 32 write outside the array. (`C155_next_prime_refuted`, `C155_tables_refuted`, `C155_table_count_refuted`)
* C156: Proved for all histories without another entry of the same index and queries sent to at most six peers; exact characterisation of the results; entries go exactly to the nearest tables. Refuted: an entry of the same index replaces the first; a query sent to seven peers is not answered locally. (`C156_replaced_refuted`, `C156_many_peers_refuted`)
* C157: Everything handed out is a result, and all are if the numbers of hits differ. Refuted: of results with the same number of hits only one is handed out. (`C157_same_hits_refuted`, `C157_lost_refuted`)
* C158: Only queries and results with the number of the query change its results. Refuted: queries of other nodes are never answered but merged into the own query of the same number; the number in a result message is not checked. (`C158_remote_unanswered_refuted`, `C158_remote_query_refuted`, `C158_wrong_result_refuted`)
* C159: Proved for additions, queries, foreign queries and entries under explicit conditions. Refuted: the 256th query, incomplete messages, query number 255, late collection, entries equally far from all tables, entries sent to more than six peers. (`C159_equal_distances_refuted`, `C159_too_many_queries_refuted`, `C159_messages_refuted`, `C159_late_collect_refuted`, `C159_many_peers_refuted`)
* C160: Proved for all sequences of authorisations that stay in the language. Refuted: a peer with the complement of one of our words, a type attribute of 22 bytes. (`C160_opposite_refuted`, `C160_type_refuted`)
* C161: A chosen peer is strictly nearer and the nearest of the places walked through. Refuted: own objects are sent by the key zero; a peer that agrees with the key in the row is not chosen. (`C161_exact_peer_refuted`, `C161_own_objects_refuted`)
* C162: The spacing is proved for all histories. The end with the session is refuted: no code sets the handshake status to connected, so handshakes go on every five seconds while the peer is in setup. (`C162_session_ends_handshakes_refuted`)
* C163: Session first is proved outright; the spacing of joins is proved while no token of the peer arrives, and refuted with one. (`C163_joins_apart_refuted`)
* C164: Proved for the first 97.2 s of the key. Refuted afterwards (a peer in no table is dropped, after at most twenty handshakes) and when its network could not be created (dropped without any). (`C164_given_up_refuted`, `C164_no_network_refuted`)
* C165: Proved when the network for the address was created. Refuted when that failed: the key loses its wildcard type and the attempt never ends. (`C165_never_ends_refuted`)
* C166: Proved in the first 97.2 s for joins sent by the periodic check. Refuted for the join that answers a token of the peer: it counts as accepted at once. (`C166_answer_lost_refuted`)
* C167: Handled-iff and no change otherwise proved outright; order and number of calls proved when no function hands an event to the machine itself. With such a nested call the exit function of the state that was left runs twice and its enter function runs last (refuted). Conditions are taken to have no side effects. (`C167_nested_refuted`, `C167_left_state_entered_refuted`)
* C168: Proved when the first active rule with the target applies; failing requests fully characterised. Refuted in general: a failing rule hides a later one for the same target. Not called by the library itself. (`C168_later_rule_refuted`)
* C169: Only one transition is made (refuted); whether there was one is reported correctly. Not called by the library itself. (`C169_until_none_refuted`)
* C171: Proved for every list of names and values without '&' and '='. Refuted for a name without a value and a value with '=': the pairs shift. (`C171_name_alone_refuted`, `C171_equals_refuted`)
* C172: Method, path and headers always; arguments if the request has a query; a body that arrives in one part. Refuted: without a query the arguments of an earlier request are seen, of a body in parts only the last one, and the body of an earlier request stays. Requests of the usual form (no chunks, lines end with CR LF). (`C172_old_arguments_refuted`, `C172_last_query_refuted`, `C172_body_refuted`)
* C173: Proved for methods of the protocol and paths of at most 124 bytes, for the first registration. Refuted: registering again has no effect, longer paths share a handler, a request line without version as the first on a connection reads from an invalid address. (`C173_again_refuted`, `C173_long_path_refuted`, `C173_no_path_refuted`)
* C174: All names but two; created and accepted are exchanged (refuted); a handler returning the code itself reads behind the table (refuted). (`C174_created_accepted_refuted`, `C174_code_itself_refuted`)
* C175: Exact bound: 8000 bytes before the end; beyond it memory behind the buffer is written (refuted with the data of 104 nodes). (`C175_nodes_refuted`)
* C176: A beginning of the answer always, all of it if the network takes it, provided the head is taken at once. Refuted: a head of 2048 or more bytes, a head that is taken in part, the answer after a broken one. (`C176_long_header_refuted`, `C176_head_cut_refuted`, `C176_next_answer_refuted`)
* C177: Requests of the usual form (method but CONNECT, path with a slash, HTTP/1.0 or 1.1, non-empty header values, declared length of at most 19 digits). Refuted for bodies in chunks: the handler gets the last chunk and the length 0. Not covered: scheme and host in the request line, empty or continued header values. (`C177_chunks_refuted`)
* C179: Refuted: a header line without a colon, and a blank before a LF at the end of the request line, run into assertions; a request line without a version is looked up without a path. Proved for requests of the usual form. (`C179_no_colon_refuted`, `C179_blank_refuted`, `C179_no_version_refuted`)
* C180: Proved for one request per read. Refuted for requests that arrive together, and for a request after an empty line in the same read. (`C180_together_refuted`, `C180_empty_line_refuted`)
* C181: Proved for lengths of at most 19 digits. Refuted for 20 digits: the product wraps without being noticed. (`C181_huge_refuted`)
* C182: The number of bytes held never exceeds 8192, and longer paths are refused. Refuted: the zero after the last byte is written one past the buffer. (`C182_zero_refuted`)
* C183: Proved if the first byte is refused. Refuted for a request line that ends with LF alone: the parser stays in that state for ever. (`C183_stuck_refuted`)
* C184: Proved for every history in which each report names its node, in at most 255 bytes, and its time. Refuted for a report without a time: all later ones about that node are ignored. (`C184_no_time_refuted`)
* C185: Proved for what the server tells about itself when asked for itself. Refuted for all other nodes, for the list of all, and with a time in the future the node itself is shut out. (`C185_sender_refuted`, `C185_shut_out_refuted`, `C185_list_refuted`)
* C186: Proved for every history of proper reports about at most 32767 nodes. Refuted for a single report without a time: the server that is asked stops, whatever arrives later. (`C186_no_time_refuted`)
* C187: Proved for the list of all. Refuted for the report on one node, which is given however old it is. (`C187_one_refuted`)
* C188: Proved for keys of 64 bytes without a slash, after every history of proper reports. Refuted for keys of any other length, and when the http interface is started after the reports were enabled. (`C188_length_refuted`, `C188_late_refuted`)
* C189: Proved once the reports are enabled. Refuted before: asking for the node itself or for all stops the process. (`C189_before_refuted`)
* C190: Proved for connections without arguments. Refuted: connect_string lets the node join, and again with each later request of the connection. (`C190_join_refuted`, `C190_again_refuted`)
* C191: Refuted for every history: closing a file, which happens when it is shared, sets its size to 0, and a file of size 0 cannot be mapped again, so no page has a content and no file is sent. Proved: the page says the same every time. (`C191_content_refuted`, `C191_witness_refuted`)
* C192: Refuted for pages of files: they move the process into the directory of the file and close a descriptor twice. Proved for sharing and for pages of directories. (`C192_file_refuted`, `C192_elsewhere_refuted`)
* C193: Proved for trees of any depth if all names are different and new and all files can be read and have a content. Refuted for files or directories of the same name, for a directory with the name of a file, and for empty or unreadable files, where unset members are used. (`C193_same_name_refuted`, `C193_same_dir_refuted`, `C193_empty_refuted`, `C193_confused_refuted`)
* C194: Proved: what is not visible in what is shared does not become shared. Refuted: a hidden file that is named is shared, and whoever reads the page of a directory can have anything shared. (`C194_named_refuted`, `C194_http_refuted`)
* C195: Refuted after every history: np_files_close has an empty body. (`C195_close_refuted`)
* C196: Proved for every suffix of the table but .csv and for names without a suffix. Refuted: .csv is taken for .css, and unknown suffixes for known ones. (`C196_csv_refuted`, `C196_unknown_refuted`)
* C197: Proved for pages of directories and of nothing. Refuted for pages of files, which name the type of the file. (`C197_file_refuted`, `C197_witness_refuted`)
* C198: Proved for complete messages and a disk that takes them. Refuted: the sender chooses the path, a message without its parts stops the process and may empty a file, a partial write is not noticed. (`C198_path_refuted`, `C198_missing_refuted`, `C198_short_refuted`)
* C199: Proved for files with a last end of line, and without one if the file does not fill its last page, both without zeros. Refuted for files that fill their last page and for lines with a zero. (`C199_page_refuted`, `C199_zero_refuted`)
* C200: Proved for names of up to 215 bytes that do not begin with a blank. Refuted: a blank before a short name makes no difference, and with names of 254 bytes or more neither number nor time do. (`C200_blank_refuted`, `C200_long_refuted`)
* C201: Proved for messages made at different times, in steps of 2^-22 seconds. Refuted: the id depends on nothing but the time, so messages of different nodes may have the same; of two with the same id on one channel only the first is waited for and sent again. (`C201_same_time_refuted`, `C201_lost_refuted`)
* C203: For trees whose keys are shown by different names, none of them an int or an id, with numbers up to 2^53, finite fractions, UTF-8 texts and no single characters. Refuted otherwise: keys with the same name, ids as keys, texts that are not UTF-8. The text of a tree as JSON is made by parson, which is not in the repository. (`C203_same_name_refuted`, `C203_other_key_refuted`, `C203_text_refuted`)
* C204: For trees with ints as keys only, and values as in C203. Refuted: the positions are not the keys, entries with names before an int are lost and those after it lose their names, an empty list is an object. (`C204_keys_refuted`, `C204_mixed_refuted`, `C204_empty_refuted`)
* C205: Up to 2^53; refuted for 2^53+1. (`C205_large_refuted`)
* C206: For all trees without single characters; refuted for one with a single character. No code of the repository puts a single character into a tree, but the functions for it are there and a tree that is read from the wire may have one. (`C206_char_refuted`)
* C207: For a peer that was set up once, whose address is written as inet_ntop writes it, and for addresses with different hashes. Refuted: a peer that was set up twice listens on the subject 0, peers of different networks may share a subject, short packets and read errors use bytes that were never written. (`C207_again_refuted`, `C207_networks_refuted`, `C207_short_refuted`)
* C208: That only whole packets are handed over, unchanged, and all of them. Refuted: each is handed over twice, the sender is not checked, the header may be longer than the packet. (`C208_twice_refuted`, `C208_forged_refuted`, `C208_header_refuted`)
* C209: Only such nodes become peers; they do if their address has as many characters as ours and they announce no route. Refuted: addresses of another length are rejected, a route of more than 16 bytes overwrites the stack, a shorter one is followed by what was there before. (`C209_length_refuted`, `C209_overflow_refuted`, `C209_route_refuted`)
* C210: For all histories without undefined behaviour, and for a first start, stop and destroy. Refuted: a second start frees the tunnel, destroying a running one writes out of bounds, errors are forgotten, a stop before the first start makes it read the standard input. (`C210_restart_refuted`, `C210_destroy_refuted`, `C210_error_refuted`, `C210_stop_first_refuted`)
* C211: The number of bits is rounded up to a multiple of 8, so that it is right for multiples of 8 only; undefined for a netmask of 0. (`C211_bits_refuted`, `C211_zero_refuted`)
* C212: Adding stays inside the request. Refuted: the kernel sees nothing of what was written, and deleting writes outside of the request. (`C212_add_refuted`, `C212_delete_refuted`)
* C213: Proved for results with UTF-8 texts, finite similarity and titles that end with a zero byte: the list is the beginning of the results that fits into 65534 bytes, all of them if all fit. Refuted: what does not fit is left out silently, an object instead of a list, titles without a zero byte. (`C213_cut_refuted`, `C213_no_list_refuted`, `C213_title_refuted`)
* C214: Statuses 200 and 400 are characterised outright. Refuted: 204 comes with a body. (`C214_no_content_refuted`)
* C215: Proved if the titles are missing or texts with a final zero byte and the clean-up does not come after more than a minute. Refuted: a number as title, bytes without a zero byte, a slow search. (`C215_number_refuted`, `C215_bytes_refuted`, `C215_slow_refuted`)
* C217: Proved for messages of users whose random nonces differ in more than their first two bytes: the nonces of all their packets are distinct. Refuted for messages of the system (ping, join, acknowledgements, pheromones, discovery): their nonce is never set, so two that are made in memory with the same old content have the same nonce, and with a stream cipher the sum of their contents is public. (`C217_system_refuted`, `C217_leak_refuted`)
* C218: Proved for messages of users: the packets on the link do not depend on old memory. Refuted for messages of the system: the nonce in clear is twelve bytes of old memory, in handshakes also the sixteen bytes of the mac. (`C218_system_refuted`)
* C219: Proved for every history when the receiver's intent comes in while the sender's newest intent is the announced one, for all later histories in which it is not lost, if ids of sessions do not clash; refuted for intents that come in between a new intent and its announcement (C219_window_refuted, C219_first_refuted). (`C219_window_refuted`, `C219_first_refuted`)
* C220: Proved: no key is sent to a receiver that was lost before the next announcement. Refuted: no new key is made on a loss (C220_key_refuted), and a receiver that was there over an announcement is sent all later keys (C220_session_refuted). (`C220_key_refuted`, `C220_session_refuted`)
* C222: Proved: at most one message for each intent of a receiver that ever came in. Refuted: with one receiver the number of messages is the number of renewals (C222_growth_refuted). (`C222_growth_refuted`)
* C223: Proved for every identity, channel and receiver: acceptance until expiry if no attribute set by the user has the name of one of the two counters, verification of the issuer if none has the name of the identity. Missing: such attributes, which replace the values. Refuted for attributes that leave no room for the fingerprint of the node: the node aborts. (`C223_room_refuted`)
* C225: Proved for handshake and identity tokens. Refuted for the public token of a node: the call aborts whatever the node is; nothing in the library calls it. (`C225_node_refuted`)
* C226: Proved for every limit but 24 that it can be written into the intent if there is room. Refuted for 24: with the functions of the library on attributes the node aborts when it makes the intent, whatever the identity, the other properties and the room are. (`C226_abort_refuted`)
* C227: Proved for every history of fewer than 65535 calls with entries whose size the library computes correctly: never found outside of its scopes; if all merges had room, found in every included target, with the last value of the scope, or of one of the scopes if the key was set with several; own attributes stay. Refuted for attributes without room beside the id of the sender: the call returned np_data_ok, the message goes out without the attribute. (`C227_room_refuted`)
* C228: Proved for calls without a scope. Refuted with a scope: for every token without room for the attribute and every empty cache with room for it the call returns np_data_ok, and the token stays as it was. (`C228_lost_refuted`)
* C229: Proved for binary attributes that are there and fit into the memory of the caller. Refuted for missing keys (an unset pointer is read, whatever the message is), for values longer than the memory of the caller (a sender can write past up to 10000 bytes), for numbers and without a configuration. A null pointer in the place of the memory, as in examples/neuropil_iot_car.c, fails an assertion (by definition of the model). (`C229_absent_refuted`, `C229_overrun_refuted`, `C229_number_refuted`, `C229_conf_refuted`)
* C230: Proved: after np_data_ok the requirement was added in every direction the channel is used in, the former ones are kept, and intents without the key are refused (up to collisions and the capacity of the filter, area Bloom). Refuted for channels that are only used for receiving: np_invalid_operation is returned although the policy was set and intents are refused from then on. Missing: requirements with values (area Bloom, C63). (`C230_receiver_refuted`)
