{"id": "C01", "title": "Subject ids compose independently of order", "statement": "np_generate_subject folds the hash of each part into the id handed in: the id obtained from several parts does not depend on the order in which the parts are added, adding the same part twice gives back the id before, and every starting id can be restored.", "quantifier": "every starting id, every list of parts in every order, every hash function", "why_tests_cant": "The claim ranges over all orders of arbitrarily many parts and all 2^256 ids; a test fixes one order.", "anchors": ["src/neuropil.c:np_generate_subject", "src/np_dhkey.c:_np_dhkey_xor"]}
{"id": "C02", "title": "Ids survive printing and parsing", "statement": "np_id_str renders an id as 64 lower-case hex characters, np_str_id of that text gives the same id back, and two ids with the same text are the same id.", "quantifier": "all 32-byte ids", "why_tests_cant": "2^256 inputs; a round trip on samples says nothing about an individual nibble/byte mapping error elsewhere.", "anchors": ["src/neuropil.c:np_id_str", "src/neuropil.c:np_str_id", "src/neuropil.c:np_id_equals"]}
{"id": "C03", "title": "Ids are totally ordered and comparison agrees with equality", "statement": "The id comparison used by every lookup structure is a strict total order on ids: antisymmetric, transitive, and returns zero exactly for identical ids.", "quantifier": "all pairs and triples of ids", "why_tests_cant": "Search trees silently lose entries if a single triple violates transitivity; tests sample triples.", "anchors": ["src/np_dhkey.c:_np_dhkey_cmp", "src/np_dhkey.c:_np_dhkey_equal"]}
{"id": "C04", "title": "Key distance identifies the key", "statement": "The distance between two ids is symmetric, zero for an id and itself, never exceeds half of the id space, and is zero only for identical ids.", "quantifier": "all pairs of ids", "why_tests_cant": "The exceptional pairs are a vanishing fraction of the id space and are never hit by random tests.", "anchors": ["src/np_dhkey.c:_np_dhkey_distance"]}
{"id": "C05", "title": "Circular interval test is exact", "statement": "The test whether an id lies between two others on the identifier ring answers true exactly when, walking upwards from the left bound (wrapping once), the id is met before the right bound; the bounds themselves are included exactly when asked for.", "quantifier": "all triples of ids and both settings of the bounds flag", "why_tests_cant": "Leafset sides depend on it for every triple incl. wrapping and degenerate ones.", "anchors": ["src/np_dhkey.c:_np_dhkey_between"]}
{"id": "C06", "title": "Routing digit index is the common prefix length", "statement": "The routing row of a peer is the number of leading hex digits it shares with the own id, is the same seen from both peers, is 64 exactly for the own id, and otherwise the digit at that position differs, so that row and column of every foreign id address a slot inside the table.", "quantifier": "all pairs of ids", "why_tests_cant": "An out-of-range index needs one specific pair of ids out of 2^512.", "anchors": ["src/np_dhkey.c:_np_dhkey_index", "src/np_dhkey.c:_np_dhkey_hexalpha_at", "src/np_route.c"]}
{"id": "C07", "title": "Data blocks behave as a map", "statement": "On a data block set up with np_init_datablock, np_get_data for a key returns the value and type of the last np_set_data for that key which returned np_ok, and np_key_not_found if there was none; setting one key never changes what is read for another key.", "quantifier": "every sequence of np_set_data / np_get_data calls, all keys, value types, value contents and block sizes", "why_tests_cant": "The values are spliced in place in a byte buffer; correctness depends on every combination of old and new encoded sizes and positions.", "anchors": ["src/neuropil_data.c:np_set_data", "src/neuropil_data.c:np_get_data", "src/util/s11n_impl/np_serialize_qcbor.c"]}
{"id": "C08", "title": "np_set_data succeeds whenever the value fits", "statement": "np_set_data returns np_ok whenever the encoded entry (replacing the old entry for the key, if any) fits into the block's declared size.", "quantifier": "every block content, key, value and block size", "why_tests_cant": "The size estimate is wrong only for single boundary values (length 24, lengths above 65535, single integers).", "anchors": ["src/neuropil_data.c:np_set_data", "src/util/s11n_impl/np_serialize_qcbor.c:np_serializer_calculate_object_size"]}
{"id": "C09", "title": "A rejected np_set_data changes nothing", "statement": "If np_set_data does not return np_ok, every later np_get_data on the block returns what it returned before.", "quantifier": "every block content and every failing call", "why_tests_cant": "Atomicity must hold at each of the error exits for every content.", "anchors": ["src/neuropil_data.c:np_set_data"]}
{"id": "C10", "title": "Data block accesses stay inside the buffer", "statement": "No sequence of data block calls writes outside the size passed to np_init_datablock, and the recorded used length always equals the bytes really used.", "quantifier": "every call sequence, every size", "why_tests_cant": "An off-by-one overflow shows only for exactly filled blocks; drift accumulates over long histories.", "anchors": ["src/neuropil_data.c:np_set_data", "src/neuropil_data.c:np_init_datablock"]}
{"id": "C11", "title": "np_iterate_data visits every entry exactly once", "statement": "np_iterate_data calls the callback for the entries of the block in order of first insertion, each exactly once, and stops with np_invalid_arguments at the first callback that returns false; np_get_object_count equals the number of distinct keys.", "quantifier": "every block content and every callback", "why_tests_cant": "Quantifies over callbacks and contents.", "anchors": ["src/neuropil_data.c:np_iterate_data", "src/neuropil_data.c:np_get_object_count"]}
{"id": "C12", "title": "np_merge_data overlays the source", "statement": "After a successful np_merge_data(dest, src) reading a key from dest gives the value from src if src has the key and the previous value of dest otherwise.", "quantifier": "every pair of blocks", "why_tests_cant": "All combinations of overlapping keys and sizes.", "anchors": ["src/neuropil_data.c:np_merge_data"]}
{"id": "C13", "title": "Simple cache returns what was first stored", "statement": "np_simple_cache_get returns the value of the first np_simple_cache_add for that key since the key was absent, NULL if there was none; adding a present key changes nothing and reports false.", "quantifier": "every sequence of operations, every bucket count ≥ 1, every hash function", "why_tests_cant": "Bucket collisions depend on the hash; must hold for every collision pattern.", "anchors": ["src/util/np_scache.c"]}
{"id": "C14", "title": "Jobs run in order and are neither lost nor duplicated", "statement": "Every job accepted by the job queue is handed out at most once, never before its time, always the earliest (then highest priority) one of its queue first, and an accepted job stays queued until it is handed out; a job is refused exactly when the queue is full.", "quantifier": "every sequence of submissions and selections and every clock history", "why_tests_cant": "Heap corruption or lost jobs show up only for particular interleavings of insertions and removals.", "anchors": ["src/np_jobqueue.c", "include/util/np_heap.h"]}
{"id": "C15", "title": "Priority heap hands out the minimum", "statement": "The binary heap always returns a smallest element, and insert, take-first and remove-at-index change its content by exactly the element concerned and keep it a heap.", "quantifier": "every heap content, every index, every total preorder", "why_tests_cant": "A sift in the wrong direction is invisible unless the tree shape exposes it.", "anchors": ["include/util/np_heap.h"]}
{"id": "C16", "title": "Intrusive lists behave as sequences", "statement": "Singly, doubly and priority linked lists behave like plain sequences: append, prepend, head, tail, remove-first-match, contains and size agree with the sequence of stored elements under every history, including after clearing.", "quantifier": "every sequence of list operations", "why_tests_cant": "A stale last pointer is harmful only for one particular order of operations.", "anchors": ["include/util/np_list.h"]}
{"id": "C17", "title": "Trees behave as maps from keys to values", "statement": "np_tree_find returns the value stored for exactly that key: insert on an existing key leaves the old value, replace overwrites it, and an entry for one key is never returned for a different key.", "quantifier": "every sequence of insert/replace/find/delete with keys of every type", "why_tests_cant": "Keys collide only for particular numeric distances or type mixtures.", "anchors": ["src/util/np_tree.c:_np_tree_elem_cmp", "src/util/np_tree.c"]}
{"id": "C18", "title": "Messages of any size are cut into chunks that cover the payload", "statement": "The number of chunks computed for a message is sufficient: the chunks written for a serialized message contain every payload byte exactly once and in order.", "quantifier": "all payload sizes and contents", "why_tests_cant": "The 16-bit truncation needs payloads above 64 KiB; boundary sizes are specific.", "anchors": ["src/np_message.c:_np_message_calculate_chunking", "src/np_message.c:_np_message_serialize_chunked"]}
{"id": "C19", "title": "Chunks are reassembled under every arrival order", "statement": "If each chunk of a message arrives exactly once, then for every arrival order the message is reported complete exactly at the last chunk and the chunks are then in sending order.", "quantifier": "every number of chunks, every arrival permutation, every start value of the chunk counter that does not overflow 16 bits", "why_tests_cant": "n! arrival orders for every n.", "anchors": ["src/np_message.c:_np_message_add_chunk", "src/core/np_comp_alias.c:_np_alias_check_msgpart_cache"]}
{"id": "C20", "title": "Duplicated chunks never complete a message early", "statement": "If chunks may be duplicated by the network, a message is reported complete only if every one of its chunks has arrived.", "quantifier": "every arrival sequence with repetitions", "why_tests_cant": "Only particular interleavings of duplicates and out-of-order chunks fail.", "anchors": ["src/np_message.c:_np_message_add_chunk"]}
{"id": "C21", "title": "Standard bloom filters have no false negatives", "statement": "An id added to a standard bloom filter is always found afterwards, also after union with another filter of the same size, and an intersection contains every id present in both.", "quantifier": "every sequence of insertions, every filter size, every id", "why_tests_cant": "Quantifies over histories and all ids.", "anchors": ["src/util/np_bloom.c:_np_standard_bloom_add", "src/util/np_bloom.c:_np_standard_bloom_check"]}
{"id": "C22", "title": "Routing bloom filters keep live ids and expire stale ones", "statement": "An id added to a neuropil bloom filter within its capacity is found until it has been aged sixteen times without refresh, and from the sixteenth aging on it is no longer found unless refreshed.", "quantifier": "every history of additions and agings within the capacity of 64", "why_tests_cant": "Counter wraparound and ageing depend on the whole history.", "anchors": ["src/util/np_bloom.c:_np_neuropil_bloom_add", "src/util/np_bloom.c:_np_neuropil_bloom_age_decrement"]}
{"id": "C23", "title": "Attribute policies admit every compliant token", "statement": "A token carrying all attribute keys and values required by a channel's policy passes the policy check; an absent or empty policy admits everyone.", "quantifier": "all policies, all attribute sets, all hash functions", "why_tests_cant": "Bloom encodings may lose bits only for particular sets.", "anchors": ["src/neuropil_attributes.c:_np_policy_check_compliance", "src/neuropil_attributes.c:build_attribute_bloom"]}
{"id": "C24", "title": "Message cache honours its size and overflow policy", "statement": "While a channel has no partner, messages are cached in order of arrival; the cache never exceeds the configured size; on overflow the reject policy keeps the cache and drops the new message, the purge policies drop the oldest (FIFO) or the newest (LIFO) cached message in favour of the new one.", "quantifier": "every sequence of messages, every cache size and policy", "why_tests_cant": "Histories of arbitrary length and all policies; size bound is an invariant.", "anchors": ["src/core/np_comp_msgproperty.c:__np_property_add_msg_to_cache"]}
{"id": "C25", "title": "A message is delivered to the application at most once", "statement": "On a user channel a message with a given uuid is handed to the receive callbacks at most once before it expires.", "quantifier": "every sequence of incoming messages with arbitrary repetitions and every clean-up schedule", "why_tests_cant": "Repetitions may be arbitrarily interleaved with clean-ups.", "anchors": ["src/core/np_comp_msgproperty.c:_np_msgproperty_check_msg_uniquety", "src/core/np_comp_msgproperty.c:__np_property_handle_in_msg"]}
{"id": "C26", "title": "max_parallel limits concurrent messages", "statement": "A channel configured with max_parallel = n never has more than n messages in flight: once n are in flight further ones are held back until one completes.", "quantifier": "every n and every schedule of sends, completions and acknowledgements", "why_tests_cant": "Every interleaving of increments, decrements and checks.", "anchors": ["src/core/np_comp_msgproperty.c:__np_msgproperty_threshold_breached", "src/core/np_comp_msgproperty.c:__np_msgproperty_threshold_increase"]}
{"id": "C27", "title": "Receive callbacks run in registration order and a rejection stops the chain", "statement": "Callbacks added with np_add_receive_cb are invoked in the order added, each at most once per message, and no callback after one that returned false is invoked.", "quantifier": "every list of callbacks with every pattern of results", "why_tests_cant": "2^n result patterns for every n.", "anchors": ["src/core/np_comp_msgproperty.c:__np_property_handle_in_msg", "src/neuropil.c:__np_receive_callback_converter", "src/neuropil.c:np_add_receive_cb"]}
{"id": "C28", "title": "Authorization callbacks can be set only once", "statement": "np_set_authorize_cb, np_set_authenticate_cb, np_set_accounting_cb and np_set_mx_authorize_cb return np_invalid_operation and keep the first callback if one is already set.", "quantifier": "every sequence of setter calls", "why_tests_cant": "Must hold after every history of calls.", "anchors": ["src/neuropil.c:np_set_authorize_cb", "src/neuropil.c:np_set_mx_authorize_cb", "include/neuropil.h"]}
{"id": "C29", "title": "Only fresh, untampered tokens are valid", "statement": "A token is accepted as valid only if it has the expected type, the current time lies within its validity period, its signature and (if any) attribute signature verify, and, for message intents, its message threshold is within its limit.", "quantifier": "all tokens, all times, all signature schemes", "why_tests_cant": "All combinations of fields and times.", "anchors": ["src/np_aaatoken.c:_np_aaatoken_is_valid"]}
{"id": "C30", "title": "Issuer signatures bind to the issuer's key", "statement": "A token naming an issuer is accepted as issued by that identity only if it carries a signature made with that identity's key.", "quantifier": "all tokens, all issuers, all adversarial attribute contents", "why_tests_cant": "The adversary chooses the attribute bytes.", "anchors": ["src/np_aaatoken.c:_np_aaatoken_verify_signature", "src/neuropil.c:np_verify_issuer"]}
{"id": "C31", "title": "A token signature covers every field", "statement": "Two tokens with the same signed digest input agree in uuid, realm, issuer, subject, audience, public key and validity times.", "quantifier": "all pairs of tokens", "why_tests_cant": "Ambiguity of concatenation shows only for specially shifted field contents.", "anchors": ["src/np_aaatoken.c:_np_aaatoken_get_hash"]}
{"id": "C32", "title": "Channel-level authorization decides about access", "statement": "A message intent is marked authorized only if an authorization callback returned true for it; if a callback is set for the channel and returns false, the intent is not authorized.", "quantifier": "all intents, all callbacks on channel and global level", "why_tests_cant": "All callback combinations.", "anchors": ["src/core/np_comp_identity.c:__np_identity_handle_authz"]}
{"id": "C33", "title": "Authorization is not inherited by a different intent", "statement": "An intent stored in a channel's ledger is authorized only if that very intent (same issuer) was authorized.", "quantifier": "every sequence of received intents from every peer", "why_tests_cant": "An attacker chooses uuid and attributes of the intent.", "anchors": ["src/core/np_comp_intent.c:_np_intent_add_sender", "src/core/np_comp_intent.c:_np_intent_cmp"]}
{"id": "C34", "title": "A disabled channel neither sends nor receives", "statement": "After np_mx_properties_disable(subject) and until np_mx_properties_enable(subject), no message is handed to receive callbacks of the subject and no message is sent for it.", "quantifier": "every sequence of events after disabling", "why_tests_cant": "Arbitrary event sequences of every type.", "anchors": ["src/neuropil.c:np_mx_properties_disable", "src/np_key.c:__np_key_populate_states"]}
{"id": "C35", "title": "Unauthenticated peers cannot deliver messages", "statement": "Before a peer has been authenticated, none of its messages is handed to receive callbacks, forwarded or used for discovery; only join and leave messages are processed.", "quantifier": "every sequence of events on the connection before authentication", "why_tests_cant": "Arbitrary event sequences.", "anchors": ["src/np_key.c:__np_key_populate_states", "src/util/np_statemachine.c"]}
{"id": "C36", "title": "Chained events run in order, each exactly once", "statement": "Events raised while handling an event are executed in the order raised, each exactly once, after the event that raised them, and each payload reference taken is released exactly once.", "quantifier": "every event handler and every event tree within the chain limit", "why_tests_cant": "The tree of raised events is arbitrary.", "anchors": ["src/np_eventqueue.c"]}
{"id": "C37", "title": "Routing table holds each peer at most once and forgets peers that left", "statement": "The routing table contains a peer in at most one slot, always in the row and column determined by its id, and after a leave the peer is no longer in the table.", "quantifier": "every sequence of joins and leaves", "why_tests_cant": "The violation needs a particular leave/join pattern in one table cell.", "anchors": ["src/np_route.c:_np_route_update"]}
{"id": "C38", "title": "Leafset keeps the nearest peers, bounded and sorted", "statement": "Each side of the leafset is sorted by distance to the own id, never exceeds its configured size, contains no duplicates, and evicts only a peer that is farthest.", "quantifier": "every sequence of joins and leaves", "why_tests_cant": "Ordering and bound are invariants over histories.", "anchors": ["src/np_route.c:_np_route_leafset_update"]}
{"id": "C39", "title": "Pheromone next-hop lists stay sorted and bounded", "statement": "The list of next hops recorded for a scent is bounded, free of duplicates and ordered by distance.", "quantifier": "every sequence of recorded next hops", "why_tests_cant": "Order of arrivals matters.", "anchors": ["src/np_pheromones.c"]}
{"id": "C40", "title": "Closest-key search and key sorting are exact", "statement": "Finding the closest key returns an element of the list at minimal distance, and the sorting routines return a permutation of their input ordered by distance (respectively common prefix, then distance).", "quantifier": "all key lists and reference keys", "why_tests_cant": "All permutations and ties.", "anchors": ["src/np_keycache.c:_np_keycache_find_closest_key_to", "src/np_keycache.c:_np_keycache_sort_keys_kd", "src/np_keycache.c:_np_keycache_sort_keys_cpm"]}
{"id": "C41", "title": "Context lifecycle is respected", "statement": "np_run on a context that was shut down returns np_invalid_operation, identities can only be changed while the context is not running, and np_destroy tears a context down at most once.", "quantifier": "every sequence of lifecycle calls", "why_tests_cant": "All call orders.", "anchors": ["src/neuropil.c:np_run", "src/neuropil.c:np_destroy", "src/neuropil.c:np_use_identity"]}
{"id": "C42", "title": "Channel properties are read back as set", "statement": "np_get_mx_properties returns the values most recently passed to np_set_mx_properties, a protected audience without audience id is refused with np_invalid_operation, and fields set to zero keep their former value.", "quantifier": "every sequence of np_set_mx_properties calls with all field values", "why_tests_cant": "All combinations of fields over repeated calls.", "anchors": ["src/core/np_comp_msgproperty.c:np_msgproperty4user", "src/core/np_comp_msgproperty.c:np_msgproperty_from_user", "src/neuropil.c:np_set_mx_properties"]}
{"id": "C43", "title": "Message payload properties survive serialization", "statement": "A tree of properties (as used for message bodies and tokens) serialized and read back gives the same keys and values.", "quantifier": "all trees with all value types", "why_tests_cant": "All nestings, key types and values.", "anchors": ["src/util/s11n_impl/np_serialize_qcbor.c"]}
{"id": "C44", "title": "Both ends of a channel derive the same session ids with opposite roles", "statement": "Two partners of a channel compute the same initial and private session identifiers and opposite client/server roles; two nodes connecting choose opposite roles in the handshake.", "quantifier": "all pairs of fingerprints and handshake priorities", "why_tests_cant": "All pairs, incl. equal priorities.", "anchors": ["src/core/np_comp_intent.c", "src/core/np_comp_alias.c:__np_create_session"]}
{"id": "C45", "title": "Every key gets its periodic check", "statement": "Every key that stays in the key cache is visited by the periodic check within a bounded number of rounds.", "quantifier": "every cache content and every history of insertions and removals", "why_tests_cant": "Liveness over unbounded histories.", "anchors": ["src/np_keycache.c"]}
{"id": "C46", "title": "Objects are freed exactly when unreferenced", "statement": "A reference counted object is released exactly when its last reference is dropped, never earlier, and never twice.", "quantifier": "every sequence of ref/unref calls", "why_tests_cant": "Unbounded histories.", "anchors": ["src/np_memory.c"]}
{"id": "C47", "title": "Skip lists behave as ordered sets", "statement": "np_skiplist add, find and remove agree with a set: an added item is found until removed, adding twice reports false, iteration is in order.", "quantifier": "every operation sequence and every random tower height", "why_tests_cant": "All random heights.", "anchors": ["src/util/np_skiplist.c"]}
{"id": "C48", "title": "Well-known subjects are recovered by name", "statement": "np_regenerate_subject returns the human readable name for each built-in subject and np_not_implemented with the hex id for every other, and never for a buffer shorter than 64 bytes.", "quantifier": "all ids and buffer sizes", "why_tests_cant": "All ids, assuming only that the built-in ids are distinct.", "anchors": ["src/neuropil.c:np_regenerate_subject"]}
{"id": "C49", "title": "Tokens survive export and import", "statement": "Exporting a token to the user structure and importing it again preserves uuid, issuer, realm, audience, subject, validity and attributes.", "quantifier": "all tokens", "why_tests_cant": "All field contents.", "anchors": ["src/np_aaatoken.c:np_aaatoken4user", "src/np_aaatoken.c:np_user4aaatoken"]}
{"id": "C50", "title": "A node token is decoded as encoded", "statement": "Encoding a token for the wire and decoding it reproduces all signed fields, so its signature still verifies.", "quantifier": "all tokens", "why_tests_cant": "All field contents incl. empty and optional ones.", "anchors": ["src/np_aaatoken.c:np_aaatoken_encode", "src/np_aaatoken.c:np_aaatoken_decode"]}
{"id": "C51", "title": "Cached messages are sent or delivered once their partner is known", "statement": "When a session for the partner of a cached message exists, the next check of the channel takes that message out of the cache and sends (or delivers) it exactly once; messages whose partner is unknown stay cached.", "quantifier": "every cache content, cache size, policy and set of available sessions", "why_tests_cant": "Depends on the position of the message among messages of other partners and on the policy; tests cache a few messages for one partner.", "anchors": ["src/core/np_comp_msgproperty.c:_np_msgproperty_check_msgcache", "src/core/np_comp_msgproperty.c:_np_msgproperty_check_msgcache_for"]}
{"id": "C52", "title": "Reassembly is memory safe for every sequence of packets", "statement": "No sequence of packets received from the network makes the reassembly of chunked messages access memory outside the table of chunks of a message.", "quantifier": "every sequence of packets of the right size, from correct and from incorrect senders", "why_tests_cant": "The header fields and counters of hostile packets range over all values and orders.", "anchors": ["src/np_message.c:_np_message_add_chunk", "src/core/np_comp_alias.c:_np_alias_check_msgpart_cache"]}
{"id": "C53", "title": "Chunks of a message are sent under different nonces", "statement": "The packets a message is cut into all carry different nonces, so that no two packets of it are encrypted for a link under the same nonce.", "quantifier": "all messages, nonces and chunk numbers", "why_tests_cant": "The nonce is random and its low 16 bits may wrap; the claim is for all values.", "anchors": ["src/core/np_comp_node.c:_np_node_build_network_packet"]}
{"id": "C54", "title": "An identity signed by its issuer and then by its owner verifies", "statement": "If an identity names the fingerprint of another identity as its issuer, np_sign_identity is called for it by that issuer (self_sign false) and then by the owner (self_sign true), np_verify_issuer accepts it together with the issuer's exported identity.", "quantifier": "all identities, keys, attributes with room for the signature", "why_tests_cant": "The claim is for all contents of the tokens and all key pairs; the order of the two signatures and the export in between matter.", "anchors": ["src/neuropil.c:np_sign_identity", "src/neuropil.c:np_verify_issuer", "src/np_aaatoken.c:_np_aaatoken_set_signature"]}
{"id": "C55", "title": "np_use_token imports valid tokens and rejects others", "statement": "np_use_token returns np_ok and makes the token usable if the token is a valid identity, node, message intent or accounting token, and returns np_invalid_argument if it is expired or its signature is broken.", "quantifier": "all tokens and times", "why_tests_cant": "The claim is for all tokens and times.", "anchors": ["src/neuropil.c:np_use_token", "include/neuropil.h:np_use_token"]}
{"id": "C56", "title": "Intents from the network cannot crash the node", "statement": "Whatever sequence of message intents arrives from peers, in whatever order with the registration of channels, authorization and periodic checks, processing them does not abort the node or dereference a null pointer.", "quantifier": "every sequence of received intents, authorizations, channel registrations and periodic checks", "why_tests_cant": "the crash needs a particular attribute or a particular order of events out of unboundedly many", "anchors": ["src/core/np_comp_intent.c:_np_intent_add_sender", "src/core/np_comp_intent.c:_np_intent_update_sender_session", "src/np_aaatoken.c:np_aaatoken_get_partner_fp", "src/core/np_comp_msgproperty.c:__np_property_handle_intent"]}
{"id": "C57", "title": "Peers are found among the stored intents", "statement": "Looking up the sender of a message, a receiver for a message, or all receivers of an audience finds exactly stored intents that are valid at that time, authorized and match the request; if there is one, it is found.", "quantifier": "all reachable ledgers, times, senders, targets and audiences", "why_tests_cant": "the set of stored intents and their validity over time is unbounded", "anchors": ["src/core/np_comp_intent.c:_np_intent_get_sender_token", "src/core/np_comp_intent.c:_np_intent_get_receiver", "src/core/np_comp_intent.c:_np_intent_get_all_receiver"]}
{"id": "C58", "title": "Expired intents are removed, valid ones are kept", "statement": "Periodic checks remove every intent that is not valid any more and never remove an intent that is still valid.", "quantifier": "all reachable ledgers and times", "why_tests_cant": "depends on the set of stored intents and the time", "anchors": ["src/core/np_comp_intent.c:__np_intent_check"]}
{"id": "C59", "title": "A join admits only the peer that did the handshake", "statement": "A connection is brought into use only after the authentication callback accepted a token of the very peer that did the handshake on this connection.", "quantifier": "every sequence of packets, events, schedules and callback results", "why_tests_cant": "The order in which handshakes and joins of several peers interleave is arbitrary.", "anchors": ["src/np_dendrit.c:_np_in_join", "src/core/np_comp_identity.c:__np_identity_handle_authn", "src/core/np_comp_alias.c"]}
{"id": "C60", "title": "A leave message ends only the membership of its sender", "statement": "When a leave message arrives on a connection, at most the peer of this connection is treated as having left.", "quantifier": "every sequence of packets, events and schedules", "why_tests_cant": "Arbitrary contents of leave messages and arbitrary interleavings.", "anchors": ["src/np_dendrit.c:_np_in_leave", "src/core/np_comp_node.c:__is_shutdown_event"]}
{"id": "C61", "title": "Route count and joined state are those of the known peers", "statement": "The number of routes a node reports is the number of peers in its routing table, and it reports to have joined exactly while it has a peer in its routing table or its leafset.", "quantifier": "every sequence of joins and leaves", "why_tests_cant": "The counter is kept incrementally (16 bit) while entries are added, replaced and removed; agreement is an invariant over histories.", "anchors": ["src/np_route.c:_np_route_update", "src/np_route.c:_np_route_has_connection", "src/neuropil.c:np_has_joined", "src/neuropil.c:np_get_route_count"]}
{"id": "C62", "title": "The next hop is a known peer and brings a message nearer to its target", "statement": "Selecting a next hop for any target other than the node itself never aborts and yields at most one peer, which is in the routing table or leafset and never the node itself; if the table has a usable peer for the row and column of the target the hop shares a longer prefix with the target than the node does, so that such hops end after at most 64 steps; a target within the leafset goes to the leafset member closest to it.", "quantifier": "every history of joins and leaves, every target, every state of the links", "why_tests_cant": "Ranges over all tables, ids and link qualities.", "anchors": ["src/np_route.c:_np_route_lookup"]}
{"id": "C63", "title": "A token that passes an attribute policy carries the required attributes", "statement": "If the policy check of a channel passes, the token of the peer carries every required attribute key, and every required value under its own key.", "quantifier": "all policies, attribute sets and hash functions", "why_tests_cant": "Ranges over all attribute sets and hash functions.", "anchors": ["src/neuropil_attributes.c:_np_policy_check_compliance", "src/neuropil_attributes.c:__np_policy_classic_build_attribute_bloom"]}
{"id": "C64", "title": "A next hop just learned for a target is found by the next lookup for it", "statement": "After the scent of a target has been taken in from a peer and the operation reported success, a lookup of next hops for that target in the same direction yields that peer.", "quantifier": "every history of scents and agings, every target, every peer, both directions", "why_tests_cant": "The lookup depends on per-cell 8 bit counters that grow with the number of refreshes and on collisions of cells; failures appear only after hundreds of refreshes of particular targets.", "anchors": ["src/np_pheromones.c: _np_pheromone_inhale, _np_pheromone_snuffle_receiver, _np_pheromone_snuffle_sender", "src/util/np_bloom.c: _np_neuropil_bloom_union, _np_neuropil_bloom_count_decrement, _np_neuropil_bloom_check"]}
{"id": "C65", "title": "Processing scents never ends the process and never leaves the table locked", "statement": "Taking in scents, own or received from the network, and aging the table never aborts the process, never accesses memory outside the table, and returns with the lock of the table released.", "quantifier": "every history of scents and agings, every content of a received message", "why_tests_cant": "The failing paths need a full position, an exhausted filter, or a hostile message.", "anchors": ["src/np_pheromones.c: _np_pheromone_inhale, _np_pheromone_exhale", "src/np_dendrit.c: _np_in_pheromone", "src/util/np_bloom.c: _np_neuropil_bloom_deserialize, _np_neuropil_bloom_union"]}
{"id": "C66", "title": "A full list of next hops drops the peer that was not refreshed for longest", "statement": "When a further peer is recorded in a list of next hops that is full, the peer removed is the one whose last refresh lies furthest back.", "quantifier": "every list of recorded peers and every order of refreshes", "why_tests_cant": "Which element is dropped depends on the order in which peers at different distances arrived.", "anchors": ["src/np_pheromones.c: _np_pheromone_inhale, __np_pheromone_insert"]}
{"id": "C67", "title": "Reading a received data block is safe", "statement": "np_get_data, np_iterate_data, np_get_object_count and np_get_data_size return for every sequence of bytes received from another node; they never loop forever and never access memory outside of the block.", "quantifier": "every content of the received memory, every key", "why_tests_cant": "The content is chosen by the sender and all malformed encodings must be covered, with lengths and counts up to 2^32.", "anchors": ["src/neuropil_data.c: np_get_data, np_iterate_data", "src/util/s11n_impl/np_serialize_qcbor.c: np_serializer_search_object, np_serializer_read_object, np_serializer_read_datablock_header"]}
{"id": "C68", "title": "Tree lookups stay logarithmic", "statement": "After any history of insertions, replacements and deletions in an np_tree, no call has followed a null pointer, and a lookup compares at most 2*log2(n+1) keys, n being the number of entries.", "quantifier": "every sequence of np_tree_insert/replace/del calls with keys of any types", "why_tests_cant": "The balance depends on the whole history; a test sees some histories.", "anchors": ["include/tree/tree.h RB_INSERT, RB_REMOVE, RB_INSERT_COLOR, RB_REMOVE_COLOR", "src/util/np_tree.c"]}
{"id": "C69", "title": "A cloned tree holds the same entries", "statement": "np_tree_clone returns a tree with exactly the entries of its source, in the same order, that keeps the immutable flag and shares nothing with the source.", "quantifier": "every tree built by any history", "why_tests_cant": "It must hold for every content of a tree.", "anchors": ["src/util/np_tree.c np_tree_clone, np_tree_copy"]}
{"id": "C70", "title": "The next entry of a tree is found", "statement": "np_tree_find_gte_* returns the entry with the smallest key that is not before the given one, NULL only if there is none, and sets found exactly if the keys are equal.", "quantifier": "every tree and every key", "why_tests_cant": "It must hold for all combinations of stored and given keys.", "anchors": ["src/util/np_tree.c np_tree_find_gte_str, np_tree_find_gte_int, np_tree_find_gte_ulong, np_tree_find_gte_dbl", "include/tree/tree.h RB_NFIND"]}
{"id": "C71", "title": "An acknowledgement is about the message it names", "statement": "When an acknowledgement arrives, exactly the message whose uuid it carries is taken as acknowledged and is no longer redelivered; an acknowledgement with an unknown uuid changes nothing.", "quantifier": "every set of outstanding messages and every acknowledgement", "why_tests_cant": "Tests with one outstanding message cannot see which message an acknowledgement is attributed to.", "anchors": ["src/np_dendrit.c _np_in_ack", "src/core/np_comp_msgproperty.c __np_response_handler_set, _np_msgproperty_cleanup_response_handler"]}
{"id": "C72", "title": "A message is reported once and not redelivered afterwards", "statement": "A message sent with NP_MX_ACK_DESTINATION is reported as acknowledged or as timed out at most once, never both, and is not transmitted again after that.", "quantifier": "every interleaving of sends, acknowledgements, checks and redeliveries", "why_tests_cant": "It must hold for every interleaving.", "anchors": ["src/core/np_comp_msgproperty.c _np_msgproperty_cleanup_response_handler, __np_msgproperty_redeliver_messages, __np_property_redelivery_set", "src/np_axon.c _np_out_callback_wrapper"]}
{"id": "C73", "title": "Timeouts are reported at the next check", "statement": "When the ttl of an unacknowledged message has passed, the next periodic check reports it as timed out, however many messages are outstanding, and no message is reported before its time.", "quantifier": "every set of outstanding messages and every time", "why_tests_cant": "It must hold for any number of outstanding messages.", "anchors": ["src/core/np_comp_msgproperty.c _np_msgproperty_cleanup_response_handler"]}
{"id": "C74", "title": "A disabled channel is silent until it is enabled", "statement": "After np_mx_properties_disable the channel neither sends nor receives messages, whatever other calls are made, until np_mx_properties_enable is called.", "quantifier": "every history of calls before and after", "why_tests_cant": "It must hold after every history, for channels in every role.", "anchors": ["src/neuropil.c np_mx_properties_enable, np_mx_properties_disable", "src/np_key.c ON_HOLD_MSGPROPERTY"]}
{"id": "C75", "title": "Shutdown callbacks are called once, in order", "statement": "Every function for which np_add_shutdown_cb returned np_ok is called exactly once by np_destroy, in the order in which the functions were added.", "quantifier": "every history of calls, any number of threads, and callbacks that make calls themselves", "why_tests_cant": "It must hold for all orders of the calls and all interleavings.", "anchors": ["src/neuropil.c np_add_shutdown_cb", "src/np_shutdown.c np_shutdown_add_callback, _np_shutdown_run_callbacks"]}
{"id": "C76", "title": "np_run listens or fails", "statement": "If np_run has to open the default listening address and this fails, np_run reports an error; if it reports np_ok the context listens.", "quantifier": "every interleaving of calls and every answer of the network", "why_tests_cant": "It must hold for all schedules and failures.", "anchors": ["src/neuropil.c np_run, np_listen"]}
{"id": "C77", "title": "The configured number of threads is started", "statement": "np_run starts exactly settings.n_threads threads and then goes on to execute jobs.", "quantifier": "every value of the setting", "why_tests_cant": "All 2^32 values of the setting.", "anchors": ["src/np_threads.c np_threads_start_workers", "src/neuropil.c np_run"]}
{"id": "C78", "title": "The computed size of a tree is enough to write it", "statement": "np_tree_get_byte_size returns at least the number of bytes that the serialization of the tree takes, so that a tree always fits into the buffer that is allocated for it.", "quantifier": "all histories of insertions, replacements and deletions, all values", "why_tests_cant": "All value types with all values, and all histories.", "anchors": ["src/util/np_tree.c np_tree_get_byte_size, np_tree_insert_element, np_tree_replace_treeval, np_tree_del_element", "src/util/np_treeval.c np_treeval_get_byte_size", "src/np_message.c _np_message_setbody", "src/np_util.c np_tree2buffer"]}
{"id": "C79", "title": "Packets arrive over TCP unchanged and in order", "statement": "The packets a node queues for a peer on a TCP connection are handed to the peer's node unchanged, in order and without loss, however the operating system splits the stream into parts and whenever it reports that it can take or give no more bytes for now.", "quantifier": "all histories of queueing, writing and reading, all answers of send and recv", "why_tests_cant": "The splitting of a stream depends on load and buffer sizes; on a test host a packet is practically always written and read at once.", "anchors": ["src/np_network.c _np_network_send_data, _np_network_write, _np_network_read"]}
{"id": "C80", "title": "UDP packets of different peers do not mix", "statement": "Each datagram a node receives is handled on its own: a packet is handed on exactly as it was sent and attributed to the address it came from, and no datagram can change, hide or stop the packets of other peers.", "quantifier": "all sequences of datagrams of any length from any addresses, all moments of reading", "why_tests_cant": "Requires arbitrary datagrams of a hostile sender interleaved with those of others.", "anchors": ["src/np_network.c _np_network_read, _np_network_disable"]}
{"id": "C81", "title": "The packets accepted from a peer are limited", "statement": "With max_msgs_per_sec set to n (or left at its default), a node accepts from one address about n packets per second at most, drops the ones above that, and does not drop packets of an address that sends fewer.", "quantifier": "all sequences of packets from any addresses, all settings, all moments of the periodic reset", "why_tests_cant": "Depends on the load history of all addresses and on hash collisions between them.", "anchors": ["src/np_network.c _np_network_module_init, __np_network_module_periodic_capacity_reset, _np_network_read, _np_network_send_data", "src/util/np_bloom.c _np_counting_bloom_check_r, _np_counting_bloom_add, _np_counting_bloom_clear_r"]}
{"id": "C82", "title": "No amount of traffic ends the process", "statement": "Counting packets for the limit of messages per second never ends the process, however many packets arrive, however fast or slowly.", "quantifier": "all sequences of packets and periodic resets", "why_tests_cant": "The failure needs thousands of packets within a second, or an hour of very slow traffic.", "anchors": ["src/util/np_bloom.c _np_counting_bloom_add, _np_counting_bloom_clear_r", "src/np_network.c _np_network_read"]}
{"id": "C83", "title": "A peer is not limited because of other peers", "statement": "Whether a packet of an address passes the limit of messages per second depends only on the packets of that address.", "quantifier": "all sequences of packets from any addresses and resets", "why_tests_cant": "Hash collisions between addresses cannot be enumerated.", "anchors": ["src/util/np_bloom.c _np_counting_bloom_check_r", "src/np_network.c _np_network_read"]}
{"id": "C84", "title": "A message is handed to its channel once", "statement": "However often the parts of a message reach a node, over whatever paths and however its threads interleave, the node hands the message to the channel at most once.", "quantifier": "all sequences of arriving parts, all interleavings of threads, all changes of the number of peers, all moments of the periodic clean-up", "why_tests_cant": "Interleavings of threads and the load history of a shared filter cannot be enumerated.", "anchors": ["src/core/np_comp_alias.c _np_alias_check_msgpart_cache, _np_alias_cleanup_msgpart_cache", "src/util/np_bloom.c _np_decaying_bloom_check, _np_decaying_bloom_add, _np_decaying_bloom_decay"]}
{"id": "C85", "title": "A new message is not taken for an old one", "statement": "A message of which all parts arrived and which was not handled before is handed to its channel, whatever other messages were handled.", "quantifier": "all histories of messages, all ids", "why_tests_cant": "Depends on collisions of hashes between arbitrary messages.", "anchors": ["src/core/np_comp_alias.c _np_alias_check_msgpart_cache", "src/util/np_bloom.c _np_decaying_bloom_check"]}
{"id": "C86", "title": "Handling messages never ends or blocks the node", "statement": "The filter for messages handled before never ends the process and never blocks its threads, whatever messages arrive and however many peers the node has.", "quantifier": "all histories of messages, clean-ups and numbers of peers, all interleavings", "why_tests_cant": "Needs unbounded histories, and more than 500 peers.", "anchors": ["src/core/np_comp_alias.c _np_alias_cleanup_msgpart_cache", "src/util/np_bloom.c _np_decaying_bloom_add, _np_decaying_bloom_decay, _np_standard_bloom_clear"]}
{"id": "C87", "title": "The address a node reports leads to the node", "statement": "After np_listen a node reports one address with np_get_address, and keeps reporting it. It names the key of the node and the protocol, host and port of the call. A node that passes the text to np_join contacts this key on this protocol, host and port and nothing else.", "quantifier": "all keys, protocols, hosts, ports, all later histories of np_listen, np_join, np_run and changes of the known peers, all answers of the operating system", "why_tests_cant": "Ranges over all texts and histories; the prefix comparison fails only for certain pairs of addresses.", "anchors": ["src/neuropil.c np_get_address, np_listen", "src/np_legacy.c _np_listen_safe, np_get_connection_string_from", "src/np_node.c _np_node_from_token, _np_node_decode_from_str", "src/np_keycache.c _np_keycache_find_interface"]}
{"id": "C88", "title": "np_join refuses malformed addresses", "statement": "If the text passed to np_join is no address, the call returns np_invalid_argument and contacts nobody.", "quantifier": "all texts, all states of the node", "why_tests_cant": "Ranges over all texts.", "anchors": ["src/neuropil.c np_join", "src/np_node.c _np_node_decode_from_str, __get_node_details_from_string", "src/np_network.c _np_network_parse_protocol_string"]}
{"id": "C89", "title": "np_get_address fills the buffer with a C string or fails", "statement": "np_get_address either returns np_ok and leaves the address as a terminated string in the first max bytes, or returns an error and leaves the buffer unchanged. It never writes behind max bytes. Without a listening address it returns np_invalid_operation.", "quantifier": "all buffers and sizes, all states of the node", "why_tests_cant": "The missing terminator appears for one length only.", "anchors": ["src/neuropil.c np_get_address"]}
{"id": "C90", "title": "np_join contacts the named node", "statement": "If np_join returns np_ok, the node contacts the node named by the address: its key, protocol, port and the address its host name resolves to, unless it is connected to this address already. The call never ends the process.", "quantifier": "all addresses, all known peers, all interfaces, all answers of the operating system", "why_tests_cant": "Depends on the addresses of all known peers and of the own machine.", "anchors": ["src/np_legacy.c np_send_join", "src/np_keycache.c _np_keycache_find_by_details", "src/np_glia.c _np_glia_node_can_be_reached", "src/np_node.c _np_node_update"]}
{"id": "C91", "title": "np_listen opens the requested socket", "statement": "If np_listen returns np_ok, the node listens on the requested protocol, host and port, and on everything it listened on before. Port zero selects the port 3141.", "quantifier": "all protocols, hosts, ports, all states of the node, all answers of the operating system", "why_tests_cant": "Depends on the history of calls and on whether the port is free.", "anchors": ["src/np_legacy.c _np_listen_safe", "src/core/np_comp_identity.c __np_create_identity_network", "src/neuropil.c np_listen"]}
{"id": "C92", "title": "Addresses of private networks are told from public ones", "statement": "A node recognizes exactly the private and loopback addresses as such. It contacts every public peer from public interfaces, no public peer from a private interface that is not passive, and no private peer of another private network.", "quantifier": "all IPv4 and IPv6 addresses, all interfaces", "why_tests_cant": "Ranges over all addresses.", "anchors": ["src/np_network.c _np_network_is_private_address, _np_network_count_common_tuples, _np_network_is_loopback_address", "src/np_glia.c _np_glia_node_can_be_reached"]}
{"id": "C93", "title": "A saved token is loaded as it was", "statement": "A token saved with np_identity_save_token is loaded by np_identity_load_token, with its fingerprint and the same passphrase, with all its fields except the secret key, whatever identity calls were made in between.", "quantifier": "all tokens, passphrases, directories, histories of calls between saving and loading", "why_tests_cant": "Ranges over all tokens and all histories of calls on the directory.", "anchors": ["framework/identity/np_identity.c np_identity_save_token, np_identity_load_token", "src/util/s11n_impl/np_serialize_qcbor.c np_serializer_write_nptoken, np_serializer_read_nptoken"]}
{"id": "C94", "title": "A saved secret key is loaded as it was", "statement": "A key pair saved or created in a directory is loaded again with the same passphrase: same keys, the fingerprint it was saved with, and the token it is loaded into carries a valid signature. A key can be saved again over an older one.", "quantifier": "all key pairs, tokens, passphrases, directories", "why_tests_cant": "Ranges over all keys and all states of the directory.", "anchors": ["framework/identity/np_identity.c np_identity_save_secretkey, np_identity_create_secretkey, np_identity_load_secretkey", "src/util/s11n_impl/np_serialize_qcbor.c np_serializer_write_ed25519, np_serializer_read_ed25519"]}
{"id": "C95", "title": "Identity files are protected by the passphrase", "statement": "A passphrase of zeros is refused and nothing happens. A file the passphrase does not open gives an error and changes nothing of the caller's. A loaded token has the fingerprint that was asked for. The secret key is not part of a token file.", "quantifier": "all passphrases, all contents of the files", "why_tests_cant": "Ranges over all contents of files.", "anchors": ["framework/identity/np_identity.c"]}
{"id": "C96", "title": "Saving never destroys an older secret key", "statement": "A secret key file that is in a directory stays there, under the same or another name, whatever keys are saved or created later.", "quantifier": "all histories of calls, all times", "why_tests_cant": "Depends on the history, the clock and errno.", "anchors": ["framework/identity/np_identity.c __write_encrypted"]}
{"id": "C97", "title": "Identity calls stay in their directory", "statement": "An identity call changes files only in the directory it was given, loading changes no file, and the current directory of the process is the same after the call.", "quantifier": "all calls, all states of the file system", "why_tests_cant": "Ranges over all outcomes of the file operations.", "anchors": ["framework/identity/np_identity.c"]}
{"id": "C98", "title": "Identity files cannot corrupt memory", "statement": "Saving and loading read and write only within their buffers, whatever the files contain.", "quantifier": "all tokens, all contents of the files", "why_tests_cant": "Ranges over all contents of files.", "anchors": ["framework/identity/np_identity.c __read_encrypted", "src/util/s11n_impl/np_serialize_qcbor.c np_serializer_read_encrypted, np_serializer_read_nptoken"]}
{"id": "C99", "title": "The key store finds the identities stored in it", "statement": "np_keystore_check_identity succeeds for an identity exactly if one with this fingerprint and public key was stored with success.", "quantifier": "all histories of store and check calls, all tokens, all random heights of the skip list", "why_tests_cant": "Ranges over all histories and all sets of fingerprints; a test with one identity passes.", "anchors": ["framework/identity/np_keystore.c np_keystore_store_identity, np_keystore_check_identity, __cmp_nptoken_by_fingerprint, __map_nptoken_by_fingerprint"]}
{"id": "C100", "title": "The key store survives a restart", "statement": "Whatever is stored can be loaded again after np_keystore_destroy: the key store's file names all stored identities, and each has a token file.", "quantifier": "all histories of store and check calls, all tokens", "why_tests_cant": "Ranges over all histories and sets of identities.", "anchors": ["framework/identity/np_keystore.c __np_keystore_save, np_keystore_store_identity, __all_nptoken_by_fingerprint, __store_nptoken_fingerprint"]}
{"id": "C101", "title": "A message part is sent to a neighbour once", "statement": "A part of a message (same audience, uuid, nonce and offset) that was sent to a neighbouring node is not sent to it again.", "quantifier": "all sequences of parts offered to a node, all random numbers of the filter", "why_tests_cant": "Depends on what was sent in between and on random numbers.", "anchors": ["src/core/np_comp_node.c __is_new_np_messagepart", "src/util/np_bloom.c _np_stable_bloom_check, _np_stable_bloom_add", "src/util/np_pcg_rng.c"]}
{"id": "C102", "title": "A new message part is sent", "statement": "A part that was not offered to a neighbouring node before is not held back as a duplicate.", "quantifier": "all sequences of parts, all random numbers, all hash functions", "why_tests_cant": "Ranges over all former traffic, including that of attackers.", "anchors": ["src/core/np_comp_node.c __is_new_np_messagepart", "src/util/np_bloom.c _np_stable_bloom_check"]}
{"id": "C103", "title": "Requests about valid tokens reach the callbacks", "statement": "A request to authenticate or authorize a valid token of the right type is put before the callbacks unless the same request was before; requests about other tokens never are.", "quantifier": "all sequences of requests, all tokens, all random numbers of the filter", "why_tests_cant": "Ranges over all former requests, including forged ones.", "anchors": ["src/core/np_comp_identity.c __is_authn_request, __is_authz_request", "src/util/np_bloom.c _np_stable_bloom_check"]}
{"id": "C104", "title": "Bounded random numbers are in range and fair", "statement": "A random number asked for below a bound is below it, and no value is preferred.", "quantifier": "all bounds but 0, all states of the generator", "why_tests_cant": "Fairness is about all 2^32 outputs and all bounds.", "anchors": ["src/util/np_pcg_rng.c np_rng_next_bounded"]}
{"id": "C105", "title": "One packet of a stranger cannot end the process", "statement": "Whatever one packet holds that arrives from a node without a session, handling it ends with no assertion, null pointer or read outside the packet.", "quantifier": "all packets, all results of the checks of tokens and keys", "why_tests_cant": "It is about every byte string an attacker can send before any authentication.", "anchors": ["src/core/np_comp_identity.c __np_identity_extract_handshake", "src/np_dendrit.c _np_in_handshake", "src/np_message.c _np_message_deserialize_header_and_instructions", "src/np_aaatoken.c np_aaatoken_decode"]}
{"id": "C106", "title": "System messages never end the process", "statement": "Handling a join, leave, update, availability or handshake message never ends the process, whatever its body holds.", "quantifier": "all kinds of system message, all bodies (trees of any fields and types), all results of the checks", "why_tests_cant": "It ranges over all bodies; each field may be missing, of another type or of another size.", "anchors": ["src/np_dendrit.c _np_in_join, _np_in_leave, _np_in_update, _np_in_available_sender, _np_in_handshake", "src/np_token_factory.c np_token_factory_read_from_tree", "src/np_node.c _np_node_decode_from_jrb", "src/util/np_treeval.c"]}
{"id": "C107", "title": "A node acts on a system message only for a verified token it carries", "statement": "A join, leave, update, announcement or handshake takes effect only if the message carries a token of the right type that was verified, and the effect is for the fingerprint of that token.", "quantifier": "all kinds of system message, all bodies, all results of the checks", "why_tests_cant": "An attacker chooses the body; all bodies have to be covered.", "anchors": ["src/np_dendrit.c", "src/np_aaatoken.c _np_aaatoken_is_valid"]}
{"id": "C108", "title": "A message body is read only from the message", "statement": "What a node reads from a message depends on the bytes of the message alone, not on what else is in memory.", "quantifier": "all messages, all contents of the memory behind it", "why_tests_cant": "It is about all contents of memory that is not part of the input.", "anchors": ["src/np_message.c _np_message_deserialize_chunks, _np_message_readbody"]}
{"id": "C109", "title": "A message arrives as it was sent, and only messages encrypted for the channel are delivered", "statement": "A message that is written, encrypted with the key of a session and sent in packets, arriving in any order, is read with the same entries; and whatever is delivered was encrypted with the key of the session named in its header, together with that header.", "quantifier": "all message contents that travel, all keys and nonces, all orders of packets, all byte strings that arrive", "why_tests_cant": "It ranges over all contents, all orders of arrival and all forged messages.", "anchors": ["src/np_message.c", "src/np_crypto.c np_crypto_session_encrypt, np_crypto_session_decrypt", "src/core/np_comp_intent.c __np_intent_receive", "src/core/np_comp_msgproperty.c __np_property_handle_in_msg", "src/np_axon.c _np_out_callback_wrapper"]}
{"id": "C110", "title": "One sender cannot take over the session of another", "statement": "A message changes no session of a channel but that of its own sender.", "quantifier": "all sessions of a channel, all messages", "why_tests_cant": "A bad partner chooses the message; all messages have to be covered.", "anchors": ["src/core/np_comp_intent.c __np_intent_import_session", "src/np_crypto.c np_crypto_session"]}
{"id": "C111", "title": "A trie is a map", "statement": "After any sequence of insertions and deletions a lookup in a trie finds the value that was last written for the key and not deleted, and finds nothing for a key that was never written or was deleted. A walk over the trie visits each key once.", "quantifier": "for all histories of insertions and deletions of keys of one length, and all keys looked up", "why_tests_cant": "The shape of the trie depends on the order of all insertions; a key is lost only for certain triples of keys in a certain order, which a few example keys do not hit.", "anchors": ["src/util/np_cupidtrie.c:np_cupidtrie_insert", "src/util/np_cupidtrie.c:__insert_qpe", "src/util/np_cupidtrie.c:np_cupidtrie_find"]}
{"id": "C112", "title": "Deletion from a trie removes one key and nothing else", "statement": "Deleting a key from a trie succeeds just if the key is there. Afterwards the key is gone, every other key has its value, and the trie can be used and freed as before. The slot handed to the caller can be read.", "quantifier": "for all histories and all keys", "why_tests_cant": "What deletion leaves behind depends on the shape of the trie that the history built, and reading freed memory does not fail reliably.", "anchors": ["src/util/np_cupidtrie.c:np_cupidtrie_delete", "src/util/np_cupidtrie.c:__delete_qpe", "src/util/np_cupidtrie.c:np_cupidtrie_free"]}
{"id": "C113", "title": "The union of two tries has the keys of both", "statement": "The union of two tries has every key of either. A key of the second trie gets the combination of the two values, and a key that only the first has keeps its value.", "quantifier": "for all pairs of histories and all combinations of values", "why_tests_cant": "It ranges over all pairs of tries; the loss of a key depends on the order of insertions.", "anchors": ["src/util/np_cupidtrie.c:np_cupidtrie_union", "src/util/np_cupidtrie.c:__union_qpe"]}
{"id": "C114", "title": "The intersection of two tries has the common keys", "statement": "The intersection of two tries has just the keys that both have, with the combination of their values, and can be used like any other trie.", "quantifier": "for all pairs of histories and all combinations of values", "why_tests_cant": "The work differs for each pair of shapes of the two tries at each depth; only some pairs go wrong.", "anchors": ["src/util/np_cupidtrie.c:np_cupidtrie_intersect", "src/util/np_cupidtrie.c:__intersect_qpe"]}
{"id": "C115", "title": "The trie filter finds what was added", "statement": "A key that was added to a trie-based filter passes its check, and a key with a word that was never added does not.", "quantifier": "for all histories of additions and all keys", "why_tests_cant": "The absence of false negatives is a statement over all sets of keys; keys are hashes, and only certain combinations of words are lost.", "anchors": ["src/util/np_cupidbloom.c:np_cupidbloom_add", "src/util/np_cupidbloom.c:np_cupidbloom_check"]}
{"id": "C116", "title": "The signature of a text depends only on its set of elements", "statement": "A signature (np_minhash_init, np_minhash_push) over the multi-hash mode holds, for every hash function, the least value over all pushed elements in its lower half and the greatest in its upper half. The order in which elements were pushed and how often has no influence.", "quantifier": "all sizes, all hash functions, all finite sequences of elements of any length", "why_tests_cant": "A test compares a few orders of a few elements; the claim is about all sequences and every hash function.", "anchors": ["src/util/np_minhash.c:np_minhash_init", "src/util/np_minhash.c:np_minhash_push"]}
{"id": "C117", "title": "Merging two signatures gives the signature of the union", "statement": "np_minhash_merge of the signatures of two sets is the signature of all their elements together. (It is not: the first entry of the upper half is skipped, and a smaller second signature is read beyond its end.)", "quantifier": "all sizes, all hash functions, all pairs of element sequences", "why_tests_cant": "The one skipped entry shows only for inputs where the second set has the greater value at that entry; the claim ranges over all pairs of sets.", "anchors": ["src/util/np_minhash.c:np_minhash_merge"]}
{"id": "C118", "title": "Similarity is symmetric, between zero and one, and one for equal sets", "statement": "np_minhash_similarity(a,b) equals np_minhash_similarity(b,a), lies between 0 and 1, is 1 for a signature compared with itself and for signatures of the same set. (Two empty signatures give zero divided by zero in the single modes; signatures of different size are read beyond the end.)", "quantifier": "all pairs of signatures of any size and mode", "why_tests_cant": "A law over all pairs of arrays; the division by zero and the out of bounds read need particular states.", "anchors": ["src/util/np_minhash.c:np_minhash_similarity"]}
{"id": "C119", "title": "Data dependent signatures represent every element pushed", "statement": "Pushing an element to a data dependent signature records the element and leaves what earlier elements recorded unchanged. (A full signature of fixed size ignores further elements; a signature of flexible size that grows takes over uninitialised memory and changes the entry of an earlier element.)", "quantifier": "all signatures, all elements, all contents of memory handed out by the allocator", "why_tests_cant": "What fresh memory holds is not under the control of a test, and growth happens only after enough elements.", "anchors": ["src/util/np_minhash.c:np_minhash_push_dd_fix", "src/util/np_minhash.c:np_minhash_push_dd_flex"]}
{"id": "C120", "title": "Every text can be indexed", "statement": "Building the search index of a text (np_minhash_push_tree followed by np_index_update_with_minhash) succeeds for each text and each offered signature size. (With 512 entries it aborts for every text; a word of 512 bytes or more overflows a buffer on the stack.)", "quantifier": "all texts, all window sizes, all hash functions", "why_tests_cant": "The number of additions to the filters and the length of joined words depend on the input; only an argument over all texts shows that no limit is reached.", "anchors": ["src/util/np_minhash.c:np_minhash_push_tree", "framework/search/np_index.c:np_index_update_with_minhash", "framework/search/np_index.c:np_index_init"]}
{"id": "C121", "title": "Texts with the same elements have the same search index", "statement": "If two texts have the same windows of words, in any order and any number, their search indexes are equal, so a query with the same windows finds the indexed text at the same place.", "quantifier": "all pairs of texts, all window sizes, all signature sizes, all hash functions", "why_tests_cant": "An equality over all pairs of texts with equal window sets.", "anchors": ["src/util/np_minhash.c:np_minhash_push_tree", "framework/search/np_index.c:np_index_update_with_minhash"]}
{"id": "C122", "title": "Arguments of web requests are decoded to what was encoded", "statement": "For every text and every way to percent-encode it, the decoded argument (urlDecode) is the text. (It is decoded again and again until nothing looks encoded, and how often depends on the rest of the argument: %2541 becomes A, %2541% becomes %41%.)", "quantifier": "all texts and all percent-encodings of each", "why_tests_cant": "A round trip over all texts and encodings; the repeated decoding shows only for texts with percent signs at particular places.", "anchors": ["framework/http/urldecode.c:urlDecode", "framework/sysinfo/np_sysinfo.c:607", "framework/search/np_search.c:772", "framework/files/file.c:395"]}
{"id": "C123", "title": "Decoding an argument of a web request is safe and ends", "statement": "For every argument a client may send, well-formed or not, decoding ends, touches only its own memory and gives a terminated text that is no longer than the argument. (The last byte of the memory is never set: unless it happens to be zero, the result has no end.)", "quantifier": "all byte strings and all contents of fresh memory", "why_tests_cant": "The loop runs over a memory it changes, also behind the text; termination and bounds need an argument over all contents, and fresh memory is mostly zero in tests.", "anchors": ["framework/http/urldecode.c:urlDecode"]}
{"id": "C124", "title": "A message is handed only to other known peers on its trail, and success is reported truthfully", "statement": "Whatever is recorded in the tables of a node, a message it sends, forwards or uses for discovery is handed only to peers it knows, never to itself, and only to such from which a trail for the subject has come. The result of the call is true exactly if the message was handed to at least one peer.", "quantifier": "all contents of the routing and pheromone tables, all subjects and previous hops", "why_tests_cant": "The selection depends on two tables filled by the network in any order; a test sees one filling.", "anchors": ["src/np_axon.c:_np_out_forward", "src/np_axon.c:_np_out_default", "src/np_axon.c:_np_out_available_messages", "src/np_axon.c:__np_axon_send_chunks", "src/np_pheromones.c:_np_pheromone_snuffle"]}
{"id": "C125", "title": "A message is handed to every peer on a trail for its subject, however weak", "statement": "While a node has a connection, a message is handed to every known peer on a trail for its subject; a forwarded one to all but the one it came from; discovery messages likewise. (For discovery messages this fails on trails that have been aged, although messages still follow them.)", "quantifier": "all contents of the tables, all strengths of trails, all subjects and peers", "why_tests_cant": "Strength depends on the time and the history of announcements; tests use fresh trails.", "anchors": ["src/np_axon.c:_np_out_default", "src/np_axon.c:_np_out_forward", "src/np_axon.c:_np_out_available_messages"]}
{"id": "C126", "title": "A forwarded message does not go back to the peer it came from", "statement": "A node that forwards a message or a discovery message never hands it back to the peer from which it got it. (It does if the peer is recorded in several elements of the table, of which only two or one are removed.)", "quantifier": "all histories of announcements, all subjects and previous hops", "why_tests_cant": "The same peer is recorded several times only if filters of several subjects overlap.", "anchors": ["src/np_axon.c:_np_out_forward", "src/np_axon.c:_np_out_available_messages"]}
{"id": "C127", "title": "A peer gets one copy of a message", "statement": "A message is handed at most once to each next hop. (It is handed over once for every element of the table that lists the peer for the subject.)", "quantifier": "all histories of announcements, all subjects", "why_tests_cant": "Several elements contain the subject only if filters overlap, which depends on the ids announced.", "anchors": ["src/np_axon.c:_np_out_default", "src/np_axon.c:_np_out_forward", "src/np_pheromones.c:_np_pheromone_snuffle"]}
{"id": "C128", "title": "An acknowledgement is handed to its destination or along the trail to it", "statement": "Handing over an acknowledgement always returns without crash; it goes to the destination if this is a neighbour, and otherwise to the peers on the trail to it. (It fails for trails which are still good for messages, for known nodes outside of the tables, for trails without receivers, where the call never returns, and for ids of other objects, where the process crashes.)", "quantifier": "all contents of the tables and of the key cache, all destinations, any number of rounds of the search", "why_tests_cant": "The search loop depends on the strength of trails recorded by others; that it never ends cannot be observed by a test, and most destinations in tests are neighbours.", "anchors": ["src/np_axon.c:_np_out_ack", "src/core/np_comp_alias.c:__np_handle_np_forward"]}
{"id": "C129", "title": "An announcement is passed on to exactly one peer towards its direction", "statement": "The announcement of a subject is passed to exactly one known peer whenever the routing table is not empty, and forwarding an announcement received from a peer never ends the process. (An announcement that names the receiving node as its direction ends the process; one that follows a trail also goes to another peer.)", "quantifier": "all histories of joins and leaves, all directions, all received announcements", "why_tests_cant": "The direction is chosen by a remote node; the fatal value is one of 2^256.", "anchors": ["src/np_axon.c:_np_out_pheromone", "src/np_dendrit.c:_np_in_pheromone", "src/np_route.c:_np_route_lookup"]}
{"id": "C130", "title": "The announcement of a node travels to peers nearer to it and ends at the nearest", "statement": "The announcement of a new node is handed to one known peer, never to the node itself; it is passed on to peers nearer to the new node and ends at the nearest. Receiving one never crashes the process. (Passing on uses a fixed direction, the nearest node still passes it on, and one without a token crashes the receiver.)", "quantifier": "all histories of joins and leaves, all announced nodes, all received announcements", "why_tests_cant": "It is about the way through networks of any shape and about messages composed by remote nodes.", "anchors": ["src/np_axon.c:_np_out_update", "src/np_dendrit.c:_np_in_update"]}
{"id": "C131", "title": "Rendering the metrics page stays in its memory", "statement": "Producing the text of all registered metrics writes only to the memory reserved for it.", "quantifier": "all registries: every number of metrics, names, labels, values and times", "why_tests_cant": "The overrun depends on the lengths of all pieces together, and writes far behind the block; a test passes if nothing important happens to be there.", "anchors": ["framework/prometheus/prometheus.c: prometheus_format", "src/np_statistics.c: np_statistics_prometheus_export"]}
{"id": "C132", "title": "The metrics page has a complete line for every metric", "statement": "The text returned is, for every registered metric, its name, its labels in braces, its value and, if known, its time, each on a line of its own.", "quantifier": "all registries", "why_tests_cant": "Whether a piece is cut depends on the lengths of all pieces before it.", "anchors": ["framework/prometheus/prometheus.c: prometheus_format"]}
{"id": "C133", "title": "The length announced for the metrics page is that of the text", "statement": "The length sent with the page is the length of its text, and the body contains nothing but the text.", "quantifier": "all registries and all contents of fresh memory", "why_tests_cant": "It depends on the printed length of every value, and on what the memory held before.", "anchors": ["framework/prometheus/prometheus.c: prometheus_format_size", "src/np_statistics.c: _np_http_handle_metrics"]}
{"id": "C134", "title": "A request for the metrics leaves the registry usable", "statement": "After a request for the metrics page has been answered, other threads can register metrics and labels.", "quantifier": "all histories of calls", "why_tests_cant": "A test with one thread never notices a recursive lock that is kept.", "anchors": ["framework/prometheus/prometheus.c: prometheus_format_size, prometheus_register_metric", "src/np_statistics.c: _np_http_handle_metrics"]}
{"id": "C135", "title": "A metric has the value last set plus all increments since", "statement": "The value of a metric is the value last set plus everything it has been incremented by since, in whatever order threads did so.", "quantifier": "all histories of increments, settings and readings", "why_tests_cant": "A deviation shows only after millions of increments, or in particular interleavings.", "anchors": ["framework/prometheus/prometheus.c: prometheus_metric_inc, prometheus_metric_set, prometheus_metric_get"]}
{"id": "C136", "title": "A rate is the increase during the last interval", "statement": "The rate kept for a metric is the increase of the metric between two reports related to the time between them, and reports are at least an interval apart.", "quantifier": "all histories of operations with their times", "why_tests_cant": "It depends on the spacing of all operations in time.", "anchors": ["framework/prometheus/prometheus.c: prometheus_register_sub_metric_time, __prometheus_metric_update_sub_metrics"]}
{"id": "C137", "title": "Replacing a label replaces it for the metric and its rates", "statement": "After replacing a label, the metric and all of its rates carry the new value under that name and no other, and their other labels are unchanged.", "quantifier": "all metrics, rates, labels", "why_tests_cant": "It must hold for every combination of labels that were added before.", "anchors": ["framework/prometheus/prometheus.c: prometheus_metric_add_label, prometheus_metric_replace_label"]}
{"id": "C138", "title": "A bounded random number is below its bound, and is delivered", "statement": "Asking for a random number below a bound returns, for every state of the generator and every bound, with a number below the bound.", "quantifier": "all generator states, all bounds", "why_tests_cant": "The call draws again until a number is accepted; that it ever ends depends on the sequence from each of 2^64 states.", "anchors": ["src/util/np_pcg_rng.c: np_rng_next_bounded, np_global_rng_next_bounded", "src/np_pheromones.c: _np_pheromone_exhale"]}
{"id": "C139", "title": "All numbers below the bound are equally likely", "statement": "Every number below the bound is the result of the same number of generator states.", "quantifier": "all bounds, all results, all 2^64 generator states", "why_tests_cant": "A bias of one in 2^32 cannot be seen by sampling.", "anchors": ["src/util/np_pcg_rng.c: np_rng_next_bounded, pcg_output_xsh_rr_32_32"]}
{"id": "C140", "title": "The random number generator does not repeat before 2^64 draws", "statement": "From every seed the generator runs through all of its states before one comes back, and every 32-bit number is drawn equally often.", "quantifier": "all seeds, all numbers of draws", "why_tests_cant": "2^64 draws cannot be run.", "anchors": ["src/util/np_pcg_rng.c: np_rng_init, np_rng_next, pcg_setseq_32_srandom_r"]}
{"id": "C141", "title": "Generators with different seeds are different", "statement": "Two generators initialised with different random seeds are in different states.", "quantifier": "all pairs of seeds", "why_tests_cant": "The space of pairs has 2^256 elements.", "anchors": ["src/util/np_pcg_rng.c: pcg_setseq_32_srandom_r, np_rng_init"]}
{"id": "C142", "title": "A node token lives between the minimum and the maximum lifetime", "statement": "The lifetime of a new node token is at least the configured minimum and at most the configured maximum.", "quantifier": "all states of the random number generator", "why_tests_cant": "The maximum is exceeded for a few hundred of the possible random values only.", "anchors": ["src/np_token_factory.c: _np_token_factory_new_node_token", "include/np_settings.h: NODE_MAX_TTL_SEC, NODE_MIN_TTL_SEC"]}
{"id": "C143", "title": "The success rate of a peer is the share of its answers", "statement": "After any history, the success rate kept for a peer is the number of answered requests among the last 31 outcomes divided by 31, where a new peer starts with a credit of 31 outcomes of which 15 are answers; after 31 outcomes the credit plays no part. The rate lies between 0 and 1.", "quantifier": "all histories of answers, timeouts and updates of a new peer", "why_tests_cant": "The window is a ring which wraps at 31 entries; a wrong wrap or a wrong place shows only for some numbers of outcomes, and tests try few.", "anchors": ["src/core/np_comp_node.c:__np_node_handle_response", "src/core/np_comp_node.c:__np_node_update", "src/np_node.c:_np_node_t_new"]}
{"id": "C144", "title": "The latency of a peer is the mean of its latest response times", "statement": "The latency kept for a peer is the mean of the times of the last 31 requests, where a request without an answer counts with the time waited for it; the first answer alone sets the latency of a new peer; a latency is never negative.", "quantifier": "all histories of answers, timeouts and updates of a new peer and all positive times", "why_tests_cant": "The mean depends on the whole history and on how updates and answers interleave in the beginning.", "anchors": ["src/core/np_comp_node.c:__np_node_handle_response", "src/core/np_comp_node.c:__np_node_update", "src/np_node.c:_np_node_t_new"]}
{"id": "C145", "title": "A silent peer is judged bad in bounded time, an answering peer never", "statement": "From any state, 24 requests in a row without an answer make the peer bad (success rate under a quarter); a new silent peer is bad after exactly 15. A peer which is not bad and answers every request never becomes bad. A peer with more than k + 7 answers in its window is not bad after k further outcomes of any kind.", "quantifier": "all states of a peer and all histories, with updates at any point", "why_tests_cant": "The claim is about every earlier history of the peer and every order of answers, failures and updates.", "anchors": ["src/core/np_comp_node.c:__np_node_handle_response", "src/core/np_comp_node.c:__np_node_update", "include/np_settings.h:BAD_LINK"]}
{"id": "C146", "title": "Every peer is pinged in time or judged bad", "statement": "An update after the time set for the next ping sends a ping unless it judges the peer bad or the peer was sent a leave message; no ping is sent before its time; after a ping the next one is due within the longest ping interval, which is under the time of grace, and not before three quarters of the shortest.", "quantifier": "all states of a peer and all times", "why_tests_cant": "The limits for pinging (above a quarter) and for dropping (below a quarter) must meet without a gap for every reachable rate.", "anchors": ["src/core/np_comp_node.c:__np_node_update", "include/np_settings.h:MISC_SEND_PINGS_SEC"]}
{"id": "C147", "title": "Peers enter and leave the routing table by their latest answers", "statement": "An update puts a peer into the routing table exactly if it is not in it, answered its latest request, is known longer than the ping interval, is not passive and was not sent a leave message. It never takes out a peer which answered its latest request, and after a failure keeps it only if 24 of the last 31 requests were answered. A peer that answers always and has a place in a table is never dropped or asked to leave; nothing is held against a peer within the time of grace; a bad peer or one in neither table is dropped after it. One lost ping does not cost a peer its place.", "quantifier": "all states of a peer, all histories and times", "why_tests_cant": "The decisions depend on the whole history of the peer through its window and its place in the tables.", "anchors": ["src/core/np_comp_node.c:__np_node_update", "src/core/np_comp_node.c:__is_node_invalid", "src/core/np_comp_node.c:__has_to_leave"]}
{"id": "C148", "title": "The log holds the messages selected, and errors in any case", "statement": "A message is logged exactly if it is an error or a warning, or if its level is selected (verbose only if verbose is selected too) and it is about no module, about a selected one, or everything is selected (LOG_GLOBAL).", "quantifier": "all selections and all combinations of level and module bits of a message", "why_tests_cant": "The selection and the message are arbitrary sets of flags; all combinations must agree.", "anchors": ["src/np_log.c:np_log_message", "src/np_log.c:_np_log_init", "include/np_log.h:LOG_GLOBAL"]}
{"id": "C149", "title": "Log lines are written once, whole and in order", "statement": "What was written to the log, followed by what still waits, is the lines of all accepted messages in the order of the calls, whatever the operating system answers to single writes; with several threads each entry is written, held or waiting exactly as often as it was logged.", "quantifier": "all histories of messages, flushes and rotations, all answers of write, all schedules of threads", "why_tests_cant": "Partial and failing writes and the interleaving of threads cannot be enumerated.", "anchors": ["src/np_log.c:__np_log_write", "src/np_log.c:_np_log_fflush", "src/np_log.c:np_log_message"]}
{"id": "C150", "title": "Errors are in the log file when the call returns, everything is at shutdown", "statement": "When the call that logs an error returns and writing works, the error and all earlier messages are in the log file; ending the process in order writes all that waits.", "quantifier": "all numbers of waiting entries and all messages", "why_tests_cant": "It depends on the length of the list of waiting entries, which has no limit.", "anchors": ["src/np_log.c:np_log_message", "src/np_log.c:_np_log_fflush", "src/np_log.c:_np_log_destroy", "include/np_settings.h:MISC_LOG_FLUSH_AFTER_X_ITEMS"]}
{"id": "C151", "title": "The newest part of the log is kept", "statement": "At any time the log files, oldest first, hold the end of everything that was written, without a gap; a rotation empties only the oldest file.", "quantifier": "all histories of messages, flushes and rotations and all answers of the operating system", "why_tests_cant": "A rotation needs ten megabytes of log; the claim is about any number of them.", "anchors": ["src/np_log.c:_np_log_rotation", "src/np_log.c:_np_log_evrotate", "include/np_settings.h:LOG_ROTATE_ENABLE"]}
{"id": "C152", "title": "A log function set by the application receives the messages", "statement": "If the application sets a function for log messages, it is called with the text of each accepted message.", "quantifier": "all messages and selections", "why_tests_cant": "The pointer passed on is uninitialised memory; a test passes or fails by accident.", "anchors": ["src/np_log.c:np_log_message", "src/np_log.c:__np_log_write", "include/neuropil.h:np_settings"]}
{"id": "C153", "title": "Log files have the name of the setting", "statement": "The log is written to the file named in the settings, or, with rotation, to files in the same directory with the same extension and different numbers in front of it.", "quantifier": "all names", "why_tests_cant": "Names with several dots, dots in directories, no dot or long extensions behave differently.", "anchors": ["src/np_log.c:_np_log_init", "src/np_log.c:_np_log_rotation"]}
{"id": "C154", "title": "Logging never ends the process", "statement": "No message, flush or rotation ends the process or damages its memory, whatever the operating system answers.", "quantifier": "all histories of messages, flushes and rotations and all answers", "why_tests_cant": "The failures need rare answers of the operating system or rare combinations of flags.", "anchors": ["src/np_log.c:np_log_message", "src/np_log.c:__np_log_write", "src/np_log.c:_np_log_rotation"]}
{"id": "C155", "title": "Every allowed number of search tables works", "statement": "A search node started with any number of tables can add entries and search, and the tables in use lie at different positions of the id space; the stride between them is the least prime not below 256 divided by the number of tables.", "quantifier": "all node ids and numbers of tables", "why_tests_cant": "The stride comes from a hand-written prime search with 8 bit arithmetic; tests use the default number of tables.", "anchors": ["framework/search/np_search.c:np_searchnode_init", "framework/search/np_search.c:__get_next_prime", "src/np_dhkey.c:_np_dhkey_rotate_left"]}
{"id": "C156", "title": "An added entry is found", "statement": "After an entry was added to a search node, every later query of that node whose index and filter are similar enough has the subject of the entry among its results, whatever was added, asked or received in between; a query finds exactly the matching entries, every subject once.", "quantifier": "all histories of operations on a search node, all entries and queries", "why_tests_cant": "The entry is put in some tables by distance and looked for in tables by distance of another key; any combination of keys can miss.", "anchors": ["framework/search/np_search.c:np_search_add_entry", "framework/search/np_search.c:np_search_query", "framework/search/np_search.c:__np_search_query", "framework/search/np_search.c:__np_search_add_entry"]}
{"id": "C157", "title": "The application gets all results of its query", "statement": "The result set handed to the application contains all results that were found for the query, and nothing else.", "quantifier": "all states of the results of a query", "why_tests_cant": "Depends on coincidences of the hit counters of the results.", "anchors": ["framework/search/np_search.c:np_search_get_resultset"]}
{"id": "C158", "title": "A query is answered with its own results", "statement": "The results of a query come from this query only: other queries, and messages of other nodes that do not answer it, leave them as they are; a query of another node is answered to that node.", "quantifier": "all operations on all states of a search node", "why_tests_cant": "Needs crossing queries of several nodes with equal small numbers.", "anchors": ["framework/search/np_search.c:_np_new_searchquery_cb", "framework/search/np_search.c:_np_searchresult_receive_cb", "framework/search/np_search.c:__np_search_query"]}
{"id": "C159", "title": "Searching never ends the process", "statement": "No history of additions, queries, collections and messages of other nodes ends the process of a search node or damages its memory.", "quantifier": "all histories of operations and messages", "why_tests_cant": "The failures need many queries, special keys or messages a test peer does not send.", "anchors": ["framework/search/np_search.c:np_create_searchquery", "framework/search/np_search.c:np_search_get_resultset", "framework/search/np_search.c:__np_search_add_entry", "framework/search/np_search.c:_np_new_searchentry_cb"]}
{"id": "C160", "title": "The table of search peers holds the nearest peers", "statement": "For each of the eight rows and each distance in that row the node keeps the nearest of all search peers it has authorised that have this distance; it never keeps itself, and no peer can write outside the table.", "quantifier": "all sequences of authorised peers with all ids", "why_tests_cant": "Ranges over ids and their order of arrival.", "anchors": ["framework/search/np_search.c:__np_search_authorize_node_cb"]}
{"id": "C161", "title": "Search objects go to nearer peers", "statement": "An entry or query is passed on only to peers that are nearer to its index in the row than the node itself, and to the nearest one known there.", "quantifier": "all ids, tables of peers and indexes", "why_tests_cant": "Ranges over ids and tables of peers.", "anchors": ["framework/search/np_search.c:__check_remote_peer_distribution", "framework/search/np_search.c:np_search_add_entry", "framework/search/np_search.c:np_search_query"]}
{"id": "C162", "title": "A peer that is dialled is not flooded with handshakes", "statement": "Two handshake messages to the same peer are more than five seconds apart, whatever happens in between; and once the session with the peer is established no more of them are sent.", "quantifier": "every kind of key, every time a wildcard attempt left behind, every sequence of checks, tokens, sessions, authentications and shutdowns at any times", "why_tests_cant": "The spacing must hold for every interleaving of periodic checks and peer events; a test sees a few schedules over a few seconds.", "anchors": ["src/core/np_comp_node.c:__np_node_handle_completion", "src/core/np_comp_node.c:__np_node_set", "src/np_key.c:IN_SETUP_NODE"]}
{"id": "C163", "title": "A join request needs a session and is not repeated at once", "statement": "No join request is sent to a peer before the session with it is established, and two join requests to the same peer are more than five seconds apart.", "quantifier": "every sequence of checks, tokens, sessions, authentications and shutdowns at any times", "why_tests_cant": "A join without a session would leave in the clear only in a particular order of events; all orders have to be excluded.", "anchors": ["src/core/np_comp_node.c:__np_node_handle_completion", "src/core/np_comp_node.c:__np_node_update_token"]}
{"id": "C164", "title": "A peer that does not answer is dialled again until it does", "statement": "After joining a peer by its full address, every check more than five seconds after the last handshake sends another one until the peer answers.", "quantifier": "every history of events, every time of the next check", "why_tests_cant": "It is a claim about unbounded time; tests stop after a few attempts.", "anchors": ["src/core/np_comp_node.c:__np_node_handle_completion", "src/core/np_comp_node.c:__is_node_invalid", "src/neuropil.c:np_join"]}
{"id": "C165", "title": "Joining by address alone ends after ten seconds", "statement": "An attempt to join a peer without knowing its fingerprint sends at most two handshakes and is over at the first check more than ten seconds after it began, whatever happens.", "quantifier": "every history of events after the attempt began", "why_tests_cant": "The bound must hold for every schedule of checks and also when the network for the address cannot be created.", "anchors": ["src/core/np_comp_node.c:__is_wildcard_invalid", "src/core/np_comp_node.c:__np_create_client_network", "src/np_key.c:IN_SETUP_WILDCARD"]}
{"id": "C166", "title": "A lost join request is sent again", "statement": "As long as the peer has not accepted the join and the session stands, a join request that was lost is followed by another one.", "quantifier": "every history of events, every pair of later checks", "why_tests_cant": "Whether a message was lost is the choice of the network; the retry must follow in every state the key can be in.", "anchors": ["src/core/np_comp_node.c:__np_node_handle_completion", "src/core/np_comp_node.c:__np_node_update_token", "src/np_msgproperty_init.c.part:__join_req"]}
{"id": "C167", "title": "The state machine takes the first rule that applies", "statement": "An event given to a state machine is handled exactly if a rule of the current state applies, and changes nothing otherwise. The first rule that applies, in the order of addition, decides: its action, then the exit function of the state that is left and the enter function of the target are called, once each; a rule that stays in the state calls its action only.", "quantifier": "every table of states, every set of functions, every event", "why_tests_cant": "The unit test drives one table whose functions never hand an event to the machine themselves; the claim is about all tables and functions.", "anchors": ["src/util/np_statemachine.c:np_util_statemachine_invoke_auto_transition"]}
{"id": "C168", "title": "A requested transition happens if a rule allows it", "statement": "A request for a state succeeds if some active rule of the current state leads there and its condition holds; a request without a rule is reported as such, and a request that fails changes nothing.", "quantifier": "every table of states, every target", "why_tests_cant": "It depends on the order of the rules for the same target; a test has one order. Within the repository only the unit test calls this function.", "anchors": ["src/util/np_statemachine.c:np_util_statemachine_transition"]}
{"id": "C169", "title": "Automatic transitions run until none is possible", "statement": "The call for automatic transitions makes transitions until no rule applies any more, as its documentation says, and reports whether there was one.", "quantifier": "every table of states", "why_tests_cant": "Chains of rules may have any length. Within the repository only the unit test calls this function.", "anchors": ["src/util/np_statemachine.c:np_util_statemachine_invoke_auto_transitions", "include/util/np_statemachine.h"]}
{"id": "C170", "title": "Rules are kept in the order of addition", "statement": "Every rule added to a state is kept, after the earlier ones, up to 254 rules; one more ends the process instead of losing a rule.", "quantifier": "every list of rules of any length", "why_tests_cant": "The counter has eight bits; tests add a handful of rules.", "anchors": ["src/util/np_statemachine.c:np_util_statemachine_add_transition"]}
{"id": "C171", "title": "Arguments of an http query arrive as they were sent", "statement": "The handler of an http request finds every argument of the query under its name, with its value (the first one if a name occurs more than once), and no other argument.", "quantifier": "every list of names and values of any length", "why_tests_cant": "Names without values and values with separators shift all later pairs; tests use one well-formed query.", "anchors": ["framework/http/np_http.c:_np_http_query_args"]}
{"id": "C172", "title": "A handler sees its own request", "statement": "Method, path, arguments, headers and body that an http handler sees are those of the request it answers, whatever requests came before on the connection.", "quantifier": "every sequence of requests on a connection", "why_tests_cant": "It is a property of histories: data of an earlier request may be left over.", "anchors": ["framework/http/np_http.c:_np_http_query_args", "framework/http/np_http.c:_np_http_body", "framework/http/np_http.c:_np_http_on_hdrs_begin"]}
{"id": "C173", "title": "A request reaches the handler of its path", "statement": "An http request is given to the handler that was registered for its method and path and to no other; without one the answer is 404 for GET and 501 otherwise.", "quantifier": "every list of registrations, every request", "why_tests_cant": "The table is keyed by a text of bounded length made from method and path; whether two pairs share a key is a question about all pairs.", "anchors": ["framework/http/np_http.c:_np_http_dispatch", "framework/http/np_http.c:_np_add_http_callback"]}
{"id": "C174", "title": "An http answer has the code the handler chose", "statement": "The code of an answer is the one that the name returned by the handler stands for.", "quantifier": "all names of answers", "why_tests_cant": "Names and codes are kept in two lists that have to agree in every place; handlers return few of them.", "anchors": ["framework/http/np_http.c:http_return_codes", "framework/http/np_http.h", "framework/http/np_http.c:_np_http_write_callback"]}
{"id": "C175", "title": "The answer for an unknown path stays in its buffer", "statement": "A request for an unknown path is answered with the list of known paths, cut if it is too long; memory outside of the page is never written.", "quantifier": "every list of registered paths of any length", "why_tests_cant": "Paths are registered for every other node whose data arrives; tests have few nodes.", "anchors": ["framework/http/np_http.c:_np_http_dispatch", "framework/sysinfo/np_sysinfo.c:_np_in_sysinfo"]}
{"id": "C176", "title": "The peer gets the answer as it is, or a beginning of it", "statement": "For every behaviour of the network the http client receives a beginning of the answer, head before body, without gaps; it receives all of it if the network takes it. The head never writes outside of its buffer.", "quantifier": "every head and body, every sequence of results of sending", "why_tests_cant": "Partial sends and errors may come at any byte; on a local connection everything is taken at once.", "anchors": ["framework/http/np_http.c:_np_http_write_callback"]}
{"id": "C177", "title": "A request is read as it was written", "statement": "From a request with a known method, a path, optional query, headers and a body of the declared length or in chunks, the http interface learns exactly that method, path, query, headers in their order, body and length, and the handler sees them.", "quantifier": "every method but CONNECT, path, query, list of headers and body that fit the buffer", "why_tests_cant": "The byte automaton has more than thirty states; the set of paths, headers and bodies is unbounded.", "anchors": ["framework/http/htparse.c:htparser_run", "framework/http/np_http.c:_np_http_hdr_key"]}
{"id": "C178", "title": "How the bytes of a request arrive does not matter", "statement": "The same bytes lead to the same calls with the same body bytes in the same order, the same end and the same state, wherever the network cuts them.", "quantifier": "every sequence of bytes, every way to cut it, every state of the parser", "why_tests_cant": "The number of ways to cut a request is exponential in its length; a local test delivers it at once.", "anchors": ["framework/http/htparse.c:htparser_run"]}
{"id": "C179", "title": "No http request ends the process", "statement": "Whatever bytes a client sends to the http port, they are answered or refused; the process does not end and no absent path is looked up.", "quantifier": "every sequence of bytes sent by a client", "why_tests_cant": "Test clients send correct requests; the assertions depend on the order of calls, which hostile bytes choose.", "anchors": ["framework/http/htparse.c:htparser_run", "framework/http/np_http.c:_np_http_hdr_value", "framework/http/np_http.c:_np_http_dispatch"]}
{"id": "C180", "title": "Every request of a connection is read", "statement": "All requests that a client sends over one connection are read and answered, in their order, also if several arrive together.", "quantifier": "every list of requests and every grouping into reads", "why_tests_cant": "Whether requests arrive together depends on timing.", "anchors": ["framework/http/htparse.c:htparser_run", "framework/http/np_http.c:_np_http_read_callback"]}
{"id": "C181", "title": "The body has the declared length", "statement": "A request is over exactly when the number of bytes in its Content-Length header has arrived after the headers, and a length that cannot be represented is refused.", "quantifier": "every value of the header and every number of bytes that follow", "why_tests_cant": "The arithmetic wraps only for lengths no test sends.", "anchors": ["framework/http/htparse.c:str_to_uint64", "framework/http/htparse.c:htparser_run"]}
{"id": "C182", "title": "The parser stays inside its buffer", "statement": "Whatever a client sends, the http parser writes only inside its buffer of 8192 bytes; a path that does not fit is refused.", "quantifier": "every sequence of reads", "why_tests_cant": "The limit is reached in many states, by inputs of any length.", "anchors": ["framework/http/htparse.c:htparser_run"]}
{"id": "C183", "title": "A refused request does not affect the following ones", "statement": "After a request was answered with 400 and the connection stays open, later correct requests on it are read.", "quantifier": "every refused input and every list of later requests", "why_tests_cant": "Tests open a new connection after an error; the state left behind depends on the byte at which the request was refused.", "anchors": ["framework/http/htparse.c:htparser_run", "framework/http/np_http.c:_np_http_read_callback"]}
{"id": "C184", "title": "A server knows the newest report of a node", "statement": "What np_sysinfo_get_info returns for a node is a newest one of the reports received about it that did not become too old, in whatever order they arrived; if there is none it returns nothing.", "quantifier": "every history of reports and questions and every node", "why_tests_cant": "A test sends a few reports in order; late, repeated, incomplete and expired ones combine in unboundedly many ways.", "anchors": ["framework/sysinfo/np_sysinfo.c:_np_in_sysinfo", "framework/sysinfo/np_sysinfo.c:np_sysinfo_get_info", "framework/sysinfo/np_sysinfo.c:_np_sysinfo_cache_interval"]}
{"id": "C185", "title": "A report on a node comes from that node", "statement": "What a server tells about a node has been reported by this node and by nobody else.", "quantifier": "every sender, every report and every history", "why_tests_cant": "Tests have no sender that reports about somebody else.", "anchors": ["framework/sysinfo/np_sysinfo.c:_np_in_sysinfo", "framework/sysinfo/np_sysinfo.c:np_sysinfo_get_all"]}
{"id": "C186", "title": "The list of all reports can always be had and is complete", "statement": "Whatever reports have arrived, np_sysinfo_get_all returns the report of the server followed by one report for each node whose known report is not too old.", "quantifier": "every history of reports and every moment", "why_tests_cant": "A single incomplete report among many is not part of any test; completeness is about all sets of nodes.", "anchors": ["framework/sysinfo/np_sysinfo.c:np_sysinfo_get_all", "framework/sysinfo/np_sysinfo.c:_np_sysinfo_cache_interval"]}
{"id": "C187", "title": "Reports that are too old are not given", "statement": "No report that is older than three intervals of sending is returned.", "quantifier": "every state of the server and every moment", "why_tests_cant": "Tests do not wait for reports to get old, and the moment of the question is arbitrary.", "anchors": ["framework/sysinfo/np_sysinfo.c:np_sysinfo_get_all", "framework/sysinfo/np_sysinfo.c:_np_sysinfo_get_from_cache"]}
{"id": "C188", "title": "Every node with a report has a page", "statement": "If a server with the http interface knows a report on a node, a GET of /sysinfo/<key> is answered with it; a GET of its own key with what it finds itself.", "quantifier": "every history of reports and every key", "why_tests_cant": "Tests ask for a key or two; keys come from the network and may be any text.", "anchors": ["framework/sysinfo/np_sysinfo.c:_np_http_handle_sysinfo_hash", "framework/sysinfo/np_sysinfo.c:np_sysinfo_enable_server", "framework/http/np_http.c:_np_add_http_callback"]}
{"id": "C189", "title": "Asking for reports is safe in any order of calls", "statement": "np_sysinfo_get_info and np_sysinfo_get_all may be called before or after the reports were enabled; neither they nor a received report stop the process.", "quantifier": "every order of calls, every received report", "why_tests_cant": "Tests enable the reports first.", "anchors": ["framework/sysinfo/np_sysinfo.c:np_sysinfo_get_my_info", "framework/sysinfo/np_sysinfo.c:np_sysinfo_get_info", "framework/sysinfo/np_sysinfo.c:_np_sysinfo_init_cache"]}
{"id": "C190", "title": "Reading a page of the reports changes nothing else", "statement": "A GET of a page of the reports does not let the node join an address.", "quantifier": "every request and every earlier request of the connection", "why_tests_cant": "What a request does depends on its arguments and on those of all earlier requests of its connection.", "anchors": ["framework/sysinfo/np_sysinfo.c:_np_http_handle_sysinfo_all", "framework/http/np_http.c:_np_http_query_args"]}
{"id": "C191", "title": "The content of a shared file is delivered", "statement": "Reading the page of a shared file over http, or sending it to an authorized peer, delivers the bytes of the file along with its name, place and type, every time it is asked for.", "quantifier": "all histories of sharing, reading and sending, all files and contents", "why_tests_cant": "A test reads one file once; that no history at all leads to a page with a content, and that the rest of the page never changes, is a statement about all histories.", "anchors": ["framework/files/file.c:__np_file_handle_http_get_file", "framework/files/file.c:__load_file", "framework/files/file.c:__close_file", "framework/files/file.c:__send_file"]}
{"id": "C192", "title": "Sharing and serving files leaves the process alone", "statement": "Sharing something, reading a page or sending a file leaves the working directory of the process as it was and closes no descriptor it has not opened.", "quantifier": "all states, all requests, all files", "why_tests_cant": "The effect is on the rest of the process: it shows only when another part opens a file or a name is resolved later, in some order.", "anchors": ["framework/files/file.c:np_files_open", "framework/files/file.c:__load_file", "framework/files/file.c:__close_file"]}
{"id": "C193", "title": "Sharing a directory shares everything visible in it", "statement": "After a directory has been shared, it and every visible file and directory below it, at any depth, has a page; the page of a directory lists exactly its visible entries; what was shared before stays as it was.", "quantifier": "all directory trees of any depth and width, all states before", "why_tests_cant": "Directory trees are unbounded and the listing depends on names met anywhere in the tree before.", "anchors": ["framework/files/file.c:__dir_open", "framework/files/file.c:__file_open", "framework/files/file.c:np_files_open", "framework/files/file.c:__construct_id"]}
{"id": "C194", "title": "Only what was to be shared is shared", "statement": "Sharing something gives a page to that and to what is visible in it and to nothing else; hidden files are not shared; those who read pages share nothing.", "quantifier": "all trees, all states, all requests", "why_tests_cant": "It is about every name that was not shared and every request, not about those a test thinks of.", "anchors": ["framework/files/file.c:__dir_open", "framework/files/file.c:__np_file_handle_http_get_dir", "framework/files/file.c:np_files_open"]}
{"id": "C195", "title": "What is no longer to be shared is not shared", "statement": "After np_files_close for something shared, it has no page and is not sent.", "quantifier": "all histories, all names", "why_tests_cant": "It must hold after every history of sharing and reading.", "anchors": ["framework/files/file.c:np_files_close"]}
{"id": "C196", "title": "A shared file is announced with the type of its suffix", "statement": "A file whose name ends with a suffix of the table of types has that type, whatever comes before the suffix; every other file is plain text.", "quantifier": "all names", "why_tests_cant": "Names are unbounded; the comparison looks at parts of a suffix, so only some of the names show that it is wrong.", "anchors": ["framework/files/file.c:__find_mime_type"]}
{"id": "C197", "title": "The content type of a page of files is that of its body", "statement": "The header Content-Type of an answer names the format of the body, which is JSON for every page.", "quantifier": "all states, all requests", "why_tests_cant": "It depends on the type of the file asked for and on which of two insertions into a header stays.", "anchors": ["framework/files/file.c:__np_file_handle_http_get_file", "framework/files/file.c:__np_file_handle_http_get_dir"]}
{"id": "C198", "title": "A received file is stored and nothing else is changed", "statement": "When a message with a file arrives, the receiver has a file with exactly that content, no file of its own is changed, and an incomplete message or a full disk is noticed.", "quantifier": "all disks, all messages, all results of the system calls", "why_tests_cant": "The message is chosen by a remote peer and the results of open and write by the system.", "anchors": ["framework/files/file.c:np_files_store_cb"]}
{"id": "C199", "title": "Every line of a searchable file is indexed", "statement": "For a searchable file, each of its lines, and nothing else, becomes an entry of the search index.", "quantifier": "all contents of files of any length", "why_tests_cant": "The failing case depends on the length of the file modulo the size of a page and on bytes within it.", "anchors": ["framework/files/file.c:__file_open"]}
{"id": "C200", "title": "Ids of different things are different", "statement": "The id made from a name, a number and the time is the hash of something else if name, number or time differ.", "quantifier": "all names, numbers and times", "why_tests_cant": "It is about all pairs of names, numbers and times; a collision needs a rare pair.", "anchors": ["src/np_util.c:np_uuid_create"]}
{"id": "C201", "title": "Every message has an id of its own", "statement": "Two messages, of one node or of different ones, have different ids, so that each of them is waited for and acknowledged on its own.", "quantifier": "all sets of messages, all nodes, all times", "why_tests_cant": "Two messages with the same id need two threads or nodes that create them in the same instant.", "anchors": ["src/np_message.c:_np_message_create", "src/np_util.c:np_uuid_create", "src/np_message.c:_np_message_add_response_handler"]}
{"id": "C202", "title": "The id of a thing of one kind is not that of a thing of another kind", "statement": "Whenever they are made, a message, a token, an event, a piece of memory and a search query have ids that are hashed from different things.", "quantifier": "all pairs of kinds and all times", "why_tests_cant": "It ranges over all pairs of times.", "anchors": ["src/np_util.c:np_uuid_create", "src/np_aaatoken.c:_np_aaatoken_t_new", "src/np_eventqueue.c:__np_event_runtime_start_with_event"]}
{"id": "C203", "title": "The JSON of a tree shows the tree", "statement": "At every path of names, at any depth, the JSON made from a tree has the value the tree has there, and it has nothing where the tree has nothing.", "quantifier": "all trees with text, number or double keys, of any size and depth, and all paths", "why_tests_cant": "Trees have any size and depth, and what goes missing depends on how names of different kinds of keys meet.", "anchors": ["src/np_util.c:np_tree2json", "src/np_util.c:np_treeval2json"]}
{"id": "C204", "title": "The JSON of a list is a list", "statement": "A tree whose keys are whole numbers becomes a JSON list with one entry for each value, in order, and nothing is lost.", "quantifier": "all trees with whole numbers as keys, of any size, with values of any depth", "why_tests_cant": "It is about all sizes and mixes of keys.", "anchors": ["src/np_util.c:np_tree2json", "framework/search/np_search.c:np_tree2json"]}
{"id": "C205", "title": "Whole numbers are shown exactly", "statement": "A whole number in a tree is the same number in the JSON.", "quantifier": "all whole numbers of all types", "why_tests_cant": "Only a few of 2^64 numbers can be tried.", "anchors": ["src/np_util.c:np_treeval2json"]}
{"id": "C206", "title": "Showing a tree is safe", "statement": "Making the JSON of a tree reads no memory that is not in use, whatever the tree holds.", "quantifier": "all trees of any size and depth", "why_tests_cant": "A read of memory out of use often goes unnoticed.", "anchors": ["src/np_util.c:np_treeval2json", "src/util/np_treeval.c:np_treeval_to_str"]}
{"id": "C207", "title": "Packets of a tunnel reach the peer with their destination", "statement": "A packet that the host sends into the tunnel for the address of a peer is sent to the subject this peer listens on, and to no other peer of the network; its bytes come out unchanged.", "quantifier": "all configurations, addresses, packets and histories of set up", "why_tests_cant": "There are too many addresses and networks, and collisions of subjects need special pairs.", "anchors": ["framework/tuntap/np_tuntap.c:_np_tuntap_read_callback", "framework/tuntap/np_tuntap.c:_np_tuntap_init_subjects", "src/neuropil.c:np_generate_subject"]}
{"id": "C208", "title": "The host gets whole packets from a tunnel, once", "statement": "What arrives for the host is handed to it if and only if it is a whole packet of IP version 4, from the peer with the address of its sender, and it is handed over once.", "quantifier": "all byte sequences a peer may send", "why_tests_cant": "Peers may send any bytes.", "anchors": ["framework/tuntap/np_tuntap.c:_handle_tuntap_traffic"]}
{"id": "C209", "title": "The peers of a tunnel", "statement": "A node becomes a peer of the tunnel if and only if it has the same domain and netmask, another address, and the user agrees; what it announces does no harm.", "quantifier": "all configurations and all attributes a node may announce", "why_tests_cant": "Other nodes choose the attributes, of any length.", "anchors": ["framework/tuntap/np_tuntap.c:_tuntap_authorize_peers"]}
{"id": "C210", "title": "Starting and stopping a tunnel", "statement": "Whatever the user calls in whatever order, packets flow if and only if the tunnel is running, and a tunnel that was set up with an error does not run.", "quantifier": "all histories of init, start, stop and destroy and all answers of the system", "why_tests_cant": "There are infinitely many histories.", "anchors": ["framework/tuntap/np_tuntap.c:np_tuntap_init", "framework/tuntap/np_tuntap.c:np_tuntap_start", "framework/tuntap/np_tuntap.c:np_tuntap_stop", "framework/tuntap/np_tuntap.c:np_tuntap_destroy", "framework/tuntap/np_tuntap.c:_np_tuntap_start_evloop"]}
{"id": "C211", "title": "The interface of a tunnel gets the network of the netmask", "statement": "The interface is set up with as many network bits as the netmask has.", "quantifier": "all netmasks", "why_tests_cant": "Usual netmasks happen to work.", "anchors": ["framework/tuntap/np_tuntap_linux.c:_np_tuntap_set_ipv4"]}
{"id": "C212", "title": "Routes of a tunnel", "statement": "Adding or deleting a route asks the kernel for this route and writes only to the request.", "quantifier": "all addresses", "why_tests_cant": "Writing outside of the request often goes unnoticed.", "anchors": ["framework/tuntap/np_tuntap_linux.c:np_tuntap_route_add", "framework/tuntap/np_tuntap_linux.c:np_tuntap_route_delete"]}
{"id": "C213", "title": "A web search lists what was found", "statement": "The answer to a search over http is the JSON list of all results of the query, in order, each with its number of hits, label, similarity and the title its owner gave it. (Results beyond 65534 bytes are left out without a word; if the first is too large the answer is an empty object.)", "quantifier": "all requests, all lists of results, all titles and sizes", "why_tests_cant": "The number and size of results and the memory behind a title are unbounded.", "anchors": ["framework/search/np_search.c:__np_search_handle_http_get", "src/np_util.c:np_tree2json"]}
{"id": "C214", "title": "The status of a web search tells how it went", "statement": "A search over http is answered with 200 if and only if something was found, with 400 if and only if the arguments hold no text that can be searched for, and an answer without content has none. (The answer 204 has a body.)", "quantifier": "all requests and all outcomes of the query", "why_tests_cant": "All argument lists and all outcomes.", "anchors": ["framework/search/np_search.c:__np_search_handle_http_get", "framework/search/np_search.c:__np_generate_error_json"]}
{"id": "C215", "title": "No entry can end the process of a web search", "statement": "Whatever attributes the found entries carry and however long the search takes, a search over http is answered. (An entry whose title is a number, which any node may publish, makes the handler use the number as an address.)", "quantifier": "all requests, all entries of other nodes, all times of the clean-up", "why_tests_cant": "Entries come from other nodes, and the clean-up may come at any time.", "anchors": ["framework/search/np_search.c:__np_search_handle_http_get", "framework/search/np_search.c:__np_search_cleanup_pipeline", "src/neuropil_data.c:np_get_data"]}
{"id": "C216", "title": "A packet passes any chain of nodes unchanged, unless it expires", "statement": "A packet of a message that reaches every node on its way before the end of its time to live arrives at the last node with exactly the contents it was sent with, no matter how many nodes pass it on, under which link keys and sequence numbers; a packet that reaches a node too late does not arrive. Its hop count is the number of nodes that have passed it on, modulo 65536. A message whose packets take different ways and arrive in any order is put together byte for byte.", "quantifier": "all packets, all chains of nodes of any length, all keys, sequence numbers and times of arrival, all orders of the packets of a message, all ciphers that invert themselves", "why_tests_cant": "The number of nodes on the way, the keys and times are unbounded; a test network has a few nodes.", "anchors": ["src/core/np_comp_node.c:__np_node_send_encrypted", "src/core/np_comp_node.c:_np_node_build_network_packet", "src/core/np_comp_alias.c:__np_alias_decrypt", "src/core/np_comp_alias.c:__is_msgpart_expired", "src/np_axon.c:_np_out_forward", "src/np_message.c:np_messagepart_clone"]}
{"id": "C217", "title": "No two packets on a link are encrypted under the same nonce", "statement": "Among all packets a node sends over a link with one session key, no two are encrypted with the same nonce; otherwise who listens learns the sum of their contents.", "quantifier": "all sequences of messages, of users and of the system, all sizes, all contents of the memory they are made in", "why_tests_cant": "Every pair of packets of an unbounded history counts, and whether nonces repeat depends on what the allocator returns.", "anchors": ["src/np_message.c:_np_message_create", "src/np_message.c:_np_message_encrypt_payload", "src/np_axon.c:_np_out_callback_wrapper", "src/core/np_comp_node.c:_np_node_build_network_packet", "src/core/np_comp_node.c:__np_node_send_encrypted"]}
{"id": "C218", "title": "A packet holds nothing but the message", "statement": "What a node sends over a link is determined by the message, the keys and random bytes; nothing that happened to be in its memory before is sent.", "quantifier": "all messages, all contents of the memory the message and its packets are made in, all ciphers", "why_tests_cant": "Memory of a fresh test process is mostly zero, and tests compare packets after they are decrypted; non-interference is a statement about pairs of runs.", "anchors": ["src/np_message.c:_np_message_create", "src/np_message.c:_np_message_encrypt_payload", "src/core/np_comp_node.c:_np_node_build_network_packet", "src/core/np_comp_node.c:__np_node_send_direct"]}
{"id": "C219", "title": "Each authorized receiver gets the key messages are encrypted with", "statement": "When the intent of an authorized receiver has come in at a sender, and as long as it is not lost, the receiver has been sent, in a message only it can read, the key with which the sender encrypts the messages of the channel, under the name these messages carry; this stays so over all later renewals of the sender's intent.", "quantifier": "every history of new intents, announcements and intents of receivers that come in and are lost, before and after; every number of receivers and of renewals", "why_tests_cant": "renewals happen hours apart and interleave with the intents of receivers in any order; a test sees one order", "anchors": ["src/core/np_comp_intent.c:_np_intent_update_receiver_session", "src/core/np_comp_intent.c:_np_intent_update_session", "src/core/np_comp_msgproperty.c:_np_msgproperty_upsert_token", "src/core/np_comp_msgproperty.c:__np_msgproperty_send_available_messages"]}
{"id": "C220", "title": "A receiver that is no longer authorized cannot read later messages", "statement": "After the intent of a receiver is lost (expired or no longer valid) the sender encrypts with keys that were not sent to this receiver, and sends it no more keys until its intent comes in again.", "quantifier": "every history before and after the loss", "why_tests_cant": "that something is never sent again is a statement about all later histories", "anchors": ["src/core/np_comp_intent.c:__np_intent_check", "src/core/np_comp_intent.c:_np_intent_update_receiver_session", "src/core/np_comp_intent.c:_np_intent_update_session"]}
{"id": "C221", "title": "Keys of a channel are only sent to authorized receivers", "statement": "Every message that carries a key of a channel is encrypted for a receiver whose authorized intent came in before.", "quantifier": "every history of a channel, even if ids of sessions clash", "why_tests_cant": "absence of a message to anybody else, in every history", "anchors": ["src/core/np_comp_intent.c:_np_intent_update_receiver_session", "src/core/np_comp_intent.c:_np_intent_update_session"]}
{"id": "C222", "title": "The cost of renewing an intent is bounded by the number of receivers", "statement": "When a sender renews its intent it sends at most one message with the new key to each of its receivers, however often it did so before.", "quantifier": "every history of a channel, every number of earlier renewals", "why_tests_cant": "the cost grows with the number of renewals, one in hours; no test runs long enough", "anchors": ["src/core/np_comp_intent.c:_np_intent_update_session", "src/core/np_comp_intent.c:_np_intent_update_receiver_session"]}
{"id": "C223", "title": "Intents a node issues are accepted by every other node until they expire", "statement": "The intent a node makes for a channel is read by every other node as it was sent, passes its checks as an intent exactly until it expires, and a node that knows and has authenticated the issuing identity can verify that this identity issued it.", "quantifier": "every identity with its key pair, every configuration of a channel, all user attributes, every receiver and time", "why_tests_cant": "ranges over all identities, channel configurations, user attributes and times", "anchors": ["src/np_token_factory.c:_np_token_factory_new_message_intent_token", "src/np_token_factory.c:__np_token_factory_derive", "src/np_aaatoken.c:np_aaatoken_set_partner_fp", "src/np_aaatoken.c:_np_aaatoken_set_signature"]}
{"id": "C224", "title": "No intent outlives its identity or the lifetime set for the channel", "statement": "The expiry of an intent is neither after the expiry of the identity that issued it nor after the time of issue plus the longest lifetime of intents of the channel.", "quantifier": "every identity, every configuration of a channel, every time, all 64-bit floating point values", "why_tests_cant": "ranges over all times, including those that are not numbers", "anchors": ["src/np_token_factory.c:_np_token_factory_new_message_intent_token"]}
{"id": "C225", "title": "Handshake and join tokens a node issues are accepted by every other node until they expire", "statement": "The token a node sends in its handshake and the identity token it sends to join are read by every other node as they were sent and pass its checks exactly until the node's, respectively the identity's, own expiry; the identity token keeps uuid and issuer. The same holds of the public token of a node.", "quantifier": "every node and identity with their key pairs, all user attributes, every receiver and time", "why_tests_cant": "ranges over all identities, attributes and times", "anchors": ["src/np_token_factory.c:_np_token_factory_new_handshake_token", "src/np_token_factory.c:np_token_factory_get_public_ident_token", "src/np_token_factory.c:np_token_factory_get_public_node_token", "src/np_axon.c:_np_out_join"]}
{"id": "C226", "title": "A channel can be announced with every limit of parallel messages", "statement": "Whatever number of parallel messages from 1 to 255 the user sets for a channel, the node can make and announce an intent for it as long as there is room for its attributes.", "quantifier": "all 255 values of the limit, all other properties of the channel, every identity, every size of the attributes", "why_tests_cant": "one value out of 255 is enough to break it; tests use a few", "anchors": ["src/np_token_factory.c:_np_token_factory_new_message_intent_token", "src/core/np_comp_msgproperty.c:np_msgproperty_from_user", "src/util/s11n_impl/np_serialize_qcbor.c:np_serializer_calculate_object_size", "src/neuropil_data.c:np_set_data"]}
{"id": "C227", "title": "Attributes go exactly where their scope says", "statement": "An attribute set with a scope is found, with the value of the last call that returned np_data_ok, in every user message, intent or identity the scope includes, and it is never found in one that no scope it was set with includes. What these carry of their own stays.", "quantifier": "every history of calls that set attributes, all keys, values and scopes, every message, intent and identity", "why_tests_cant": "absence of leaks over all histories of calls, keys and scopes; lost attributes only show near the limit of the room", "anchors": ["include/neuropil_attributes.h:np_msg_attr_type", "src/neuropil_attributes.c:np_set_ident_attr_bin", "src/neuropil_attributes.c:np_set_mxp_attr_bin", "src/neuropil.c:np_send_to", "src/np_token_factory.c:_np_token_factory_new_message_intent_token", "src/np_token_factory.c:np_token_factory_get_public_ident_token", "src/neuropil_data.c:np_merge_data"]}
{"id": "C228", "title": "A call that sets an attribute of an identity reports whether it did", "statement": "If np_set_ident_attr_bin returns np_data_ok the token passed has the attribute.", "quantifier": "every token and its former attributes, all keys, values and scopes", "why_tests_cant": "ranges over all former contents; only fails when there is room in one place and none in the other", "anchors": ["src/neuropil_attributes.c:np_set_ident_attr_bin", "src/neuropil_data.c:np_set_data"]}
{"id": "C229", "title": "Attributes of a message are read safely whatever the sender put into it", "statement": "np_get_msg_attr_bin copies the attribute of a message if it is there and returns np_key_not_found if it is not; it never touches memory outside of the message and the memory of the caller.", "quantifier": "every message, every key, every type and length of the value, all sizes of the caller's memory, with and without a configuration", "why_tests_cant": "ranges over all messages other nodes can send; undefined behaviour often goes unnoticed in a run", "anchors": ["src/neuropil_attributes.c:np_get_msg_attr_bin", "src/neuropil_data.c:np_get_data", "src/neuropil_data.c:__convert_kv_to_conf", "examples/neuropil_iot_car.c:receive_set_owner"]}
{"id": "C230", "title": "Setting a policy of a channel reports whether it is in force", "statement": "np_set_mxp_attr_policy_bin returns np_data_ok if and only if the requirement was added to the policy of the channel, in every direction it is used in; then intents without the required attribute are refused.", "quantifier": "every channel, used for receiving, for sending or both, all former requirements, all keys and values, all intents", "why_tests_cant": "ranges over all former policies, requirements and intents; tests use channels that exist in both directions", "anchors": ["src/neuropil_attributes.c:np_set_mxp_attr_policy_bin", "src/core/np_comp_msgproperty.c:_np_msgproperty_run_get", "src/np_legacy.c:np_add_receive_listener", "bindings/python_cffi/neuropil.py:set_attr_policy_bin"]}
