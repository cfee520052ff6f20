{
 "claims": [
  {
   "property": "C01",
   "status": "proved",
   "theorems": [
    "Np.C01_order_independent",
    "Np.C01_twice_cancels",
    "Np.C01_restored",
    "Np.C01_injective"
   ],
   "note": "Hash is a parameter; all orders, all parts."
  },
  {
   "property": "C02",
   "status": "proved",
   "theorems": [
    "Np.C02_text_shape",
    "Np.C02_round_trip",
    "Np.C02_injective",
    "Np.C02_text_round_trip"
   ],
   "note": "Round trip in both directions, shape of the text, injectivity."
  },
  {
   "property": "C03",
   "status": "proved",
   "theorems": [
    "Np.C03_total_order",
    "Np.C03_numeric",
    "Np.C03_equal",
    "Np.C03_null"
   ],
   "note": "Comparison is numeric comparison of the 256-bit ids."
  },
  {
   "property": "C04",
   "status": "partial",
   "theorems": [
    "Np.C04_distance_partial",
    "Np.C04_identity_refuted",
    "Np.C04_zero_iff",
    "Np.C04_ring_distance_refuted",
    "Np.C04_hamming_refuted"
   ],
   "note": "Symmetric, zero on the diagonal, bounded by half; the claim that distance zero identifies ids is false of the code (C04_identity_refuted), exact zero set in C04_zero_iff."
  },
  {
   "property": "C05",
   "status": "proved",
   "theorems": [
    "Np.C05_between"
   ],
   "note": "Interval test agrees with the ring definition for all ids, with and without bounds."
  },
  {
   "property": "C06",
   "status": "proved",
   "theorems": [
    "Np.C06_index_is_common_prefix",
    "Np.C06_symmetric_and_bounded",
    "Np.C06_digit",
    "Np.C06_slot_in_table"
   ],
   "note": "Row index is the common hex prefix length; slot always inside the table for different ids."
  },
  {
   "property": "C07",
   "status": "partial",
   "theorems": [
    "Np.Data.C07_returns_partial",
    "Np.Data.C07_last_value_partial",
    "Np.Data.C07_many_refuted"
   ],
   "note": "Proved for every memory size from 21 bytes to 4 GB, every sequence of np_set_data calls with regular entries (Spec.Regular: the entries whose size the library computes correctly) and fewer than 65536 keys: calls return and a key reads as the last value accepted. Refuted without the bound on keys: with 65536 keys np_get_data for an absent key never returns. Irregular entries: see C08/C09."
  },
  {
   "property": "C08",
   "status": "partial",
   "theorems": [
    "Np.Data.C08_fits_partial",
    "Np.Data.C08_sizes_refuted",
    "Np.Data.C08_assert_refuted"
   ],
   "note": "Proved for regular entries: accepted iff the entries then in the block fit. Refuted: a key of 24 characters, 24 or more than 65535 bytes of data, or the number 24 are never accepted; -256 and -65536 fail an assertion."
  },
  {
   "property": "C09",
   "status": "partial",
   "theorems": [
    "Np.Data.C09_unchanged_partial",
    "Np.Data.C09_replace_refuted"
   ],
   "note": "Proved for regular entries and for every entry with a new key. Refuted: replacing a value by one of 24 bytes fails and destroys the block."
  },
  {
   "property": "C10",
   "status": "partial",
   "theorems": [
    "Np.Data.C10_in_bounds_partial",
    "Np.Data.C10_used_partial",
    "Np.Data.C10_negation_refuted"
   ],
   "note": "No access outside the block and no endless loop for any key and value except -2147483648 (undefined negation, refuted) on blocks built with regular entries; the recorded used size is exact."
  },
  {
   "property": "C11",
   "status": "partial",
   "theorems": [
    "Np.Data.C11_iterate_partial"
   ],
   "note": "Proved for blocks built with regular entries and fewer than 65536 keys; the callback must not change the block."
  },
  {
   "property": "C12",
   "status": "partial",
   "theorems": [
    "Np.Data.C12_merge_partial"
   ],
   "note": "Proved for blocks built with regular entries and fewer than 65536 keys in both blocks; source and destination do not overlap."
  },
  {
   "property": "C13",
   "status": "proved",
   "theorems": [
    "Np.SCache.C13_first_add",
    "Np.SCache.C13_add_again"
   ],
   "note": "Every sequence, bucket count 1..65535 and hash function; keys are buffers of at least 32 bytes, of which the code compares 32."
  },
  {
   "property": "C14",
   "status": "partial",
   "theorems": [
    "Np.JobQueue.C14_neither_lost_nor_duplicated",
    "Np.JobQueue.C14_takes_first",
    "Np.JobQueue.C14_not_early_partial",
    "Np.JobQueue.C14_not_early_refuted",
    "Np.JobQueue.C14_refused_iff_full",
    "Np.JobQueue.C14_abort_iff",
    "Np.JobQueue.C14_periodic_again",
    "Np.JobQueue.C14_configured_size_refuted",
    "Np.JobQueue.C14_selection"
   ],
   "note": "Conservation, ordering, refusal, selection and aborts proved for all interleavings of submitters and workers (capacity 511..32768). Not early only if selections do not overlap; overlapping selections run a job early (C14_not_early_refuted) and the configured size is not honoured (C14_configured_size_refuted)."
  },
  {
   "property": "C15",
   "status": "partial",
   "theorems": [
    "Np.Heap.C15_priority_queue",
    "Np.Heap.C15_starts_empty",
    "Np.Heap.C15_sorts",
    "Np.Heap.C15_remove_content",
    "Np.Heap.C15_remove_partial",
    "Np.Heap.C15_remove_refuted",
    "Np.Heap.C15_large_refuted",
    "Np.Heap.C15_increase_refuted"
   ],
   "note": "Insert/take histories refine a priority queue with no bound but 32768 places; removal at an index only sifts down (C15_remove_refuted), larger heaps overflow a 16-bit child index (C15_large_refuted)."
  },
  {
   "property": "C16",
   "status": "partial",
   "theorems": [
    "Np.Lists.C16_dll",
    "Np.Lists.C16_pll",
    "Np.Lists.C16_pll_sorted",
    "Np.Lists.C16_pll_unique",
    "Np.Lists.C16_pll_find_partial",
    "Np.Lists.C16_pll_find_refuted",
    "Np.Lists.C16_sll_partial",
    "Np.Lists.C16_sll_refuted",
    "Np.Lists.C16_sll_prepend_refuted",
    "Np.Lists.C16_sll_clone_merge"
   ],
   "note": "Double linked and priority lists: full refinement for all histories at pointer level (no use after free, no leak). Single linked list: use after free after clear (C16_sll_refuted), otherwise full; pll_find wrong for three-way comparators (C16_pll_find_refuted)."
  },
  {
   "property": "C17",
   "status": "partial",
   "theorems": [
    "Np.Tree.C17_lookup_partial",
    "Np.Tree.C17_contents_partial",
    "Np.Tree.C17_immutable",
    "Np.Tree.C17_types_refuted",
    "Np.Tree.C17_lost_refuted",
    "Np.Tree.C17_ulong_refuted",
    "Np.Tree.C17_int_refuted",
    "Np.Tree.C17_long_refuted"
   ],
   "note": "Proved over the concrete red-black tree for every history with keys of one kind: texts up to 255 bytes, ids, uuids, finite doubles, integers within a window of 32768 values. Refuted outside: keys of different types match each other, unsigned keys 65536 apart are the same key, integers far apart get lost, texts over 255 bytes are not found again."
  },
  {
   "property": "C18",
   "status": "partial",
   "theorems": [
    "Np.Chunk.C18_covers_partial",
    "Np.Chunk.C18_large_refuted",
    "Np.Chunk.C18_nothing_sent_refuted"
   ],
   "note": "Proved for serialized payloads up to 64800 bytes; above that the 16-bit truncation loses data for every payload (C18_large_refuted)."
  },
  {
   "property": "C19",
   "status": "proved",
   "theorems": [
    "Np.Chunk.C19_sender",
    "Np.Chunk.C19_every_order",
    "Np.Chunk.C19_counter_wrap_refuted"
   ],
   "note": "Any number of messages interleaved, every arrival order, byte-level round trip; start values whose counter overflows are outside the quantifier and shown to corrupt memory (C19_counter_wrap_refuted)."
  },
  {
   "property": "C20",
   "status": "partial",
   "theorems": [
    "Np.Chunk.C20_duplicates_partial",
    "Np.Chunk.C20_refuted"
   ],
   "note": "Proved if chunk 0 of each message arrives first; otherwise a duplicate can be counted twice (C20_refuted)."
  },
  {
   "property": "C21",
   "status": "proved",
   "theorems": [
    "Np.Bloom.C21_no_false_negatives",
    "Np.Bloom.C21_capacity",
    "Np.Bloom.C21_limits_refuted"
   ],
   "note": "All build histories of additions, unions and intersections for every size; an operation that aborts (full filter, size over the 16-bit counter, union over capacity) or accesses memory outside the array is a distinct outcome, and C21_limits_refuted shows when that happens."
  },
  {
   "property": "C22",
   "status": "partial",
   "theorems": [
    "Np.Bloom.C22_found",
    "Np.Bloom.C22_gone_partial",
    "Np.Bloom.C22_all_gone",
    "Np.Bloom.C22_refresh_refuted",
    "Np.Bloom.C22_capacity"
   ],
   "note": "Found for at least fifteen agings (full). Expiry at the sixteenth aging is proved for ids that were not in the filter when added; it is false for ids added again while still found, which survive up to 30 further agings (C22_refresh_refuted). Everything is gone after 32 agings."
  },
  {
   "property": "C23",
   "status": "partial",
   "theorems": [
    "Np.Bloom.C23_no_policy",
    "Np.Bloom.C23_compliant_partial",
    "Np.Bloom.C23_large_token_refuted"
   ],
   "note": "Compliant tokens pass if policy entries plus three per attribute fit into 64; beyond that the check aborts the process (C23_large_token_refuted). The attributes are the list the iteration of the data block yields."
  },
  {
   "property": "C24",
   "status": "proved",
   "theorems": [
    "Np.Channel.C24_policy",
    "Np.Channel.C24_bounded",
    "Np.Channel.C24_order_of_arrival",
    "Np.Channel.C24_no_loss",
    "Np.Channel.C24_loss_explained"
   ],
   "note": "All histories of arrival, flush and expiry; cache size at least 1."
  },
  {
   "property": "C25",
   "status": "partial",
   "theorems": [
    "Np.Channel.C25_at_most_once_partial",
    "Np.Channel.C25_at_most_once_refuted"
   ],
   "note": "At most once until a clean-up later than the first recorded expiry; redelivered copies with a later expiry break the claim (C25_at_most_once_refuted)."
  },
  {
   "property": "C26",
   "status": "partial",
   "theorems": [
    "Np.Channel.C26_never_breached",
    "Np.Channel.C26_max_parallel_refuted",
    "Np.Channel.C26_unbounded",
    "Np.Channel.C26_counter_partial"
   ],
   "note": "The limit is never enforced by the code (C26_never_breached, C26_max_parallel_refuted, C26_unbounded); only the counter facts are proved."
  },
  {
   "property": "C27",
   "status": "partial",
   "theorems": [
    "Np.Channel.C27_dispatch_order",
    "Np.Channel.C27_rejected_internally",
    "Np.Channel.C27_internal_channels",
    "Np.Channel.C27_listener_order",
    "Np.Channel.C27_stop_on_reject_refuted",
    "Np.Channel.C27_registration_order_partial"
   ],
   "note": "Order and stop proved for the channel dispatch; np_add_receive_cb ignores the user's result (C27_stop_on_reject_refuted)."
  },
  {
   "property": "C28",
   "status": "partial",
   "theorems": [
    "Np.Channel.C28_mx_set_once_partial",
    "Np.Channel.C28_mx_first_stays",
    "Np.Channel.C28_global_set_once_refuted",
    "Np.Channel.C28_global_set_once_refuted'"
   ],
   "note": "Proved for np_set_mx_authorize_cb; the three global setters overwrite (C28_global_set_once_refuted)."
  },
  {
   "property": "C29",
   "status": "partial",
   "theorems": [
    "Np.Token.C29_accepted_iff_partial",
    "Np.Token.C29_received_honest",
    "Np.Token.C29_mark",
    "Np.Token.C29_not_before_refuted",
    "Np.Token.C29_nan_refuted",
    "Np.Token.C29_expired_stays"
   ],
   "note": "Exact acceptance condition for every received token and history of checks. The start of the validity period is never checked (C29_not_before_refuted) and an expiry that is not a number never passes (C29_nan_refuted)."
  },
  {
   "property": "C30",
   "status": "partial",
   "theorems": [
    "Np.Token.C30_issuer_partial",
    "Np.Token.C30_issuer_needed",
    "Np.Token.C30_forgery",
    "Np.Token.C30_refuted",
    "Np.Token.C30_memory_refuted"
   ],
   "note": "Proved what acceptance implies; the key the issuer signature is checked with is taken from the token itself, so anyone can forge an issuer (C30_forgery, C30_refuted), and the entry's type and size are unchecked (C30_memory_refuted)."
  },
  {
   "property": "C31",
   "status": "partial",
   "theorems": [
    "Np.Token.C31_digest_partial",
    "Np.Token.C31_refuted",
    "Np.Token.C31_type_refuted"
   ],
   "note": "Uuid, key, times and the concatenated text are covered; text can move between realm, issuer, subject and audience (C31_refuted) and the type is not covered (C31_type_refuted)."
  },
  {
   "property": "C32",
   "status": "partial",
   "theorems": [
    "Np.Authz.C32_authorized_only_by_callback_partial",
    "Np.Authz.C32_decision",
    "Np.Authz.C32_realm_client",
    "Np.Authz.C32_channel_denial_overruled_refuted",
    "Np.Authz.C32_inbound_grant_lost_refuted"
   ],
   "note": "Proved for every reachable state: a peer's intent becomes authorized only by a callback saying yes to it, or by taking the place of an authorized one; and the exact decision formula. Refuted: a channel callback's no is overruled by the global callback; with callbacks for both directions the yes of the receiving direction is lost."
  },
  {
   "property": "C33",
   "status": "partial",
   "theorems": [
    "Np.Authz.C33_not_inherited_partial",
    "Np.Authz.C33_single_sender_steals_refuted",
    "Np.Authz.C33_other_issuer_refuted"
   ],
   "note": "Invariant over all histories without single sender/receiver patterns: an authorized intent has the key and uuid of one that was granted. Refuted with SINGLE_SENDER announced by the peer (takes over uuid and authorization) and for another issuer with the same key and uuid."
  },
  {
   "property": "C34",
   "status": "partial",
   "theorems": [
    "Np.Keys.C34_disabled_channel_sends_nothing_partial",
    "Np.Keys.C34_disabled_channel_receives_nothing_refuted"
   ],
   "note": "Proved for sending. Receiving is refuted: np_mx_properties_disable starts the event of the receiving direction at the key of the subject and not at the receiving key, so arriving messages are still delivered."
  },
  {
   "property": "C35",
   "status": "proved",
   "theorems": [
    "Np.Keys.C35_nothing_is_used_before_authentication",
    "Np.Keys.C35_connection_in_use_was_authenticated",
    "Np.Keys.C35_callback_sees_valid_tokens"
   ],
   "note": "Invariant over all histories of the key state machine; decryption, token validity, callbacks, clock and routing state are arbitrary per step. Handshake messages are part of the admission (they are unencrypted and come first)."
  },
  {
   "property": "C36",
   "status": "proved",
   "theorems": [
    "Np.Events.C36_in_order_exactly_once",
    "Np.Events.C36_after_the_raising_event",
    "Np.Events.C36_references_released_once",
    "Np.Events.C36_starts_with_its_event",
    "Np.Events.C36_limit"
   ],
   "note": "Events are processed one by one in the order raised, each exactly once, payload references balanced; the limit of 255 events per chain (abort) is stated separately."
  },
  {
   "property": "C37",
   "status": "proved",
   "theorems": [
    "Np.Route.C37_at_most_once",
    "Np.Route.C37_right_place",
    "Np.Route.C37_gone_after_leave",
    "Np.Route.C37_join",
    "Np.Route.C37_taken_in",
    "Np.Route.C37_needs_flags"
   ],
   "note": "Histories of guarded joins and leaves as the node component issues them (flag is_in_routing_table tested and set); interleavings inside one such operation are not modelled. C37_needs_flags shows that the table function alone would enter a peer twice."
  },
  {
   "property": "C38",
   "status": "proved",
   "theorems": [
    "Np.Route.C38_sorted_bounded_unique",
    "Np.Route.C38_evicts_farthest",
    "Np.Route.C38_taken_in",
    "Np.Route.C38_gone_after_leave",
    "Np.Route.C38_nearest_refuted"
   ],
   "note": "Statement proved for every history. The stronger reading of the title (the nearest peers are kept) is refuted by C38_nearest_refuted."
  },
  {
   "property": "C39",
   "status": "partial",
   "theorems": [
    "Np.Phero.C39_bounded_unique_partial",
    "Np.Phero.C39_lookup_bounded",
    "Np.Phero.C39_order_refuted"
   ],
   "note": "Bounded (19 per list, 31 lists) and without duplicates for every history, including scents composed by remote nodes. The order is not kept (C39_order_refuted)."
  },
  {
   "property": "C40",
   "status": "proved",
   "theorems": [
    "Np.Route.C40_closest",
    "Np.Route.C40_sort_by_distance",
    "Np.Route.C40_sort_by_prefix"
   ],
   "note": "All lists and keys."
  },
  {
   "property": "C41",
   "status": "partial",
   "theorems": [
    "Np.Life.C41_destroy_once",
    "Np.Life.C41_one_by_one_partial",
    "Np.Life.C41_refused_partial",
    "Np.Life.C41_identity_partial",
    "Np.Life.C41_destroyed_partial",
    "Np.Life.C41_after_destroy_refuted",
    "Np.Life.C41_revived_refuted",
    "Np.Life.C41_identity_refuted",
    "Np.Life.C41_workers_refuted"
   ],
   "note": "Torn down at most once holds for every interleaving. Sequential histories and the checks of np_run and np_use_identity for calls that begin after the status is set are proved. Refuted: after np_destroy every call uses freed memory, a concurrent np_run revives a context in shutdown, the identity can change while running, workers can be started twice."
  },
  {
   "property": "C42",
   "status": "partial",
   "theorems": [
    "Np.Mx.C42_readback_partial",
    "Np.Mx.C42_refused",
    "Np.Mx.C42_sending_partial",
    "Np.Mx.C42_provider_refuted",
    "Np.Mx.C42_former_refuted",
    "Np.Mx.C42_revert_refuted",
    "Np.Mx.C42_update_refuted",
    "Np.Mx.C42_fraction_refuted",
    "Np.Mx.C42_audience_refuted",
    "Np.Mx.C42_hold_refuted"
   ],
   "note": "Proved for every history, over all channels, in which the channel is opened for receiving before it becomes a mere sender and gets a sending role before np_send. Refuted otherwise: nothing is read back for a provider, zero resets a provider's values, np_send reverts replaced settings, settings given on hold are lost for sending; intent_update_after 0 means 3, fractions of a second are cut, reply id and audience are never reported."
  },
  {
   "property": "C43",
   "status": "partial",
   "theorems": [
    "Np.Ser.C43_roundtrip_partial",
    "Np.Ser.C43_written",
    "Np.Ser.C43_short_key_refuted",
    "Np.Ser.C43_short_text_refuted",
    "Np.Ser.C43_large_refuted",
    "Np.Ser.C43_float_refuted",
    "Np.Ser.C43_unsigned_char_refuted",
    "Np.Ser.C43_uuid_refuted"
   ],
   "note": "Round trip at the level of bytes for all trees with keys of one kind and values that arrive. Refuted: one-character keys and texts, numbers from 2^63 on, floats, unsigned characters, uuid keys."
  },
  {
   "property": "C44",
   "status": "partial",
   "theorems": [
    "Np.Authz.C44_partners_agree",
    "Np.Authz.C44_handshake_partial",
    "Np.Authz.C44_equal_priority_refuted"
   ],
   "note": "Channel partners: full agreement on ids, roles and keys, given libsodium's key exchange law. Handshake: proved for different priorities, refuted for equal ones."
  },
  {
   "property": "C45",
   "status": "partial",
   "theorems": [
    "Np.KeyCache.C45_visited_partial",
    "Np.KeyCache.C45_unchanged",
    "Np.KeyCache.C45_starved_refuted"
   ],
   "note": "Bound 2*(n/10+1) calls for every history in which the key where a call stopped survives until the next call; unconditional for an unchanging cache. Refuted in general: C45_starved_refuted."
  },
  {
   "property": "C46",
   "status": "partial",
   "theorems": [
    "Np.Mem.C46_released_exactly_when_unreferenced_partial",
    "Np.Mem.C46_places_not_shared_partial",
    "Np.Mem.C46_place_kept_partial",
    "Np.Mem.C46_never_early_refuted",
    "Np.Mem.C46_no_abort_refuted",
    "Np.Mem.C46_place_shared_after_race"
   ],
   "note": "The full statement is refuted: np_memory_new and the first reference are two steps, and np_memory_unref_obj's release check is a separate step from its decrement, so a late release check can free another thread's new object (C46_never_early_refuted) or touch memory given back (C46_no_abort_refuted). Proved for all interleavings where creation is not interrupted and memory is given back only while no unref runs."
  },
  {
   "property": "C47",
   "status": "proved",
   "theorems": [
    "Np.Skip.C47_set",
    "Np.Skip.C47_freed"
   ],
   "note": "Every operation sequence, every order, every random height. np_skiplist_map first calls the map function with the last item below the bound, or the root's null pointer; np_skiplist_find replaces *item by the next larger item when the item is absent: both are part of the specification."
  },
  {
   "property": "C48",
   "status": "partial",
   "theorems": [
    "Np.Subj.C48_names_partial",
    "Np.Subj.C48_overflow_refuted",
    "Np.Subj.C48_race_refuted"
   ],
   "note": "Proved for every interleaving after one undisturbed call. Refuted: concurrent first calls spoil the table; a buffer of 64 bytes overflows by one."
  },
  {
   "property": "C49",
   "status": "partial",
   "theorems": [
    "Np.Token.C49_export_import",
    "Np.Token.C49_import_export",
    "Np.Token.C49_realm_refuted"
   ],
   "note": "Both directions proved for ids; a realm text that is no id is lost (C49_realm_refuted)."
  },
  {
   "property": "C50",
   "status": "proved",
   "theorems": [
    "Np.Token.C50_round_trip",
    "Np.Token.C50_signature_survives"
   ],
   "note": "At the level of the tree of named values; its byte encoding is a separate property (C43)."
  },
  {
   "property": "C51",
   "status": "partial",
   "theorems": [
    "Np.Channel.C51_release_all_partial",
    "Np.Channel.C51_split",
    "Np.Channel.C51_only_with_partner",
    "Np.Channel.C51_release_refuted"
   ],
   "note": "Cached messages are released if all have a session; head-of-line blocking otherwise (C51_release_refuted)."
  },
  {
   "property": "C52",
   "status": "partial",
   "theorems": [
    "Np.Chunk.C52_memory_safe_partial",
    "Np.Chunk.C52_memory_safe_refuted"
   ],
   "note": "Safe for all arrivals of packets of well-formed messages; hostile packets write out of bounds (C52_memory_safe_refuted)."
  },
  {
   "property": "C53",
   "status": "proved",
   "theorems": [
    "Np.Chunk.C53_nonces_distinct"
   ],
   "note": "For all messages and nonces."
  },
  {
   "property": "C54",
   "status": "proved",
   "theorems": [
    "Np.Token.C54_issued_identity_verifies"
   ],
   "note": "For every lawful signature scheme and attribute store."
  },
  {
   "property": "C55",
   "status": "partial",
   "theorems": [
    "Np.Token.C55_rejects_partial",
    "Np.Token.C55_refuted"
   ],
   "note": "Rejection proved; but the call fails for every token, valid or not (C55_refuted)."
  },
  {
   "property": "C56",
   "status": "partial",
   "theorems": [
    "Np.Authz.C56_only_known_crashes_partial",
    "Np.Authz.C56_own_intent_stays",
    "Np.Authz.C56_partner_fp_refuted",
    "Np.Authz.C56_no_own_intent_refuted"
   ],
   "note": "All crashing steps are characterised for every reachable state; refuted by a partner fingerprint of wrong size (ASSERT) and by an authorized intent before the channel has an own intent (null dereference). A channel that has an own intent keeps one."
  },
  {
   "property": "C57",
   "status": "proved",
   "theorems": [
    "Np.Authz.C57_sender",
    "Np.Authz.C57_receiver",
    "Np.Authz.C57_all_receivers"
   ],
   "note": "All three lookups, for every reachable state: no crash, and exact results."
  },
  {
   "property": "C58",
   "status": "partial",
   "theorems": [
    "Np.Authz.C58_invalid_intents_leave_partial",
    "Np.Authz.C58_one_check"
   ],
   "note": "Proved for histories without single sender/receiver patterns; one check removes one intent."
  },
  {
   "property": "C59",
   "status": "partial",
   "theorems": [
    "Np.Keys.C59_join_is_bound_to_the_connection_refuted",
    "Np.Keys.C59_join_is_bound_to_the_connection_partial"
   ],
   "note": "Refuted in general: a join message may carry the (public) token of another peer. Proved: a connection comes into use only from the waiting state and only by the notice of an accepted token."
  },
  {
   "property": "C60",
   "status": "partial",
   "theorems": [
    "Np.Keys.C60_leave_ends_own_membership_refuted",
    "Np.Keys.C60_leave_ends_own_membership_partial"
   ],
   "note": "Refuted in general: a leave message with the public token of another peer ends that peer's membership, even on an unauthenticated connection. Proved: the event must carry a valid node token with the public key of the peer that is marked as left."
  },
  {
   "property": "C61",
   "status": "proved",
   "theorems": [
    "Np.Route.C61_route_count",
    "Np.Route.C61_has_joined"
   ],
   "note": "All histories; the 16-bit counter cannot wrap."
  },
  {
   "property": "C62",
   "status": "proved",
   "theorems": [
    "Np.Route.C62_next_hop",
    "Np.Route.C62_progress",
    "Np.Route.C62_leafset",
    "Np.Route.C62_no_hop",
    "Np.Route.C62_bounded_path",
    "Np.Route.C62_own_id_refuted"
   ],
   "note": "Latency and success metrics are arbitrary parameters. C62_own_id_refuted: a lookup with count >= 2 for the own id aborts."
  },
  {
   "property": "C63",
   "status": "partial",
   "theorems": [
    "Np.Bloom.C63_pass_partial",
    "Np.Bloom.C63_refused",
    "Np.Bloom.C63_values_under_other_keys_refuted"
   ],
   "note": "A passing token covers all required keys and values cell-wise; that the values belong to the keys is false for every hash function (C63_values_under_other_keys_refuted)."
  },
  {
   "property": "C64",
   "status": "partial",
   "theorems": [
    "Np.Phero.C64_found_partial",
    "Np.Phero.C64_overflow_refuted"
   ],
   "note": "Proved while the 8 bit counters of the position have room, the clock moved and distances differ; refuted in general: the 255th refresh of a target with two words in one cell makes it unfindable (C64_overflow_refuted)."
  },
  {
   "property": "C65",
   "status": "partial",
   "theorems": [
    "Np.Phero.C65_safe_partial",
    "Np.Phero.C65_lock_refuted",
    "Np.Phero.C65_remote_refuted"
   ],
   "note": "Proved for scents of single targets, at most 30 per position, peers at different distances. Refuted: the 32nd target at one position keeps the table locked or aborts a debug build; several kinds of remote scents abort the process."
  },
  {
   "property": "C66",
   "status": "partial",
   "theorems": [
    "Np.Phero.C66_oldest_refuted",
    "Np.Phero.C66_dropped_partial"
   ],
   "note": "False: C66_oldest_refuted. Proved: what is dropped is the oldest or at least older than the first element."
  },
  {
   "property": "C67",
   "status": "partial",
   "theorems": [
    "Np.Data.C67_header_partial",
    "Np.Data.C67_iterate_partial",
    "Np.Data.C67_hang_refuted",
    "Np.Data.C67_wild_refuted"
   ],
   "note": "Proved: reading the header of any memory returns, iterating over any memory ends. Refuted: a block of 21 bytes that claims to hold an object makes np_get_data and np_set_data loop forever; a key that is a number is used as an address."
  },
  {
   "property": "C68",
   "status": "proved",
   "theorems": [
    "Np.Tree.C68_depth",
    "Np.Tree.C68_comparisons"
   ],
   "note": "Concrete model of the RB_ macros with colours; balance and absence of null dereferences for every history, with any keys and even for keys whose comparison is not an order."
  },
  {
   "property": "C69",
   "status": "partial",
   "theorems": [
    "Np.Tree.C69_clone_partial",
    "Np.Tree.C69_long_refuted"
   ],
   "note": "For trees with keys of one kind. Refuted for in-place trees with texts over 255 bytes."
  },
  {
   "property": "C70",
   "status": "partial",
   "theorems": [
    "Np.Tree.C70_gte_partial"
   ],
   "note": "For trees with keys of one kind."
  },
  {
   "property": "C71",
   "status": "partial",
   "theorems": [
    "Np.Ack.C71_other_refuted",
    "Np.Ack.C71_unknown_refuted",
    "Np.Ack.C71_single_partial"
   ],
   "note": "Refuted: the handler is looked up as text in a tree keyed by uuid, so any acknowledgement marks the handler at the root of the tree. Proved when only one message waits."
  },
  {
   "property": "C72",
   "status": "proved",
   "theorems": [
    "Np.Ack.C72_at_most_once",
    "Np.Ack.C72_silent"
   ],
   "note": "For every interleaving of the four operations on one channel; each operation is one step."
  },
  {
   "property": "C73",
   "status": "partial",
   "theorems": [
    "Np.Ack.C73_timeout_partial",
    "Np.Ack.C73_many_refuted"
   ],
   "note": "Proved if at most 31 messages wait. Refuted for more: a check looks only at the first 31 in uuid order."
  },
  {
   "property": "C74",
   "status": "partial",
   "theorems": [
    "Np.Mx.C74_sending_partial",
    "Np.Mx.C74_receiving_refuted",
    "Np.Mx.C74_early_refuted"
   ],
   "note": "Sending stops until enabled, for every history. Refuted for receiving (the event goes to the wrong key) and for a channel without a sending half."
  },
  {
   "property": "C75",
   "status": "partial",
   "theorems": [
    "Np.Life.C75_called_partial",
    "Np.Life.C75_at_most_once",
    "Np.Life.C75_lost_refuted",
    "Np.Life.C75_null_refuted",
    "Np.Life.C75_deadlock_refuted"
   ],
   "note": "At most once for every interleaving; exact list and order for sequential histories with callbacks added after np_run. Refuted: callbacks added before np_run are lost, a null callback hides the later ones, a callback that adds a callback deadlocks."
  },
  {
   "property": "C76",
   "status": "partial",
   "theorems": [
    "Np.Life.C76_listening_partial",
    "Np.Life.C76_forgotten_refuted"
   ],
   "note": "Proved when listening never fails; refuted otherwise: the failure is forgotten."
  },
  {
   "property": "C77",
   "status": "partial",
   "theorems": [
    "Np.Life.C77_threads_partial",
    "Np.Life.C77_forever_refuted",
    "Np.Life.C77_none_refuted"
   ],
   "note": "Proved up to 130 threads; refuted from 131 to 255 (never ends) and for multiples of 256 (none)."
  },
  {
   "property": "C78",
   "status": "partial",
   "theorems": [
    "Np.Ser.C78_size_partial",
    "Np.Ser.C78_uint_refuted",
    "Np.Ser.C78_hash_refuted"
   ],
   "note": "Proved for all histories except for unsigned 16-bit numbers from 32768 on and hashes longer than 255 bytes, which are refuted."
  },
  {
   "property": "C79",
   "status": "partial",
   "theorems": [
    "Np.Wire.C79_in_order_partial",
    "Np.Wire.C79_all_delivered_partial",
    "Np.Wire.C79_contiguous",
    "Np.Wire.C79_written_whole",
    "Np.Wire.C79_partial_send_refuted",
    "Np.Wire.C79_partial_recv_refuted"
   ],
   "note": "Proved for histories in which no send or recv call stops in the middle of a packet; refuted otherwise: a partly written packet is written again from its start, a partly read one is thrown away, and the stream is out of step from then on. Unconditional: what is handed on are unbroken pieces of the written bytes, in order."
  },
  {
   "property": "C80",
   "status": "partial",
   "theorems": [
    "Np.Wire.C80_attributed_partial",
    "Np.Wire.C80_last_bytes",
    "Np.Wire.C80_short_then_other_refuted",
    "Np.Wire.C80_empty_datagram_refuted"
   ],
   "note": "Proved if no datagram is shorter than a packet; refuted for short ones: a short datagram is put before the next packet of another peer, and an empty one stops the interface for good. Unconditional: a packet ends with bytes sent by the peer it is attributed to."
  },
  {
   "property": "C81",
   "status": "partial",
   "theorems": [
    "Np.Rate.C81_exact_partial",
    "Np.Rate.C81_limit_partial",
    "Np.Rate.C81_default_refuted",
    "Np.Rate.C81_steady_refuted"
   ],
   "note": "Proved for limits up to 253 and addresses whose hash positions do not collide: the filter then is exactly one counter per address, halved at each reset. Refuted: with the default setting (256), or any of 254 or more, nothing is ever dropped; and with a smaller limit a peer that steadily sends 88% of it has packets dropped."
  },
  {
   "property": "C82",
   "status": "partial",
   "theorems": [
    "Np.Rate.C82_burst_partial",
    "Np.Rate.C82_flood_refuted",
    "Np.Rate.C82_quiet_refuted"
   ],
   "note": "Proved for at most 4096 packets between two resets from the start. Refuted: 4097 packets within 0.88 seconds end the process, and so does any slow traffic of at most one packet per address between two resets, with its 4097th packet."
  },
  {
   "property": "C83",
   "status": "partial",
   "theorems": [
    "Np.Rate.C83_low_traffic_partial",
    "Np.Rate.C83_alone_partial",
    "Np.Rate.C83_shared_refuted"
   ],
   "note": "Proved for private hash positions, and for low traffic in total. Refuted: one shared position of eight is enough for one peer to have the packets of another dropped."
  },
  {
   "property": "C84",
   "status": "partial",
   "theorems": [
    "Np.Dup.C84_once_partial",
    "Np.Dup.C84_remembered_partial",
    "Np.Dup.C84_race_refuted",
    "Np.Dup.C84_resize_refuted",
    "Np.Dup.C84_forgotten_refuted"
   ],
   "note": "Proved if parts are handled one at a time, the size of the filter stays and less than 16 bits are shifted out; with threads, for every part checked after the message was handed on. Refuted: two threads that check before either enters the message both hand it on; a new size of the filter (8 peers, 27, ...) forgets all; 16 decays forget a message."
  },
  {
   "property": "C85",
   "status": "partial",
   "theorems": [
    "Np.Dup.C85_new_partial",
    "Np.Dup.C85_collision_refuted"
   ],
   "note": "Proved for messages with a position that no handled message has; refuted: a message whose positions are covered by others is lost."
  },
  {
   "property": "C86",
   "status": "partial",
   "theorems": [
    "Np.Dup.C86_one_thread_partial",
    "Np.Dup.C86_threads_partial",
    "Np.Dup.C86_peers_abort_refuted",
    "Np.Dup.C86_peers_hang_refuted"
   ],
   "note": "Proved below 512 peers: with one thread for all histories, with many threads for at most 67 parts between two decays. Refuted: with 512 peers the next message aborts the process and the next clean-up never ends."
  },
  {
   "property": "C87",
   "status": "partial",
   "theorems": [
    "Np.Addr.C87_own_address_partial",
    "Np.Addr.C87_address_changes_refuted"
   ],
   "note": "Proved for every history if own addresses have at most 40 characters and none is the beginning of another. Refuted: after listening on 192.168.1.5 and 192.168.1.50 the reported address changes."
  },
  {
   "property": "C88",
   "status": "partial",
   "theorems": [
    "Np.Addr.C88_return_value",
    "Np.Addr.C88_malformed_ignored_partial",
    "Np.Addr.C88_malformed_accepted_refuted"
   ],
   "note": "Proved: the exact return value, and that a text that is no address leads to no contact. Refuted: np_join returns np_ok for a malformed address."
  },
  {
   "property": "C89",
   "status": "partial",
   "theorems": [
    "Np.Addr.C89_buffer_partial",
    "Np.Addr.C89_unterminated_refuted",
    "Np.Addr.C89_not_listening_refuted"
   ],
   "note": "Proved for texts that do not have exactly max characters. Refuted: no terminating NUL for exactly max characters; np_operation_failed instead of np_invalid_operation without an interface."
  },
  {
   "property": "C90",
   "status": "partial",
   "theorems": [
    "Np.Addr.C90_contacts_named_partial",
    "Np.Addr.C90_reaches_partial",
    "Np.Addr.C90_similar_peer_refuted",
    "Np.Addr.C90_wrong_key_refuted",
    "Np.Addr.C90_long_name_refuted",
    "Np.Addr.C90_same_machine_refuted",
    "Np.Addr.C90_no_interface_refuted"
   ],
   "note": "Proved: whatever is contacted is what the text names up to the cuts; a public node contacts a new public peer. Refuted: peers whose address and port contain those of a known peer are skipped, a key with a typing error becomes the wildcard, long host names are cut, joining a node on the same private address is undefined behaviour, a node without interface aborts."
  },
  {
   "property": "C91",
   "status": "partial",
   "theorems": [
    "Np.Addr.C91_listens_partial",
    "Np.Addr.C91_keeps_sockets",
    "Np.Addr.C91_second_port_refuted",
    "Np.Addr.C91_port_in_use_refuted",
    "Np.Addr.C91_default_port_refuted"
   ],
   "note": "Proved if the address is not the main address and the socket can be opened; opened sockets stay. Refuted: a second port or protocol on the main address, a port in use, the documented default port."
  },
  {
   "property": "C92",
   "status": "partial",
   "theorems": [
    "Np.Addr.C92_private_ipv4",
    "Np.Addr.C92_private_ipv6_partial",
    "Np.Addr.C92_link_local_refuted",
    "Np.Addr.C92_common_numbers_partial",
    "Np.Addr.C92_equal_addresses_refuted",
    "Np.Addr.C92_public_reachable",
    "Np.Addr.C92_private_to_public_refused",
    "Np.Addr.C92_other_private_refused",
    "Np.Addr.C92_loopback_refuted"
   ],
   "note": "Proved: IPv4 private ranges exactly, the count of common leading numbers of different IPv4 addresses, the three rules for contacts. Refuted: link local IPv6 addresses outside fe80::/16, equal IPv4 addresses (undefined), loopback by prefix of the text."
  },
  {
   "property": "C93",
   "status": "partial",
   "theorems": [
    "Np.Ident.C93_round_trip_partial",
    "Np.Ident.C93_saves",
    "Np.Ident.C93_reused_refuted"
   ],
   "note": "Proved: round trip into a fresh token over any history of unprivileged calls; saving succeeds. Missing: files written over older ones, privileged processes. Refuted: loading into a used token keeps the end of its subject."
  },
  {
   "property": "C94",
   "status": "partial",
   "theorems": [
    "Np.Ident.C94_saved",
    "Np.Ident.C94_created",
    "Np.Ident.C94_saves_first",
    "Np.Ident.C94_replace_refuted"
   ],
   "note": "Proved: round trip of saved and created keys as long as the file is unchanged, and that the first save succeeds. Refuted: an unprivileged process can replace a key only if errno happens to be ENOENT."
  },
  {
   "property": "C95",
   "status": "proved",
   "theorems": [
    "Np.Ident.C95_zero_passphrase",
    "Np.Ident.C95_wrong_passphrase",
    "Np.Ident.C95_fingerprint",
    "Np.Ident.C95_secret_stays_out"
   ],
   "note": "Relative to the secret box of libsodium, which is a parameter."
  },
  {
   "property": "C96",
   "status": "partial",
   "theorems": [
    "Np.Ident.C96_kept_partial",
    "Np.Ident.C96_same_second_refuted",
    "Np.Ident.C96_root_refuted"
   ],
   "note": "Proved: for unprivileged processes and saves in different seconds. Refuted: two saves in one second, and privileged processes."
  },
  {
   "property": "C97",
   "status": "partial",
   "theorems": [
    "Np.Ident.C97_elsewhere",
    "Np.Ident.C97_loading",
    "Np.Ident.C97_cwd_partial",
    "Np.Ident.C97_load_refuted",
    "Np.Ident.C97_missing_refuted"
   ],
   "note": "Proved: no file outside an existing directory changes, loading changes none, the current directory is restored. Refuted: a failing load of a secret key stays in the other directory; a directory that does not exist is silently replaced by the current one."
  },
  {
   "property": "C98",
   "status": "partial",
   "theorems": [
    "Np.Ident.C98_saving",
    "Np.Ident.C98_foreign_partial",
    "Np.Ident.C98_long_refuted"
   ],
   "note": "Proved: saving; loading of files that are not longer than the buffer and do not open. Missing: files made with the passphrase by another program. Refuted: longer files overflow the buffer before anything is checked."
  },
  {
   "property": "C99",
   "status": "partial",
   "theorems": [
    "Np.Keystore.C99_found_was_stored",
    "Np.Keystore.C99_single_partial",
    "Np.Keystore.C99_others_refuted",
    "Np.Keystore.C99_second_refuted",
    "Np.Keystore.C99_capacity_refuted"
   ],
   "note": "Proved: what is found was stored; a single identity is found. Refuted for every store: of two identities with different fingerprints at most one is found, because the comparison of the search is the wrong way round; the other cannot be stored again; 65 identities abort the program."
  },
  {
   "property": "C100",
   "status": "partial",
   "theorems": [
    "Np.Keystore.C100_token_file_partial",
    "Np.Keystore.C100_never_saved_refuted",
    "Np.Keystore.C100_only_one_refuted"
   ],
   "note": "Proved: a newly stored identity has a token file that loads. Refuted for every store that is not empty: saving the store fails because the file is one byte or more too small, and only one fingerprint is put into it."
  },
  {
   "property": "C101",
   "status": "partial",
   "theorems": [
    "Np.Stable.C101_not_again_partial",
    "Np.Stable.C101_repeated",
    "Np.Stable.C101_forgotten_refuted"
   ],
   "note": "Proved: an immediate repeat is never sent; nor a later one as long as no cell was pruned more than three times in between. Refuted: one other part in between can be enough."
  },
  {
   "property": "C102",
   "status": "partial",
   "theorems": [
    "Np.Stable.C102_dropped_partial",
    "Np.Stable.C102_first",
    "Np.Stable.C102_shadowed_refuted"
   ],
   "note": "Proved: the first part is sent; a part is held back only if all its cells were set by earlier ones. Refuted for every hash function: a part with a chosen audience shadows any other part."
  },
  {
   "property": "C103",
   "status": "partial",
   "theorems": [
    "Np.Stable.C103_only_valid",
    "Np.Stable.C103_handled_partial",
    "Np.Stable.C103_preempted_refuted"
   ],
   "note": "Proved: only valid tokens of the right type are handled; a valid one is handled unless all cells of its attribute signature were set before. Refuted: any token that carries a copy of the attribute signature makes the node ignore the valid one."
  },
  {
   "property": "C104",
   "status": "proved",
   "theorems": [
    "Np.Stable.C104_below",
    "Np.Stable.C104_fair"
   ],
   "note": "For every bound but 0: in range, and every value has the same number of preimages."
  },
  {
   "property": "C105",
   "status": "partial",
   "theorems": [
    "Np.Inbox.C105_other_subject",
    "Np.Inbox.C105_handshake_partial",
    "Np.Inbox.C105_parts_refuted",
    "Np.Inbox.C105_no_token_refuted",
    "Np.Inbox.C105_packets_refuted"
   ],
   "note": "Packets with another subject, and handshakes with well-formed fields, never fault; refuted by packets that claim more parts, that carry no token, and by some token fields."
  },
  {
   "property": "C106",
   "status": "partial",
   "theorems": [
    "Np.Inbox.C106_proper_partial",
    "Np.Inbox.C106_missing_refuted",
    "Np.Inbox.C106_number_refuted",
    "Np.Inbox.C106_subject_refuted",
    "Np.Inbox.C106_messages_refuted"
   ],
   "note": "Proved for bodies with the expected fields; refuted by a missing field, a number in place of a text, a subject that is no id, and messages of each kind."
  },
  {
   "property": "C107",
   "status": "proved",
   "theorems": [
    "Np.Inbox.C107_backed",
    "Np.Inbox.C107_effect",
    "Np.Inbox.C107_pair"
   ],
   "note": ""
  },
  {
   "property": "C108",
   "status": "partial",
   "theorems": [
    "Np.Inbox.C108_own_bytes_partial",
    "Np.Inbox.C108_over_refuted"
   ],
   "note": "Proved for bodies that are a complete map; refuted: a body that is cut off goes on in the 124 bytes behind it."
  },
  {
   "property": "C109",
   "status": "partial",
   "theorems": [
    "Np.Inbox.C109_arrives",
    "Np.Inbox.C109_end_to_end_partial",
    "Np.Inbox.C109_authentic",
    "Np.Inbox.C109_forged_first_refuted",
    "Np.Inbox.C109_no_replay",
    "Np.Inbox.C109_fresh_delivered"
   ],
   "note": "The trip through encryption, packets in any order and reading is proved, and that whatever is delivered is authentic; the counter in the mac must not overflow, and a forged message with the same uuid that comes first makes the genuine one be dropped. The encryption is a parameter with the laws of an authenticated cipher."
  },
  {
   "property": "C110",
   "status": "partial",
   "theorems": [
    "Np.Inbox.C110_unnamed_partial",
    "Np.Inbox.C110_takeover_refuted"
   ],
   "note": "Only initial sessions can change sessions, and only those the body names; refuted: they can name those of other senders."
  },
  {
   "property": "C111",
   "status": "partial",
   "theorems": [
    "Np.Trie.C111_map_partial",
    "Np.Trie.C111_byte",
    "Np.Trie.C111_entries_partial",
    "Np.Trie.C111_lost_refuted",
    "Np.Trie.C111_broken_refuted"
   ],
   "note": "Proved for histories whose keys are pairwise apart (behind a nibble in which they differ they agree in at most one nibble) and that do not insert after emptying the trie; for one-byte keys without the first condition. False in general: five insertions lose the first key, and seven insertions fail an assertion or enter an unwritten slot."
  },
  {
   "property": "C112",
   "status": "partial",
   "theorems": [
    "Np.Trie.C112_delete_partial",
    "Np.Trie.C112_emptied_refuted",
    "Np.Trie.C112_single",
    "Np.Trie.C112_slot_refuted"
   ],
   "note": "Proved under the conditions of C111. False in general: after the last key of a branch is deleted the next insertion reads freed memory and freeing the trie frees twice; the slot handed out can lie in freed memory."
  },
  {
   "property": "C113",
   "status": "partial",
   "theorems": [
    "Np.Trie.C113_union_partial",
    "Np.Trie.C113_lost_refuted"
   ],
   "note": "Proved for keys that are pairwise apart and a combination that succeeds. False in general: a union loses a key of the first trie."
  },
  {
   "property": "C114",
   "status": "partial",
   "theorems": [
    "Np.Trie.C114_common_partial",
    "Np.Trie.C114_kept_refuted",
    "Np.Trie.C114_broken_refuted"
   ],
   "note": "Proved for keys that are pairwise apart: common keys are kept with the combination of their values and no keys appear, if the work ends. False in general: keys that only the first trie has are kept, and disjoint tries of different depth leave a slot that was never written."
  },
  {
   "property": "C115",
   "status": "partial",
   "theorems": [
    "Np.Trie.C115_exact_partial",
    "Np.Trie.C115_divide_refuted",
    "Np.Trie.C115_lost_refuted"
   ],
   "note": "Proved for words of at least 256 that are pairwise apart: the check is exact on words. False in general: a word below 256 divides by zero, and a key of eight words is added and not found."
  },
  {
   "property": "C116",
   "status": "proved",
   "theorems": [
    "Np.Sketch.C116_entries",
    "Np.Sketch.C116_set"
   ],
   "note": "Multi-hash mode; the hash functions are parameters."
  },
  {
   "property": "C117",
   "status": "partial",
   "theorems": [
    "Np.Sketch.C117_merge_partial",
    "Np.Sketch.C117_middle_refuted",
    "Np.Sketch.C117_sizes_refuted"
   ],
   "note": "Proved for every entry but the first of the upper half; refuted there for every hash and size, and for signatures of different size."
  },
  {
   "property": "C118",
   "status": "partial",
   "theorems": [
    "Np.Sketch.C118_symmetric_partial",
    "Np.Sketch.C118_bounds",
    "Np.Sketch.C118_self",
    "Np.Sketch.C118_same",
    "Np.Sketch.C118_empty_refuted",
    "Np.Sketch.C118_sizes_refuted"
   ],
   "note": "Symmetry proved for equal sizes (any sizes in the flexible mode), range, self similarity and equal sets proved; refuted for empty signatures of the single modes (0/0) and for different sizes (read out of bounds)."
  },
  {
   "property": "C119",
   "status": "partial",
   "theorems": [
    "Np.Sketch.C119_fix_partial",
    "Np.Sketch.C119_full_refuted",
    "Np.Sketch.C119_flex_position",
    "Np.Sketch.C119_flex_refuted",
    "Np.Sketch.C119_overwritten_refuted"
   ],
   "note": "Proved for the fixed mode up to half of the size; refuted beyond, and for a growing flexible signature (uninitialised memory, changed entry of an earlier element)."
  },
  {
   "property": "C120",
   "status": "partial",
   "theorems": [
    "Np.Sketch.C120_indexed_partial",
    "Np.Sketch.C120_512_refuted",
    "Np.Sketch.C120_overflow_refuted"
   ],
   "note": "Proved for 256 entries, texts of up to 65536 words and elements below 512 bytes; refuted for 512 entries (abort for every text) and for longer words (stack overflow)."
  },
  {
   "property": "C121",
   "status": "partial",
   "theorems": [
    "Np.Sketch.C121_same_index_partial"
   ],
   "note": "Proved for all texts of up to 65536 words with elements below 512 bytes; longer texts wrap a 16 bit counter and are not covered."
  },
  {
   "property": "C122",
   "status": "partial",
   "theorems": [
    "Np.Url.C122_decoded_partial",
    "Np.Url.C122_twice_refuted",
    "Np.Url.C122_context_refuted"
   ],
   "note": "Proved for all texts in which nothing looks encoded and all encodings of them, if the byte behind the text is zero; refuted for other texts (decoded twice, or not, depending on what follows)."
  },
  {
   "property": "C123",
   "status": "partial",
   "theorems": [
    "Np.Url.C123_safe_partial",
    "Np.Url.C123_unterminated_refuted"
   ],
   "note": "Proved for all arguments if the byte behind the text, which the code does not set, is zero; refuted for every argument and every other value of that byte."
  },
  {
   "property": "C124",
   "status": "proved",
   "theorems": [
    "Np.Axon.C124_only_trails",
    "Np.Axon.C124_reported"
   ],
   "note": "For all contents of the tables."
  },
  {
   "property": "C125",
   "status": "partial",
   "theorems": [
    "Np.Axon.C125_all_trails",
    "Np.Axon.C125_discovery_partial",
    "Np.Axon.C125_weak_refuted"
   ],
   "note": "Proved in full for messages and forwarded messages, of any strength. For discovery messages only for trails of at least 52/256; refuted for weaker ones."
  },
  {
   "property": "C126",
   "status": "partial",
   "theorems": [
    "Np.Axon.C126_not_back_partial",
    "Np.Axon.C126_back_refuted"
   ],
   "note": "Proved if at most two elements (discovery: one) list the previous hop. Refuted for more, with a history of single announcements."
  },
  {
   "property": "C127",
   "status": "partial",
   "theorems": [
    "Np.Axon.C127_copies_partial",
    "Np.Axon.C127_copies_refuted"
   ],
   "note": "The number of copies is at most the number of elements that list the peer. Refuted for several elements."
  },
  {
   "property": "C128",
   "status": "partial",
   "theorems": [
    "Np.Axon.C128_ack_partial",
    "Np.Axon.C128_weak_refuted",
    "Np.Axon.C128_dropped_refuted",
    "Np.Axon.C128_hang_refuted",
    "Np.Axon.C128_crash_refuted"
   ],
   "note": "Proved for neighbours and for trails of at least 90/256 with a receiver. Refuted for weaker trails, known nodes outside of the tables, trails without receivers (does not return) and ids without a node (crash)."
  },
  {
   "property": "C129",
   "status": "partial",
   "theorems": [
    "Np.Axon.C129_generic_partial",
    "Np.Axon.C129_own_id_refuted",
    "Np.Axon.C129_targeted_refuted"
   ],
   "note": "Proved for directions other than the own id. Refuted for the own id (abort) and for announcements along a trail (sent to a second peer)."
  },
  {
   "property": "C130",
   "status": "partial",
   "theorems": [
    "Np.Axon.C130_update_partial",
    "Np.Axon.C130_nearest_refuted",
    "Np.Axon.C130_direction_refuted",
    "Np.Axon.C130_missing_refuted"
   ],
   "note": "Proved for announcements that start at the node. Refuted for those passed on (fixed direction, missing token) and for the end of the way."
  },
  {
   "property": "C131",
   "status": "partial",
   "theorems": [
    "Np.Prom.C131_rendering_in_bounds_partial",
    "Np.Prom.C131_rendering_in_bounds_refuted"
   ],
   "note": "Holds for the empty registry only; refuted for every registry with a metric: the bound is reduced by the position instead of the increment, wraps, and the last write is behind the memory."
  },
  {
   "property": "C132",
   "status": "partial",
   "theorems": [
    "Np.Prom.C132_page_complete_partial",
    "Np.Prom.C132_page_complete_refuted"
   ],
   "note": "Proved if the bound for each piece suffices; refuted: for a name of 20 characters the time is cut."
  },
  {
   "property": "C133",
   "status": "partial",
   "theorems": [
    "Np.Prom.C133_announced_length_partial",
    "Np.Prom.C133_announced_length_refuted",
    "Np.Prom.C133_announced_length_refuted_big"
   ],
   "note": "Never too short for values of at most 20 characters; refuted: bytes of old memory are sent behind the text, and a value of 10^13 does not fit."
  },
  {
   "property": "C134",
   "status": "partial",
   "theorems": [
    "Np.Prom.C134_registry_released_partial",
    "Np.Prom.C134_registry_released_refuted"
   ],
   "note": "Proved for registering and rendering; refuted: asking for the size never gives the lock back."
  },
  {
   "property": "C135",
   "status": "partial",
   "theorems": [
    "Np.Prom.C135_counter_exact_partial",
    "Np.Prom.C135_counter_order_partial",
    "Np.Prom.C135_counter_exact_refuted"
   ],
   "note": "Exact up to 2^24, in any order; refuted beyond: the counter stops."
  },
  {
   "property": "C136",
   "status": "partial",
   "theorems": [
    "Np.Prom.C136_rate_partial",
    "Np.Prom.C136_rate_refuted"
   ],
   "note": "Proved after the first report; refuted for the first one, which is related to the time since the epoch."
  },
  {
   "property": "C137",
   "status": "partial",
   "theorems": [
    "Np.Prom.C137_replace_label_partial",
    "Np.Prom.C137_replace_label_refuted"
   ],
   "note": "Proved unless a rate carries a label of that name the metric does not; refuted for the name of the interval label."
  },
  {
   "property": "C138",
   "status": "partial",
   "theorems": [
    "Np.Rng.C138_bounded_below_partial",
    "Np.Rng.C138_bounded_below_refuted",
    "Np.Rng.C138_exhale_slot"
   ],
   "note": "Proved for every bound but zero, with termination; refuted for zero (division)."
  },
  {
   "property": "C139",
   "status": "proved",
   "theorems": [
    "Np.Rng.C139_bounded_uniform",
    "Np.Rng.C139_first_draw_used"
   ],
   "note": "Exact number of states for each result; the rejected first draws are named."
  },
  {
   "property": "C140",
   "status": "proved",
   "theorems": [
    "Np.Rng.C140_full_period"
   ],
   "note": "Full period from every seed, and equidistribution of the outputs."
  },
  {
   "property": "C141",
   "status": "partial",
   "theorems": [
    "Np.Rng.C141_seeds_differ_partial",
    "Np.Rng.C141_seeds_differ_refuted"
   ],
   "note": "Proved up to the highest bit of the second seed, which is lost."
  },
  {
   "property": "C142",
   "status": "partial",
   "theorems": [
    "Np.Rng.C142_node_lifetime_partial",
    "Np.Rng.C142_node_lifetime_refuted"
   ],
   "note": "At least the minimum; refuted: up to the sum of both, from every seed."
  },
  {
   "property": "C143",
   "status": "proved",
   "theorems": [
    "Np.Link.C143_rate_is_share_of_answers",
    "Np.Link.C143_credit_is_used_up",
    "Np.Link.C143_rate_is_a_share"
   ],
   "note": "Rational arithmetic instead of float; rates are multiples of 1/31."
  },
  {
   "property": "C144",
   "status": "partial",
   "theorems": [
    "Np.Link.C144_latency_is_mean_partial",
    "Np.Link.C144_first_answer_is_latency_partial",
    "Np.Link.C144_first_latency_refuted",
    "Np.Link.C144_negative_latency_refuted"
   ],
   "note": "Proved after 31 outcomes if an update came first and times are positive, and for a first answer before any update. Refuted: with an update before the first answer the made-up 0.01 s stays in the mean (2 s read as 0.074 s); a first answer without delay gives a negative latency."
  },
  {
   "property": "C145",
   "status": "proved",
   "theorems": [
    "Np.Link.C145_silent_peer_is_bad",
    "Np.Link.C145_new_silent_peer",
    "Np.Link.C145_answering_peer_is_not_bad",
    "Np.Link.C145_new_answering_peer_is_not_bad",
    "Np.Link.C145_good_peer_survives_failures"
   ],
   "note": "From any state: 24 failures suffice; new peer: exactly 15; answering peers stay good; k failures cannot turn a peer with k + 8 answers."
  },
  {
   "property": "C146",
   "status": "proved",
   "theorems": [
    "Np.Link.C146_ping_or_bad",
    "Np.Link.C146_ping_interval",
    "Np.Link.C146_no_early_ping"
   ],
   "note": "The gap-free meeting of the two limits uses that rates are multiples of 1/31, so 1/4 is never reached exactly."
  },
  {
   "property": "C147",
   "status": "partial",
   "theorems": [
    "Np.Link.C147_answer_keeps_in_table",
    "Np.Link.C147_failing_peer_leaves_table",
    "Np.Link.C147_insert_iff",
    "Np.Link.C147_answering_peer_is_kept",
    "Np.Link.C147_grace",
    "Np.Link.C147_bad_peer_is_dropped",
    "Np.Link.C147_one_loss_refuted"
   ],
   "note": "All decisions proved. Refuted: a new peer which answered 16 requests in a row loses its place with its first failure, because the credited failures still count."
  },
  {
   "property": "C148",
   "status": "partial",
   "theorems": [
    "Np.Log.C148_wanted_messages_partial",
    "Np.Log.C148_global_refuted",
    "Np.Log.C148_errors_always"
   ],
   "note": "Proved for every selection that fits in 32 bits. Refuted: LOG_GLOBAL has bit 35, the setting has 32 bits, so selecting it has no effect."
  },
  {
   "property": "C149",
   "status": "partial",
   "theorems": [
    "Np.Log.C149_written_in_order_partial",
    "Np.Log.C149_nothing_lost_or_doubled",
    "Np.Log.C149_two_threads_refuted",
    "Np.Log.C149_torn_write_refuted"
   ],
   "note": "Proved for one flushing thread if each write fails or takes the whole line; proved for any schedule of threads that no entry is lost or doubled. Refuted: a write that takes a part and then fails repeats the part; two threads can exchange lines."
  },
  {
   "property": "C150",
   "status": "partial",
   "theorems": [
    "Np.Log.C150_errors_are_written_at_once_partial",
    "Np.Log.C150_backlog_refuted",
    "Np.Log.C150_shutdown_writes_all_partial",
    "Np.Log.C150_shutdown_loses_refuted"
   ],
   "note": "Proved for at most 31 (32 at shutdown) waiting entries. Refuted: with 32 waiting entries the error itself is not written; with 40 at shutdown 8 are lost."
  },
  {
   "property": "C151",
   "status": "partial",
   "theorems": [
    "Np.Log.C151_newest_lines_are_kept_partial",
    "Np.Log.C151_rotation_keeps_two_files",
    "Np.Log.C151_without_rotation_refuted",
    "Np.Log.C151_restart_refuted"
   ],
   "note": "Proved while log files rotate, for histories of fewer than 2^32-1 steps. Refuted: without rotation (debug builds) the log is emptied at ten million bytes; a restart empties the first file of the earlier run."
  },
  {
   "property": "C152",
   "status": "partial",
   "theorems": [
    "Np.Log.C152_callback_refuted",
    "Np.Log.C152_length_partial"
   ],
   "note": "Refuted for every accepted message: the text is never stored in callback mode, so the callback and free get a pointer never set. Proved: the length is right."
  },
  {
   "property": "C153",
   "status": "partial",
   "theorems": [
    "Np.Log.C153_file_name_partial",
    "Np.Log.C153_names_differ",
    "Np.Log.C153_names_refuted"
   ],
   "note": "Proved for names with a dot in the last component and an extension of at most 13 characters after it. Refuted for the others."
  },
  {
   "property": "C154",
   "status": "partial",
   "theorems": [
    "Np.Log.C154_logging_is_harmless_partial",
    "Np.Log.C154_faults_refuted"
   ],
   "note": "Proved without a function of the application for messages with text and at most three levels, and files that open. Refuted: empty message, four levels, log file that cannot be opened at a rotation."
  },
  {
   "property": "C155",
   "status": "partial",
   "theorems": [
    "Np.Search.C155_next_prime_partial",
    "Np.Search.C155_next_prime_refuted",
    "Np.Search.C155_tables_partial",
    "Np.Search.C155_tables_refuted",
    "Np.Search.C155_table_count_refuted"
   ],
   "note": "The stride is the least prime for all values up to 251 (refuted for 252 to 255); one table and 9 to 32 tables give different positions. Refuted: with 2 to 8 tables every addition and query shifts by 32 or more; 0 divides by zero, more than 32 write outside the array."
  },
  {
   "property": "C156",
   "status": "partial",
   "theorems": [
    "Np.Search.C156_added_is_found_partial",
    "Np.Search.C156_results_exact",
    "Np.Search.C156_distance",
    "Np.Search.C156_nearest_tables",
    "Np.Search.C156_itself",
    "Np.Search.C156_replaced_refuted",
    "Np.Search.C156_many_peers_refuted"
   ],
   "note": "Proved for all histories without another entry of the same index and queries sent to at most six peers; exact characterisation of the results; entries go exactly to the nearest tables. Refuted: an entry of the same index replaces the first; a query sent to seven peers is not answered locally."
  },
  {
   "property": "C157",
   "status": "partial",
   "theorems": [
    "Np.Search.C157_resultset_partial",
    "Np.Search.C157_same_hits_refuted",
    "Np.Search.C157_lost_refuted"
   ],
   "note": "Everything handed out is a result, and all are if the numbers of hits differ. Refuted: of results with the same number of hits only one is handed out."
  },
  {
   "property": "C158",
   "status": "partial",
   "theorems": [
    "Np.Search.C158_own_results_partial",
    "Np.Search.C158_remote_unanswered_refuted",
    "Np.Search.C158_remote_query_refuted",
    "Np.Search.C158_wrong_result_refuted"
   ],
   "note": "Only queries and results with the number of the query change its results. Refuted: queries of other nodes are never answered but merged into the own query of the same number; the number in a result message is not checked."
  },
  {
   "property": "C159",
   "status": "partial",
   "theorems": [
    "Np.Search.C159_no_fault_partial",
    "Np.Search.C159_equal_distances_refuted",
    "Np.Search.C159_too_many_queries_refuted",
    "Np.Search.C159_messages_refuted",
    "Np.Search.C159_late_collect_refuted",
    "Np.Search.C159_many_peers_refuted"
   ],
   "note": "Proved for additions, queries, foreign queries and entries under explicit conditions. Refuted: the 256th query, incomplete messages, query number 255, late collection, entries equally far from all tables, entries sent to more than six peers."
  },
  {
   "property": "C160",
   "status": "partial",
   "theorems": [
    "Np.Search.C160_nearest_peers_partial",
    "Np.Search.C160_opposite_refuted",
    "Np.Search.C160_type_refuted"
   ],
   "note": "Proved for all sequences of authorisations that stay in the language. Refuted: a peer with the complement of one of our words, a type attribute of 22 bytes."
  },
  {
   "property": "C161",
   "status": "partial",
   "theorems": [
    "Np.Search.C161_nearer_partial",
    "Np.Search.C161_exact_peer_refuted",
    "Np.Search.C161_own_objects_refuted"
   ],
   "note": "A chosen peer is strictly nearer and the nearest of the places walked through. Refuted: own objects are sent by the key zero; a peer that agrees with the key in the row is not chosen."
  },
  {
   "property": "C162",
   "status": "partial",
   "theorems": [
    "Np.Dial.C162_handshakes_apart_partial",
    "Np.Dial.C162_session_ends_handshakes_refuted"
   ],
   "note": "The spacing is proved for all histories. The end with the session is refuted: no code sets the handshake status to connected, so handshakes go on every five seconds while the peer is in setup."
  },
  {
   "property": "C163",
   "status": "partial",
   "theorems": [
    "Np.Dial.C163_session_first",
    "Np.Dial.C163_joins_apart_partial",
    "Np.Dial.C163_joins_apart_refuted"
   ],
   "note": "Session first is proved outright; the spacing of joins is proved while no token of the peer arrives, and refuted with one."
  },
  {
   "property": "C164",
   "status": "partial",
   "theorems": [
    "Np.Dial.C164_keeps_trying_partial",
    "Np.Dial.C164_given_up_refuted",
    "Np.Dial.C164_at_most_twenty",
    "Np.Dial.C164_no_network_refuted"
   ],
   "note": "Proved for the first 97.2 s of the key. Refuted afterwards (a peer in no table is dropped, after at most twenty handshakes) and when its network could not be created (dropped without any)."
  },
  {
   "property": "C165",
   "status": "partial",
   "theorems": [
    "Np.Dial.C165_at_most_two_partial",
    "Np.Dial.C165_ends_partial",
    "Np.Dial.C165_never_ends_refuted"
   ],
   "note": "Proved when the network for the address was created. Refuted when that failed: the key loses its wildcard type and the attempt never ends."
  },
  {
   "property": "C166",
   "status": "partial",
   "theorems": [
    "Np.Dial.C166_join_repeated_partial",
    "Np.Dial.C166_answer_lost_refuted"
   ],
   "note": "Proved in the first 97.2 s for joins sent by the periodic check. Refuted for the join that answers a token of the peer: it counts as accepted at once."
  },
  {
   "property": "C167",
   "status": "partial",
   "theorems": [
    "Np.Sm.C167_handled_iff",
    "Np.Sm.C167_first_rule_partial",
    "Np.Sm.C167_same_state_partial",
    "Np.Sm.C167_nested_refuted",
    "Np.Sm.C167_left_state_entered_refuted"
   ],
   "note": "Handled-iff and no change otherwise proved outright; order and number of calls proved when no function hands an event to the machine itself. With such a nested call the exit function of the state that was left runs twice and its enter function runs last (refuted). Conditions are taken to have no side effects."
  },
  {
   "property": "C168",
   "status": "partial",
   "theorems": [
    "Np.Sm.C168_request_partial",
    "Np.Sm.C168_failed_request",
    "Np.Sm.C168_later_rule_refuted"
   ],
   "note": "Proved when the first active rule with the target applies; failing requests fully characterised. Refuted in general: a failing rule hides a later one for the same target. Not called by the library itself."
  },
  {
   "property": "C169",
   "status": "partial",
   "theorems": [
    "Np.Sm.C169_some_partial",
    "Np.Sm.C169_until_none_refuted"
   ],
   "note": "Only one transition is made (refuted); whether there was one is reported correctly. Not called by the library itself."
  },
  {
   "property": "C170",
   "status": "proved",
   "theorems": [
    "Np.Sm.C170_rules_kept"
   ],
   "note": "For every list of rules; allocation is taken to succeed."
  },
  {
   "property": "C171",
   "status": "partial",
   "theorems": [
    "Np.Http.C171_arguments_partial",
    "Np.Http.C171_name_alone_refuted",
    "Np.Http.C171_equals_refuted"
   ],
   "note": "Proved for every list of names and values without '&' and '='. Refuted for a name without a value and a value with '=': the pairs shift."
  },
  {
   "property": "C172",
   "status": "partial",
   "theorems": [
    "Np.Http.C172_own_request_partial",
    "Np.Http.C172_old_arguments_refuted",
    "Np.Http.C172_last_query_refuted",
    "Np.Http.C172_body_refuted"
   ],
   "note": "Method, path and headers always; arguments if the request has a query; a body that arrives in one part. Refuted: without a query the arguments of an earlier request are seen, of a body in parts only the last one, and the body of an earlier request stays. Requests of the usual form (no chunks, lines end with CR LF)."
  },
  {
   "property": "C173",
   "status": "partial",
   "theorems": [
    "Np.Http.C173_handler_partial",
    "Np.Http.C173_again_refuted",
    "Np.Http.C173_long_path_refuted",
    "Np.Http.C173_no_path_refuted"
   ],
   "note": "Proved for methods of the protocol and paths of at most 124 bytes, for the first registration. Refuted: registering again has no effect, longer paths share a handler, a request line without version as the first on a connection reads from an invalid address."
  },
  {
   "property": "C174",
   "status": "partial",
   "theorems": [
    "Np.Http.C174_code_partial",
    "Np.Http.C174_created_accepted_refuted",
    "Np.Http.C174_code_itself_refuted"
   ],
   "note": "All names but two; created and accepted are exchanged (refuted); a handler returning the code itself reads behind the table (refuted)."
  },
  {
   "property": "C175",
   "status": "partial",
   "theorems": [
    "Np.Http.C175_page_partial",
    "Np.Http.C175_nodes_refuted"
   ],
   "note": "Exact bound: 8000 bytes before the end; beyond it memory behind the buffer is written (refuted with the data of 104 nodes)."
  },
  {
   "property": "C176",
   "status": "partial",
   "theorems": [
    "Np.Http.C176_head_partial",
    "Np.Http.C176_long_header_refuted",
    "Np.Http.C176_beginning_partial",
    "Np.Http.C176_complete_partial",
    "Np.Http.C176_head_cut_refuted",
    "Np.Http.C176_next_answer_refuted"
   ],
   "note": "A beginning of the answer always, all of it if the network takes it, provided the head is taken at once. Refuted: a head of 2048 or more bytes, a head that is taken in part, the answer after a broken one."
  },
  {
   "property": "C177",
   "status": "partial",
   "theorems": [
    "Np.Htp.C177_request_partial",
    "Np.Htp.C177_handler_partial",
    "Np.Htp.C177_chunks_refuted"
   ],
   "note": "Requests of the usual form (method but CONNECT, path with a slash, HTTP/1.0 or 1.1, non-empty header values, declared length of at most 19 digits). Refuted for bodies in chunks: the handler gets the last chunk and the length 0. Not covered: scheme and host in the request line, empty or continued header values."
  },
  {
   "property": "C178",
   "status": "proved",
   "theorems": [
    "Np.Htp.C178_cut",
    "Np.Htp.C178_request"
   ],
   "note": "For all bytes, cuts and states; up to the end of the first request, because a read is given up there (C180)."
  },
  {
   "property": "C179",
   "status": "partial",
   "theorems": [
    "Np.Htp.C179_usual_partial",
    "Np.Htp.C179_no_colon_refuted",
    "Np.Htp.C179_blank_refuted",
    "Np.Htp.C179_no_version_refuted"
   ],
   "note": "Refuted: a header line without a colon, and a blank before a LF at the end of the request line, run into assertions; a request line without a version is looked up without a path. Proved for requests of the usual form."
  },
  {
   "property": "C180",
   "status": "partial",
   "theorems": [
    "Np.Htp.C180_one_per_read_partial",
    "Np.Htp.C180_together_refuted",
    "Np.Htp.C180_empty_line_refuted"
   ],
   "note": "Proved for one request per read. Refuted for requests that arrive together, and for a request after an empty line in the same read."
  },
  {
   "property": "C181",
   "status": "partial",
   "theorems": [
    "Np.Htp.C181_length_partial",
    "Np.Htp.C181_huge_refuted"
   ],
   "note": "Proved for lengths of at most 19 digits. Refuted for 20 digits: the product wraps without being noticed."
  },
  {
   "property": "C182",
   "status": "partial",
   "theorems": [
    "Np.Htp.C182_bound_partial",
    "Np.Htp.C182_long_path_partial",
    "Np.Htp.C182_zero_refuted"
   ],
   "note": "The number of bytes held never exceeds 8192, and longer paths are refused. Refuted: the zero after the last byte is written one past the buffer."
  },
  {
   "property": "C183",
   "status": "partial",
   "theorems": [
    "Np.Htp.C183_first_byte_partial",
    "Np.Htp.C183_stuck_refuted"
   ],
   "note": "Proved if the first byte is refused. Refuted for a request line that ends with LF alone: the parser stays in that state for ever."
  },
  {
   "property": "C184",
   "status": "partial",
   "theorems": [
    "Np.Sys.C184_newest_partial",
    "Np.Sys.C184_no_time_refuted"
   ],
   "note": "Proved for every history in which each report names its node, in at most 255 bytes, and its time. Refuted for a report without a time: all later ones about that node are ignored."
  },
  {
   "property": "C185",
   "status": "partial",
   "theorems": [
    "Np.Sys.C185_own_partial",
    "Np.Sys.C185_sender_refuted",
    "Np.Sys.C185_shut_out_refuted",
    "Np.Sys.C185_list_refuted"
   ],
   "note": "Proved for what the server tells about itself when asked for itself. Refuted for all other nodes, for the list of all, and with a time in the future the node itself is shut out."
  },
  {
   "property": "C186",
   "status": "partial",
   "theorems": [
    "Np.Sys.C186_list_partial",
    "Np.Sys.C186_no_time_refuted"
   ],
   "note": "Proved for every history of proper reports about at most 32767 nodes. Refuted for a single report without a time: the server that is asked stops, whatever arrives later."
  },
  {
   "property": "C187",
   "status": "partial",
   "theorems": [
    "Np.Sys.C187_list_partial",
    "Np.Sys.C187_one_refuted"
   ],
   "note": "Proved for the list of all. Refuted for the report on one node, which is given however old it is."
  },
  {
   "property": "C188",
   "status": "partial",
   "theorems": [
    "Np.Sys.C188_page_partial",
    "Np.Sys.C188_own_partial",
    "Np.Sys.C188_length_refuted",
    "Np.Sys.C188_late_refuted"
   ],
   "note": "Proved for keys of 64 bytes without a slash, after every history of proper reports. Refuted for keys of any other length, and when the http interface is started after the reports were enabled."
  },
  {
   "property": "C189",
   "status": "partial",
   "theorems": [
    "Np.Sys.C189_enabled_partial",
    "Np.Sys.C189_before_refuted"
   ],
   "note": "Proved once the reports are enabled. Refuted before: asking for the node itself or for all stops the process."
  },
  {
   "property": "C190",
   "status": "partial",
   "theorems": [
    "Np.Sys.C190_no_arguments_partial",
    "Np.Sys.C190_join_refuted",
    "Np.Sys.C190_again_refuted"
   ],
   "note": "Proved for connections without arguments. Refuted: connect_string lets the node join, and again with each later request of the connection."
  },
  {
   "property": "C191",
   "status": "partial",
   "theorems": [
    "Np.Files.C191_content_refuted",
    "Np.Files.C191_witness_refuted",
    "Np.Files.C191_same_partial"
   ],
   "note": "Refuted for every history: closing a file, which happens when it is shared, sets its size to 0, and a file of size 0 cannot be mapped again, so no page has a content and no file is sent. Proved: the page says the same every time."
  },
  {
   "property": "C192",
   "status": "partial",
   "theorems": [
    "Np.Files.C192_share_partial",
    "Np.Files.C192_listing_partial",
    "Np.Files.C192_file_refuted",
    "Np.Files.C192_elsewhere_refuted"
   ],
   "note": "Refuted for pages of files: they move the process into the directory of the file and close a descriptor twice. Proved for sharing and for pages of directories."
  },
  {
   "property": "C193",
   "status": "partial",
   "theorems": [
    "Np.Files.C193_share_partial",
    "Np.Files.C193_same_name_refuted",
    "Np.Files.C193_same_dir_refuted",
    "Np.Files.C193_empty_refuted",
    "Np.Files.C193_confused_refuted"
   ],
   "note": "Proved for trees of any depth if all names are different and new and all files can be read and have a content. Refuted for files or directories of the same name, for a directory with the name of a file, and for empty or unreadable files, where unset members are used."
  },
  {
   "property": "C194",
   "status": "partial",
   "theorems": [
    "Np.Files.C194_only_partial",
    "Np.Files.C194_named_refuted",
    "Np.Files.C194_http_refuted"
   ],
   "note": "Proved: what is not visible in what is shared does not become shared. Refuted: a hidden file that is named is shared, and whoever reads the page of a directory can have anything shared."
  },
  {
   "property": "C195",
   "status": "partial",
   "theorems": [
    "Np.Files.C195_close_refuted"
   ],
   "note": "Refuted after every history: np_files_close has an empty body."
  },
  {
   "property": "C196",
   "status": "partial",
   "theorems": [
    "Np.Files.C196_type_partial",
    "Np.Files.C196_none_partial",
    "Np.Files.C196_csv_refuted",
    "Np.Files.C196_unknown_refuted"
   ],
   "note": "Proved for every suffix of the table but .csv and for names without a suffix. Refuted: .csv is taken for .css, and unknown suffixes for known ones."
  },
  {
   "property": "C197",
   "status": "partial",
   "theorems": [
    "Np.Files.C197_listing_partial",
    "Np.Files.C197_file_refuted",
    "Np.Files.C197_witness_refuted"
   ],
   "note": "Proved for pages of directories and of nothing. Refuted for pages of files, which name the type of the file."
  },
  {
   "property": "C198",
   "status": "partial",
   "theorems": [
    "Np.Files.C198_store_partial",
    "Np.Files.C198_path_refuted",
    "Np.Files.C198_missing_refuted",
    "Np.Files.C198_short_refuted"
   ],
   "note": "Proved for complete messages and a disk that takes them. Refuted: the sender chooses the path, a message without its parts stops the process and may empty a file, a partial write is not noticed."
  },
  {
   "property": "C199",
   "status": "partial",
   "theorems": [
    "Np.Files.C199_lines_partial",
    "Np.Files.C199_last_partial",
    "Np.Files.C199_page_refuted",
    "Np.Files.C199_zero_refuted"
   ],
   "note": "Proved for files with a last end of line, and without one if the file does not fill its last page, both without zeros. Refuted for files that fill their last page and for lines with a zero."
  },
  {
   "property": "C200",
   "status": "partial",
   "theorems": [
    "Np.Uuid.C200_apart_partial",
    "Np.Uuid.C200_blank_refuted",
    "Np.Uuid.C200_long_refuted"
   ],
   "note": "Proved for names of up to 215 bytes that do not begin with a blank. Refuted: a blank before a short name makes no difference, and with names of 254 bytes or more neither number nor time do."
  },
  {
   "property": "C201",
   "status": "partial",
   "theorems": [
    "Np.Uuid.C201_times_partial",
    "Np.Uuid.C201_same_time_refuted",
    "Np.Uuid.C201_lost_refuted"
   ],
   "note": "Proved for messages made at different times, in steps of 2^-22 seconds. Refuted: the id depends on nothing but the time, so messages of different nodes may have the same; of two with the same id on one channel only the first is waited for and sent again."
  },
  {
   "property": "C202",
   "status": "proved",
   "theorems": [
    "Np.Uuid.C202_kinds"
   ],
   "note": "For every hash: the hashed blocks differ. Times from 2004 to 2038."
  },
  {
   "property": "C203",
   "status": "partial",
   "theorems": [
    "Np.Json.C203_paths_partial",
    "Np.Json.C203_text_name_partial",
    "Np.Json.C203_number_name_partial",
    "Np.Json.C203_same_name_refuted",
    "Np.Json.C203_other_key_refuted",
    "Np.Json.C203_text_refuted"
   ],
   "note": "For trees whose keys are shown by different names, none of them an int or an id, with numbers up to 2^53, finite fractions, UTF-8 texts and no single characters. Refuted otherwise: keys with the same name, ids as keys, texts that are not UTF-8. The text of a tree as JSON is made by parson, which is not in the repository."
  },
  {
   "property": "C204",
   "status": "partial",
   "theorems": [
    "Np.Json.C204_list_partial",
    "Np.Json.C204_keys_refuted",
    "Np.Json.C204_mixed_refuted",
    "Np.Json.C204_empty_refuted"
   ],
   "note": "For trees with ints as keys only, and values as in C203. Refuted: the positions are not the keys, entries with names before an int are lost and those after it lose their names, an empty list is an object."
  },
  {
   "property": "C205",
   "status": "partial",
   "theorems": [
    "Np.Json.C205_small_partial",
    "Np.Json.C205_large_refuted"
   ],
   "note": "Up to 2^53; refuted for 2^53+1."
  },
  {
   "property": "C206",
   "status": "partial",
   "theorems": [
    "Np.Json.C206_safe_partial",
    "Np.Json.C206_char_refuted"
   ],
   "note": "For all trees without single characters; refuted for one with a single character. No code of the repository puts a single character into a tree, but the functions for it are there and a tree that is read from the wire may have one."
  },
  {
   "property": "C207",
   "status": "partial",
   "theorems": [
    "Np.Tun.C207_reaches_partial",
    "Np.Tun.C207_nobody_else_partial",
    "Np.Tun.C207_addresses_partial",
    "Np.Tun.C207_own_partial",
    "Np.Tun.C207_again_refuted",
    "Np.Tun.C207_networks_refuted",
    "Np.Tun.C207_short_refuted"
   ],
   "note": "For a peer that was set up once, whose address is written as inet_ntop writes it, and for addresses with different hashes. Refuted: a peer that was set up twice listens on the subject 0, peers of different networks may share a subject, short packets and read errors use bytes that were never written."
  },
  {
   "property": "C208",
   "status": "partial",
   "theorems": [
    "Np.Tun.C208_whole_partial",
    "Np.Tun.C208_twice_refuted",
    "Np.Tun.C208_forged_refuted",
    "Np.Tun.C208_header_refuted"
   ],
   "note": "That only whole packets are handed over, unchanged, and all of them. Refuted: each is handed over twice, the sender is not checked, the header may be longer than the packet."
  },
  {
   "property": "C209",
   "status": "partial",
   "theorems": [
    "Np.Tun.C209_only_partial",
    "Np.Tun.C209_accepted_partial",
    "Np.Tun.C209_length_refuted",
    "Np.Tun.C209_overflow_refuted",
    "Np.Tun.C209_route_refuted"
   ],
   "note": "Only such nodes become peers; they do if their address has as many characters as ours and they announce no route. Refuted: addresses of another length are rejected, a route of more than 16 bytes overwrites the stack, a shorter one is followed by what was there before."
  },
  {
   "property": "C210",
   "status": "partial",
   "theorems": [
    "Np.Tun.C210_flows_partial",
    "Np.Tun.C210_start_partial",
    "Np.Tun.C210_restart_refuted",
    "Np.Tun.C210_destroy_refuted",
    "Np.Tun.C210_error_refuted",
    "Np.Tun.C210_stop_first_refuted"
   ],
   "note": "For all histories without undefined behaviour, and for a first start, stop and destroy. Refuted: a second start frees the tunnel, destroying a running one writes out of bounds, errors are forgotten, a stop before the first start makes it read the standard input."
  },
  {
   "property": "C211",
   "status": "partial",
   "theorems": [
    "Np.Tun.C211_bits_partial",
    "Np.Tun.C211_bits_refuted",
    "Np.Tun.C211_zero_refuted"
   ],
   "note": "The number of bits is rounded up to a multiple of 8, so that it is right for multiples of 8 only; undefined for a netmask of 0."
  },
  {
   "property": "C212",
   "status": "partial",
   "theorems": [
    "Np.Tun.C212_add_partial",
    "Np.Tun.C212_add_refuted",
    "Np.Tun.C212_delete_refuted"
   ],
   "note": "Adding stays inside the request. Refuted: the kernel sees nothing of what was written, and deleting writes outside of the request."
  },
  {
   "property": "C213",
   "status": "partial",
   "theorems": [
    "Np.Web.C213_beginning_partial",
    "Np.Web.C213_all_partial",
    "Np.Web.C213_cut_refuted",
    "Np.Web.C213_no_list_refuted",
    "Np.Web.C213_title_refuted"
   ],
   "note": "Proved for results with UTF-8 texts, finite similarity and titles that end with a zero byte: the list is the beginning of the results that fits into 65534 bytes, all of them if all fit. Refuted: what does not fit is left out silently, an object instead of a list, titles without a zero byte."
  },
  {
   "property": "C214",
   "status": "partial",
   "theorems": [
    "Np.Web.C214_status_partial",
    "Np.Web.C214_no_content_refuted"
   ],
   "note": "Statuses 200 and 400 are characterised outright. Refuted: 204 comes with a body."
  },
  {
   "property": "C215",
   "status": "partial",
   "theorems": [
    "Np.Web.C215_answer_partial",
    "Np.Web.C215_number_refuted",
    "Np.Web.C215_bytes_refuted",
    "Np.Web.C215_slow_refuted"
   ],
   "note": "Proved if the titles are missing or texts with a final zero byte and the clean-up does not come after more than a minute. Refuted: a number as title, bytes without a zero byte, a slow search."
  },
  {
   "property": "C216",
   "status": "proved",
   "theorems": [
    "Np.Hop.C216_arrives",
    "Np.Hop.C216_late",
    "Np.Hop.C216_message"
   ],
   "note": "For every cipher that inverts itself; the time is a natural number, the way itself (which node is next) is any list. The last theorem composes with the reassembly of C19."
  },
  {
   "property": "C217",
   "status": "partial",
   "theorems": [
    "Np.Hop.C217_distinct_partial",
    "Np.Hop.C217_system_refuted",
    "Np.Hop.C217_leak_refuted"
   ],
   "note": "Proved for messages of users whose random nonces differ in more than their first two bytes: the nonces of all their packets are distinct. Refuted for messages of the system (ping, join, acknowledgements, pheromones, discovery): their nonce is never set, so two that are made in memory with the same old content have the same nonce, and with a stream cipher the sum of their contents is public."
  },
  {
   "property": "C218",
   "status": "partial",
   "theorems": [
    "Np.Hop.C218_user_partial",
    "Np.Hop.C218_system_refuted"
   ],
   "note": "Proved for messages of users: the packets on the link do not depend on old memory. Refuted for messages of the system: the nonce in clear is twelve bytes of old memory, in handshakes also the sixteen bytes of the mac."
  },
  {
   "property": "C219",
   "status": "partial",
   "theorems": [
    "Np.Group.C219_keys_partial",
    "Np.Group.C219_window_refuted",
    "Np.Group.C219_first_refuted"
   ],
   "note": "Proved for every history when the receiver's intent comes in while the sender's newest intent is the announced one, for all later histories in which it is not lost, if ids of sessions do not clash; refuted for intents that come in between a new intent and its announcement (C219_window_refuted, C219_first_refuted)."
  },
  {
   "property": "C220",
   "status": "partial",
   "theorems": [
    "Np.Group.C220_removed_partial",
    "Np.Group.C220_key_refuted",
    "Np.Group.C220_session_refuted"
   ],
   "note": "Proved: no key is sent to a receiver that was lost before the next announcement. Refuted: no new key is made on a loss (C220_key_refuted), and a receiver that was there over an announcement is sent all later keys (C220_session_refuted)."
  },
  {
   "property": "C221",
   "status": "proved",
   "theorems": [
    "Np.Group.C221_only_receivers"
   ],
   "note": "For every history and all ids."
  },
  {
   "property": "C222",
   "status": "partial",
   "theorems": [
    "Np.Group.C222_renewal_partial",
    "Np.Group.C222_growth_refuted"
   ],
   "note": "Proved: at most one message for each intent of a receiver that ever came in. Refuted: with one receiver the number of messages is the number of renewals (C222_growth_refuted)."
  },
  {
   "property": "C223",
   "status": "partial",
   "theorems": [
    "Np.Issue.C223_accepted_partial",
    "Np.Issue.C223_issuer_partial",
    "Np.Issue.C223_room_refuted"
   ],
   "note": "Proved for every identity, channel and receiver: acceptance until expiry if no attribute set by the user has the name of one of the two counters, verification of the issuer if none has the name of the identity. Missing: such attributes, which replace the values. Refuted for attributes that leave no room for the fingerprint of the node: the node aborts."
  },
  {
   "property": "C224",
   "status": "proved",
   "theorems": [
    "Np.Issue.C224_lifetime"
   ],
   "note": "For all 64-bit values of times; `dgt` is the comparison of doubles of area Token, false for values that are not numbers."
  },
  {
   "property": "C225",
   "status": "partial",
   "theorems": [
    "Np.Issue.C225_handshake",
    "Np.Issue.C225_identity",
    "Np.Issue.C225_node_refuted"
   ],
   "note": "Proved for handshake and identity tokens. Refuted for the public token of a node: the call aborts whatever the node is; nothing in the library calls it."
  },
  {
   "property": "C226",
   "status": "partial",
   "theorems": [
    "Np.Issue.C226_other_partial",
    "Np.Issue.C226_abort_refuted"
   ],
   "note": "Proved for every limit but 24 that it can be written into the intent if there is room. Refuted for 24: with the functions of the library on attributes the node aborts when it makes the intent, whatever the identity, the other properties and the room are."
  },
  {
   "property": "C227",
   "status": "partial",
   "theorems": [
    "Np.Attr.C227_returns_partial",
    "Np.Attr.C227_only_partial",
    "Np.Attr.C227_all_partial",
    "Np.Attr.C227_some_partial",
    "Np.Attr.C227_own_partial",
    "Np.Attr.C227_room_refuted"
   ],
   "note": "Proved for every history of fewer than 65535 calls with entries whose size the library computes correctly: never found outside of its scopes; if all merges had room, found in every included target, with the last value of the scope, or of one of the scopes if the key was set with several; own attributes stay. Refuted for attributes without room beside the id of the sender: the call returned np_data_ok, the message goes out without the attribute."
  },
  {
   "property": "C228",
   "status": "partial",
   "theorems": [
    "Np.Attr.C228_token_partial",
    "Np.Attr.C228_lost_refuted"
   ],
   "note": "Proved for calls without a scope. Refuted with a scope: for every token without room for the attribute and every empty cache with room for it the call returns np_data_ok, and the token stays as it was."
  },
  {
   "property": "C229",
   "status": "partial",
   "theorems": [
    "Np.Attr.C229_read_partial",
    "Np.Attr.C229_absent_refuted",
    "Np.Attr.C229_overrun_refuted",
    "Np.Attr.C229_number_refuted",
    "Np.Attr.C229_conf_refuted"
   ],
   "note": "Proved for binary attributes that are there and fit into the memory of the caller. Refuted for missing keys (an unset pointer is read, whatever the message is), for values longer than the memory of the caller (a sender can write past up to 10000 bytes), for numbers and without a configuration. A null pointer in the place of the memory, as in examples/neuropil_iot_car.c, fails an assertion (by definition of the model)."
  },
  {
   "property": "C230",
   "status": "partial",
   "theorems": [
    "Np.Attr.C230_recorded_partial",
    "Np.Attr.C230_refused_partial",
    "Np.Attr.C230_receiver_refuted"
   ],
   "note": "Proved: after np_data_ok the requirement was added in every direction the channel is used in, the former ones are kept, and intents without the key are refused (up to collisions and the capacity of the filter, area Bloom). Refuted for channels that are only used for receiving: np_invalid_operation is returned although the policy was set and intents are refused from then on. Missing: requirements with values (area Bloom, C63)."
  }
 ]
}