{
 "claims": [
  {
   "property": "C01",
   "status": "partial",
   "theorems": [
    "Verif.Props.C01_full_false",
    "Verif.Props.C01_large_always_accepted",
    "Verif.Props.C01_no_replay_partial",
    "Verif.Props.C01_no_replay_after_reset_partial",
    "Verif.Props.C01_exact_filter"
   ],
   "note": "The full claim is false: the window base never moves, numbers >= 256 are always accepted (C01_full_false, C01_large_always_accepted). Proved: at most once for numbers < 256, also after reset, and an exact description of the filter."
  },
  {
   "property": "C02",
   "status": "proved",
   "theorems": [
    "Verif.Props.C02_fresh_number_accepted",
    "Verif.Props.C02_fresh_number_accepted_after_reset",
    "Verif.Props.C02_seqno_is_max",
    "Verif.Props.C02_bump_strictly_increasing",
    "Verif.Props.C02_send_history"
   ],
   "note": "Any history, before and after reset; sender numbers strictly increase."
  },
  {
   "property": "C03",
   "status": "partial",
   "theorems": [
    "Verif.Props.C03_full_false",
    "Verif.Props.C03_no_double_accept_partial",
    "Verif.Props.C03_mutual_exclusion_partial",
    "Verif.Props.C03_refusal_means_recorded_partial",
    "Verif.Props.C03_recorded_task_returns_true"
   ],
   "note": "Full claim is false for arbitrary interleavings (C03_full_false: the lock word returns to its old value). Proved: mutual exclusion and no double acceptance when the index word does not return to the same value; refusals are justified."
  },
  {
   "property": "C04",
   "status": "partial",
   "theorems": [
    "Verif.Props.C04_long_never_delivered",
    "Verif.Props.C04_full_false",
    "Verif.Props.C04_reassembled_partial"
   ],
   "note": "Full claim false (C04_full_false); C04_long_never_delivered: messages longer than first part + 1024 bytes are never delivered. Proved for all shorter ones, any order, repetition and interleaved traffic."
  },
  {
   "property": "C05",
   "status": "proved",
   "theorems": [
    "Verif.Props.C05_integrity",
    "Verif.Props.C05_single_delivery",
    "Verif.Props.C05_excess_refused",
    "Verif.Props.C05_zero_total_counterexample",
    "Verif.Props.C05_receiver_integrity",
    "Verif.Props.C05_concurrent"
   ],
   "note": "Sequential and concurrent. For a declared length of 0 a single Transfer object can complete twice (C05_zero_total_counterexample)."
  },
  {
   "property": "C06",
   "status": "partial",
   "theorems": [
    "Verif.Props.C06_completes_on_last_part",
    "Verif.Props.C06_incomplete_reports_nothing",
    "Verif.Props.C06_terminates_full_false",
    "Verif.Props.C06_hang_is_nontermination",
    "Verif.Props.C06_terminates_partial"
   ],
   "note": "Completion on the last part proved for all cuts and orders. Termination is false with empty parts (C06_terminates_full_false), proved for non-empty parts."
  },
  {
   "property": "C07",
   "status": "proved",
   "theorems": [
    "Verif.Sender.C07_datagrams_below_1500"
   ],
   "note": "Every datagram produced by sendMessage is at most 1359 bytes, for all messages, states, channel and handshake paths."
  },
  {
   "property": "C08",
   "status": "proved",
   "theorems": [
    "Verif.Props.C08_roundtrip",
    "Verif.Props.C08_scheme"
   ],
   "note": "for every well-formed packet (lengths below 2^24, mandatory flag combinations produced by the sender) readPacket inverts writePacket; the TL primitives of tl_proto are modelled from the TL format description"
  },
  {
   "property": "C09",
   "status": "proved",
   "theorems": [
    "Verif.Props.C09_extract_gives_signed_bytes",
    "Verif.Props.C09_verified_bytes_determine_contents"
   ],
   "note": "for packets shorter than 2^16 bytes (the code stores offsets in u16; the receive buffer is 2048 bytes)"
  },
  {
   "property": "C10",
   "status": "partial",
   "theorems": [
    "Verif.Adnl.C10_full_false",
    "Verif.Adnl.C10_versioned_partial",
    "Verif.Adnl.C10_unversioned_partial",
    "Verif.Adnl.C10_unversioned_short_partial"
   ],
   "note": "Full claim fails for a versioned packet with an empty payload (C10_full_false). Proved: every non-empty versioned payload; every unversioned payload unless bytes 68..100 of the packet accidentally are the hash of a version and the bytes behind them (the ambiguity built into the format). Crypto primitives are parameters."
  },
  {
   "property": "C11",
   "status": "proved",
   "theorems": [
    "Verif.Adnl.C11_delivered_only_intact",
    "Verif.Adnl.C11_short_foreign_and_bounds",
    "Verif.Adnl.C11_tampering_needs_collision"
   ],
   "note": "Any bytes, any key store. Tampering with the encrypted part is shown to need a hash collision."
  },
  {
   "property": "C12",
   "status": "partial",
   "theorems": [
    "Verif.Adnl.C12_full_false",
    "Verif.Adnl.C12_ends_are_mirrored",
    "Verif.Adnl.C12_packet_is_found",
    "Verif.Adnl.C12_versioned_partial",
    "Verif.Adnl.C12_unversioned_partial",
    "Verif.Adnl.C12_key_schedule",
    "Verif.Adnl.C12_directions_differ"
   ],
   "note": "Full claim fails for a versioned packet with an empty payload (C12_full_false). Proved: mirrored keys and ids, packets found under the right id and priority, round trip for non-empty versioned payloads and for unversioned payloads that do not accidentally look versioned, directions differ."
  },
  {
   "property": "C13",
   "status": "proved",
   "theorems": [
    "Verif.Adnl.C13_delivered_only_intact",
    "Verif.Adnl.C13_short_and_bounds",
    "Verif.Adnl.C13_tampering_needs_collision"
   ],
   "note": "Any bytes, any channel, both priorities."
  },
  {
   "property": "C14",
   "status": "partial",
   "theorems": [
    "Verif.Receiver.C14_full_false",
    "Verif.Receiver.C14_with_key_partial",
    "Verif.Receiver.C14_characterisation_partial",
    "Verif.Receiver.C14_through_channel",
    "Verif.Receiver.C14_stored_keys_match"
   ],
   "note": "The full claim is false in the code: an unsigned packet naming a known peer by its short id is accepted (C14_full_false). Proved: packets carrying a key are signed by it, exact characterisation of accepted packets, and stored keys hash to the peer ids."
  },
  {
   "property": "C15",
   "status": "partial",
   "theorems": [
    "Verif.ReinitConc.C15_concurrent_dates_partial",
    "Verif.ReinitConc.C15_concurrent_resets_partial",
    "Verif.ReinitConc.C15_concurrent_one_restart_partial",
    "Verif.ReinitConc.C15_alone",
    "Verif.ReinitConc.C15_concurrent_at_most_once_each_partial",
    "Verif.ReinitConc.C15_concurrent_resets_twice",
    "Verif.Receiver.C15_date_never_decreases",
    "Verif.Receiver.C15_accepted_dates",
    "Verif.Receiver.C15_accepted_confirms",
    "Verif.Receiver.C15_rejected_untouched",
    "Verif.Receiver.C15_newer_date_resets_partial",
    "Verif.Receiver.C15_same_or_older_date_keeps",
    "Verif.Receiver.C15_each_date_resets_at_most_once",
    "Verif.Receiver.C15_full_false",
    "Verif.Receiver.C15_concurrent_date_can_decrease"
   ],
   "note": "Proved for every sequence of packets handled one at a time: monotone date, exact acceptance conditions, rejected packets leave the peer as it was except its address, each date resets at most once. Exceptions proved: the first known date does not reset (C15_full_false) and with two threads the date can go back (C15_concurrent_date_can_decrease). A packet whose destination date is older than our start is also rejected, but after its source date was applied. For calls that interleave: the date never falls below the one known before them, answers are right for some date that was stored, and a replaced date resets the histories at least once and each call at most once (C15_concurrent_dates_partial, C15_concurrent_resets_partial, C15_concurrent_at_most_once_each_partial); two packets of one restart can reset them twice (C15_concurrent_resets_twice); with one restart among the packets the date never goes back (C15_concurrent_one_restart_partial); a call that nothing interrupts agrees with the model of one thread (C15_alone)."
  },
  {
   "property": "C16",
   "status": "proved",
   "theorems": [
    "Verif.Establish.C16_listed_ids_belong_to_current_channels",
    "Verif.Establish.C16_channels_belong_to_their_peer",
    "Verif.Establish.C16_removed_with_the_peer",
    "Verif.Establish.C16_replaced_only_by_newer",
    "Verif.Establish.C16_datagram_never_downgrades",
    "Verif.Establish.C16_current_channels_are_listed",
    "Verif.Establish.C16_listing_needs_distinct",
    "Verif.Establish.C16_both_ends_match",
    "Verif.Establish.C16_ready_only_if_other_side_has_it",
    "Verif.Establish.C16_exchange_completes",
    "Verif.Process.C16_confirmation_makes_ready",
    "Verif.Process.C16_request_makes_channel"
   ],
   "note": "Table consistency over any history of datagrams and node operations; replacement only by a different key and newer date; two-node system with loss, reordering and duplication. Table updates are taken as atomic. The converse (every current channel is listed) holds as long as ids do not collide (C16_listing_needs_distinct shows it is needed)."
  },
  {
   "property": "C17",
   "status": "proved",
   "theorems": [
    "Verif.Props.C17_bounded_unique_consistent",
    "Verif.Props.C17_insert_reports",
    "Verif.Props.C17_fifo",
    "Verif.Props.C17_history",
    "Verif.Props.C17_with_peers"
   ],
   "note": "All histories of operations on a set built by new/with_peers_and_capacity; refinement to a bounded FIFO."
  },
  {
   "property": "C18",
   "status": "proved",
   "theorems": [
    "Verif.Props.C18_random_peers",
    "Verif.Props.C18_fill"
   ],
   "note": "Any outcome of the random sampling (IsSample hypothesis describes rand's sample without replacement); amount below 2^32-1 as amount+1 would overflow."
  },
  {
   "property": "C19",
   "status": "partial",
   "theorems": [
    "Verif.Props.C19_atomic_full_false",
    "Verif.Props.C19_failed_tag_visible",
    "Verif.Props.C19_lookups_consistent",
    "Verif.Props.C19_accepted_is_permanent",
    "Verif.Props.C19_atomic_partial",
    "Verif.Props.C19_only_accepted_keys_stored",
    "Verif.Props.C19_builder"
   ],
   "note": "The atomicity part is false: adding a key that already exists under a new tag leaves the tag registered and the error is reported after the tag was inserted (C19_atomic_full_false, C19_failed_tag_visible). Everything else proved for all histories."
  },
  {
   "property": "C20",
   "status": "proved",
   "theorems": [
    "Verif.Props.C20_at_most_once_own_answer",
    "Verif.Props.C20_no_leftovers",
    "Verif.Props.C20_unknown_answer_ignored",
    "Verif.Props.C20_waiting_query_is_reachable",
    "Verif.Props.C20_answer_is_delivered",
    "Verif.Props.C20_replaced_is_told"
   ],
   "note": "All interleavings of add/answer/wait/timeout/drop; C20_waiting_query_is_reachable assumes query ids are fresh."
  },
  {
   "property": "C21",
   "status": "proved",
   "theorems": [
    "Verif.Props.C21_query_dispatch",
    "Verif.Props.C21_same_bytes",
    "Verif.Props.C21_effect",
    "Verif.Props.C21_custom_dispatch",
    "Verif.Props.C21_custom_short"
   ],
   "note": "Arbitrary subscriber functions; trace of calls."
  },
  {
   "property": "C22",
   "status": "partial",
   "theorems": [
    "Verif.Receiver.C22_by_packet",
    "Verif.Props.C22_report_full_false",
    "Verif.Props.C22_report_partial",
    "Verif.Props.C22_readd_keeps_session",
    "Verif.Props.C22_stored_peers_admissible",
    "Verif.Props.C22_remove"
   ],
   "note": "'true exactly when stored afterwards' is false for a known peer re-announced at a refused address (C22_report_full_false). Proved: true iff admissible and then stored at that address, false iff nothing changes; stored peers admissible after every history."
  },
  {
   "property": "C23",
   "status": "proved",
   "theorems": [
    "Verif.Props.C23_pack_unpack",
    "Verif.Props.C23_pack_fits",
    "Verif.Props.C23_address_roundtrip",
    "Verif.Props.C23_pack_injective"
   ],
   "note": ""
  },
  {
   "property": "C24",
   "status": "partial",
   "theorems": [
    "Verif.Props.C24_full_false",
    "Verif.Props.C24_release_refuses_valid",
    "Verif.Props.C24_only_valid",
    "Verif.Props.C24_exact_partial"
   ],
   "note": "Full claim false near the end of the u32 clock range: now + tolerance overflows (panic in debug, wrap in release; C24_full_false, C24_release_refuses_valid). Only-valid direction proved without restriction; exactness proved while now + tolerance < 2^32."
  },
  {
   "property": "C25",
   "status": "proved",
   "theorems": [
    "Verif.Buckets.C25_affinity_is_common_prefix",
    "Verif.Buckets.C25_affinity_symmetric",
    "Verif.Buckets.C25_longer_prefix_is_closer"
   ],
   "note": "For all pairs and triples of 32-byte keys, against a separate definition of leading bits and XOR distance (Spec/Xor.lean)."
  },
  {
   "property": "C26",
   "status": "proved",
   "theorems": [
    "Verif.Buckets.C26_answers_are_stored_and_closer",
    "Verif.Buckets.C26_at_most_k",
    "Verif.Buckets.C26_answers_are_distinct",
    "Verif.Buckets.C26_answers_are_ordered",
    "Verif.Buckets.C26_short_answer_is_complete"
   ],
   "note": "For every table reached by insertions of nodes other than the local one (add_peer refuses the local id). With k = 0 the code returns one node; the theorems state max k 1."
  },
  {
   "property": "C27",
   "status": "proved",
   "theorems": [
    "Verif.Buckets.C27_one_entry_in_the_right_bucket",
    "Verif.Buckets.C27_version_never_decreases"
   ],
   "note": "For all insertion sequences into the routing table. At node level add_dht_peer calls insert only for peers not known before, see DESIGN.md."
  },
  {
   "property": "C28",
   "status": "proved",
   "theorems": [
    "Verif.Storage.C28_lookup_is_live",
    "Verif.Storage.C28_gc_exact",
    "Verif.Storage.C28_gc_partial_progress",
    "Verif.Storage.C28_collected",
    "Verif.Storage.C28_gc_invisible",
    "Verif.Storage.C28_expired_is_refused"
   ],
   "note": "Lookup, whole and partial (per shard) collection, refusal of expired values; in any storage state, clock not assumed monotonic."
  },
  {
   "property": "C29",
   "status": "proved",
   "theorems": [
    "Verif.Storage.C29_entries_are_authentic"
   ],
   "note": "Invariant over all sequences of insertions and (partial) collections. Signature verification is the parameter Crypto.verify."
  },
  {
   "property": "C30",
   "status": "proved",
   "theorems": [
    "Verif.Storage.C30_reports_change",
    "Verif.Storage.C30_only_forward",
    "Verif.Storage.C30_ttl_never_decreases"
   ],
   "note": "Step theorem, report theorem and multi-step monotonicity. A signed entry and an overlay entry can only meet under one storage key by a SHA-256 collision, which appears as the explicit alternative Collide between the values at hand."
  },
  {
   "property": "C31",
   "status": "proved",
   "theorems": [
    "Verif.Storage.C31_stored_lists_are_valid",
    "Verif.Storage.C31_merge",
    "Verif.Storage.C31_nodes_stay_while_alive"
   ],
   "note": "For all histories with arbitrary hash-map iteration orders, fewer than 2^32 records altogether and no SHA-256 collision between the keys/owners at hand (History). An entry whose ttl equals the current time is still merged by the code although a lookup treats it as expired."
  },
  {
   "property": "C32",
   "status": "partial",
   "theorems": [
    "Verif.Dht.C32_signed_values_partial",
    "Verif.Dht.C32_full_false",
    "Verif.Dht.C32_unsigned_values_partial",
    "Verif.Dht.C32_find_address_partial"
   ],
   "note": "The statement is false of the code: parse_value_result never compares the returned key with the requested one, and checks signatures for the Signature rule only (C32_full_false, C32_unsigned_values_partial). Proved: returned values with the Signature rule are signed by the owner, whose hash is the key id; find_address returns an address of one of the values with that value's owner."
  },
  {
   "property": "C33",
   "status": "partial",
   "theorems": [
    "Verif.Lookup.C33_no_peer_asked_twice",
    "Verif.Lookup.C33_only_good_peers",
    "Verif.Lookup.C33_batch_contains_closest",
    "Verif.Lookup.C33_full_false",
    "Verif.Lookup.C33_batch_drops_peers_partial",
    "Verif.Lookup.C33_full_batch_asks_everyone_partial",
    "Verif.Lookup.C33_fill_exact_partial",
    "Verif.Lookup.C33_batch_limit"
   ],
   "note": "Proved: no peer asked twice, only known peers not bad when chosen, the batch contains a closest eligible peer, with full batch and without new peers exactly the eligible peers are asked. False of the code: the first peer discovered after a fill is skipped (C33_full_false) and peers cut from the batch are never asked (C33_batch_drops_peers_partial). The peer list is assumed to grow at its end only (below the capacity of the peer set)."
  },
  {
   "property": "C34",
   "status": "partial",
   "theorems": [
    "Verif.Dht.C34_no_errors_never_bad_partial",
    "Verif.Dht.C34_full_false",
    "Verif.Dht.C34_first_error_is_free_partial",
    "Verif.Dht.C34_effect_partial",
    "Verif.Dht.C34_bad_only_after_failures_partial",
    "Verif.Dht.C34_failing_becomes_bad_partial"
   ],
   "note": "The statement is false of the code: a query that times out counts as a success and the first error is free (C34_full_false, C34_first_error_is_free_partial). Proved: exact effect of each outcome, bad only after more than threshold/2+1 errors, bad for certain after that many errors in a row, never bad without errors."
  },
  {
   "property": "C35",
   "status": "partial",
   "theorems": [
    "Verif.Lookup.C35_full_false",
    "Verif.Lookup.C35_at_most_six_partial",
    "Verif.Lookup.C35_ends_only_when_done",
    "Verif.Lookup.C35_goes_on_while_candidates"
   ],
   "note": "Six requests, one more than MAX_PARALLEL_FUTURES, can be in flight (C35_full_false); proved: never more than six, a lookup ends exactly when nothing is in flight and no candidate remains."
  },
  {
   "property": "C36",
   "status": "partial",
   "theorems": [
    "Verif.Rldp.C36_round_trip_partial",
    "Verif.Rldp.C36_small_unchanged_partial",
    "Verif.Rldp.C36_untagged_unchanged_partial",
    "Verif.Rldp.C36_changed_only_by_decoding_partial",
    "Verif.Rldp.C36_full_false",
    "Verif.Rldp.C36_huge_payload_partial"
   ],
   "note": "C36_full is false for every lawful zstd: a payload that merely looks compressed is replaced by its decompression. Proved: the round trip of compressed data, small and untagged payloads pass unchanged, and the only change is by decoding. zstd is a parameter with its round-trip law."
  },
  {
   "property": "C37",
   "status": "partial",
   "theorems": [
    "Verif.Rldp.C37_full_false",
    "Verif.Rldp.C37_bounds_partial",
    "Verif.Rldp.C37_size_fixed_partial",
    "Verif.Rldp.C37_too_big_partial"
   ],
   "note": "C37_full is false: the length in fec_type is never compared with total_size, so the decoder may be set up for more than the agreed size. Proved for every message sequence: agreed size at most the maximum and never changed, stored data within it, completion exactly at the agreed size."
  },
  {
   "property": "C38",
   "status": "partial",
   "theorems": [
    "Verif.Rldp.C38_safety_partial",
    "Verif.Rldp.C38_acknowledged_partial",
    "Verif.Rldp.C38_liveness_partial",
    "Verif.Rldp.C38_full_false",
    "Verif.Rldp.C38_end_to_end_partial"
   ],
   "note": "C38_full is false: after the receiver's entry expired, message parts are blindly acknowledged. Proved for every schedule: the stored data is always a beginning of the data sent, a complete transfer equals it, all source symbols of each part suffice, and without expiry every acknowledged part is stored. RaptorQ is a parameter with stated laws."
  },
  {
   "property": "C39",
   "status": "partial",
   "theorems": [
    "Verif.Rldp.C39_full_false",
    "Verif.Rldp.C39_acknowledged_partial",
    "Verif.Rldp.C39_no_skip_partial",
    "Verif.Rldp.C39_monotone_partial",
    "Verif.Rldp.C39_no_mismatch_partial"
   ],
   "note": "C39_full is false for the same reason as C38 (the sender reports success for a query that was never received). Proved for every schedule without expiry: parts acknowledged are stored, success means everything is stored, parts start in order without gaps, the part number moves by at most one and never back, no PartMismatch."
  },
  {
   "property": "C40",
   "status": "partial",
   "theorems": [
    "Verif.Rldp.C40_full_false",
    "Verif.Rldp.C40_panic_iff_partial",
    "Verif.Rldp.C40_release_partial",
    "Verif.Rldp.C40_single_part_partial",
    "Verif.Rldp.C40_fresh_partial"
   ],
   "note": "C40_full is false: seqno_in survives into the next part whose symbols are numbered from 0, so seqno_out - seqno_in underflows (panic in debug builds). Proved: exactly when it panics, never in release, never by underflow in single-part transfers, and a fresh symbol whenever the window was open."
  },
  {
   "property": "C41",
   "status": "partial",
   "theorems": [
    "Verif.Rldp.C41_full_false",
    "Verif.Rldp.C41_bound_partial",
    "Verif.Rldp.C41_accepted_partial",
    "Verif.Rldp.C41_never_received_partial"
   ],
   "note": "False as stated: the server compares the bare answer with the client's maximum, the client compares the answer with its 37 to 43 byte envelope (C41_full_false; C41_never_received_partial: every answer within 36 bytes of the maximum is sent and never received). Proved: answers at least 43 bytes below the maximum are received."
  },
  {
   "property": "C42",
   "status": "proved",
   "theorems": [
    "Verif.Rldp.C42_negation",
    "Verif.Rldp.C42_both_ends",
    "Verif.Rldp.C42_disjoint"
   ],
   "note": "Involution, no fixed point, length kept, and pairs of ids of different queries are disjoint unless equal."
  },
  {
   "property": "C43",
   "status": "partial",
   "theorems": [
    "Verif.Rldp.C43_full_false",
    "Verif.Rldp.C43_timeouts_partial",
    "Verif.Rldp.C43_estimate_partial",
    "Verif.Rldp.C43_big_roundtrip_partial",
    "Verif.Rldp.C43_waits_end_partial",
    "Verif.Rldp.C43_not_before_min_partial",
    "Verif.Rldp.C43_ends_exactly"
   ],
   "note": "Timeouts are within the limits for every history; the roundtrip estimate is not clamped (C43_full_false), it stays within the observations. Every waiting loop ends within an explicit bound. u64 overflow is not modelled."
  },
  {
   "property": "C44",
   "status": "proved",
   "theorems": [
    "Verif.Rldp.C44_result_iff",
    "Verif.Rldp.C44_mismatch",
    "Verif.Rldp.C44_end_to_end"
   ],
   "note": "Exact characterisation of the result, and from end to end from the client's data to the application's answer, up to the compression of C36."
  },
  {
   "property": "C45",
   "status": "partial",
   "theorems": [
    "Verif.Overlay.C45_authentic",
    "Verif.Overlay.C45_text_binds",
    "Verif.Overlay.C45_flags_full_false",
    "Verif.Overlay.C45_flags_lowest_bit",
    "Verif.Overlay.C45_once_full_false",
    "Verif.Overlay.C45_redelivered_only",
    "Verif.Overlay.C45_once_partial",
    "Verif.Overlay.C45_own"
   ],
   "note": "C45_authentic: whatever is delivered is in date and signed by its source over the delivered content. The full statement fails twice: the flags are not signed (C45_flags_full_false; only their lowest bit is bound, C45_flags_lowest_bit) and a broadcast received again in the second in which its entry has been forgotten is delivered again (C45_once_full_false). C45_redelivered_only and C45_once_partial say exactly when a second delivery happens."
  },
  {
   "property": "C46",
   "status": "partial",
   "theorems": [
    "Verif.Overlay.C46_full_false",
    "Verif.Overlay.C46_bound",
    "Verif.Overlay.C46_bounded_partial",
    "Verif.Overlay.C46_not_early",
    "Verif.Overlay.C46_oldest_first"
   ],
   "note": "C46_not_early and C46_oldest_first are proved. The bound after a round is false: the counter is raised before the entry is pushed, so a round can pop from an empty queue (C46_full_false). C46_bound gives the exact excess and C46_bounded_partial the bound when rounds do not overlap such a window."
  },
  {
   "property": "C47",
   "status": "partial",
   "theorems": [
    "Verif.Overlay.C47_authentic_partial",
    "Verif.Overlay.C47_text_binds",
    "Verif.Overlay.C47_full_false"
   ],
   "note": "C47_authentic_partial: hash, source and signatures of every symbol used, for every schedule; C47_text_binds: what a signature covers. The declared size is the size before decompression, so the size of what is delivered may differ (C47_full_false)."
  },
  {
   "property": "C48",
   "status": "partial",
   "theorems": [
    "Verif.Overlay.C48_full_false",
    "Verif.Overlay.C48_other_source_partial",
    "Verif.Overlay.C48_rejected_partial"
   ],
   "note": "False: whoever sends the first packet of a broadcast owns the transfer, and a packet with the key of the source but a wrong signature ends it (C48_full_false and the example after it). C48_other_source_partial: after the first packet, packets naming another source have no effect until a clean-up task runs. C48_rejected_partial: packets failing the first checks have none at all."
  },
  {
   "property": "C49",
   "status": "proved",
   "theorems": [
    "Verif.Props.C49_stored",
    "Verif.Props.C49_added",
    "Verif.Props.C49_members",
    "Verif.Props.C49_received",
    "Verif.Props.C49_answer",
    "Verif.Props.C49_added_many"
   ],
   "note": "For every history of additions, removals, refreshes and exchanges: stored records are genuine, foreign and newest; known peers and neighbours were given at creation or welcomed; records collected for the application and new peers found in answers are genuine and under another key. The local node is recognised by its short id in the peer table and by its key bytes in exchanges."
  },
  {
   "property": "C50",
   "status": "partial",
   "theorems": [
    "Verif.Props.C50_inactive_partial",
    "Verif.Props.C50_not_neighbour_partial",
    "Verif.Props.C50_pushed_out_partial",
    "Verif.Props.C50_small_overlay_never_leaves",
    "Verif.Props.C50_full_false"
   ],
   "note": "False: a removed peer stays a neighbour unless the refill pushes it out (C50_full_false), and in an overlay with fewer known peers than places it never leaves (C50_small_overlay_never_leaves). Proved: it is not active and never handed out as a cached peer; once out of the neighbours it is unused until offered again; when the refill pushes it out."
  },
  {
   "property": "C51",
   "status": "partial",
   "theorems": [
    "Verif.Props.BroadcastReceiver.C51_exactly_once",
    "Verif.Props.BroadcastReceiver.C51_full_false",
    "Verif.Props.BroadcastReceiver.C51_arriving_partial",
    "Verif.Props.BroadcastReceiver.C51_waiting_partial"
   ],
   "note": "Exactly once and in order is proved for every schedule. That no call waits forever while there is data is false when calls are dropped (C51_full_false: a dropped call leaves its barrier in the queue and takes the wake-up of another); it is proved for every fair schedule without dropped calls, and for every fair schedule for calls that do not wait at a barrier yet. sync_lock is not wrapped at 2^32."
  },
  {
   "property": "C52",
   "status": "proved",
   "theorems": [
    "Verif.Props.C52_other_messages",
    "Verif.Props.C52_other_queries",
    "Verif.Props.C52_broadcast",
    "Verif.Props.C52_message_confined",
    "Verif.Props.C52_random_peers",
    "Verif.Props.C52_subscriber",
    "Verif.Props.C52_register_once",
    "Verif.Props.C52_subscribe_once"
   ],
   "note": "Handling one message is one atomic step; the overlays' own handlers and the query subscribers are parameters."
  },
  {
   "property": "C53",
   "status": "proved",
   "theorems": [
    "Verif.Props.C53_random_peers"
   ],
   "note": "Every reachable state and every possible choice: own genuine record first, then the stored genuine records of the chosen neighbours, of different nodes, at most five in all."
  },
  {
   "property": "C54",
   "status": "partial",
   "theorems": [
    "Verif.Rldp.C54_full_false",
    "Verif.Rldp.C54_apart_partial",
    "Verif.Rldp.C54_once_partial",
    "Verif.Rldp.C54_single_task_partial",
    "Verif.Rldp.C54_negated_id_partial"
   ],
   "note": "False as stated: a copy arriving after the entry was removed (completion interval after the end) runs the handler again. Proved for every schedule: runs for one transfer are at least the completion interval apart and there is never more than one unfinished task for it, provided no transfer with the negated id comes in; C54_negated_id_partial shows that the proviso is needed."
  },
  {
   "property": "C55",
   "status": "partial",
   "theorems": [
    "Verif.Rldp.C55_full_false",
    "Verif.Rldp.C55_per_semaphore_partial",
    "Verif.Rldp.C55_bounded_partial",
    "Verif.Rldp.C55_not_stuck"
   ],
   "note": "False as stated: gc between lookup and acquire removes the semaphore (C55_full_false). Proved: holders per semaphore never exceed the limit, and the limit per peer holds if gc never falls into that window."
  },
  {
   "property": "C56",
   "status": "proved",
   "theorems": [
    "Verif.Dht.C56_routing_table_is_authentic",
    "Verif.Dht.C56_find_node_answers"
   ],
   "note": "For every history of queries (with nested prefixes), learned records, clean-ups and status changes."
  },
  {
   "property": "C57",
   "status": "partial",
   "theorems": [
    "Verif.Dht.C57_full_false",
    "Verif.Dht.C57_answer_partial"
   ],
   "note": "False of the code: process_find_value takes the first nodes from bucket 0 on, the most distant ones (C57_full_false). Proved: the answer holds only known nodes, at most k, all of them if there are fewer than k."
  },
  {
   "property": "C58",
   "status": "partial",
   "theorems": [
    "Verif.Dht.C58_full_false",
    "Verif.Dht.C58_new_peers_partial"
   ],
   "note": "False of the code: a newer record of a peer already known is accepted but not stored (C58_full_false). Proved for peers not yet known."
  },
  {
   "property": "C59",
   "status": "partial",
   "theorems": [
    "Verif.Rldp.C59_one_repair_partial",
    "Verif.Rldp.C59_source_first_partial",
    "Verif.Rldp.C59_open_partial",
    "Verif.Rldp.C59_full_false",
    "Verif.Rldp.C59_includes_system"
   ],
   "note": "C59_full is false for parts of more than 1000 source symbols (assuming the library numbers repair symbols count + start): the window never opens for repair symbols, so the same one is repeated. Proved: the source symbols are sent first, each once and in order; at most one distinct repair symbol then; and that the window reopens for smaller parts once the last symbol is confirmed."
  },
  {
   "property": "C60",
   "status": "proved",
   "theorems": [
    "Verif.Rldp.C60_round_trip",
    "Verif.Rldp.C60_unambiguous",
    "Verif.Rldp.C60_from_data"
   ],
   "note": "Round trips for both types, unambiguity, and agreement of from_data with the general reader."
  },
  {
   "property": "C61",
   "status": "partial",
   "theorems": [
    "Verif.Rldp.C61_full_false",
    "Verif.Rldp.C61_late_timer_partial",
    "Verif.Rldp.C61_removed_partial"
   ],
   "note": "False as stated: the entry of an answer whose sending failed stays (C61_full_false), and a timer that fires after the removal leaves a Done entry (C61_late_timer_partial). Proved otherwise."
  },
  {
   "property": "C62",
   "status": "proved",
   "theorems": [
    "Verif.Rldp.C62_complete_query",
    "Verif.Rldp.C62_not_given_up"
   ],
   "note": "Invariant over all schedules of calls, tasks and timers; RaptorQ is the parameter with the laws of Fec.Lawful; for queries up to the maximum size (larger ones are refused, C37)."
  },
  {
   "property": "C63",
   "status": "proved",
   "theorems": [
    "Verif.Overlay.C63_once_while_remembered",
    "Verif.Overlay.C63_once_if_nothing_forgotten"
   ],
   "note": ""
  },
  {
   "property": "C64",
   "status": "partial",
   "theorems": [
    "Verif.Overlay.C64_full_false",
    "Verif.Overlay.C64_ordinary_partial"
   ],
   "note": "True for ordinary broadcasts (C64_ordinary_partial); FEC packets are passed on before their signature is verified (C64_full_false)."
  },
  {
   "property": "C65",
   "status": "partial",
   "theorems": [
    "Verif.Overlay.C65_full_false",
    "Verif.Overlay.C65_large_numbers_always",
    "Verif.Overlay.C65_small_numbers_partial"
   ],
   "note": "True for packet numbers below 256 (C65_small_numbers_partial). Packets with numbers from 256 on are passed on every time (C65_full_false, C65_large_numbers_always), a consequence of C01."
  },
  {
   "property": "C66",
   "status": "partial",
   "theorems": [
    "Verif.Props.BroadcastReceiver.C66_full_false",
    "Verif.Props.BroadcastReceiver.C66_ends_partial"
   ],
   "note": "False when calls are dropped (C66_full_false: sync_lock stays raised and later notifiers spin forever); proved for every fair schedule without dropped calls."
  },
  {
   "property": "C67",
   "status": "partial",
   "theorems": [
    "Verif.TransferTimeout.C67_apart",
    "Verif.Props.TransferTimeout.C67_full_false",
    "Verif.Props.TransferTimeout.C67_message_lost",
    "Verif.Props.TransferTimeout.C67_rounding",
    "Verif.Props.TransferTimeout.C67_own_partial",
    "Verif.Props.TransferTimeout.C67_foreign_partial",
    "Verif.Props.TransferTimeout.C67_distinct_partial",
    "Verif.Props.TransferTimeout.C67_given_up",
    "Verif.Props.TransferTimeout.C67_time_passes"
   ],
   "note": "Proved: every transfer in the table had a part within the last two timeouts plus scheduling delays (C67_given_up), and time can always pass in the model (C67_time_passes). False in the code: the timeout task removes by hash, so the task of a finished transfer removes a newer transfer with the same hash (C67_full_false; a message is lost, C67_message_lost), and times are rounded to whole seconds (C67_rounding). Proved instead: a transfer removed by its own task was idle for more than the timeout less a second, and any other removal is by an older transfer with the same hash. C67_apart: a task that handles a part is where it was until it acts itself."
  },
  {
   "property": "C68",
   "status": "proved",
   "theorems": [
    "Verif.Props.Locks.C68_no_deadlock",
    "Verif.Props.Locks.C68_finishes",
    "Verif.Props.Locks.C68_step_is_progress"
   ],
   "note": "Sections of code that hold one guard while taking another are listed function by function in Model/Locks.lean; a guard never lives across an await. Any number of tasks and interleavings; waiting writers may block readers. The proof orders the locks; the theorem does not mention the order."
  },
  {
   "property": "C69",
   "status": "partial",
   "theorems": [
    "Verif.Props.Locks.C69_full_false",
    "Verif.Props.Locks.C69_stuck_for_ever",
    "Verif.Props.Locks.C69_one_way_partial"
   ],
   "note": "False in the code: randomly_fill_from locks the source for reading and then the destination for writing, so two opposite fillings block each other for ever (C69_full_false, C69_stuck_for_ever). Proved when the sets can be numbered so that fillings go upwards (C69_one_way_partial), which is the case for the node itself (C68)."
  },
  {
   "property": "C70",
   "status": "proved",
   "theorems": [
    "Verif.Delivery.C70_first_copy_accepted",
    "Verif.Delivery.C70_later_copies",
    "Verif.Delivery.C70_copy_dropped_below_256",
    "Verif.Delivery.C70_channel_packet_makes_ready"
   ],
   "note": "Two-node system over the byte-level model of sending and receiving; the network may lose, delay, reorder and duplicate. Hypotheses: start times and clocks within u32, the sender's start time not in the receiver's future, arrival before the address list expires, an unversioned packet does not look versioned by accident (checksum match), channel ids are not key ids of the receiver. The channel may be made and replaced at any time by the honest channel messages; reset and removal of the peer are excluded (other steps leave the pair's record and channel alone)."
  },
  {
   "property": "C71",
   "status": "proved",
   "theorems": [
    "Verif.Process.C71_parts",
    "Verif.Process.C71_in_order",
    "Verif.Process.C71_events_come_from_the_packet",
    "Verif.Process.C71_failure",
    "Verif.Process.C71_refused"
   ],
   "note": "C71_in_order gives the events of a packet without parts exactly, with the precise reason for stopping early; C71_events_come_from_the_packet covers every packet including parts. Subscribers are an arbitrary function."
  },
  {
   "property": "C72",
   "status": "proved",
   "theorems": [
    "Verif.RoundTrip.C72_nothing_made_up",
    "Verif.RoundTrip.C72_send_succeeds",
    "Verif.RoundTrip.C72_message_arrives",
    "Verif.RoundTrip.C72_answer_arrives"
   ],
   "note": "Real programs of both nodes (send_message, handle_received_data) over an arbitrary network, simulated by the system of C70. Lawful cryptography and, without packet versions, the absence of accidental version tags are hypotheses. Messages that need several packets are not covered here (C03-C05)."
  },
  {
   "property": "C73",
   "status": "proved",
   "theorems": [
    "Verif.Signed.C73_text_determines",
    "Verif.Signed.C73_packet_texts",
    "Verif.Signed.C73_broadcast_kinds",
    "Verif.Signed.C73_storage_keys"
   ],
   "note": "Injectivity of the serialisation of the signed records and separation by their constructors; the packet case covers every packet that can be read, not only those of this sender. No property of the hash function beyond its length is used."
  },
  {
   "property": "C74",
   "status": "proved",
   "theorems": [
    "Verif.Overlay.C74_kept_while_active",
    "Verif.Overlay.C74_given_up"
   ],
   "note": "Time is a ghost clock in milliseconds; the resolution of Instant::elapsed().as_secs() is modelled. A packet of another source refreshes the transfer too (accepted as any other packet)."
  },
  {
   "property": "C75",
   "status": "partial",
   "theorems": [
    "Verif.ChannelDrop.C75_decision",
    "Verif.ChannelDrop.C75_full_false",
    "Verif.ChannelDrop.C75_silent_partial",
    "Verif.ChannelDrop.C75_first_miss_keeps",
    "Verif.ChannelDrop.C75_dead_channel_dropped"
   ],
   "note": "The full claim is false (C75_full_false): a query that is waiting with a channel that has been replaced resets the pair although the new channel is active. Proved: exactly when a timeout resets (C75_decision, with the first unanswered query since the last packet computed by a separate specification), that the channel of the query was silent for longer than the timeout (C75_silent_partial), that the first miss keeps the channel, and that a dead channel is dropped. Reading the clock and the compare-exchange after it are one step."
  },
  {
   "property": "C76",
   "status": "partial",
   "theorems": [
    "Verif.Delivery.C76_reset_forgets",
    "Verif.Delivery.C76_number_decides",
    "Verif.Delivery.C76_answers_refused",
    "Verif.Delivery.C76_first_packet_lost",
    "Verif.Delivery.C76_full_false",
    "Verif.Delivery.C76_recovers_partial"
   ],
   "note": "The full claim is false (C76_full_false): the counters start again but the reinit date in the packets stays the start time of the node, so the other side keeps its history and drops the packets whose numbers it remembers (C76_number_decides says exactly which; C76_first_packet_lost for every running pair), while its own packets are refused because they confirm numbers not yet sent again (C76_answers_refused). Proved: what a reset forgets, and complete recovery with a new mirrored channel once as many packets were sent as the largest number remembered (C76_recovers_partial)."
  },
  {
   "property": "C77",
   "status": "proved",
   "theorems": [
    "Verif.Adnl.C77_handshake_layout",
    "Verif.Adnl.C77_channel_layout",
    "Verif.Adnl.C77_node_id",
    "Verif.Adnl.C77_keystream_unique"
   ],
   "note": "Byte layout of both kinds of encrypted packet, with key and counter given by Spec/Wire; key-stream reuse is characterised exactly. AES itself is a parameter."
  },
  {
   "property": "C78",
   "status": "proved",
   "theorems": [
    "Verif.Spec.Scheme.C78_public_key",
    "Verif.Spec.Scheme.C78_message",
    "Verif.Spec.Scheme.C78_address_list",
    "Verif.Spec.Scheme.C78_packet",
    "Verif.Spec.Scheme.C78_rldp_message",
    "Verif.Spec.Scheme.C78_rldp_part",
    "Verif.Spec.Scheme.C78_dht_boxed",
    "Verif.Spec.Scheme.C78_dht_query",
    "Verif.Spec.Scheme.C78_dht_answer",
    "Verif.Spec.Scheme.C78_overlay_nodes",
    "Verif.Spec.Scheme.C78_broadcast",
    "Verif.Spec.Scheme.C78_broadcast_signed",
    "Verif.Spec.Scheme.C78_overlay_id",
    "Verif.Spec.Scheme.C78_overlay_id_hash",
    "Verif.Spec.Scheme.C78_overlay_ids_differ",
    "Verif.Spec.Scheme.C78_udp6_not_read"
   ],
   "note": "Against the declarations of scheme.tl copied into Spec/Scheme and read there. Keys are pub.ed25519, pub.aes, pub.overlay (pub.unenc is not in the scheme). adnl.address.udp6 is declared but not read (C78_udp6_not_read). What tl_proto writes for ints, bytes and vectors is an assumption of Model/Tl."
  },
  {
   "property": "C79",
   "status": "proved",
   "theorems": [
    "Verif.Dht.C79_consumes_query",
    "Verif.Dht.C79_does_what_it_says",
    "Verif.Dht.C79_nothing_else",
    "Verif.Dht.C79_rejected_iff",
    "Verif.Dht.C79_passed_on"
   ],
   "note": "Refinement of the byte handler to the structured one of DhtNode, for every byte string; one call is one step."
  },
  {
   "property": "C80",
   "status": "partial",
   "theorems": [
    "Verif.Dht.C80_depth_reached",
    "Verif.Dht.C80_full_false",
    "Verif.Dht.C80_depth_partial"
   ],
   "note": "False: every 68 bytes of a message buy one more level, no valid signature is needed (C80_full_false, C80_depth_reached). Proved: the depth is at most (length + 64) / 68, and this is attained."
  },
  {
   "property": "C81",
   "status": "partial",
   "theorems": [
    "Verif.Dht.C81_accepted",
    "Verif.Dht.C81_foreign_id_refused",
    "Verif.Dht.C81_found_partial",
    "Verif.Dht.C81_kept_here_partial",
    "Verif.Dht.C81_lifetime",
    "Verif.Dht.C81_every_peer",
    "Verif.Dht.C81_read_partial",
    "Verif.Dht.C81_full_false",
    "Verif.Dht.C81_address_partial"
   ],
   "note": "False as stated (C81_full_false): a value published again within the same second, or with a shorter life, is acknowledged (dht.stored) but not kept. Proved: acceptance for all states, refusal with a foreign key, that the value is found when what was stored before lives less long, and that reading the answer gives back key, owner, data and address. Concurrency of the requests to several peers is not part of it."
  },
  {
   "property": "C82",
   "status": "proved",
   "theorems": [
    "Verif.Dht.C82_own_record_accepted",
    "Verif.Dht.C82_query_after_record"
   ],
   "note": "That a record of an already known node does not reach the routing table is C58."
  },
  {
   "property": "C83",
   "status": "partial",
   "theorems": [
    "Verif.Dht.C83_listed_partial",
    "Verif.Dht.C83_published",
    "Verif.Dht.C83_frozen",
    "Verif.Dht.C83_anyone_can_freeze",
    "Verif.Dht.C83_full_false"
   ],
   "note": "False (C83_full_false): nothing signs the expiry of a node list, so anyone with a key can store a list that expires at 2^32-1, after which every honest record is acknowledged but dropped (C83_anyone_can_freeze, C83_frozen, for all later operations). Proved: the record is kept when the living list does not outlive the new value."
  },
  {
   "property": "C84",
   "status": "proved",
   "theorems": [
    "Verif.Overlay.C84_delivered",
    "Verif.Overlay.C84_not_to_itself",
    "Verif.Overlay.C84_suppressed_iff",
    "Verif.Overlay.C84_suppressed_by_other"
   ],
   "note": "Hypotheses: lawful signatures and zstd; Unmistakable says that the signature does not also fit what the plain data would decompress to, which only matters for data that is itself a valid compressed stream."
  },
  {
   "property": "C85",
   "status": "partial",
   "theorems": [
    "Verif.Overlay.C85_source_symbols",
    "Verif.Overlay.C85_read_back",
    "Verif.Overlay.C85_one_repair_symbol_partial",
    "Verif.Overlay.C85_full_false",
    "Verif.Overlay.C85_delivered_partial"
   ],
   "note": "Negation of the count proved: only the symbols of the data and one repair symbol are sent, while half as many again are announced (C85_full_false, C85_one_repair_symbol_partial). Delivery is proved for all receivers that get every packet; recovery from losses depends on the erasure code, which is a parameter. Data delivered is known up to its hash, as in C47."
  },
  {
   "property": "C86",
   "status": "partial",
   "theorems": [
    "Verif.Overlay.C86_replayed_partial",
    "Verif.Overlay.C86_full_false"
   ],
   "note": "The code violates this: signatures do not cover the overlay (C86_full_false). C86_replayed_partial gives the exact effect: the other overlay treats the replayed broadcast as its own."
  },
  {
   "property": "C87",
   "status": "partial",
   "theorems": [
    "Verif.Dht.C87_full_false",
    "Verif.Dht.C87_result_partial"
   ],
   "note": "The code violates this: check_all is never read (C87_full_false). C87_result_partial characterises the three results exactly."
  },
  {
   "property": "C88",
   "status": "partial",
   "theorems": [
    "Verif.QueryRaw.C88_brought_partial",
    "Verif.QueryRaw.C88_anybody_partial",
    "Verif.QueryRaw.C88_full_false"
   ],
   "note": "The code violates this: query ids are looked up in one table for all peers, so any peer whose packets the node accepts can answer (C88_full_false, C88_anybody_partial). Proved: the answer was brought after the query was asked, by an accepted datagram with the id of the query, and no query has two results (C88_brought_partial)."
  },
  {
   "property": "C89",
   "status": "partial",
   "theorems": [
    "Verif.Dht.C89_lookups_add_all_partial",
    "Verif.Dht.C89_all_partial",
    "Verif.Dht.C89_first_harmful_ends_partial",
    "Verif.Dht.C89_full_false"
   ],
   "note": "The code violates this: add_dht_peer(node)? inside the loop ends the whole call at the first record with an unusable key or address (C89_full_false, C89_first_harmful_ends_partial: exact effect). Proved: without such a record all useful records take effect (C89_all_partial); the similar loop of value lookups has no such problem (C89_lookups_add_all_partial). Failed queries are given as answers without content."
  },
  {
   "property": "C90",
   "status": "proved",
   "theorems": [
    "Verif.Dht.C90_search_results"
   ],
   "note": "For arbitrary values from the DHT, arbitrary results of find_address and orders of completion (any permutation)."
  },
  {
   "property": "C91",
   "status": "partial",
   "theorems": [
    "Verif.Dht.C91_goes_on_partial",
    "Verif.Dht.C91_forever_partial",
    "Verif.Dht.C91_full_false"
   ],
   "note": "The code violates this: ids are put into the cache when they are looked up first, so the nodes kept for the next round are skipped there (C91_full_false). C91_goes_on_partial says exactly when the search goes on; C91_forever_partial: if the DHT keeps giving the same nodes it never ends."
  },
  {
   "property": "C92",
   "status": "partial",
   "theorems": [
    "Verif.Dht.C92_last_wins_partial",
    "Verif.Dht.C92_signed_partial",
    "Verif.Dht.C92_full_false"
   ],
   "note": "The code violates this: the address is set from any validly signed record without looking at its version (C92_full_false, C92_last_wins_partial). Proved: the address comes from the start or from a record signed by the peer itself (C92_signed_partial, over all runs)."
  },
  {
   "property": "C93",
   "status": "partial",
   "theorems": [
    "Verif.Identities.C93_full_false",
    "Verif.Identities.C93_handshake_partial",
    "Verif.Identities.C93_channel_partial"
   ],
   "note": "The full statement is false (C93_full_false): channels_by_peers is keyed by the id of the peer only, so a second local id sends through the channel of the first one, and its messages are attributed to the first one. Proved: messages sent without channel are attributed correctly in every state, and those sent through a channel are attributed to the pair which the receiver's channel was made for."
  },
  {
   "property": "C94",
   "status": "partial",
   "theorems": [
    "Verif.Isolation.C94_kept_partial",
    "Verif.Isolation.C94_full_false"
   ],
   "note": "The full statement is false (C94_full_false): when id 3 asks for a channel with a second local id, the channel with the first one is dropped. Proved: acceptance is kept by every operation about another remote id, provided no id of a channel made or held by the other one is the id of the packet (ids are hashes of secrets), and for handshake packets by every operation about another pair."
  },
  {
   "property": "C95",
   "status": "proved",
   "theorems": [
    "Verif.Socket.C95_largest",
    "Verif.Socket.C95_large_unchanged"
   ],
   "note": "The system call is a parameter."
  },
  {
   "property": "C96",
   "status": "partial",
   "theorems": [
    "Verif.Lifecycle.C96_started_never_ends_partial",
    "Verif.Lifecycle.C96_dht_never_ends_partial",
    "Verif.Lifecycle.C96_full_false",
    "Verif.Lifecycle.C96_full_false_without_dht",
    "Verif.Lifecycle.C96_ends_partial",
    "Verif.Lifecycle.C96_shutdown_partial"
   ],
   "note": "The full statement is false (C96_full_false, C96_full_false_without_dht): the cleaning task of a DHT node loops for ever (C96_dht_never_ends_partial), and the receiver task of a started node holds a reference to the node, so that dropping handles never stops it (C96_started_never_ends_partial). Proved: after shutdown, or if never started, one quiet round ends all tasks but those of DHT nodes (C96_ends_partial)."
  },
  {
   "property": "C97",
   "status": "proved",
   "theorems": [
    "Verif.Node.C97_matched",
    "Verif.Node.C97_added"
   ],
   "note": ""
  },
  {
   "property": "C98",
   "status": "proved",
   "theorems": [
    "Verif.Ping.C98_answered",
    "Verif.Ping.C98_nothing_else",
    "Verif.Ping.C98_dht_true_iff",
    "Verif.Ping.C98_dht_answers",
    "Verif.Ping.C98_malformed",
    "Verif.Ping.C98_wire"
   ],
   "note": ""
  },
  {
   "property": "C99",
   "status": "partial",
   "theorems": [
    "Verif.Dht.C99_arrives_iff_partial",
    "Verif.Dht.C99_nodes_partial",
    "Verif.Dht.C99_not_found_partial",
    "Verif.Dht.C99_overlay_list_partial",
    "Verif.Dht.C99_full_false"
   ],
   "note": "Violated: lists of overlay nodes grow without limit in the DHT storage and the number of nodes asked for with find_node is not limited either, but a message of more than two parts never arrives (C04). C99_full_false: fourteen members publish themselves, all are acknowledged, and the list can never be fetched. The partial theorems give the exact limits."
  },
  {
   "property": "C100",
   "status": "partial",
   "theorems": [
    "Verif.ChannelConc.C100_usable_partial",
    "Verif.ChannelConc.C100_no_stale_partial",
    "Verif.ChannelConc.C100_full_false",
    "Verif.ChannelConc.C100_remove_breaks",
    "Verif.ChannelConc.C100_reset_breaks",
    "Verif.ChannelConc.C100_never_older",
    "Verif.ChannelConc.C100_request_decides"
   ],
   "note": "The full statement is false of the code (C100_full_false): the vacant arm of create_channel gives up the lock on the entry before it lists the ids, so a second request can replace the channel first and the ids of the replaced channel stay listed for ever. Proved for all schedules: (a) with one local id and no removals (C100_usable_partial), and C100_remove_breaks and C100_reset_breaks show that a removal, or a reset for another local id, in the middle of which the channel is made again, leaves a channel without ids; (b) for all jobs, when no job starts on a peer while the ids of the first channel to it are still to be listed (C100_no_stale_partial)."
  },
  {
   "property": "C101",
   "status": "proved",
   "theorems": [
    "Verif.Props.C101_exchange",
    "Verif.Props.C101_one_datagram"
   ],
   "note": "Composition of prepare_random_peers, the query prefix, the dispatch of the overlay node, process_get_random_peers and the filter of the answer. Delivery of the two datagrams is C72; C101_one_datagram shows that the messages are of the size C72 is about."
  },
  {
   "property": "C102",
   "status": "partial",
   "theorems": [
    "Verif.Dht.C102_asked_are_told_partial",
    "Verif.Dht.C102_told_for_ever",
    "Verif.Dht.C102_flushed",
    "Verif.Dht.C102_unlimited",
    "Verif.Dht.C102_newest_kept",
    "Verif.Dht.C102_full_false"
   ],
   "note": "The code violates the full statement (C102_full_false): the set of known peers is bounded and forgets, the routing table never does. Proved for all histories: every node asked is told to others and is an ADNL peer (C102_asked_are_told_partial); nothing ever leaves the routing table (C102_told_for_ever) and it grows without limit (C102_unlimited); announcing as many distinct signed records as the set has room for, which any stranger can do in front of pings, replaces all nodes the node asks (C102_flushed); a newly announced node is asked while fewer than the capacity follow (C102_newest_kept)."
  },
  {
   "property": "C103",
   "status": "proved",
   "theorems": [
    "Verif.Views.C103_handshake",
    "Verif.Views.C103_channel",
    "Verif.Views.C103_extract",
    "Verif.Views.C103_fields_stay",
    "Verif.Views.C103_from_data",
    "Verif.Views.C103_receive"
   ],
   "note": "The buffers are modelled with an explicit undefined result. Not covered: aliasing rules of references, unwrap_unchecked in queries_cache.rs, the UnsafeCell of the random generator. The from_utf8_unchecked of printed ids is C135."
  },
  {
   "property": "C104",
   "status": "partial",
   "theorems": [
    "Verif.Props.C104_read_under_lock_partial",
    "Verif.Props.C104_no_leak",
    "Verif.Props.C104_dangling_iff",
    "Verif.Props.C104_one_insert",
    "Verif.Props.C104_into_iter",
    "Verif.Props.C104_full_false"
   ],
   "note": "False in general (C104_full_false): Iter::next returns references with the lifetime of the set, not of the guard; after the iterator is dropped an insert that evicts the peer frees it. Proved: no undefined behaviour in any sequence of inserts, reading under the lock yields the members, exactly when a kept reference is dangling (C104_dangling_iff), no leak, and into_iter yields every member."
  },
  {
   "property": "C105",
   "status": "partial",
   "theorems": [
    "Verif.Props.C105_over_partial",
    "Verif.Props.C105_silent_partial",
    "Verif.Props.C105_held_open",
    "Verif.Props.C105_full_false"
   ],
   "note": "Full statement C105_full is refuted by C105_full_false (C105_held_open builds, for every n, a peer that keeps the query open with n confirmations). Proved: the bound in the number of updates, and the bound of one maximum timeout for a silent peer. Scheduling delays are the parameter gap."
  },
  {
   "property": "C106",
   "status": "partial",
   "theorems": [
    "Verif.Rldp.C106_release_partial",
    "Verif.Rldp.C106_debug_stuck",
    "Verif.Rldp.C106_full_false",
    "Verif.Rldp.C106_fails_by_timeout_only"
   ],
   "note": "C106_release_partial proves it for builds without overflow checks (release). C106_full_false: with overflow checks (debug) it fails, because seqno_in is kept when the next part begins and the subtraction in prepare_chunk panics (C40); C106_debug_stuck characterises the loss: once a number above 0 of the first part was confirmed, no continuation finishes a transfer of several parts. Excluded: expiry of the receiver's entry (C38), which is part of the assumptions; durations are in C105."
  },
  {
   "property": "C107",
   "status": "proved",
   "theorems": [
    "Verif.Rldp.C107_result",
    "Verif.Rldp.C107_asked",
    "Verif.Rldp.C107_can_finish",
    "Verif.Rldp.C107_final"
   ],
   "note": "C107_result and C107_asked hold for every schedule with timeouts and for both kinds of builds. C107_can_finish is for builds without overflow checks; with them a transfer can get stuck (C106). That the envelope counts is the deviation of C41."
  },
  {
   "property": "C108",
   "status": "partial",
   "theorems": [
    "Verif.Delivery.C108_noticed",
    "Verif.Delivery.C108_old_source_refused",
    "Verif.Delivery.C108_old_target_refused_partial",
    "Verif.Delivery.C108_replayed_partial",
    "Verif.Delivery.C108_recovers_partial",
    "Verif.Delivery.C108_channel_kept_partial",
    "Verif.Delivery.C108_old_channel_ignored",
    "Verif.Delivery.C108_full_false",
    "Verif.Delivery.C108_repaired"
   ],
   "note": "False in the code for packets that name no date, because their sender had not heard from the node before: they are accepted again after the restart, and anybody can replay them while their address list is valid (C108_full_false, C108_replayed_partial). Proved: packets that name the old date, packets of the old session (once the new date is known) and datagrams of the old channel are refused; the restart is noticed by the first packet (C108_noticed) and a mirrored channel is made (C108_recovers_partial) if the request is later than the channel of the old session; otherwise the old channel stays in use (C108_channel_kept_partial). A stale packet of the other side makes the restarted node answer with exactly one datagram, which the other side accepts, after which it knows the new date (C108_repaired, through the receiving functions of the whole node). One packet at a time; crypto laws are hypotheses."
  },
  {
   "property": "C109",
   "status": "partial",
   "theorems": [
    "Verif.Delivery.C109_address_taken",
    "Verif.Delivery.C109_corrected",
    "Verif.Delivery.C109_found",
    "Verif.Delivery.C109_found_at_start",
    "Verif.Delivery.C109_old_address_partial",
    "Verif.Delivery.C109_channel_keeps_partial",
    "Verif.Delivery.C109_full_false"
   ],
   "note": "Proved for two nodes that keep their socket addresses: records and datagrams lead to the other side in every continuation (C109_found, C109_found_at_start), with the loopback option on either side; the first handshake packet corrects a wrong address (C109_corrected). Where datagrams arrive is given by `lands`: sockets are bound to 0.0.0.0, a loopback address means the sender's machine, and nodes with the same ip address are on the same machine (no NAT). Not true: add_peer runs before dates and numbers are checked, so a refused packet of an earlier session brings back the old address while its address list is valid (C109_full_false, C109_old_address_partial). That nobody but the peer can change the address is C22_by_packet."
  },
  {
   "property": "C110",
   "status": "partial",
   "theorems": [
    "Verif.OverlayTalk.C110_dispatch",
    "Verif.OverlayTalk.C110_adnl_query",
    "Verif.OverlayTalk.C110_rldp_query",
    "Verif.OverlayTalk.C110_message_partial",
    "Verif.OverlayTalk.C110_message_arrives",
    "Verif.OverlayTalk.C110_full_false",
    "Verif.OverlayTalk.C110_reserved_partial"
   ],
   "note": "Queries: proved over ADNL (with C72) and over RLDP (with C107), for every constructor except that of overlay.getRandomPeers, which the overlay answers itself (C110_reserved_partial). Messages: the full claim is false (C110_full_false): the receiving side only understands broadcasts, so anything else sent with send_message ends as an error there and no application can get it. C110_message_partial says exactly what is taken."
  },
  {
   "property": "C111",
   "status": "partial",
   "theorems": [
    "Verif.LongTrip.C111_send_succeeds",
    "Verif.LongTrip.C111_nothing_made_up",
    "Verif.LongTrip.C111_one_datagram",
    "Verif.LongTrip.C111_arrives_partial",
    "Verif.LongTrip.C111_answers_are_sent",
    "Verif.LongTrip.C111_long_never_arrives",
    "Verif.LongTrip.C111_giving_up",
    "Verif.LongTrip.C111_full_false"
   ],
   "note": "Two complete nodes exchange messages of any length below 16 MiB (system of C72 without its length limit, transfers and give-ups included). Proved for all runs: sending succeeds; nothing is made up; answers are sent; a message that fits one datagram is seen once it has arrived; a message of at most first part + 1024 bytes sent once and not given up is seen once all its datagrams have arrived (C111_arrives_partial). The full claim is false (C111_full_false: 2500 bytes, two datagrams, both arrive, nobody sees it) and exactly so: a longer message sent once is never seen (C111_long_never_arrives). Giving up a transfer only concerns messages with its hash (C111_giving_up). Assumed: nobody else adds parts under the hashes of these messages, and these hashes are different."
  },
  {
   "property": "C112",
   "status": "partial",
   "theorems": [
    "Verif.RldpTable.C112_result_partial",
    "Verif.RldpTable.C112_asked_partial",
    "Verif.RldpTable.C112_can_finish_partial",
    "Verif.RldpTable.C112_ends_once",
    "Verif.RldpTable.C112_answer_is_no_query_partial",
    "Verif.RldpTable.C112_full_false"
   ],
   "note": "Full statement false (C112_full_false): messages are matched to transfers by id alone, so a third node that knows the transfer id and query id answers in the place of the asked node. Proved as long as nobody else uses the transfer id or its negation (C112_result_partial, C112_asked_partial, C112_can_finish_partial): the part of the world that belongs to one query is a run of the query on its own (C107), and every step of that run can be made. The removal of finished entries is not in this model (it is in RldpCache)."
  },
  {
   "property": "C113",
   "status": "partial",
   "theorems": [
    "Verif.Gossip.C113_reached_partial",
    "Verif.Gossip.C113_everyone_partial",
    "Verif.Gossip.C113_at_most_once",
    "Verif.Gossip.C113_traffic",
    "Verif.Gossip.C113_letters",
    "Verif.Gossip.C113_where_from",
    "Verif.Gossip.C113_full_false"
   ],
   "note": "The full statement is false: members pass broadcasts on to neighbours chosen at random, and a member may be chosen by nobody (C113_full_false). Proved: everybody reached along the choices gets the broadcast exactly once (C113_reached_partial), hence everybody where nobody has more neighbours than targets (C113_everyone_partial); nobody gets it twice whether letters arrive or not (C113_at_most_once); the number of letters (C113_letters, and C113_traffic for every run)."
  },
  {
   "property": "C114",
   "status": "partial",
   "theorems": [
    "Verif.Gossip.C114_small_numbers_partial",
    "Verif.Gossip.C114_storm",
    "Verif.Gossip.C114_storm_neighbours",
    "Verif.Gossip.C114_senders",
    "Verif.Gossip.C114_full_false"
   ],
   "note": "False for packets with numbers of 256 or more (C114_full_false): they are passed on by every receiver each time they arrive, so with k targets each, N deliveries make at least 1 + N k letters while nobody forgets anything (C114_storm, C114_storm_neighbours), and members send such packets for data of more than 196 608 bytes (C114_senders). Proved for overlays with numbers below 256 (C114_small_numbers_partial)."
  },
  {
   "property": "C115",
   "status": "partial",
   "theorems": [
    "Verif.LongTrip.C115_rldp",
    "Verif.LongTrip.C115_ordinary",
    "Verif.LongTrip.C115_arrives_partial",
    "Verif.LongTrip.C115_too_long",
    "Verif.LongTrip.C115_full_false"
   ],
   "note": "False for large values of the option: with max_ordinary_broadcast_len = 3000 a broadcast of 2500 bytes is lost though all its datagrams arrive (C115_full_false), and so is every ordinary broadcast of more than 1880 bytes sent once (C115_too_long). Proved in the system of C111: RLDP messages with symbols of at most 768 bytes take one datagram and are seen (C115_rldp); ordinary broadcasts of at most 768 bytes too, however often sent (C115_ordinary); everything a broadcast sends is seen as long as ordinary broadcasts have at most 1768 bytes (C115_arrives_partial). The default of the option is 768. Symbols of at most 768 bytes is what RaptorQ is asked for and a hypothesis here; sizes after compression are not bounded by the code."
  },
  {
   "property": "C116",
   "status": "partial",
   "theorems": [
    "Verif.LongTrip.C116_at_most_once_partial",
    "Verif.LongTrip.C116_sent_once_partial",
    "Verif.LongTrip.C116_without_history",
    "Verif.LongTrip.C116_full_false"
   ],
   "note": "Full claim false (C116_full_false: packet history is off by default, a datagram that arrives twice is handled twice). Proved: with a history and fewer than 256 datagrams sent, every message whose sendings are cut into at most two datagrams is seen at most as often as it was sent (C116_at_most_once_partial), and a message of any length sent once is seen at most once (C116_sent_once_partial). C116_without_history gives the exact count without a history: one handling per arriving copy. That packet numbers from 256 on are accepted again even with a history is C01/C70."
  },
  {
   "property": "C117",
   "status": "partial",
   "theorems": [
    "Verif.Dht.C117_published_partial",
    "Verif.SearchNet.C117_first_heard_of_partial",
    "Verif.SearchNet.C117_asked_exactly_partial",
    "Verif.SearchNet.C117_known_at_start_partial",
    "Verif.SearchNet.C117_named_partial",
    "Verif.SearchNet.C117_replicated_partial",
    "Verif.SearchNet.C117_no_hops_partial",
    "Verif.SearchNet.C117_rounds_partial",
    "Verif.SearchNet.C117_ends",
    "Verif.SearchNet.C117_full_false"
   ],
   "note": "The full claim is false (C117_full_false: the only known peer names the only holder, which is not asked; C117_first_heard_of_partial: this is so in every run of every search). Proved instead: C117_asked_exactly_partial (exactly which peers are asked), C117_known_at_start_partial, C117_named_partial, C117_replicated_partial (enough holders make up for the missed peers), C117_rounds_partial (repeated searches reach any distance), C117_published_partial (with the answers of real DHT nodes), C117_no_hops_partial, C117_ends (proved in full)."
  },
  {
   "property": "C118",
   "status": "partial",
   "theorems": [
    "Verif.Memory.C118_held_partial",
    "Verif.Memory.C118_entry_partial",
    "Verif.Memory.C118_no_rewrite_partial",
    "Verif.Memory.C118_entries",
    "Verif.Memory.C118_overwritten",
    "Verif.Memory.C118_reserved_partial",
    "Verif.Memory.C118_reserved",
    "Verif.Memory.C118_full_false",
    "Verif.Memory.C118_full_false_announced"
   ],
   "note": "The full claim is stated as C118_full and refuted (C118_full_false, C118_full_false_announced): RLDP reserves the whole announced size on the first part (C118_reserved: n parts without data reserve n times max_answer_size) and a repeated ADNL part is not counted (C118_overwritten). Proved for all histories: ADNL holds at most the bytes that arrived, in total and per message (C118_held_partial, C118_entry_partial), at most the announced size when no offset comes twice (C118_no_rewrite_partial), RLDP reserves at most max_answer_size per different transfer (C118_reserved_partial). Not covered: memory of the RaptorQ decoders."
  },
  {
   "property": "C119",
   "status": "proved",
   "theorems": [
    "Verif.Dht.C119_kept",
    "Verif.Dht.C119_found",
    "Verif.Dht.C119_exact",
    "Verif.LongTrip.C119_read_your_writes"
   ],
   "note": "C119_kept, C119_found and C119_exact are about the node by itself, from its creation, for any sequence of the things that touch its state; C119_read_your_writes is about two nodes over the network of C111, where the log of the serving side is that of a node with the DHT subscriber. A value with an equal expiry that arrives later is acknowledged but the older one is kept (C81), hence 'or one that lasts at least as long'. Queries are handled one after the other in the model; the code takes the lock of the key while it compares and replaces."
  },
  {
   "property": "C120",
   "status": "proved",
   "theorems": [
    "Verif.Stack.C120_result",
    "Verif.Stack.C120_asked"
   ],
   "note": "Refinement: a run of both layers is a run of the RLDP layer alone (C112), because every custom message handed to RLDP was sent by the other side's RLDP (C111_nothing_made_up and the codec of the parts). As in C112 the others must not use this query's transfer id; C112_full_false shows this is needed. Custom messages that RLDP cannot read may be anything. Processing of a message handed out may be late or repeated (a superset of the code). Full-stack example run computed by the kernel."
  },
  {
   "property": "C121",
   "status": "proved",
   "theorems": [
    "Verif.Dht.C121_asked_gives",
    "Verif.Dht.C121_published"
   ],
   "note": "Composition of C119 (what a node acknowledged it keeps and returns), C81 (a published value is read back) and C117 (whom a search asks). The network between the searcher and the node is the abstract one of C117: the node's answer either arrives or not (here: it does); C119_read_your_writes is the version over ADNL datagrams. Hypothesis NoCollision as in C119: no two values handed to the node collide in the hashes used as storage keys. C121_published is for searches without a batch limit, since the default limit may stop before the node is asked (C117). Values the node's own user publishes are assumed well-formed (they have in-range sizes), which the type of the TL writer requires."
  },
  {
   "property": "C122",
   "status": "partial",
   "theorems": [
    "Verif.Dht.C122_listed_partial",
    "Verif.Dht.C122_found_partial",
    "Verif.Dht.C122_search_partial",
    "Verif.Dht.C122_discovered_partial",
    "Verif.Dht.C122_full_false",
    "Verif.LongTrip.C122_over_adnl_partial"
   ],
   "note": "C122_full_false: a list with a far expiry, which needs nobody's signature, makes the node acknowledge later records without keeping them. Proved under the condition that no list offered before for this overlay outlasts the acknowledged one (NoneOutlasts): C122_listed_partial (the storage), C122_found_partial (the answer), C122_search_partial (a search), C122_discovered_partial (find_overlay_nodes, first round). Hash collisions among offered keys excluded; hash maps in any order; lists below 2^24 bytes, as TL needs. C122_over_adnl_partial: the announcement and its acknowledgement go over an ADNL connection with loss, repetition, reordering and delay."
  },
  {
   "property": "C123",
   "status": "partial",
   "theorems": [
    "Verif.Gossip.C123_reached_partial",
    "Verif.Gossip.C123_everyone_partial",
    "Verif.Gossip.C123_at_most_once",
    "Verif.Gossip.C123_passed_on",
    "Verif.Gossip.C123_full_false"
   ],
   "note": "The full statement is false: members pass packets on to neighbours chosen at random, and a member may be chosen by nobody (C123_full_false). Proved: everybody reached along the choices gets the broadcast exactly once (C123_reached_partial), hence everybody where nobody has more neighbours than targets (C123_everyone_partial); nobody gets it twice whether letters arrive or not (C123_at_most_once); the first packet with each number is passed on (C123_passed_on). The packets of the author are posted into the network; the author itself is not required to have marked the broadcast as its own. Data delivered is known up to its hash, as in C47."
  },
  {
   "property": "C124",
   "status": "partial",
   "theorems": [
    "Verif.Process.C124_no_abort",
    "Verif.Process.C124_returns_partial",
    "Verif.Process.C124_two_parts_stick",
    "Verif.Process.C124_stuck_is_forever",
    "Verif.Process.C124_broadcast_date",
    "Verif.Process.C124_complete_part",
    "Verif.Process.C124_full_false",
    "Verif.Process.C124_checks_never_panic",
    "Verif.Process.C124_panic_aborts",
    "Verif.Process.C124_clock_needed"
   ],
   "note": "The full claim is false (C124_full_false): one datagram of a stranger with an empty part and a part making up the announced length keeps a thread of a node that has just started busy for ever (transfer.rs:85-93). C124_two_parts_stick proves it for every accepted datagram of that shape, C124_stuck_is_forever that no number of steps ends the loop. C124_no_abort: no datagram makes the handling panic, in any state. C124_checks_never_panic says the same of the checks alone, C124_panic_aborts that a panic there would abort the task, and C124_clock_needed that the bound on the clock of a debug build is needed. C124_returns_partial: without empty parts every handling returns, for every run. C124_broadcast_date and C124_complete_part say exactly when the two arithmetic operations on numbers of the other side panic above ADNL. Not covered: asserts inside the RaptorQ and zstd crates, memory, and calls of subscribers."
  },
  {
   "property": "C125",
   "status": "partial",
   "theorems": [
    "Verif.Dht.C125_owner_partial",
    "Verif.Dht.C125_found_partial",
    "Verif.Dht.C125_full_false",
    "Verif.Dht.C125_stale_partial"
   ],
   "note": "C125_full is false (C125_full_false): the key of an answer is not compared with the key asked for, so a node that answers with its own address list is believed. Proved: if all who answer run this code, what is returned was signed by the node looked for under its address key (C125_owner_partial), and it is found whenever the search asks a node that acknowledged it (C125_found_partial); the address may be one that was replaced meanwhile (C125_stale_partial). The model leaves out the overflow panic of parse_address_list in find_address (htol excludes it)."
  },
  {
   "property": "C126",
   "status": "partial",
   "theorems": [
    "Verif.Mesh.C126_at_most_once",
    "Verif.Mesh.C126_short_partial",
    "Verif.Mesh.C126_reached_partial",
    "Verif.Mesh.C126_full_false"
   ],
   "note": "C126_full is false (C126_full_false): a broadcast of more than about 1880 bytes needs three datagrams and is never put together again (C111). Proved for up to 1768 bytes with all datagrams (C126_reached_partial), for up to 768 bytes with any one datagram per letter and however often it is sent (C126_short_partial), and at most once in every run (C126_at_most_once). Refinement: a run of all layers is a run of the overlay alone (C113), because every overlay message that comes out of a connection was a letter of the member at its other end (C111). Each connection has its own state here; that connections of one node do not touch each other is C94. Late and repeated processing of a message is allowed."
  },
  {
   "property": "C127",
   "status": "proved",
   "theorems": [
    "Verif.Mesh.C127_at_most_once",
    "Verif.Mesh.C127_reached"
   ],
   "note": "C127_reached and C127_at_most_once. A run of all layers is a run of the overlay alone (Mesh.refines, as for C126), to which C123 applies. Symbols are taken to have at most 768 bytes, so that a packet has at most 984 bytes and needs at most two datagrams. Whom members pass packets on to is a parameter (the choices are random in the code; that they need not reach everybody is C123_full_false). All letters with packets are the author's, as it wrote them; the sending task of the author is a series of posts, and the author is not required to have marked the broadcast as its own. Data delivered is known up to its hash, as in C47."
  },
  {
   "property": "C128",
   "status": "partial",
   "theorems": [
    "Verif.Hoard.C128_sets_partial",
    "Verif.Hoard.C128_received_partial",
    "Verif.Hoard.C128_received",
    "Verif.Hoard.C128_nodes",
    "Verif.Hoard.C128_storage_partial",
    "Verif.Hoard.C128_storage",
    "Verif.Hoard.C128_full_false"
   ],
   "note": "The full statement is Verif.Hoard.C128_full; C128_full_false refutes its overlay half and its storage half separately, each with 65537 entries (by the general theorems, not by computing). C128_received, C128_nodes and C128_storage say for any lawful primitives what makes the numbers grow; C128_sets_partial, C128_received_partial and C128_storage_partial are the limits that do hold. Not covered: memory held by unfinished RLDP transfers and broadcasts and by the DHT buckets."
  },
  {
   "property": "C129",
   "status": "partial",
   "theorems": [
    "Verif.Builder.C129_built",
    "Verif.Builder.C129_key_missing",
    "Verif.Builder.C129_no_node_partial",
    "Verif.Builder.C129_full_false",
    "Verif.Builder.C129_registered"
   ],
   "note": "The full statement is Verif.Builder.C129_full, refuted by C129_full_false: a DHT node wanted at an address that is taken gives \"ADNL was not initialized\". C129_built, C129_key_missing and C129_registered are the parts that hold; C129_no_node_partial says exactly which error is given without an ADNL node. The list of layers is modelled without the type-level indices (frunk); that the compiler rejects an overlay without RLDP is the hypothesis typed."
  },
  {
   "property": "C130",
   "status": "partial",
   "theorems": [
    "Verif.Takeover.C130_partial",
    "Verif.Takeover.C130_taken",
    "Verif.Takeover.C130_suppressed",
    "Verif.Takeover.C130_named",
    "Verif.Takeover.C130_full_false"
   ],
   "note": "The full statement is Verif.Takeover.C130_full, refuted by C130_full_false. C130_taken and C130_suppressed show in general how it fails, C130_partial that nothing else can make it fail (the cases are in Blocks; with an accidental collision of hashes, shown explicitly, as one of them), C130_named that flags asking for the source would prevent a take-over. That the data does not happen to decompress to something else the signature fits (Unmistakable) is a hypothesis as in C84. How long a part with the identity as data hash keeps a broadcast out is not stated beyond the next step."
  },
  {
   "property": "C131",
   "status": "proved",
   "theorems": [
    "Verif.Overlay.Conc.C131_once",
    "Verif.Overlay.Conc.C131_passed",
    "Verif.Overlay.Conc.C131_authentic",
    "Verif.Overlay.Conc.C131_alone",
    "Verif.Overlay.Conc.C131_includes",
    "Verif.Overlay.Conc.C131_parts"
   ],
   "note": "Model/OverlayConc splits receive_broadcast, receive_fec_broadcast and the marking of own broadcasts into steps, one per access to shared data. C131_once and C131_passed by a potential that every step pays for; C131_parts is the same for packets of FEC broadcasts with numbers below 256 (larger ones are passed on every time, C65); C131_authentic by an invariant of transfers and tasks; C131_alone and C131_includes relate it to OverlayBroadcast (C45-C49), where one call is one step. One deliver_packet is one step (its own loop is C03)."
  },
  {
   "property": "C132",
   "status": "partial",
   "theorems": [
    "Verif.Rldp.Own.C132_returned_partial",
    "Verif.Rldp.Own.C132_over_partial",
    "Verif.Rldp.Own.C132_kept",
    "Verif.Rldp.Own.C132_dropped",
    "Verif.Rldp.Own.C132_full_false",
    "Verif.Rldp.Own.C132_grows"
   ],
   "note": "C132_full is the claim; C132_full_false refutes it, because a call dropped while it waits leaves both entries and its receiving task (C132_dropped, for every continuation; C132_grows for any number of calls). C132_returned_partial is C132_full for the calls that return; C132_kept says that the entries stay for the whole completion interval; C132_over_partial says that after the removals nothing of the query is in the table in any continuation. The ids of the node's own queries, which are random, are taken to be new; how parts are sent and received is in other models."
  },
  {
   "property": "C133",
   "status": "partial",
   "theorems": [
    "Verif.ReceiveConc.C133_one_writer",
    "Verif.ReceiveConc.C133_full_false",
    "Verif.ReceiveConc.C133_again_means_reset_partial",
    "Verif.ReceiveConc.C133_session_partial",
    "Verif.ReceiveConc.C133_one_after_another_partial",
    "Verif.ReceiveConc.C133_alone_is_sequential",
    "Verif.ReceiveConc.C133_serial_is_sequential",
    "Verif.ReceiveConc.C133_new_session",
    "Verif.ReceiveConc.C133_old_destination"
   ],
   "note": "The full statement is false in the code (C133_full_false, with the schedule): the new date is stored before the histories are reset, so a packet of the new session that arrives in between is recorded, forgotten by the reset, and its replay accepted. Proved: one writer at a time for any numbers (C133_one_writer); a second acceptance needs a reset that clears the history after the first one (C133_again_means_reset_partial); from any moment without running tasks, as long as no newer date arrives (or it is the first contact and all dates are the same), no later task is accepted with a number accepted before (C133_session_partial); for tasks that do not overlap the statement holds with any dates (C133_one_after_another_partial). Overlapping tasks with the same number are C03, numbers from 256 on C01. A newer date handled alone is installed, clears both histories and opens them for every number of the new session (C133_new_session); packets naming an old start of ours are never accepted (C133_old_destination). The model is tied to the sequential one: a task that is not disturbed, and tasks that run one after another in any order, give the state and the verdicts of tryReinit and deliver as modelled in Model/Node.lean and Model/PacketsHistory.lean, for all dates and numbers (C133_alone_is_sequential, C133_serial_is_sequential)."
  },
  {
   "property": "C134",
   "status": "partial",
   "theorems": [
    "Verif.ReceiveConc.C134_writer_finishes",
    "Verif.ReceiveConc.C134_undisturbed",
    "Verif.ReceiveConc.C134_no_deadlock",
    "Verif.ReceiveConc.C134_full_false"
   ],
   "note": "The last part (a bound for every task) is false (C134_full_false): a task that finds the history locked loops until the holder is run; there is no yield in the loop. Proved: the holder frees the history within 16 steps of its own (C134_writer_finishes), a task without other writers ends within 48 steps (C134_undisturbed), and from every reachable state all tasks can be brought to their end (C134_no_deadlock); packets with any numbers, resets included."
  },
  {
   "property": "C135",
   "status": "proved",
   "theorems": [
    "Verif.Display.C135_text",
    "Verif.Display.C135_printed",
    "Verif.Display.C135_distinct"
   ],
   "note": "The crate hex is modelled by its documentation (lower-case digits; error and untouched buffer if the lengths do not fit). UTF-8 is defined in the property file from the Unicode table of well-formed sequences."
  },
  {
   "property": "C136",
   "status": "proved",
   "theorems": [
    "Verif.DhtConc.C136_like_one_after_another",
    "Verif.DhtConc.C136_at_every_moment"
   ],
   "note": "Refinement with the linearisation point at known_peers.insert (for refused records at their return). Of the routing table the versions are compared, not the records: two different records of one node with the same version can be kept in another order if the node is evicted and learned again in between. Penalties are modelled but not compared. ADNL peers are not removed meanwhile."
  },
  {
   "property": "C137",
   "status": "partial",
   "theorems": [
    "Verif.Overlay.PeersConc.C137_members_partial",
    "Verif.Overlay.PeersConc.C137_newest_partial",
    "Verif.Overlay.PeersConc.C137_stays_out_partial",
    "Verif.Overlay.PeersConc.C137_answers_partial",
    "Verif.Overlay.PeersConc.C137_alone",
    "Verif.Overlay.PeersConc.C137_full_false"
   ],
   "note": "Every access to the shared sets is a step; randomly_fill_from is modelled with more interleavings than its locks allow. C137_members_partial, C137_newest_partial, C137_answers_partial, C137_stays_out_partial hold in every interleaving; C137_alone ties the steps to the model in which every call is one step. C137_full (as if one after another) is false: an addition that has found room is overtaken by another addition and by the removal of its peer, and then puts the ignored peer in the place of the only neighbour."
  },
  {
   "property": "C138",
   "status": "partial",
   "theorems": [
    "Verif.Wire.C138_read_back",
    "Verif.Wire.C138_unambiguous",
    "Verif.Wire.C138_stable",
    "Verif.Wire.C138_address_lists",
    "Verif.Wire.C138_full_false",
    "Verif.Wire.C138_signed_records"
   ],
   "note": "As stated it is false (C138_full_false): an address list with several addresses or a priority is read, but only its first address is kept and the priority 0 is written (C138_address_lists says exactly when the bytes are the same). C138_signed_records: a DHT node record that its owner signed with such a list is refused by add_dht_peer unless the signature is also one of another text. Reading back, unambiguity and stability hold for all records without conditions besides the widths of the fields. tl_proto is outside the repository; its wire format is assumed."
  },
  {
   "property": "C139",
   "status": "proved",
   "theorems": [
    "Verif.Rldp.C139_confirms",
    "Verif.Rldp.C139_every_tenth"
   ],
   "note": "The erasure code is a parameter without assumptions. The observer's count (Tally) is made from the messages and replies alone."
  },
  {
   "property": "C140",
   "status": "partial",
   "theorems": [
    "Verif.Dht.C140_told_iff",
    "Verif.Dht.C140_itself",
    "Verif.Dht.C140_without_record",
    "Verif.Dht.C140_silence",
    "Verif.Dht.C140_learns_partial",
    "Verif.Dht.C140_full_false"
   ],
   "note": "The statement is false as it stands (C140_full_false): the node asked tells only about nodes that are closer to the joining one than it is itself, so of two joining nodes the second need not be told about the first although the answer has room. Proved: the query is always answered and read back, and an answer with room holds records of exactly the nodes in the table (with the joining one) that are closer (C140_told_iff); the joining node is told about itself, which takes a place and does nothing (C140_itself); and a closer earlier node is told and becomes known (C140_learns_partial)."
  },
  {
   "property": "C141",
   "status": "partial",
   "theorems": [
    "Verif.Overlay.C141_waves_partial",
    "Verif.Overlay.C141_empty_waves",
    "Verif.Overlay.C141_full_false"
   ],
   "note": "False for fec_broadcast_wave_len = 0, which the options allow (C141_full_false): the task sleeps between empty waves for ever and sends nothing (C141_empty_waves). For every other length the task ends after sending exactly the packets of C85, in full waves except for the last one (C141_waves_partial). Failures of the encoder are not modelled."
  },
  {
   "property": "C142",
   "status": "proved",
   "theorems": [
    "Verif.Overlay.Conc.C142_closed",
    "Verif.Overlay.Conc.C142_nothing_lost",
    "Verif.Overlay.Conc.C142_alive"
   ],
   "note": "Model/OverlayConc: every access to shared state is a step. EInv, an invariant of all interleavings: a transfer whose receiving task left the loop has been decided (a packet of its channel gave a result or spoiled it; the moment is part of the statement), or is neither in the table nor held by a task and has an empty channel. C142_closed: a failing send; C142_alive, C142_nothing_lost: the table, the tasks, the channel."
  },
  {
   "property": "C143",
   "status": "partial",
   "theorems": [
    "Verif.Overlay.Conc.C143_own_partial",
    "Verif.Overlay.Conc.C143_packets_partial",
    "Verif.Overlay.Conc.C143_full_false"
   ],
   "note": "Proved for every broadcast for which nothing is under way when the node marks it as its own. Without that the claim is false: a receiving task whose transfer timed out and was forgotten, and that has not yet taken the packet in its channel, gives the application the broadcast after the node sent one with the same data."
  },
  {
   "property": "C144",
   "status": "proved",
   "theorems": [
    "Verif.Dht.C144_known",
    "Verif.LongTrip.C144_joined_over_adnl"
   ],
   "note": "C144_known is about the DHT node alone (every event of its life is a sequence of steps on its tables, replay_steps), C144_joined_over_adnl about the pair of nodes of C111. Welcome: the joining node is another node at another address that the application accepts and was not started in the future. LearnedFromWire: records learned from answers have fields of the widths on the wire. The query id is used for this query only."
  }
 ]
}