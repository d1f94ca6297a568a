{"claims": [
  {"property": "C01", "status": "proved", "theorems": ["Nargun.C01_bitmap_new", "Nargun.C01_bitmap_change", "Nargun.C01_bitmap_history", "Nargun.C01_bitmap_bounds"], "note": ""},
  {"property": "C02", "status": "proved", "theorems": ["Nargun.C02_bitmap_iter"], "note": ""},
  {"property": "C03", "status": "partial", "theorems": ["Nargun.C03_bitmap_weight_partial", "Nargun.C03_bitmap_weight_clean_partial", "Nargun.C03_bitmap_weight_history_partial", "Nargun.C03_bitmap_weight_violated"], "note": "violated for accepted bitfields with spare bits set (C03_bitmap_weight_violated); proved: weight = held pieces + set spare bits, exact when spare bits are clear, exact for every write history from new()."},
  {"property": "C04", "status": "proved", "theorems": ["Nargun.C04_bitfield"], "note": ""},
  {"property": "C05", "status": "proved", "theorems": ["Nargun.C05_get_bit", "Nargun.C05_flip_bit", "Nargun.C05_change_bit"], "note": ""},
  {"property": "C06", "status": "proved", "theorems": ["Nargun.C06_first_diff", "Nargun.C06_cmp_first_n_bits"], "note": ""},
  {"property": "C07", "status": "proved", "theorems": ["Nargun.C07_xor_metric"], "note": ""},
  {"property": "C08", "status": "partial", "theorems": ["Nargun.C08_id_order_partial", "Nargun.C08_id_preorder_partial", "Nargun.C08_id_order_violated"], "note": "violated: different IDs with equal first differing bit position from the left compare Equal (C08_id_order_violated); proved: the comparison is by bit length (a total preorder consistent with the numeric order)."},
  {"property": "C09", "status": "proved", "theorems": ["Nargun.C09_weight"], "note": ""},
  {"property": "C10", "status": "proved", "theorems": ["Nargun.C10_randomize"], "note": ""},
  {"property": "C11", "status": "proved", "theorems": ["Nargun.C11_message_roundtrip"], "note": ""},
  {"property": "C12", "status": "proved", "theorems": ["Nargun.C12_wire_format", "Nargun.C12_prefix_free", "Nargun.C12_length_prefix"], "note": ""},
  {"property": "C13", "status": "partial", "theorems": ["Nargun.C13_decoder_total_partial", "Nargun.C13_decoder_violated"], "note": "Proved: on a buffer of at least 17 bytes (the receive buffer has 16512) the decoder crashes exactly when the tag is 7 (piece) and the length prefix is between 1 and 8; on every other content it returns a message or an error. The full property (no crash on any content) is false for that case, shown by the violated theorem."},
  {"property": "C14", "status": "proved", "theorems": ["Nargun.C14_framing", "Nargun.C14_end_to_end"], "note": ""},
  {"property": "C15", "status": "partial", "theorems": ["Nargun.C15_unknown_skip_partial", "Nargun.C15_unknown_drops_everything_partial", "Nargun.C15_unknown_skip_violated"], "note": "Proved when nothing is buffered behind the unknown message: it is skipped and everything before and after is delivered. The full property is false: bytes that arrived in the same read behind it are discarded (characterised in C15_unknown_drops_everything_partial, witness in the violated theorem)."},
  {"property": "C16", "status": "partial", "theorems": ["Nargun.C16_read_error_ends_partial", "Nargun.C16_eof_violated", "Nargun.C16_oversize_violated"], "note": "Proved for read errors. End of stream leaves the loop running forever and an oversized frame stalls it; both are shown by the violated theorems."},
  {"property": "C17", "status": "proved", "theorems": ["Nargun.C17_dispatch"], "note": ""},
  {"property": "C18", "status": "proved", "theorems": ["Nargun.C18_handshake_sent", "Nargun.C18_handshake_accepted", "Nargun.C18_handshake_no_panic", "Nargun.C18_own_handshake_accepted"], "note": ""},
  {"property": "C19", "status": "partial", "theorems": ["Nargun.C19_same_torrent_partial", "Nargun.C19_other_torrent_violated", "Nargun.C19_segmented_violated"], "note": "Proved for a remote naming the same torrent whose 68 bytes arrive in one read. The info hash is never compared, so any other torrent is accepted, and a handshake split over two reads is refused; both are shown by the violated theorems."},
  {"property": "C20", "status": "proved", "theorems": ["Nargun.C20_addr_roundtrip", "Nargun.C20_addr_accepts", "Nargun.C20_addr_format", "Nargun.C20_node_roundtrip", "Nargun.C20_node_accepts", "Nargun.C20_id_accepts", "Nargun.C20_nodes_roundtrip", "Nargun.C20_nodes_accepts"], "note": ""},
  {"property": "C21", "status": "proved", "theorems": ["Nargun.C21_at_most_ten", "Nargun.C21_add_piece"], "note": ""},
  {"property": "C22", "status": "proved", "theorems": ["Nargun.C22_take", "Nargun.C22_no_double_handout", "Nargun.C22_downloaded_not_handed_out"], "note": ""},
  {"property": "C23", "status": "proved", "theorems": ["Nargun.C23_cancel"], "note": ""},
  {"property": "C24", "status": "partial", "theorems": ["Nargun.C24_block_acceptance_partial", "Nargun.C24_last_block_violated", "Nargun.C24_short_piece_violated"], "note": "Proved for piece lengths that are no multiple of 16384. False otherwise: C24_last_block_violated (multiple of 16384: the last block of every piece is refused, in every reachable state) and C24_short_piece_violated (the shorter last piece of a torrent)."},
  {"property": "C25", "status": "partial", "theorems": ["Nargun.C25_completion_partial", "Nargun.C25_duplicate_violated"], "note": "Proved (release build): as long as no accepted block is delivered twice, completion is reported exactly with the last missing block and carries the delivered bytes in order. A block accepted twice is counted twice and the piece is assembled early, which panics: C25_duplicate_violated."},
  {"property": "C26", "status": "partial", "theorems": ["Nargun.C26_downloaded_counter_partial", "Nargun.C26_debug_violated", "Nargun.C26_release_violated"], "note": "Proved for the counter of downloaded blocks in release builds without redelivery. The counter of pending blocks is never incremented: in debug builds the first accepted block panics (C26_debug_violated), in release builds it wraps to 2^64-1 (C26_release_violated)."},
  {"property": "C27", "status": "partial", "theorems": ["Nargun.C27_requests_tile_partial", "Nargun.C27_last_request_violated"], "note": "Proved for piece lengths that are a multiple of 16384 and at most 2^32: the requests lie inside the piece and tile it. For any other piece length the last request reaches past the end of the piece (C27_last_request_violated)."},
  {"property": "C28", "status": "proved", "theorems": ["Nargun.C28_finished_pieces_verified", "Nargun.C28_only_torrent_pieces"], "note": ""},
  {"property": "C29", "status": "partial", "theorems": ["Nargun.C29_nothing_requested_violated", "Nargun.C29_taking_panics_violated", "Nargun.C29_first_block_panics_violated", "Nargun.C29_single_block_partial", "Nargun.C29_race_violated"], "note": "False of the program: without an owner (set_owner_peer is never called) nothing is ever requested, in any history (C29_nothing_requested_violated; the first attempt panics, C29_taking_panics_violated). Further defects: a first accepted block of a multi-block piece hits todo!(), and the start command races with putting the piece in progress. Proved part: a single-block piece with an owner set, release build."},
  {"property": "C30", "status": "partial", "theorems": ["Nargun.C30_requests_partial", "Nargun.C30_single_piece_partial", "Nargun.C30_wrong_piece_violated"], "note": "Proved for any number of pieces up to what is put back into the queue, and fully when only one piece is assigned. With two pieces a refused block puts back (and re-requests) a block of another piece: C30_wrong_piece_violated."},
  {"property": "C31", "status": "proved", "theorems": ["Nargun.C31_batch_well_formed"], "note": ""},
  {"property": "C32", "status": "proved", "theorems": ["Nargun.C32_batch_prefers_better"], "note": ""},
  {"property": "C33", "status": "partial", "theorems": ["Nargun.C33_queries_partial", "Nargun.C33_enough_peers_consumes_violated"], "note": "Proved: what the two queries answer and how they change the table. The queries mark the peers they look at as active, so the property that a query leaves peers connectable is false: C33_enough_peers_consumes_violated."},
  {"property": "C34", "status": "partial", "theorems": ["Nargun.C34_known_forever", "Nargun.C34_reported_is_known", "Nargun.C34_active_stays_partial", "Nargun.C34_reannounce_violated"], "note": "Proved: a known peer stays known in every history, and an active peer stays active as long as nobody announces or reports it. An announcement of a peer already connected resets it to unknown: C34_reannounce_violated."},
  {"property": "C35", "status": "proved", "theorems": ["Nargun.C35_limits"], "note": ""},
  {"property": "C36", "status": "partial", "theorems": ["Nargun.C36_availability_partial", "Nargun.C36_at_least_partial", "Nargun.C36_exact_partial", "Nargun.C36_rejoin_violated"], "note": "A re-announced active peer is connected to again and its pieces stay counted: C36_rejoin_violated. Proved: the exact value in every history and build (C36_exact_partial: holders plus holders that were connected to again, modulo 2^16), hence exactness when no tick connects to an active peer (C36_availability_partial) and a lower bound in debug builds (C36_at_least_partial)."},
  {"property": "C37", "status": "proved", "theorems": ["Nargun.C37_selected_feasible", "Nargun.C37_started_feasible", "Nargun.C37_marked", "Nargun.C37_nine_per_tick"], "note": ""},
  {"property": "C38", "status": "partial", "theorems": ["Nargun.C38_first_piece_partial", "Nargun.C38_blocked_violated", "Nargun.C38_repeated_violated"], "note": "Proved for the first missing piece anybody has. Later pieces are never looked at (C38_blocked_violated), and one tick asks the same peer up to nine times for the same piece (C38_repeated_violated)."},
  {"property": "C39", "status": "partial", "theorems": ["Nargun.C39_no_crash_partial", "Nargun.C39_overflow_partial", "Nargun.C39_unimplemented_violated", "Nargun.C39_have_out_of_range_violated"], "note": "violated by request, cancel and finished piece (todo!() in the code: C39_unimplemented_violated) and by have with a piece number out of range (C39_have_out_of_range_violated). Proved for all other messages, in all histories of a release build, and in those of a debug build in which holders of no piece were connected to again 65525 times (C39_no_crash_partial); at 65535 a debug build does crash (C39_overflow_partial)."},
  {"property": "C40", "status": "proved", "theorems": ["Nargun.C40_peer_state"], "note": ""},
  {"property": "C41", "status": "partial", "theorems": ["Nargun.C41_connect_partial", "Nargun.C41_reconnect_violated", "Nargun.C41_manager_keeps_violated"], "note": "Proved: connect is idempotent and works again after an explicit disconnect. After a connection ended by itself nothing ever reconnects (C41_reconnect_violated), and the torrent manager never disconnects (C41_manager_keeps_violated)."},
  {"property": "C42", "status": "partial", "theorems": ["Nargun.C42_waiter_partial", "Nargun.C42_never_unchoked_violated"], "note": "Proved for the waiting side, given that reports reach its queue. The sending side drops its futures, so nothing is ever delivered: C42_never_unchoked_violated."},
  {"property": "C43", "status": "proved", "theorems": ["Nargun.C43_escaped", "Nargun.C43_decodes", "Nargun.C43_injective"], "note": "All byte strings, in particular the 20-byte info hash and peer id."},
  {"property": "C44", "status": "partial", "theorems": ["Nargun.C44_params_partial", "Nargun.C44_query_url_violated", "Nargun.C44_tracker_id_violated"], "note": "Holds for tracker URLs without query/fragment and tracker ids that need no escaping; violated for tracker URLs that already have a query and for tracker ids containing reserved characters."},
  {"property": "C45", "status": "proved", "theorems": ["Nargun.C45_started", "Nargun.C45_repeated", "Nargun.C45_stopped_last"], "note": "All histories of the task of one tracker."},
  {"property": "C46", "status": "partial", "theorems": ["Nargun.C46_stopped_partial", "Nargun.C46_stopped_violated", "Nargun.C46_channel_violated"], "note": "Holds when shutdown arrives while the task pauses after an answer; violated when a request is under way (the task just ends) or when the completion channel closes."},
  {"property": "C47", "status": "proved", "theorems": ["Nargun.C47_tracker_id"], "note": "All histories."},
  {"property": "C48", "status": "partial", "theorems": ["Nargun.C48_left_partial", "Nargun.C48_left_violated"], "note": "Holds for torrents that are a whole number of pieces long, given the counter; violated with a short last piece. Nothing in the repository increments the counter."},
  {"property": "C49", "status": "proved", "theorems": ["Nargun.C49_decode_response", "Nargun.C49_no_panic"], "note": "Exact characterisation of accepted bodies and of the result."},
  {"property": "C50", "status": "partial", "theorems": ["Nargun.C50_isolated", "Nargun.C50_write_succeeds", "Nargun.C50_index_refused", "Nargun.C50_read_pure", "Nargun.C50_read_back_partial", "Nargun.C50_full_last_piece_violated"], "note": "One file: isolation, success and read-back for all histories. Violated for the last piece of a torrent whose length is a multiple of the piece length: the write succeeds and stores nothing (C50_full_last_piece_violated). Background writes of tokio are taken as complete when write_all returns."},
  {"property": "C51", "status": "proved", "theorems": ["Nargun.C51_items", "Nargun.C51_contiguous", "Nargun.C51_behind"], "note": "All ranges and file lists, empty files included."},
  {"property": "C52", "status": "partial", "theorems": ["Nargun.C52_isolated", "Nargun.C52_write_succeeds_partial", "Nargun.C52_read_pure", "Nargun.C52_read_back_partial", "Nargun.C52_empty_first_file_violated", "Nargun.C52_empty_file_at_block_violated", "Nargun.C52_read_past_end"], "note": "Several files: isolation for every outcome, read-back for all histories of successful writes. Violated: a piece that contains an empty file at the beginning of a block cannot be written (panic at the beginning of the piece, error elsewhere)."},
  {"property": "C53", "status": "partial", "theorems": ["Nargun.C53_complete_partial", "Nargun.C53_empty_last_file_violated", "Nargun.C53_single_complete_partial", "Nargun.C53_full_last_piece_violated"], "note": "Exact contents after any complete history. Violated: one file whose length is a multiple of the piece length stays a piece short; an empty file at the very end of a torrent with a full last piece is never created."},
  {"property": "C54", "status": "partial", "theorems": ["Nargun.C54_exactly_ancestors", "Nargun.C54_parents_first", "Nargun.C54_tree", "Nargun.C54_failure_cleans", "Nargun.C54_dot_violated", "Nargun.C54_outside_violated"], "note": "For plain names (not empty, no slash, not . or ..), every order of the hash set; a failure restores the tree. Violated for names such as '.', which are accepted from metainfo. With names that contain slashes, a directory is made outside and stays after a failure (C54_outside_violated)."},
  {"property": "C55", "status": "partial", "theorems": ["Nargun.C55_restart_violated", "Nargun.C55_crash_violated", "Nargun.C55_single_keeps_partial"], "note": "One file: data are kept. Several files: violated, the start panics at every crash point after the first mkdir."},
  {"property": "C56", "status": "proved", "theorems": ["Nargun.C56_bounded", "Nargun.C56_present", "Nargun.C56_evicts_idlest", "Nargun.C56_nearly_idlest", "Nargun.C56_failed", "Nargun.C56_used"], "note": "All request histories, any map order; all elapsed times of one eviction are taken at one moment."},
  {"property": "C57", "status": "partial", "theorems": ["Nargun.C57_confined_partial", "Nargun.C57_directories_partial", "Nargun.C57_single_partial", "Nargun.C57_dotdot_violated", "Nargun.C57_accepted"], "note": "Confined for plain names, in every tree (no symbolic links). Violated: .. components are accepted and followed."},
  {"property": "C58", "status": "proved", "theorems": ["Nargun.C58_pieces", "Nargun.C58_accepted"], "note": "Exact characterisation."},
  {"property": "C59", "status": "proved", "theorems": ["Nargun.C59_info_hash", "Nargun.C59_only_info"], "note": "The identity is the hash of the bytes of the value of `info` in the file; a second theorem says nothing else in the file matters."},
  {"property": "C60", "status": "proved", "theorems": ["Nargun.C60_trackers", "Nargun.C60_accepted", "Nargun.C60_http_trackers"], "note": "Exact, including which files are accepted at all."},
  {"property": "C61", "status": "partial", "theorems": ["Nargun.C61_shape_partial", "Nargun.C61_zero_violated", "Nargun.C61_count_violated"], "note": "violated: neither a zero piece length nor a wrong number of hashes is refused (C61_zero_violated, C61_count_violated); proved: at least one hash, 64-bit piece length."},
  {"property": "C62", "status": "proved", "theorems": ["Nargun.C62_decode_encode", "Nargun.C62_decode_canonical", "Nargun.C62_encoding_injective", "Nargun.C62_no_panic"], "note": "Model of the bendy dependency; every decoder of the repository is built on it."},
  {"property": "C63", "status": "partial", "theorems": ["Nargun.C63_piece_hash", "Nargun.C63_division", "Nargun.C63_downloader_hash", "Nargun.C63_verified", "Nargun.C63_is_valid_piece_partial", "Nargun.C63_short_block_violated"], "note": "Proved for the check the downloader performs; the unused _is_valid_piece refuses a short last piece."},
  {"property": "C64", "status": "proved", "theorems": ["Nargun.C64_shape", "Nargun.C64_sighting_total"], "note": "All histories of sightings and restarts."},
  {"property": "C65", "status": "proved", "theorems": ["Nargun.C65_contains", "Nargun.C65_find_exact", "Nargun.C65_refresh"], "note": "All histories; there is no separate get_node on the table, lookups are contains_node and find_node."},
  {"property": "C66", "status": "proved", "theorems": ["Nargun.C66_good_stay", "Nargun.C66_one_displaced"], "note": "All histories and times."},
  {"property": "C67", "status": "partial", "theorems": ["Nargun.C67_stored_partial", "Nargun.C67_refused_violated"], "note": "violated: a full last bucket is not split for a node that differs from the own id at the bucket's own depth, although splitting would make room (C67_refused_violated); proved: every other unknown node is stored."},
  {"property": "C68", "status": "partial", "theorems": ["Nargun.C68_closest_partial", "Nargun.C68_find_unknown", "Nargun.C68_too_many_violated", "Nargun.C68_order_violated", "Nargun.C68_left_out_violated"], "note": "violated: up to 15 nodes are returned, unordered within a class of equally long shared prefixes, and a closer node in a deeper bucket can be left out. Proved: everything the claim says with distance replaced by the length of the prefix shared with the target."},
  {"property": "C69", "status": "proved", "theorems": ["Nargun.C69_targets", "Nargun.C69_any_target"], "note": "All tables, all outcomes of the random source; every id of a bucket's range can be drawn."},
  {"property": "C70", "status": "proved", "theorems": ["Nargun.C70_restored", "Nargun.C70_crash", "Nargun.C70_old_table_lost"], "note": "Every crash point; a crash while storing loses the previously stored table, including the node id (C70_old_table_lost)."},
  {"property": "C71", "status": "partial", "theorems": ["Nargun.Krpc.C71_round_trip_partial", "Nargun.Krpc.C71_queries_errors", "Nargun.Krpc.C71_announce_answer_violated"], "note": "Queries and errors come back exactly; answers come back except that an announcement answer reads as a ping answer (C71_announce_answer_violated), a list of one node as a single node, and nodes lose the time they were seen. Trailing bytes do not matter."},
  {"property": "C72", "status": "partial", "theorems": ["Nargun.Krpc.C72_offered", "Nargun.Krpc.C72_taken", "Nargun.Krpc.C72_conforming_partial", "Nargun.Krpc.C72_method_violated", "Nargun.Krpc.C72_type_violated"], "note": "Exact characterisation of the message taken from any dictionary with 20-byte identifiers, and a necessary condition for every byte string; conforming queries are taken for what they are. Violated: neither the method name nor the type letter decides (C72_method_violated, C72_type_violated)."},
  {"property": "C73", "status": "partial", "theorems": ["Nargun.Krpc.C73_sized_partial", "Nargun.Krpc.C73_short_id_violated"], "note": "violated: an identifier of another length panics (C73_short_id_violated); every other byte string is decoded or refused."},
  {"property": "C74", "status": "partial", "theorems": ["Nargun.Dht.C74_self_contained_partial", "Nargun.Dht.C74_stale_violated"], "note": "A datagram that begins with a complete value means the same whatever the buffer held. violated: the length received is dropped, so a truncated datagram is completed with bytes of an earlier one (C74_stale_violated)."},
  {"property": "C75", "status": "partial", "theorems": ["Nargun.Dht.C75_delivery_partial", "Nargun.Dht.C75_only_answers", "Nargun.Dht.C75_source_violated"], "note": "Delivered exactly to the task whose query of that transaction id and kind is outstanding, once. violated: the address the answer comes from is not compared (C75_source_violated)."},
  {"property": "C76", "status": "partial", "theorems": ["Nargun.Dht.C76_bounded_partial", "Nargun.Dht.C76_announce_violated"], "note": "The table holds exactly the outstanding queries. violated: an announcement answered as BEP 5 says stays in the table for ever (C76_announce_violated)."},
  {"property": "C77", "status": "proved", "theorems": ["Nargun.Dht.C77_announce", "Nargun.Dht.C77_only_valid", "Nargun.Dht.C77_handed_out"], "note": "All histories; the hash is a parameter, the token of an address is compared exactly."},
  {"property": "C78", "status": "partial", "theorems": ["Nargun.C78_served", "Nargun.C78_own", "Nargun.C78_datagram_violated"], "note": "All histories and map orders: exactly the announced peers, or 216 of them. violated: 216 peers take more than 1728 bytes, over the limit of 1300 (C78_datagram_violated)."},
  {"property": "C79", "status": "proved", "theorems": ["Nargun.Fetch.C79_announce", "Nargun.Fetch.C79_best"], "note": "All histories, all map orders. The tokens and flags are those of the last answer of each node; connection errors are not modelled."},
  {"property": "C80", "status": "proved", "theorems": ["Nargun.Fetch.C80_bounded", "Nargun.Fetch.C80_cut"], "note": "All histories. Preferred: nodes that returned peers, then nodes that answered, then the others; among equals a longer prefix shared with the info hash."},
  {"property": "C81", "status": "proved", "theorems": ["Nargun.Fetch.C81_unsolicited", "Nargun.Fetch.C81_learned", "Nargun.Fetch.C81_asked_once", "Nargun.Fetch.C81_peers"], "note": "All histories."},
  {"property": "C82", "status": "proved", "theorems": ["Nargun.Shutdown.C82_wait", "Nargun.Shutdown.C82_notified"], "note": "All interleavings of clone, drop, signal, receive and wait; the semantics of tokio's broadcast and mpsc channels is modelled."},
  {"property": "C83", "status": "partial", "theorems": ["Nargun.Shutdown.C83_early_partial", "Nargun.Shutdown.C83_late_violated"], "note": "violated: a receiver cloned after the signal never notices it (C83_late_violated); receivers that exist when the signal is given do notice it."},
  {"property": "C84", "status": "proved", "theorems": ["Nargun.C84_delay", "Nargun.C84_nan", "Nargun.C84_infinite", "Nargun.C84_monotone", "Nargun.C84_refresh", "Nargun.C84_fetch"], "note": "All formulas, caps and numbers of ticks over exact rationals with NaN and infinities; rounding is not modelled, x^3.7 is a monotone parameter."},
  {"property": "C85", "status": "proved", "theorems": ["Nargun.C85_nothing_held_back"], "note": ""},
  {"property": "C86", "status": "proved", "theorems": ["Nargun.C86_announced_is_offered"], "note": ""},
  {"property": "C87", "status": "proved", "theorems": ["Nargun.C87_left_peers_reported"], "note": ""},
  {"property": "C88", "status": "proved", "theorems": ["Nargun.C88_pacing"], "note": "All histories."},
  {"property": "C89", "status": "proved", "theorems": ["Nargun.C89_peers_found"], "note": "All histories."},
  {"property": "C90", "status": "partial", "theorems": ["Nargun.C90_id_length_violated", "Nargun.C90_no_buckets_violated", "Nargun.C90_accepted_partial", "Nargun.C90_truncated_partial"], "note": "violated: a wrong identifier length panics at start, and a table without buckets is accepted and panics at the first sighting; truncated files are refused, and an accepted file begins with the encoding of exactly the table used."},
  {"property": "C94", "status": "proved", "theorems": ["Nargun.Dht.C94_queries", "Nargun.Dht.C94_answers", "Nargun.Dht.C94_heard", "Nargun.Dht.C94_ignored"], "note": "All histories; the datagrams are characterised field by field."},
  {"property": "C95", "status": "partial", "theorems": ["Nargun.Dht.C95_survives_partial", "Nargun.Dht.C95_short_id_violated"], "note": "violated: an identifier of a wrong length ends the task (C95_short_id_violated); every other datagram is survived as long as the receiving tasks live."},
  {"property": "C96", "status": "partial", "theorems": ["Nargun.Fetch.C96_quiet_partial", "Nargun.Fetch.C96_paced", "Nargun.Fetch.C96_unbounded_violated", "Nargun.Program.C96_always_partial"], "note": "violated: every answer restarts the timer, so a lookup can be prolonged without bound with answers to separate requests (C96_unbounded_violated); proved: three seconds without answers end it, and lookups are paced; in every fair execution of the whole program, once the lookup has started, everything it decides to ask or announce is handed to the connection in its order, and rounds begin again and again unless from some moment on answers keep arriving in one round, the process ends, the socket task panics, the table task ends or the tasks wait for each other in a circle (C96_always_partial)."},
  {"property": "C91", "status": "partial", "theorems": ["Nargun.C91_start", "Nargun.C91_paced", "Nargun.C91_refresh_partial", "Nargun.C91_no_recovery_violated", "Nargun.C91_starved_violated", "Nargun.C91_starving_histories_violated", "Nargun.Program.C91_always_partial"], "note": "violated: every turn of the loop restarts the sleep, so frequent queries starve the refresh (C91_starved_violated, C91_starving_histories_violated), and a table without good nodes is never revived (C91_no_recovery_violated); proved: after an undisturbed pause the refresh happens and asks as described; in every fair execution of the whole program the table is refreshed again and again unless from some moment on it never is and the task takes queries, answers or nodes again and again, the process ends, the socket task panics, the table task ends or tasks wait for each other in a circle (C91_always_partial)."},
  {"property": "C93", "status": "partial", "theorems": ["Nargun.C93_never_dropped_violated", "Nargun.C93_unbounded_violated", "Nargun.C93_bound_partial"], "note": "violated: announced peers are never dropped (C93_never_dropped_violated, C93_unbounded_violated); proved: at most one entry for each announcement."},
  {"property": "C97", "status": "partial", "theorems": ["Nargun.C97_find_node_partial", "Nargun.C97_get_peers_partial", "Nargun.C97_announcement", "Nargun.C97_empty_exactly", "Nargun.C97_silent_violated"], "note": "violated: no answer at all while no node is good (C97_silent_violated); proved: exactly one answer otherwise."},
  {"property": "C98", "status": "partial", "theorems": ["Nargun.C98_only_answering", "Nargun.C98_named_are_pinged", "Nargun.C98_touch", "Nargun.C98_port_message", "Nargun.C98_channel", "Nargun.C98_wrong_address_violated"], "note": "violated: an answer with a stored id from another address makes the stored node count as seen (C98_wrong_address_violated); the rest is proved for all histories."},
  {"property": "C99", "status": "proved", "theorems": ["Nargun.C99_total", "Nargun.C99_lookups"], "note": "All histories from any reachable table."},
  {"property": "C100", "status": "partial", "theorems": ["Nargun.C100_stored", "Nargun.C100_once", "Nargun.C100_lost_violated"], "note": "violated: if the torrent task or the connection ends first, the table is lost (C100_lost_violated); proved: stored exactly once, as it is, at the shutdown signal."},
  {"property": "C101", "status": "partial", "theorems": ["Nargun.C101_consumed_violated", "Nargun.C101_others_partial"], "note": "violated: the peers told are marked active and are no candidates any more (C101_consumed_violated); proved: nothing else changes."},
  {"property": "C92", "status": "partial", "theorems": ["Nargun.C92_deadlock_violated", "Nargun.C92_drain_partial", "Nargun.Program.C92_always_partial", "Nargun.Program.C92_exact_partial"], "note": "violated: at most 1282 copies of one find_node datagram can fill both queues so that both tasks wait for each other for ever, shutdown included (C92_deadlock_violated); proved: from every state in which the socket task does not wait for room in a full queue, everything waiting can be completed without outside input (C92_drain_partial). C92_exact_partial, about the whole program with its lookup: the states without a way out are exactly those in which the socket task waits for room in the full queue of a task that in turn has more to hand over than there is room for in the queue of the socket task. C92_always_partial: in every fair execution in which no such state is reached (and nothing panics or ends), every datagram, query, answer and command that is waiting is worked off, in order."},
  {"property": "C102", "status": "proved", "theorems": ["Nargun.C102_answers"], "note": "All histories and schedules of the composed system."},
  {"property": "C103", "status": "proved", "theorems": ["Nargun.C103_table"], "note": "All histories and schedules; that the answer came from the queried address is not checked by the code (C75_source_violated)."},
  {"property": "C104", "status": "proved", "theorems": ["Nargun.C104_first_hand"], "note": "All histories and schedules; peers told for the own torrent come from the shared table of peers (C78_own)."},
  {"property": "C105", "status": "partial", "theorems": ["Nargun.C105_one_datagram_violated", "Nargun.C105_survives_partial"], "note": "violated: one datagram of 36 bytes ends the socket task for good (C105_one_datagram_violated); proved: only a dictionary with an identifier of wrong length, or the end of the table task, ends it (C105_survives_partial)."},
  {"property": "C106", "status": "proved", "theorems": ["Nargun.C106_queues"], "note": "All histories and schedules; the end of the socket task when all senders are dropped is not modelled."},
  {"property": "C107", "status": "proved", "theorems": ["Nargun.C107_routed"], "note": "All histories and schedules."},
  {"property": "C108", "status": "proved", "theorems": ["Nargun.Swarm.C108_stream_to_messages", "Nargun.Swarm.C108_only_own_bytes"], "note": "All histories and schedules of the composed torrent side."},
  {"property": "C109", "status": "proved", "theorems": ["Nargun.Swarm.C109_delivery"], "note": "All histories and schedules; what is lost when a receiving task has ended is exactly delimited."},
  {"property": "C110", "status": "proved", "theorems": ["Nargun.Swarm.C110_commands_justified"], "note": "All histories and schedules."},
  {"property": "C111", "status": "proved", "theorems": ["Nargun.Swarm.C111_completed_pieces", "Nargun.Swarm.C111_reports", "Nargun.Swarm.C111_reported"], "note": "All histories and schedules; the hash is a parameter. Holds also for a program that sets the owner of requests. Reports are in order and complete (C111_reported); the manager panics at the first report (C115)."},
  {"property": "C112", "status": "partial", "theorems": ["Nargun.Swarm.C112_nothing_requested_violated", "Nargun.Swarm.C112_requests_justified_partial", "Nargun.Swarm.C112_written_in_order_partial", "Nargun.Swarm.C112_in_progress_partial"], "note": "violated: as written, no block is ever requested and no piece completed, because set_owner_peer is never called (C112_nothing_requested_violated); proved, also for a program that does set the owner: every request is justified, requests are written once and in order, a piece assigned is in progress unless ten are."},
  {"property": "C113", "status": "proved", "theorems": ["Nargun.Swarm.C113_queues_bounded"], "note": "All histories and schedules; the bound is reached by an example."},
  {"property": "C114", "status": "proved", "theorems": ["Nargun.Swarm.C114_manager_wait_ends"], "note": "The program as written; at most three steps of the downloader."},
  {"property": "C115", "status": "partial", "theorems": ["Nargun.Swarm.C115_dead_forever", "Nargun.Swarm.C115_one_message_violated", "Nargun.Swarm.C115_survival_partial"], "note": "violated: one request or cancel message of any peer ends the manager (C115_one_message_violated), for good (C115_dead_forever); proved: with messages of the implemented kinds the manager lives as long as the lock is not poisoned and no piece is completed."},
  {"property": "C116", "status": "partial", "theorems": ["Nargun.Swarm.C116_poisoned_by_death_partial", "Nargun.Swarm.C116_poison_violated", "Nargun.Swarm.C116_take_poisons_violated", "Nargun.Swarm.C116_dies_of_block_partial", "Nargun.Swarm.C116_block_poisons_violated"], "note": "violated: after the panic of one downloader the shared lock is poisoned (C116_take_poisons_violated) and the manager dies at the next piece it starts (C116_poison_violated, with a run of two well-behaved peers); proved: only the death of a downloader poisons the lock. Also proved: which blocks a downloader can die of; blocks that were not asked for never kill it (C116_dies_of_block_partial)."},
  {"property": "C117", "status": "partial", "theorems": ["Nargun.Swarm.C117_never_freed_violated", "Nargun.Swarm.C117_ten_lost_violated", "Nargun.Swarm.C117_unreachable_freed_partial"], "note": "violated: a peer whose connection is lost after the handshake stays active for ever, and ten of them end all connecting (C117_never_freed_violated, C117_ten_lost_violated); proved: a failed handshake is reported once and frees the place."},
  {"property": "C118", "status": "partial", "theorems": ["Nargun.Swarm.C118_retry_violated", "Nargun.Swarm.C118_first_try_partial"], "note": "violated: the second try is none, the peer becomes a ghost that occupies a place for ever (C118_retry_violated); proved: the first choice leads to a try."},
  {"property": "C119", "status": "partial", "theorems": ["Nargun.Program.C119_exit_partial", "Nargun.Program.C119_table_lost_violated", "Nargun.Program.C119_not_told_violated", "Nargun.Trouble.C119_no_signal_violated", "Nargun.Trouble.C119_unannounced_violated"], "note": "violated: after a panic of the torrent manager the table is never written (C119_table_lost_violated), and a tracker whose task waits for an answer is not told 'stopped' (C119_not_told_violated); proved: these are the only exceptions (C119_exit_partial). When waiting for Ctrl-C fails, the process ends at once, nobody is told and nothing written (C119_no_signal_violated, C119_unannounced_violated)."},
  {"property": "C121", "status": "proved", "theorems": ["Nargun.Program.C121_trackers_asked", "Nargun.Program.C121_sources"], "note": "All histories and schedules of the whole program, from any reachable routing table."},
  {"property": "C122", "status": "partial", "theorems": ["Nargun.Program.C122_survives_partial", "Nargun.Program.C122_one_peer_violated", "Nargun.Program.C122_lookups_partial"], "note": "violated: one request message of one peer can end all connections and then the DHT for good (C122_one_peer_violated); proved: nothing but a panic of the manager, a fatal datagram or Ctrl-C ends the table task."},
  {"property": "C123", "status": "proved", "theorems": ["Nargun.Program.C123_announces"], "note": "All histories and schedules of the whole program, from any reachable routing table. The datagram is identified by its bytes (bencoding is injective, Lemmas/BencodeInj)."},
  {"property": "C126", "status": "proved", "theorems": ["Nargun.Program.C126_targets"], "note": "All histories and schedules of the whole program, from any reachable routing table; pings, find_node, get_peers and announce_peer."},
  {"property": "C127", "status": "partial", "theorems": ["Nargun.Program.C127_identity_partial", "Nargun.Program.C127_progress_violated"], "note": "violated: nobody changes the number of downloaded pieces, so every announce says that everything is left, and 'completed' is never sent (C127_progress_violated); proved: url, info hash, peer id and port."},
  {"property": "C120", "status": "partial", "theorems": ["Nargun.Program.C120_exact_partial", "Nargun.Program.C120_ends_partial", "Nargun.Program.C120_hangs_violated", "Nargun.Program.C120_always_partial"], "note": "violated: a flood of at most 1282 copies of one datagram brings the tasks of the DHT into a deadlock in which Ctrl-C does not end the process (C120_hangs_violated); proved: in every fair infinite execution in which Ctrl-C is pressed the process does end, unless at some moment the table task hangs in that deadlock (C120_always_partial; fairness is spelled out in Spec/Fair.lean); from every reachable state in which the table task does not hang, the process can end by its own steps alone (C120_ends_partial), and in the others it never ends (C120_exact_partial). That a tracker that never answers the 'stopped' request holds up the exit is a matter of the environment: the request is awaited without a timeout, and fairness assumes that it is answered or fails."},
  {"property": "C125", "status": "partial", "theorems": ["Nargun.Program.C125_always_partial", "Nargun.Program.C125_forgotten_violated", "Nargun.Program.C125_tried_partial"], "note": "violated: a peer the program names to another node before it has connected to it is never tried, unless it is named again (C125_forgotten_violated); proved: apart from this and from a lookup that asked 512 nodes, a peer named by a tracker, by itself, or by a node the lookup asked, is in the batch of the next tick with room, or was tried before (C125_tried_partial); and in every fair execution of the program as written it is connected to sooner or later unless the process ends, the manager dies, or all ten places are taken at all later ticks, of which there are infinitely many (C125_always_partial)."},
  {"property": "C128", "status": "partial", "theorems": ["Nargun.C128_fresh_partial", "Nargun.C128_clash_violated", "Nargun.C128_twice_violated"], "note": "violated: a torrent with a file at the path of another's directory is accepted and its storage created, but the piece with that file can never be written (C128_clash_violated); two files of the same path overwrite each other (C128_twice_violated); proved for all other torrents outside C52's and C53's exceptions (C128_fresh_partial)."},
  {"property": "C129", "status": "proved", "theorems": ["Nargun.C129_verified_contents"], "note": "SHA-1 is a parameter; a collision, if there is one, is named explicitly."},
  {"property": "C130", "status": "partial", "theorems": ["Nargun.Program.C130_starts_partial", "Nargun.Program.C130_again_violated", "Nargun.Program.C130_retry_partial", "Nargun.Program.C130_zero_violated", "Nargun.Program.C130_huge_violated", "Nargun.Program.C130_port_violated"], "note": "violated: at the second start of a torrent with several files the manager panics, because the directory exists (C130_again_violated); with a piece length of 0 it panics at every start (C130_zero_violated); with 2^64 bytes or more no tracker is ever announced to (C130_huge_violated); when the UDP port is in use the DHT never sends anything (C130_port_violated); proved: otherwise all tasks get to work (C130_starts_partial). A start whose directories could not all be made does not spoil the next one (C130_retry_partial)."},
  {"property": "C131", "status": "proved", "theorems": ["Nargun.Program.C131_sessions"], "note": "Any number of sessions from a machine without a stored table; every history and schedule of each session, and every point at which a session can end."},
  {"property": "C132", "status": "partial", "theorems": ["Nargun.Program.C132_next_partial", "Nargun.Program.C132_crash_violated", "Nargun.Program.C132_killed_violated"], "note": "violated: nothing is stored before Ctrl-C, so a session that ends in any other way leaves nothing (C132_killed_violated), and one that ends while the table is stored can lose what earlier sessions had stored, too (C132_crash_violated); proved for sessions that end by Ctrl-C without a fatal datagram (C95) or a panic of the manager (C115)."},
  {"property": "C133", "status": "partial", "theorems": ["Nargun.Program.C133_nothing_violated", "Nargun.Program.C133_first_piece_violated", "Nargun.Program.C133_verified_partial"], "note": "violated: nothing is ever written to a peer and no piece is ever completed, whatever the torrent and whatever peers offer, because no downloader knows the owner of its requests (C133_nothing_violated); and if they knew, the manager would panic at the first finished piece, as this is not implemented (C133_first_piece_violated). Proved: what would be completed has the hash of the torrent file and consists of blocks received for it (C133_verified_partial)."},
  {"property": "C134", "status": "proved", "theorems": ["Nargun.Gateway.C134_forwarded"], "note": "Which ports the gateway opens, and what was forwarded before, is arbitrary. That something listens on the port for peers is not claimed: no code of the program does."},
  {"property": "C135", "status": "partial", "theorems": ["Nargun.Gateway.C135_others_kept_partial", "Nargun.Gateway.C135_leftover_violated", "Nargun.Gateway.C135_accumulates_violated", "Nargun.Gateway.C135_failed_start_violated"], "note": "violated: a program that has run leaves a TCP port and a UDP port forwarded for ever, however it ended (C135_leftover_violated); the mappings of all starts accumulate (C135_accumulates_violated); a start that fails after the first request leaves one as well (C135_failed_start_violated). Proved: what was forwarded elsewhere stays so, and everything new leads to the two ports of this program (C135_others_kept_partial)."},
  {"property": "C124", "status": "partial", "theorems": ["Nargun.Program.C124_forever_violated", "Nargun.Program.C124_room_partial", "Nargun.Program.C124_stalls_violated"], "note": "violated: when at least 65 queries of the lookup are unanswered and the answers come while it pauses, nothing is received or sent until the pause is over, whatever happens (C124_stalls_violated; example: 65 rounds with one slow node, two minutes of silence); proved: as long as it has not asked 65 more than it has heard, everything that waits is done without the lookup (C124_room_partial), because no more answers are under way than queries are outstanding. C124_forever_violated: with a peer that then sends at most 1024 messages naming its DHT node, the halt does not end with the pause."},
  {"property": "C136", "status": "proved", "theorems": ["Nargun.Program.C136_sizes"], "note": "for every history of the program; the hypothesis on SHA-1 is only that its values have 20 bytes."},
  {"property": "C137", "status": "partial", "theorems": ["Nargun.Program.C137_packet_partial", "Nargun.Program.C137_packet_violated"], "note": "violated: an answer with 160 peers has 1370 bytes, as the number of peers is 1300/6 but each takes 8 bytes beside the other fields (C137_packet_violated); proved: every other datagram is within 1300 bytes unless the other node chose a token or transaction id of more than 100 bytes, or the answer names more than 90 peers (C137_packet_partial)."},
  {"property": "C138", "status": "partial", "theorems": ["Nargun.C138_unreported_partial", "Nargun.C138_lost_violated", "Nargun.C138_silent_violated"], "note": "violated: when the last write of a piece fails, the piece is reported as written, and the error is reported for the piece that is written next (C138_lost_violated, for every single-file torrent and every such piece); proved: for torrents of at most 16 files, a call that reports success has missed at most one failed write per file, and the next write to that file reports it (C138_unreported_partial). With more than 16 files nobody is ever told: both pieces of a torrent are reported as written, a file stays empty and no later write to any file reports an error (C138_silent_violated)."},
  {"property": "C139", "status": "partial", "theorems": ["Nargun.C139_few_files_partial", "Nargun.C139_settled_partial", "Nargun.C139_closed_violated"], "note": "violated: with 17 files, no failures and one slow background write, a block that was written cannot be read (C139_closed_violated); proved: for at most 16 files all of it (C139_few_files_partial); for any number of files, when all pieces are written and the background writes are done, the files have the contents (C139_settled_partial)."},
  {"property": "C140", "status": "partial", "theorems": ["Nargun.Trouble.C140_states_partial", "Nargun.Trouble.C140_sends_partial", "Nargun.Trouble.C140_others_partial", "Nargun.Trouble.C140_ends_partial", "Nargun.Trouble.C140_exit_partial", "Nargun.Trouble.C140_receive_violated", "Nargun.Trouble.C140_table_lost_violated"], "note": "violated for reading: one error ends the socket task for good, and the table task after it, without writing the table (C140_receive_violated, C140_table_lost_violated). Proved: errors on sending do nothing (C140_sends_partial); with any errors the states are those reachable without (C140_states_partial); torrent side and trackers are not affected (C140_others_partial), Ctrl-C ends the program (C140_ends_partial), and what is told and written at the end (C140_exit_partial)."},
  {"property": "C141", "status": "proved", "theorems": ["Nargun.Handle.C141_in_order", "Nargun.Handle.C141_right_peer", "Nargun.Handle.C141_received", "Nargun.Handle.C141_disconnect"], "note": "Proved for all histories of all calls of the handle (the program itself uses only a few of them) and of the tasks of all connections, also when writes fail or connections end in the middle of a message: prefix of the messages in order (C141_in_order), right connection and result (C141_right_peer, C141_disconnect), end to end (C141_received)."},
  {"property": "C142", "status": "partial", "theorems": ["Nargun.Handle.C142_broken_violated", "Nargun.Handle.C142_written_partial"], "note": "violated: a failed write is only logged, the connection stays in the table, and further calls report success although nothing is ever written again (C142_broken_violated); proved: without failed writes everything in the queue gets written (C142_written_partial)."},
  {"property": "C143", "status": "partial", "theorems": ["Nargun.Program.C143_nothing_told_violated", "Nargun.Handle.C143_keep_alive_partial"], "note": "violated: in every session nothing but requests is ever written to a peer (C143_nothing_told_violated), even for a program that knows the owners of requests; as it is, not even requests (C133). Proved: the keep-alive task, which nobody spawns, would send one message every 100 seconds (C143_keep_alive_partial)."},
  {"property": "C144", "status": "partial", "theorems": ["Nargun.C144_sound_partial", "Nargun.C144_mismatch_violated", "Nargun.C144_exact_partial"], "note": "violated for vectors whose capacity is not a multiple of 20: dropping the hashes is undefined behaviour (C144_mismatch_violated, for every such vector). Proved for all others (C144_sound_partial), in particular when there is no spare room (C144_exact_partial), which is how the string arrives today."},
  {"property": "C145", "status": "partial", "theorems": ["Nargun.Dht.C145_never_expires_violated", "Nargun.Dht.C145_bound_partial"], "note": "violated: the secret never changes, so a token is accepted from its address as long as the program runs (C145_never_expires_violated, for every history in between). Proved: only from that address, and not after a restart with another secret, unless these two strings collide under SHA-1 (C145_bound_partial)."},
  {"property": "C146", "status": "partial", "theorems": ["Nargun.C146_stored_violated", "Nargun.C146_claimed_partial"], "note": "violated: whoever answers with the own id is stored under it, however full the table is, and is then named to everyone who asks for it (C146_stored_violated). Proved over all sessions: the own id is not in the table if nobody ever answered with it (C146_claimed_partial)."},
  {"property": "C147", "status": "partial", "theorems": ["Nargun.Program.C147_answered_partial", "Nargun.Program.C147_flood_violated"], "note": "violated: a flood of at most 1282 copies of one find_node datagram can make the socket task and the table task wait for each other for ever, so that no query is ever answered (C147_flood_violated). Proved for all fair executions of the whole program: unless the process ends, the socket task panics, the table task ends or tasks wait for each other in a circle, every query taken from the socket is answered, counted per address, transaction id and kind (C147_answered_partial)."},
  {"property": "C148", "status": "partial", "theorems": ["Nargun.Program.C148_heard_partial", "Nargun.Program.C148_deaf_violated", "Nargun.Program.C148_fair_violated"], "note": "violated: one request or cancel of any peer kills the manager, after which nothing is heard any more (C148_deaf_violated, and by a fair execution C148_fair_violated). Proved for all fair executions of the program as written: unless the process ends, the manager dies or tasks of the DHT wait for each other in a circle, everything read is handed over unless the connection ends, and everything handed over is taken by the manager, the downloader (unless it ends) or the DHT (unless it ends) (C148_heard_partial)."},
  {"property": "C149", "status": "proved", "theorems": ["Nargun.Program.C149_asked", "Nargun.Program.C149_announced"], "note": "C149_asked: for all executions without Ctrl-C in which the waits of the tracker's task end (WaitsEnd in Spec/FairTrackers.lean; a request is answered or fails by its timeout, a pause ends). C149_announced: if from some moment on no request fails unsent, announces are sent for ever."},
  {"property": "C150", "status": "proved", "theorems": ["Nargun.C150_never_poisoned", "Nargun.C150_limit"], "note": "For a build that checks arithmetic; the only operation that could panic is the subtraction in activate_peers_in_locked_data. Failing memory allocations abort the process and are not considered."},
  {"property": "C151", "status": "partial", "theorems": ["Nargun.Program.C151_starts_partial", "Nargun.Program.C151_asks_partial", "Nargun.Program.C151_alone_violated", "Nargun.Program.C151_sessions_violated"], "note": "violated: the program knows no node to begin with: without a stored node, and as long as no connected peer tells of its node, no query ever leaves and the lookup is never started, in every history (C151_alone_violated), and this remains so over any number of sessions, because only nodes that answered a query are stored (C151_sessions_violated); proved, for every fair execution unless the process ends, the socket task panics, the table task ends or tasks wait for each other in a circle: every stored node is sent a ping and every query decided on leaves (C151_asks_partial), and once a node has answered the lookup is started (C151_starts_partial)."},
  {"property": "C152", "status": "partial", "theorems": ["Nargun.Dht.C152_explicit_partial", "Nargun.Dht.C152_implied_violated"], "note": "violated: implied_port is not read, so that an announcement that implies the port is stored under the port it names (C152_implied_violated, for all histories and all such announcements); proved: all other announcements make exactly the peer they are about known (C152_explicit_partial)."},
  {"property": "C153", "status": "partial", "theorems": ["Nargun.Dht.C153_harmless_partial", "Nargun.Dht.C153_unknown_violated", "Nargun.Program.C153_never_violated"], "note": "violated: no history of the program has an error message among the datagrams sent (C153_never_violated), and a query with an unknown method is answered as a ping if its arguments are those of a ping (C153_unknown_violated); proved: a datagram that holds no message and an announcement with a wrong token have no effect at all (C153_harmless_partial)."},
  {"property": "C154", "status": "proved", "theorems": ["Nargun.C154_take", "Nargun.C154_no_double_handout", "Nargun.C154_still", "Nargun.C154_slow_call"], "note": "C154_slow_call shows that the bound on the duration of the call is needed: a call interrupted for more than seven seconds between its passes hands its blocks out twice."},
  {"property": "C155", "status": "proved", "theorems": ["Nargun.RoutingTable.C155_still", "Nargun.RoutingTable.C155_shape", "Nargun.RoutingTable.C155_total", "Nargun.RoutingTable.C155_good_stay", "Nargun.RoutingTable.C155_one_displaced", "Nargun.RoutingTable.C155_stored", "Nargun.RoutingTable.C155_closest", "Nargun.RoutingTable.C155_count", "Nargun.RoutingTable.C155_meanwhile"], "note": "C155_meanwhile shows that neither bound can be improved: a node is refused although one of the eight is no longer good at the end of the call, and a node is displaced although it was good at its beginning."},
  {"property": "C156", "status": "partial", "theorems": ["Nargun.C156_covers", "Nargun.C156_success", "Nargun.C156_failure_partial", "Nargun.C156_leftover_violated"], "note": "C156_failure_partial: outside nothing changes, and only directories of the torrent may be left. C156_leftover_violated: if the removal fails, the torrent's directory stays and every later start panics. C156_covers: the outcomes of C54 are outcomes here."},
  {"property": "C157", "status": "proved", "theorems": ["Nargun.C157_total", "Nargun.C157_refresh", "Nargun.C157_find_node", "Nargun.C157_lookups", "Nargun.C157_good_stay", "Nargun.C157_only_answering", "Nargun.C157_covers", "Nargun.C157_missed", "Nargun.C157_served", "Nargun.C157_own", "Nargun.C157_get_peers", "Nargun.C157_noted", "Nargun.C157_named_are_pinged", "Nargun.C157_port_message", "Nargun.C157_paced", "Nargun.C157_peers_case"], "note": "C157_covers: the histories of the model with one reading per turn are among those considered. C157_missed: a turn in which a node is good when the good nodes are counted and not any more when the nodes for the lookups are chosen; the lookups are then started in a later turn."},
  {"property": "C158", "status": "proved", "theorems": ["Nargun.C158_total", "Nargun.C158_read", "Nargun.C158_identifies", "Nargun.C158_bits"], "note": "What {:08b} and {:02X?} yield for a byte is taken from the documentation of the standard library. The reader in Spec.IdText is independent of the writer."},
  {"property": "C159", "status": "proved", "theorems": ["Nargun.C159_dht", "Nargun.C159_table", "Nargun.C159_socket", "Nargun.C159_torrent", "Nargun.C159_lookup", "Nargun.C159_tracker"], "note": "The steps of the parts are those of the models of the single tasks; what has to have happened for a step is in Spec.Ready. The completion of the download is never told to the trackers by the program, so these two inputs of a tracker task do not occur. What is put into queues within a turn may wait for room; that is C92, C120 and C124."}
]}
