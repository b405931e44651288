{
 "claims": [
  {
   "property": "C01",
   "status": "proved",
   "theorems": [
    "Rtmfp.C01_vlu_round_trip",
    "Rtmfp.C01_vlu_encode_size",
    "Rtmfp.C01_vlu_encode_wellformed",
    "Rtmfp.C01_vlu_encode_minimal"
   ],
   "note": "encode/parse for every 64-bit value; minimality against every byte string that parses to it."
  },
  {
   "property": "C02",
   "status": "proved",
   "theorems": [
    "Rtmfp.C02_vlu_parse_fails_iff",
    "Rtmfp.C02_vlu_parse_value",
    "Rtmfp.C02_vlu_parse_local"
   ],
   "note": "total characterization of parse with a limit. Calls with limit=nullptr are not modelled."
  },
  {
   "property": "C03",
   "status": "proved",
   "theorems": [
    "Rtmfp.C03_field_round_trip",
    "Rtmfp.C03_option_round_trip",
    "Rtmfp.C03_option_list_round_trip",
    "Rtmfp.C03_field_in_bounds",
    "Rtmfp.C03_option_in_bounds"
   ],
   "note": "field and option round trips, option lists, in-bounds on arbitrary bytes."
  },
  {
   "property": "C04",
   "status": "proved",
   "theorems": [
    "Rtmfp.C04_assembler_in_bounds",
    "Rtmfp.C04_assembler_in_bounds_header",
    "Rtmfp.C04_push_all_or_nothing",
    "Rtmfp.C04_push_fails_iff_full",
    "Rtmfp.C04_rollback_restores"
   ],
   "note": "every call sequence after a valid init. Calls that dereference null (commit without start) are a distinct outcome and excluded."
  },
  {
   "property": "C05",
   "status": "proved",
   "theorems": [
    "Rtmfp.C05_assemble_parse"
   ],
   "note": "every list of chunks of pushes that all succeed, header flags and timestamps, any 0xff padding."
  },
  {
   "property": "C06",
   "status": "proved",
   "theorems": [
    "Rtmfp.C06_chunks_in_bounds",
    "Rtmfp.C06_all_chunks"
   ],
   "note": "arbitrary byte strings."
  },
  {
   "property": "C07",
   "status": "partial",
   "theorems": [
    "Rtmfp.C07_contains",
    "Rtmfp.C07_empty",
    "Rtmfp.C07_lowest_highest",
    "Rtmfp.C07_size",
    "Rtmfp.C07_iteration_partial",
    "Rtmfp.C07_iteration_diverges_at_max"
   ],
   "note": "Everything except iteration over a set containing 2^64-1, which never ends (C07_iteration_diverges_at_max). Removing a set from itself is not modelled."
  },
  {
   "property": "C08",
   "status": "proved",
   "theorems": [
    "Rtmfp.C08_canonical",
    "Rtmfp.C08_representation_unique",
    "Rtmfp.C08_minimal"
   ],
   "note": "every history of add/remove/addSet/removeSet/clear; canonical, unique and minimal."
  },
  {
   "property": "C09",
   "status": "proved",
   "theorems": [
    "Rtmfp.C09_list_is_sequence",
    "Rtmfp.C09_names_are_stable",
    "Rtmfp.C09_links_in_bounds",
    "Rtmfp.C09_clear",
    "Rtmfp.C09_find"
   ],
   "note": "refinement to a sequence of named values for every history; traversals, find, clear, name stability and in-bounds links. valuesDo bodies that change the list are not modelled."
  },
  {
   "property": "C10",
   "status": "proved",
   "theorems": [
    "Rtmfp.C10_sum_exact",
    "Rtmfp.C10_valueless_add_wrong"
   ],
   "note": "all histories of valued adds, removals and reorderings; the valueless add is shown to break it (C10_valueless_add_wrong)."
  },
  {
   "property": "C11",
   "status": "proved",
   "theorems": [
    "Rtmfp.C11_callback_at_most_once",
    "Rtmfp.C11_report_is_true",
    "Rtmfp.C11_finished_is_reported",
    "Rtmfp.C11_finished_iff",
    "Rtmfp.C11_settled_forever",
    "Rtmfp.C11_abandoned_only_before_done",
    "Rtmfp.C11_abandon_effect",
    "Rtmfp.C11_deadline_decision",
    "Rtmfp.C11_chain_append",
    "Rtmfp.C11_chain_expire",
    "Rtmfp.C11_late_callback_wrong_report",
    "Rtmfp.C11_reports_in_session"
   ],
   "note": "all histories of issuer and user calls, calls from inside callbacks included. Assumes a callback is installed before the receipt finishes (C11_late_callback_wrong_report shows the wrong second report otherwise) and that the issuer doesn't drop fragments while the same receipt's callback executes."
  },
  {
   "property": "C12",
   "status": "proved",
   "theorems": [
    "Rtmfp.C12_write_fragments",
    "Rtmfp.C12_options_leave_room"
   ],
   "note": ""
  },
  {
   "property": "C13",
   "status": "partial",
   "theorems": [
    "Rtmfp.C13_never_stuck_partial",
    "Rtmfp.C13_huge_numbers_stuck"
   ],
   "note": "Proved for flow ids and sequence numbers below 2^42 and front margins up to 12 bytes (all that FlashCryptoAdapter asks for); beyond, a full fragment doesn't fit (C13_huge_numbers_stuck). Also shown: a ready flow asked for data always sends."
  },
  {
   "property": "C14",
   "status": "proved",
   "theorems": [
    "Rtmfp.C14_exact",
    "Rtmfp.C14_prefix",
    "Rtmfp.C14_all",
    "Rtmfp.C14_never_stuck",
    "Rtmfp.C14_completes"
   ],
   "note": "every execution of an accepted flow that its user leaves open: exact set of delivered messages at every moment, prefix property, full delivery, completion. Timers other than the linger alarm and the reception order 'hold' are outside these theorems (C15_only_sent covers them for safety)."
  },
  {
   "property": "C15",
   "status": "proved",
   "theorems": [
    "Rtmfp.C15_exact",
    "Rtmfp.C15_arrived",
    "Rtmfp.C15_only_sent"
   ],
   "note": "same model as C14; C15_only_sent holds for arbitrary user behaviour, callbacks included."
  },
  {
   "property": "C16",
   "status": "partial",
   "theorems": [
    "Rtmfp.C16_sequence_order_throws",
    "Rtmfp.C16_network_order_throws",
    "Rtmfp.C16_wellformed_partial",
    "Rtmfp.C16_loops_end"
   ],
   "note": "False for the code: two concrete histories end in an uncaught exception (C16_sequence_order_throws, C16_network_order_throws). Proved: no call fails for fragments of any well-formed stream whatever the user does, and the delivery loop ends for every input."
  },
  {
   "property": "C17",
   "status": "proved",
   "theorems": [
    "Rtmfp.C17_ack_exact"
   ],
   "note": "every receive history (any chunks) and every packet below 64 KiB; the appended bytes are parsed with the packet parser and decoded with the sender's decoder."
  },
  {
   "property": "C18",
   "status": "proved",
   "theorems": [
    "Rtmfp.C18_truncated_subset",
    "Rtmfp.C18_refused_leaves_packet",
    "Rtmfp.C18_fits_in_60_bytes"
   ],
   "note": "every receive history and every amount of room; also: a refused acknowledgement leaves the packet unchanged, and 60 free bytes are always enough."
  },
  {
   "property": "C19",
   "status": "proved",
   "theorems": [
    "Rtmfp.C19_justified",
    "Rtmfp.C19_monotone"
   ],
   "note": "arbitrary chunks and calls; executions in which an exception is thrown (see C16) end there."
  },
  {
   "property": "C20",
   "status": "proved",
   "theorems": [
    "Rtmfp.C20_forward_never_skips",
    "Rtmfp.C20_forward_below_live"
   ],
   "note": "all histories of any number of flows of a session (writes, transmissions, acknowledgements with arbitrary ranges, losses, timeouts, closings). Acknowledgements include those of a dishonest peer. Callbacks that call back into the same flow are not modelled."
  },
  {
   "property": "C21",
   "status": "proved",
   "theorems": [
    "Rtmfp.C21_flow_outstanding",
    "Rtmfp.C21_session_outstanding",
    "Rtmfp.C21_session_fragments",
    "Rtmfp.C21_transmitted_size"
   ],
   "note": "all histories of any number of flows of a session (writes, transmissions, acknowledgements with arbitrary ranges, losses, timeouts, closings); 64-bit counters. A closed flow, which the session has forgotten, keeps its last count. Callbacks that call back into the same flow are not modelled."
  },
  {
   "property": "C22",
   "status": "proved",
   "theorems": [
    "Rtmfp.C22_delivered_arrived",
    "Rtmfp.C22_delivered_reached_user"
   ],
   "note": "all executions of both sides over a network that loses, repeats and reorders (an authenticated one: it doesn't invent packets); any behaviour of the receiving user."
  },
  {
   "property": "C23",
   "status": "proved",
   "theorems": [
    "Rtmfp.C23_window_bounds",
    "Rtmfp.C23_growth",
    "Rtmfp.C23_cut",
    "Rtmfp.C23_one_cut",
    "Rtmfp.C23_timeout"
   ],
   "note": "every history of acknowledgements, losses and timeouts with consistent byte counts below 2^57; tests of times are arbitrary booleans. Bounds, growth, cuts, recovery and timeouts."
  },
  {
   "property": "C24",
   "status": "proved",
   "theorems": [
    "Rtmfp.C24_lifecycle",
    "Rtmfp.C24_closed_stays",
    "Rtmfp.C24_once",
    "Rtmfp.C24_notified",
    "Rtmfp.C24_no_assert",
    "Rtmfp.C24_at_rest",
    "Rtmfp.C24_limit"
   ],
   "note": "all histories of an instance, application calls from inside callbacks included (Model/Instance.lean)"
  },
  {
   "property": "C25",
   "status": "proved",
   "theorems": [
    "Rtmfp.C25_recv_complete_last",
    "Rtmfp.C25_exception_once",
    "Rtmfp.C25_closed_refuses"
   ],
   "note": "receiving side and sending side, every history."
  },
  {
   "property": "C26",
   "status": "partial",
   "theorems": [
    "Rtmfp.C26_three_partial",
    "Rtmfp.C26_only",
    "Rtmfp.C26_timeout",
    "Rtmfp.C26_retransmit",
    "Rtmfp.C26_first",
    "Rtmfp.C26_not_three"
   ],
   "note": "violated as stated: what is counted is packets with acknowledgements, not packets that arrived, so a repeated acknowledgement of one later packet loses a fragment (C26_not_three). C26_three_partial gives the exact rule. Loss happens only so or by a timeout (C26_only, C26_timeout); what is sent again is reliable and not abandoned (C26_retransmit), and is sent before anything newer (C26_first)"
  },
  {
   "property": "C27",
   "status": "proved",
   "theorems": [
    "Rtmfp.C27_samples_true",
    "Rtmfp.C27_sample_taken"
   ],
   "note": "all executions of two hosts with different epochs over a network that loses, duplicates, delays and reorders packets; exact rational time. Samples are characterized for transits below the wrap period of 262 s (beyond it 16 bits can't tell)."
  },
  {
   "property": "C28",
   "status": "proved",
   "theorems": [
    "Rtmfp.C28_signals_exact",
    "Rtmfp.C28_bounds_tight",
    "Rtmfp.C28_report_counts"
   ],
   "note": "every sequence of marks and of delayed or reordered reports within the stated window."
  },
  {
   "property": "C29",
   "status": "proved",
   "theorems": [
    "Rtmfp.C29_accepted",
    "Rtmfp.C29_accepted_iff",
    "Rtmfp.C29_expires",
    "Rtmfp.C29_other_address",
    "Rtmfp.C29_moved",
    "Rtmfp.C29_unforgeable",
    "Rtmfp.C29_mismatch"
   ],
   "note": "any hash function; that forging needs the secret is stated as: acceptance implies the cookie carries the hash of its contents, the address and the secret."
  },
  {
   "property": "C30",
   "status": "proved",
   "theorems": [
    "Rtmfp.C30_report_iff",
    "Rtmfp.C30_not_to_self"
   ],
   "note": "any number of sessions and any clock values, exact rational arithmetic."
  },
  {
   "property": "C31",
   "status": "partial",
   "theorems": [
    "Rtmfp.C31_none_due",
    "Rtmfp.C31_fires",
    "Rtmfp.C31_moved_fires",
    "Rtmfp.C31_earliest",
    "Rtmfp.C31_order_partial",
    "Rtmfp.C31_order_fails",
    "Rtmfp.C31_cancelled",
    "Rtmfp.C31_recurs_later",
    "Rtmfp.C31_recurs",
    "Rtmfp.C31_one_shot",
    "Rtmfp.C31_returns",
    "Rtmfp.C31_wakes"
   ],
   "note": "Integer times; actions do anything but call fireDueTimers and (for their own timer) addTimer. All parts are proved for all executions, except that the order of due times within one call needs the condition that no action schedules a timer for before its own due time: C31_order_partial, and C31_order_fails shows that it is necessary. C31_returns (the call ends) and C31_wakes go beyond the claim."
  },
  {
   "property": "C32",
   "status": "partial",
   "theorems": [
    "Rtmfp.C32_never_aborts",
    "Rtmfp.C32_exactly_once_partial",
    "Rtmfp.C32_flush_partial",
    "Rtmfp.C32_in_time",
    "Rtmfp.C32_timer_serves",
    "Rtmfp.C32_late_iff",
    "Rtmfp.C32_in_order",
    "Rtmfp.C32_no_gap_partial",
    "Rtmfp.C32_closed",
    "Rtmfp.C32_flush_uninitialized",
    "Rtmfp.C32_flush_uninitialized_order",
    "Rtmfp.C32_same_number_lost"
   ],
   "note": "All schedules, proved for distinct sequence numbers below 2^64 - 1, a clock that doesn't go back, callbacks that don't call the buffer, and an initial m_highestSeen other than 2^64 - 1 (C32_no_gap_partial: 0). The member is not initialized: C32_flush_uninitialized and C32_flush_uninitialized_order show what can happen; C32_same_number_lost shows why numbers have to be distinct."
  },
  {
   "property": "C33",
   "status": "proved",
   "theorems": [
    "Rtmfp.C33_round_trip",
    "Rtmfp.C33_round_trip_same",
    "Rtmfp.C33_too_deep",
    "Rtmfp.C33_sequence",
    "Rtmfp.C33_duplicate",
    "Rtmfp.C33_objects",
    "Rtmfp.C33_put_get",
    "Rtmfp.C33_erase_get"
   ],
   "note": "every value tree (any nesting, keys, strings, numbers by their 64 bits). Missing members (null pointers) come back as undefined; values nested deeper than 32 are encoded but not decoded (C33_too_deep). Left out: one object in several places of a tree, cycles, arrays of 2^32 elements (whose encoding would not end)."
  },
  {
   "property": "C34",
   "status": "proved",
   "theorems": [
    "Rtmfp.C34_safe",
    "Rtmfp.C34_safe_sequence",
    "Rtmfp.C34_stable"
   ],
   "note": "arbitrary byte strings."
  },
  {
   "property": "C35",
   "status": "proved",
   "theorems": [
    "Rtmfp.C35_encode_round_trip",
    "Rtmfp.C35_decode_safe",
    "Rtmfp.C35_mapping",
    "Rtmfp.C35_strict_total_order",
    "Rtmfp.C35_encode_injective"
   ],
   "note": "every sequence of calls that makes an address, arbitrary bytes for decoding. Text forms (inet_ntop and getaddrinfo) are not modelled."
  },
  {
   "property": "C36",
   "status": "proved",
   "theorems": [
    "Rtmfp.C36_decode_accepts",
    "Rtmfp.C36_decode_result",
    "Rtmfp.C36_round_trip",
    "Rtmfp.C36_encode_form",
    "Rtmfp.C36_decode_byte"
   ],
   "note": "every byte string, both directions."
  },
  {
   "property": "C37",
   "status": "proved",
   "theorems": [
    "Rtmfp.C37_resolves",
    "Rtmfp.C37_no_dot_segments",
    "Rtmfp.C37_idempotent",
    "Rtmfp.C37_absolute",
    "Rtmfp.C37_merge"
   ],
   "note": "every path: equality with an independent description of resolution, merging with a base path, idempotence. The regular expression that takes a URI apart is not modelled."
  },
  {
   "property": "C38",
   "status": "proved",
   "theorems": [
    "Rtmfp.C38_split",
    "Rtmfp.C38_split_no_separators",
    "Rtmfp.C38_percent_in_bounds",
    "Rtmfp.C38_percent_decode"
   ],
   "note": "every string; reads past the terminator are a distinct outcome shown not to occur."
  },
  {
   "property": "C39",
   "status": "proved",
   "theorems": [
    "Rtmfp.C39_header_round_trip",
    "Rtmfp.C39_header_parse",
    "Rtmfp.C39_metadata_round_trip",
    "Rtmfp.C39_metadata_parse"
   ],
   "note": "every type, timestamp, stream id and payload; parsers characterized on arbitrary bytes."
  },
  {
   "property": "C40",
   "status": "proved",
   "theorems": [
    "Rtmfp.C40_timestamp_order",
    "Rtmfp.C40_trichotomy",
    "Rtmfp.C40_half_way_ambiguous",
    "Rtmfp.C40_diff_congruent"
   ],
   "note": "all pairs of 32-bit timestamps; exactly half way apart each is both before and after the other (C40_half_way_ambiguous), which the claim excludes."
  },
  {
   "property": "C41",
   "status": "proved",
   "theorems": [
    "Rtmfp.C41_round_trip",
    "Rtmfp.C41_in_bounds",
    "Rtmfp.C41_times_meaning",
    "Rtmfp.C41_ticks_exact",
    "Rtmfp.C41_times_near",
    "Rtmfp.C41_message_times"
   ],
   "note": "every message; arbitrary bytes; conversions of times with exact rational arithmetic (rounding of long double is not modelled). Of a dishonest sender the sum of decode time and offset may wrap at 2^64."
  },
  {
   "property": "C42",
   "status": "proved",
   "theorems": [
    "Rtmfp.C42_crc_remainder",
    "Rtmfp.C42_crc_incremental",
    "Rtmfp.C42_burst_le",
    "Rtmfp.C42_burst_be",
    "Rtmfp.C42_cksum_value",
    "Rtmfp.C42_cksum_verifies",
    "Rtmfp.C42_cksum_detects_word",
    "Rtmfp.C42_cksum_odd_not_rfc1071"
   ],
   "note": "arbitrary buffers: incremental computation, all burst errors up to 32 bits, Internet checksum value, verification and single word errors. For odd lengths the last byte is the low half of its word (not as in RFC 1071, C42_cksum_odd_not_rfc1071)."
  },
  {
   "property": "C43",
   "status": "partial",
   "theorems": [
    "Rtmfp.C43_message_round_trip_partial",
    "Rtmfp.C43_message_large_count_wrong",
    "Rtmfp.C43_parse_sound",
    "Rtmfp.C43_reached_iff",
    "Rtmfp.C43_held_iff",
    "Rtmfp.C43_otherwise_unchanged",
    "Rtmfp.C43_network_never_held",
    "Rtmfp.C43_release"
   ],
   "note": "Barriers for every history of calls. Messages: counts below 2^31 round trip, and the parsed count is wrong for larger ones (C43_message_large_count_wrong: sign extension)."
  },
  {
   "property": "C44",
   "status": "proved",
   "theorems": [
    "Rtmfp.C44_no_number_twice",
    "Rtmfp.C44_no_replay"
   ],
   "note": "every history of received datagrams, any primitives; numbers are read from the decrypted packets."
  },
  {
   "property": "C45",
   "status": "proved",
   "theorems": [
    "Rtmfp.C45_round_trip",
    "Rtmfp.C45_any_order",
    "Rtmfp.C45_plain_round_trip"
   ],
   "note": "any primitives with AES decryption inverting encryption and 32-byte MACs; one packet in every mode, and whole sessions with loss and reordering. Also the plain adapter."
  },
  {
   "property": "C46",
   "status": "proved",
   "theorems": [
    "Rtmfp.C46_negotiation",
    "Rtmfp.C46_initiator_never_drops",
    "Rtmfp.C46_responder_never_drops"
   ],
   "note": "an exchange between any two configurations (static or ephemeral keys on either side) run through the option encodings; and for arbitrary received bytes, that acceptance never drops a requirement."
  },
  {
   "property": "C47",
   "status": "proved",
   "theorems": [
    "Rtmfp.C47_keys_agree",
    "Rtmfp.C47_plain_nonces"
   ],
   "note": "the same exchanges, any MAC; Diffie-Hellman is assumed to commute. Also the plain adapter."
  },
  {
   "property": "C48",
   "status": "proved",
   "theorems": [
    "Rtmfp.C48_adapter_selected_iff",
    "Rtmfp.C48_cert_selected_iff",
    "Rtmfp.C48_adapter_and_cert_agree",
    "Rtmfp.C48_canonical_exact",
    "Rtmfp.C48_made_fields",
    "Rtmfp.C48_plain_exact"
   ],
   "note": "arbitrary bytes as discriminators and certificates, described by the options in them; adapters made by init and the certificates parsed from them agree."
  },
  {
   "property": "C49",
   "status": "proved",
   "theorems": [
    "Rtmfp.C49_one_winner",
    "Rtmfp.C49_plain_one_winner"
   ],
   "note": "all pairs of certificates, both adapters."
  },
  {
   "property": "C50",
   "status": "proved",
   "theorems": [
    "Rtmfp.C50_demultiplexed",
    "Rtmfp.C50_reaches_session",
    "Rtmfp.C50_startup",
    "Rtmfp.C50_injective"
   ],
   "note": "all ciphertexts and ids, any byte order of the two hosts."
  },
  {
   "property": "C51",
   "status": "proved",
   "theorems": [
    "Rtmfp.C51_once",
    "Rtmfp.C51_not_used",
    "Rtmfp.C51_prompt",
    "Rtmfp.C51_exact",
    "Rtmfp.C51_members",
    "Rtmfp.C51_comes_to_rest",
    "Rtmfp.C51_pointers",
    "Rtmfp.C51_resurrected"
   ],
   "note": "every history of any number of threads, destructors with arbitrary application code and members included; atomics are sequentially consistent, the count has no bound, and retainers themselves are not accessed by two threads at once. A destructor that makes a retainer for its own object is excluded (C51_resurrected shows that it destroys twice). C51_pointers: a retainer moved to itself is emptied."
  },
  {
   "property": "C52",
   "status": "proved",
   "theorems": [
    "Rtmfp.C52_in_order",
    "Rtmfp.C52_all_run",
    "Rtmfp.C52_skipped",
    "Rtmfp.C52_closed",
    "Rtmfp.C52_soon"
   ],
   "note": "all histories of one thread, including what tasks, actions and timers do; nested run() is not modelled. Tasks of the performer-based adapter are C70."
  },
  {
   "property": "C53",
   "status": "partial",
   "theorems": [
    "Rtmfp.C53_once",
    "Rtmfp.C53_own_response",
    "Rtmfp.C53_unknown_partial",
    "Rtmfp.C53_not_a_number",
    "Rtmfp.C53_close",
    "Rtmfp.C53_end"
   ],
   "note": "histories of fewer than 2^53 events (after that the double transaction counter no longer advances); once, own response, failure for all at close and termination of closing are proved; that unknown ids invoke nothing holds for ids that are numbers (C53_unknown_partial), C53_not_a_number shows that a NaN id answers the first unanswered request"
  },
  {
   "property": "C54",
   "status": "partial",
   "theorems": [
    "Rtmfp.C54_server_period_partial",
    "Rtmfp.C54_peer_period_wrong",
    "Rtmfp.C54_ignored"
   ],
   "note": "The server period is as stated; the peer period is set from the server's field instead of its own (C54_peer_period_wrong)."
  },
  {
   "property": "C55",
   "status": "proved",
   "theorems": [
    "Rtmfp.C55_spacing",
    "Rtmfp.C55_retries",
    "Rtmfp.C55_closed",
    "Rtmfp.C55_load",
    "Rtmfp.C55_safe"
   ],
   "note": "RedirectorClient (Model/Redirector.lean): attempts spaced by at least 5 s and the minimum interval, retried until closed, silent after close, load factor told or a timer pending, no null flow used"
  },
  {
   "property": "C56",
   "status": "partial",
   "theorems": [
    "Rtmfp.C56_priority",
    "Rtmfp.C56_round_robin",
    "Rtmfp.C56_once",
    "Rtmfp.C56_kept",
    "Rtmfp.C56_heard",
    "Rtmfp.C56_wakeup_partial",
    "Rtmfp.C56_waits_in_vain",
    "Rtmfp.C56_unheard"
   ],
   "note": "who is asked and in which order, turns within a priority, at most once per priority, kept until idle and requests heard hold for all histories, including writes scheduled while sessions are asked; that somebody waiting always has a pending notification holds only when sessions that send nothing do not cause writes at higher priorities (C56_wakeup_partial), and C56_waits_in_vain / C56_unheard exhibit histories of the code where it fails"
  },
  {
   "property": "C57",
   "status": "proved",
   "theorems": [
    "Rtmfp.C57_waiting",
    "Rtmfp.C57_no_state",
    "Rtmfp.C57_early"
   ],
   "note": "all packets, in any number and order"
  },
  {
   "property": "C58",
   "status": "proved",
   "theorems": [
    "Rtmfp.C58_data_chunks_round_trip"
   ],
   "note": "any history and any state of the reader; packets below 64 KiB, sequence numbers below 2^64."
  },
  {
   "property": "C59",
   "status": "proved",
   "theorems": [
    "Rtmfp.C59_nonneg",
    "Rtmfp.C59_bounded",
    "Rtmfp.C59_zero_after_two_windows",
    "Rtmfp.C59_recent_positive"
   ],
   "note": "all histories with any clock, exact rational arithmetic."
  },
  {
   "property": "C60",
   "status": "proved",
   "theorems": [
    "Rtmfp.C60_bounds",
    "Rtmfp.C60_sample_restores",
    "Rtmfp.C60_backs_off"
   ],
   "note": "all sequences of non-negative samples and timeouts, exact rational arithmetic."
  },
  {
   "property": "C61",
   "status": "proved",
   "theorems": [
    "Rtmfp.C61_base_is_recent_minimum"
   ],
   "note": "all histories, exact rational arithmetic."
  },
  {
   "property": "C62",
   "status": "proved",
   "theorems": [
    "Rtmfp.C62_only_written",
    "Rtmfp.C62_in_order",
    "Rtmfp.C62_reliable",
    "Rtmfp.C62_all_delivered",
    "Rtmfp.C62_complete_means_all"
   ],
   "note": "composition of the models of the sending side, packets, the parsers and the receiving flow. A flow that is closed may add an empty message at the end, which is only given to the receiving user if the sender's clock goes backward."
  },
  {
   "property": "C63",
   "status": "proved",
   "theorems": [
    "Rtmfp.C63_oldest_first"
   ],
   "note": "all histories; follows from an invariant about the position transmission resumes from."
  },
  {
   "property": "C64",
   "status": "partial",
   "theorems": [
    "Rtmfp.C64_second_answer_loses_secret",
    "Rtmfp.C64_second_answer_partial"
   ],
   "note": "False for the code when the responder's key is static: the second answer makes keys from the erased secret, i.e. from public data alone (C64_second_answer_loses_secret, for all configurations). With an ephemeral responder nothing changes (C64_second_answer_partial). That the answer can be combined twice (src/Session.cpp:1364-1388 tests the state only before and after the work) is an argument in DESIGN.md, not a theorem."
  },
  {
   "property": "C65",
   "status": "partial",
   "theorems": [
    "Rtmfp.C65_rejected_answer_partial",
    "Rtmfp.C65_rejected_answer_counts",
    "Rtmfp.C65_rejected_answer_crashes"
   ],
   "note": "False for the code: requirements in a rejected answer stay in force, so the genuine answer ends in disagreement (C65_rejected_answer_counts) or the next packet uses a missing HMAC context (C65_rejected_answer_crashes). Proved for all answers: no key changes and nothing required before is dropped."
  },
  {
   "property": "C66",
   "status": "proved",
   "theorems": [
    "Rtmfp.C66_round_trip",
    "Rtmfp.C66_equal",
    "Rtmfp.C66_safe",
    "Rtmfp.C66_required"
   ],
   "note": "every description and arbitrary bytes; exact rational arithmetic instead of long double. C66_equal needs ticks of at least 2^-63 seconds."
  },
  {
   "property": "C67",
   "status": "proved",
   "theorems": [
    "Rtmfp.C67_track_order",
    "Rtmfp.C67_stream_track_order"
   ],
   "note": "all tracks."
  },
  {
   "property": "C68",
   "status": "partial",
   "theorems": [
    "Rtmfp.C68_streams",
    "Rtmfp.C68_open",
    "Rtmfp.C68_refused",
    "Rtmfp.C68_closed_partial",
    "Rtmfp.C68_half"
   ],
   "note": "opening, distinct ids, routing and at-most-once opening hold for all histories of fewer than 2^53 events; closing without assertion failure holds unless a stream got the id 0 (C68_closed_partial), C68_half shows that a server answering createStream with 0.5 makes the client abort at close"
  },
  {
   "property": "C69",
   "status": "proved",
   "theorems": [
    "Rtmfp.C69_registered",
    "Rtmfp.C69_one",
    "Rtmfp.C69_ready",
    "Rtmfp.C69_stopped"
   ],
   "note": "select-based run loop; all histories; nested run() is not modelled."
  },
  {
   "property": "C70",
   "status": "partial",
   "theorems": [
    "Rtmfp.C70_in_order",
    "Rtmfp.C70_wakes",
    "Rtmfp.C70_reads",
    "Rtmfp.C70_waits",
    "Rtmfp.C70_started",
    "Rtmfp.C70_never_returns",
    "Rtmfp.C70_waits_forever",
    "Rtmfp.C70_started_closed",
    "Rtmfp.C70_returns_partial"
   ],
   "note": "all interleavings of any number of threads, close called by the loop's thread. Order, at most once, no lost wakeup and returning only after the task hold. That a waiting call always returns holds unless the performer is closed (C70_returns_partial); a task thrown away by closing leaves its caller waiting forever (C70_never_returns, C70_waits_forever), and a waiting call in the loop's own thread starts its task although closed meanwhile (C70_started_closed)"
  },
  {
   "property": "C71",
   "status": "partial",
   "theorems": [
    "Rtmfp.C71_peer_partial",
    "Rtmfp.C71_misdirected"
   ],
   "note": "violated: when a hello finds a session to the same peer already opening, every flow waiting for a session not yet answered is moved to it (C71_misdirected, SendFlow.cpp:285-300). Holds for flows that were not moved (C71_peer_partial)"
  },
  {
   "property": "C72",
   "status": "partial",
   "theorems": [
    "Rtmfp.C72_told",
    "Rtmfp.C72_closed_silent",
    "Rtmfp.C72_rest_partial",
    "Rtmfp.C72_forgotten"
   ],
   "note": "C72_told holds for all histories. Violated in that a flow opened to the same peer from a completion callback while the session is being aborted stays bound to it and is never told (C72_forgotten); C72_rest_partial names that as the only exception"
  },
  {
   "property": "C73",
   "status": "partial",
   "theorems": [
    "Rtmfp.C73_once",
    "Rtmfp.C73_completes",
    "Rtmfp.C73_no_new_partial",
    "Rtmfp.C73_reopens"
   ],
   "note": "reported once and with nothing left (C73_once), always gets there (C73_completes). Violated: shut down from the exception callback of a session being overridden, the completion is reported and then a session opens (C73_reopens); otherwise no new sessions (C73_no_new_partial)"
  },
  {
   "property": "C74",
   "status": "proved",
   "theorems": [
    "Rtmfp.C74_cause"
   ],
   "note": "all histories of an instance, application calls from inside callbacks included"
  },
  {
   "property": "C75",
   "status": "proved",
   "theorems": [
    "Rtmfp.C75_registered"
   ],
   "note": "the registration is read back from the messages by the option parser (C03)"
  },
  {
   "property": "C76",
   "status": "partial",
   "theorems": [
    "Rtmfp.C76_opening_partial",
    "Rtmfp.C76_quiet",
    "Rtmfp.C76_not_first"
   ],
   "note": "false as stated: calls from inside the CONNECTED callback write before the authentications (C76_not_first); proved for callbacks that don't call the client, with the exact messages, and that nothing is written before the connection is open"
  },
  {
   "property": "C77",
   "status": "proved",
   "theorems": [
    "Rtmfp.C77_statuses"
   ],
   "note": "statuses reported form a path of the connection's life; close() isn't reported"
  },
  {
   "property": "C78",
   "status": "proved",
   "theorems": [
    "Rtmfp.C78_no_stall",
    "Rtmfp.C78_served",
    "Rtmfp.C78_burst_alarm",
    "Rtmfp.C78_timeout_alarm",
    "Rtmfp.C78_other_interface",
    "Rtmfp.C78_probes"
   ],
   "note": "sessions (Model/Sess.lean) with all timers: an invariant over all histories says what a flow with data waits for; one theorem per wakeup"
  },
  {
   "property": "C79",
   "status": "proved",
   "theorems": [
    "Rtmfp.C79_turns",
    "Rtmfp.C79_equal"
   ],
   "note": "packets counted in what is sent; any continuation of any history"
  },
  {
   "property": "C80",
   "status": "partial",
   "theorems": [
    "Rtmfp.C80_not_before",
    "Rtmfp.C80_in_time_partial",
    "Rtmfp.C80_ends_partial",
    "Rtmfp.C80_watched",
    "Rtmfp.C80_keepalive",
    "Rtmfp.C80_unnoticed",
    "Rtmfp.C80_postponed"
   ],
   "note": "false as stated: with data waiting for a receiver without room, a timeout leaves no timer set that ends the session, which stays open for ever (C80_unnoticed), and each packet sent postpones the end by a timeout (C80_postponed); proved: never too early, the bound with that postponement if after each timeout something is sent (C80_in_time_partial), that such a session does end, as the postponements are limited by the congestion window (C80_ends_partial), and what watches an open session"
  },
  {
   "property": "C81",
   "status": "proved",
   "theorems": [
    "Rtmfp.C81_remembered",
    "Rtmfp.C81_in_time",
    "Rtmfp.C81_at_once",
    "Rtmfp.C81_sent"
   ],
   "note": "sessions (Model/Sess.lean): an invariant for the acknowledgements owed, carried along any continuation of any history; packets with data counted in what arrived"
  },
  {
   "property": "C82",
   "status": "proved",
   "theorems": [
    "Rtmfp.C82_not_before",
    "Rtmfp.C82_in_time",
    "Rtmfp.C82_watched"
   ],
   "note": "sessions (Model/Sess.lean): both directions of the idle limit, along any continuation of any history"
  },
  {
   "property": "C83",
   "status": "proved",
   "theorems": [
    "Rtmfp.C83_only_where_answered",
    "Rtmfp.C83_needs_secret",
    "Rtmfp.C83_no_replay",
    "Rtmfp.C83_rate",
    "Rtmfp.C83_destination",
    "Rtmfp.C83_follows",
    "Rtmfp.C83_foreign_check"
   ],
   "note": "Model/Mobility.lean: all sessions of an instance with its secret and clock; the hash function is a parameter, what is assumed of it is in the statements; C83_foreign_check: the checks are not bound to a session, one can move by a check sent for another (to the same address)"
  },
  {
   "property": "C84",
   "status": "partial",
   "theorems": [
    "Rtmfp.C84_told_partial",
    "Rtmfp.C84_kept",
    "Rtmfp.C84_one",
    "Rtmfp.C84_only",
    "Rtmfp.C84_again",
    "Rtmfp.C84_closed",
    "Rtmfp.C84_raise_lost"
   ],
   "note": "false as stated: raising the capacity with setBufferCapacity wakes nobody (C84_raise_lost: an execution after which, whatever else happens, the flow stays writable and its user is never told); proved when the capacity is never raised (C84_told_partial). The other parts hold for all histories"
  },
  {
   "property": "C85",
   "status": "proved",
   "theorems": [
    "Rtmfp.C85_created",
    "Rtmfp.C85_started",
    "Rtmfp.C85_buffered",
    "Rtmfp.C85_buffered_none",
    "Rtmfp.C85_unstarted",
    "Rtmfp.C85_unstarted_none"
   ],
   "note": "all histories of the sending side of a session"
  },
  {
   "property": "C86",
   "status": "proved",
   "theorems": [
    "Rtmfp.C86_json",
    "Rtmfp.C86_whole",
    "Rtmfp.C86_same_text",
    "Rtmfp.C86_utf8",
    "Rtmfp.C86_line",
    "Rtmfp.C86_repr"
   ],
   "note": "Model/Json.lean against an independent reader of RFC 8259 (Spec/Json.lean). Arithmetic on fractions is exact (in the code remainders are rounded to double); what log10l and powl yield for numbers from 2^64 or below 0.0001 is a parameter, of which ShiftOk (from 1 to 10) is assumed, so accuracy there is relative to it. Fifteen digits don't tell all doubles apart (C86_same_text)."
  },
  {
   "property": "C87",
   "status": "partial",
   "theorems": [
    "Rtmfp.C87_in_force",
    "Rtmfp.C87_one",
    "Rtmfp.C87_ready",
    "Rtmfp.C87_asked",
    "Rtmfp.C87_heard_partial",
    "Rtmfp.C87_safe",
    "Rtmfp.C87_wild",
    "Rtmfp.C87_unwatched",
    "Rtmfp.C87_hangup",
    "Rtmfp.C87_cleared"
   ],
   "note": "false as stated in one respect: of what the kernel finds, a hang-up alone (the reading end of a pipe after its writers are gone) is not looked at, so that the action for reading is not called though reading would not block, turn after turn (C87_hangup, for every history); what else is found is heard (C87_heard_partial). The other parts hold for all histories; C87_wild and C87_unwatched show that unregistering before closing is needed. The interest list of the kernel is modelled after epoll(7)"
  },
  {
   "property": "C88",
   "status": "proved",
   "theorems": [
    "Rtmfp.C88_understood",
    "Rtmfp.C88_hello",
    "Rtmfp.C88_answer",
    "Rtmfp.C88_redirect",
    "Rtmfp.C88_keying",
    "Rtmfp.C88_keyed",
    "Rtmfp.C88_cookie_change",
    "Rtmfp.C88_once",
    "Rtmfp.C88_whom",
    "Rtmfp.C88_forwarded",
    "Rtmfp.C88_asked",
    "Rtmfp.C88_answered",
    "Rtmfp.C88_introduced",
    "Rtmfp.C88_cookie"
   ],
   "note": "Model/Startup.lean against the wire formats of RFC 7016 (Spec/Startup.lean). Packets are joined at the plaintext (encryption: C38 and others); margins up to 32 bytes; the crypto adapter, the hash and the signature are parameters; what sessions do with the calls is in Model/Instance.lean. Messages that have no room are never sent and nothing tells the user (the none cases)"
  },
  {
   "property": "C89",
   "status": "partial",
   "theorems": [
    "Rtmfp.C89_round_trip",
    "Rtmfp.C89_round_trip_bare",
    "Rtmfp.C89_accepted_bare",
    "Rtmfp.C89_injective",
    "Rtmfp.C89_accepted_partial",
    "Rtmfp.C89_port_wraps",
    "Rtmfp.C89_rest_ignored",
    "Rtmfp.C89_made"
   ],
   "note": "False for the code in one respect: numbers that are no port are accepted and cut to 16 bits (C89_port_wraps), and so is anything after the number (C89_rest_ignored). Exactly what is accepted, and that what is refused changes nothing, is C89_accepted_partial and C89_accepted_bare. The round trips and C89_injective hold for all addresses. inet_ntop and inet_pton are parameters (Net.Ok: inverse to each other, the usual characters and lengths); sscanf is modelled for the four formats used, as glibc does it for numbers out of range"
  },
  {
   "property": "C90",
   "status": "partial",
   "theorems": [
    "Rtmfp.C90_received_partial",
    "Rtmfp.C90_heard",
    "Rtmfp.C90_only",
    "Rtmfp.C90_told_partial",
    "Rtmfp.C90_burst",
    "Rtmfp.C90_write",
    "Rtmfp.C90_descriptors",
    "Rtmfp.C90_closed_partial",
    "Rtmfp.C90_stray",
    "Rtmfp.C90_lost",
    "Rtmfp.C90_after_close",
    "Rtmfp.C90_tasks_partial",
    "Rtmfp.C90_destroyed"
   ],
   "note": "False for the code in four respects, each with a witness: closed while a packet is being delivered, the adapter goes on reading from the number of the closed socket (C90_stray); a callback asked for while another is being called is forgotten if that one answers no (C90_lost); a callback that closes the adapter and answers yes is called again (C90_after_close); a PerformerPosixPlatformAdapter that is destroyed without close() still runs its tasks (C90_destroyed). Everything else holds for all histories; the _partial theorems exclude exactly those cases. Order and number of the tasks: C52 and C70"
  },
  {
   "property": "C91",
   "status": "partial",
   "theorems": [
    "Rtmfp.C91_prefix",
    "Rtmfp.C91_received_partial",
    "Rtmfp.C91_violation",
    "Rtmfp.C91_after_close",
    "Rtmfp.C91_unclosed",
    "Rtmfp.C91_shutdown"
   ],
   "note": "False for the code in three respects, each with a witness: frames after a Close are still delivered (C91_after_close), the connection isn't ended when the Close has been answered (C91_unclosed: however long one waits), and what arrives after shutdown() depends on the cuts (C91_shutdown). Never anything else than the beginning of what the frames say: C91_prefix, for all histories and applications whose stream has nothing after a Close. Exactly it: C91_received_partial, for applications that don't close or shut down. Rules broken or longer than 16 MB: C91_violation"
  },
  {
   "property": "C92",
   "status": "partial",
   "theorems": [
    "Rtmfp.C92_order",
    "Rtmfp.C92_written_partial",
    "Rtmfp.C92_heard",
    "Rtmfp.C92_end",
    "Rtmfp.C92_shutdown",
    "Rtmfp.C92_crossing"
   ],
   "note": "False for the code in one respect, with a witness: a message and the Close that wait to be written when the peer's own Close arrives are never written (C92_crossing). Order and nothing else (C92_order), what the peer hears (C92_heard), the end (C92_end) and shutdown() (C92_shutdown) hold for all applications and histories; that everything gets written: C92_written_partial, unless the connection has ended before the stream could be written to"
  },
  {
   "property": "C93",
   "status": "proved",
   "theorems": [
    "Rtmfp.C93_only",
    "Rtmfp.C93_opened_iff",
    "Rtmfp.C93_answered",
    "Rtmfp.C93_answer_injective"
   ],
   "note": "requests without body, made of a start line of three parts and valid header fields (RFC 7230, without obsolete line folding), of less than 2^64 bytes. SHA-1 is a parameter. What the code doesn't look at (Host, the version of HTTP, the length of the key) is not in the specification of a request either; Connection is only searched for the letters of upgrade"
  },
  {
   "property": "C94",
   "status": "proved",
   "theorems": [
    "Rtmfp.C94_prefix",
    "Rtmfp.C94_heard",
    "Rtmfp.C94_exactly",
    "Rtmfp.C94_accepted",
    "Rtmfp.C94_refused",
    "Rtmfp.C94_version",
    "Rtmfp.C94_bounded",
    "Rtmfp.C94_early"
   ],
   "note": "histories that begin with init(). Chunk stream ids of 64 and more least significant byte first, as everybody does it and not as the document says. In the completeness theorems: nothing undefined has happened (see the defects of C95 for when it does), the application has neither closed nor paused. What is said by acknowledgements, window sizes and peer bandwidths has no meaning for what is delivered"
  },
  {
   "property": "C95",
   "status": "partial",
   "theorems": [
    "Rtmfp.C95_wire",
    "Rtmfp.C95_order",
    "Rtmfp.C95_written",
    "Rtmfp.C95_once",
    "Rtmfp.C95_told",
    "Rtmfp.C95_over",
    "Rtmfp.C95_flushed",
    "Rtmfp.C95_graceful",
    "Rtmfp.C95_sends_partial",
    "Rtmfp.C95_closes",
    "Rtmfp.C95_calm_partial",
    "Rtmfp.C95_moved",
    "Rtmfp.C95_endless",
    "Rtmfp.C95_emptied",
    "Rtmfp.C95_stalled"
   ],
   "note": "False for the code in four respects, each with a witness: when the other side raises its limit nothing asks for the stream, and what was written waits for something else to happen (C95_stalled); an application that writes in the onFinished of an abandoned message has the list moved away under trimSendQueues (C95_moved) or never gets out of it (C95_endless), and one that closes there has it emptied (C95_emptied). What is said on the wire (C95_wire), order, content, receipts, the end (C95_order, C95_written, C95_once, C95_told, C95_over), when it stops asking for the stream (C95_flushed, C95_graceful) hold without restriction on the application; that everything is sent, once it asks for the stream, and with limits of at least 2^32 is C95_sends_partial and C95_closes; that nothing undefined is done by an application that neither writes nor closes when told that a message was abandoned is C95_calm_partial."
  },
  {
   "property": "C96",
   "status": "proved",
   "theorems": [
    "Rtmfp.C96_prefix",
    "Rtmfp.C96_accepted",
    "Rtmfp.C96_all",
    "Rtmfp.C96_delivered",
    "Rtmfp.C96_single"
   ],
   "note": "composition of C94 and C95. To be delivered everything: the receiving application has neither closed nor paused, and nothing undefined has happened there (C95_calm_partial says when it can't)"
  },
  {
   "property": "C97",
   "status": "partial",
   "theorems": [
    "Rtmfp.C97_right",
    "Rtmfp.C97_silent",
    "Rtmfp.C97_sent",
    "Rtmfp.C97_received",
    "Rtmfp.C97_flushed_partial",
    "Rtmfp.C97_shut",
    "Rtmfp.C97_ended",
    "Rtmfp.C97_told",
    "Rtmfp.C97_why",
    "Rtmfp.C97_bounded",
    "Rtmfp.C97_asked",
    "Rtmfp.C97_given",
    "Rtmfp.C97_detached",
    "Rtmfp.C97_cut",
    "Rtmfp.C97_moved",
    "Rtmfp.C97_unclosed",
    "Rtmfp.C97_forgotten",
    "Rtmfp.C97_endless"
   ],
   "note": "False for the code in five respects, each with a witness: bytes arriving after the client left close the socket with output waiting (C97_cut); output waiting is never sent after moving to another run loop (C97_moved); the socket of a client that never read is never closed (C97_unclosed); a callback given from inside of the old one is forgotten if that answers no (C97_forgotten); a callback that closes the adapter and always has more is called without end (C97_endless)"
  },
  {
   "property": "C98",
   "status": "partial",
   "theorems": [
    "Rtmfp.C98_codec",
    "Rtmfp.C98_heard",
    "Rtmfp.C98_delivered",
    "Rtmfp.C98_waiting",
    "Rtmfp.C98_once",
    "Rtmfp.C98_complete_partial",
    "Rtmfp.C98_numbers",
    "Rtmfp.C98_size",
    "Rtmfp.C98_held",
    "Rtmfp.C98_one_at_a_time",
    "Rtmfp.C98_cut"
   ],
   "note": "False for the code in one respect, with a witness: when the connection ends between the arrival of a message and its deferred delivery, the reader is told that the flow is complete and never given the message (C98_cut). C98_complete_partial: until the connection is closed. All else for all histories"
  },
  {
   "property": "C99",
   "status": "partial",
   "theorems": [
    "Rtmfp.C99_said",
    "Rtmfp.C99_settled",
    "Rtmfp.C99_framed",
    "Rtmfp.C99_closed",
    "Rtmfp.C99_both",
    "Rtmfp.C99_all",
    "Rtmfp.C99_complete_partial",
    "Rtmfp.C99_forgotten",
    "Rtmfp.C99_wild",
    "Rtmfp.C99_stall"
   ],
   "note": "False for the code in three respects, each with a witness: messages waiting in a flow that its writer closed are never settled when the connection is closed (C99_forgotten); a write to the flow or a close of the connection from the onFinished of an abandoned message changes the list under trimSendBuffer (C99_wild); with a limit on the bytes in flight below the smallest acknowledgement window both ends come to rest with a message unsent (C99_stall). What is said (C99_said), order (C99_settled), the frame (C99_framed) and what the other end has (C99_both, C99_all) hold for all histories; C99_complete_partial while the reader's connection isn't closed. Not proved: that with a sufficient limit everything is sent in the end"
  },
  {
   "property": "C100",
   "status": "partial",
   "theorems": [
    "Rtmfp.C100_rest_partial",
    "Rtmfp.C100_turn_partial",
    "Rtmfp.C100_given_up"
   ],
   "note": "Both theorems are for histories in which trimSendBuffer doesn't run by itself later (it asks for no transmission: C100_given_up shows the property false then) and outstandingThresh is raised only while a transmission is asked for, as measureRTT does. That the bytes in flight come down again is up to the other end (see C99_stall)."
  },
  {
   "property": "C101",
   "status": "proved",
   "theorems": [
    "Rtmfp.C101_never_more",
    "Rtmfp.C101_due",
    "Rtmfp.C101_flush",
    "Rtmfp.C101_in_flight",
    "Rtmfp.C101_no_stall",
    "Rtmfp.C101_all_said",
    "Rtmfp.C101_carried",
    "Rtmfp.C101_delivered",
    "Rtmfp.C101_ended",
    "Rtmfp.C101_whole"
   ],
   "note": "numbers on the wire are below 2^64 (sayable), as in the code. That both ends come to rest is not claimed; the conditions of C101_no_stall and C101_all_said on the history are those of C100; C101_carried, C101_delivered, C101_ended, C101_all_said and C101_whole are about flows whose number no other flow of their end has had, as the statement says, since numbers are taken again after a flow is closed; that the other end then has one receiving flow with it is proved (met_once)"
  }
 ]
}
