{
 "claims": [
  {
   "property": "C01",
   "status": "proved",
   "theorems": [
    "Flare.C01_reachable_ok",
    "Flare.C01_set_then_get",
    "Flare.C01_persists",
    "Flare.C01_read_your_write",
    "Flare.C01_incr_then_get"
   ],
   "note": "All set-like commands and incr/decr; any calls on any keys in between."
  },
  {
   "property": "C02",
   "status": "proved",
   "theorems": [
    "Flare.C02_other_keys"
   ],
   "note": ""
  },
  {
   "property": "C03",
   "status": "proved",
   "theorems": [
    "Flare.C03_step",
    "Flare.C03_history",
    "Flare.C03_increasing",
    "Flare.C03_few_keys_kept",
    "Flare.C03_forgotten_restarts"
   ],
   "note": "From the empty store the n-th STORED answer of a key carries version n, under the stated conditions; C03_forgotten_restarts shows the cache condition is needed."
  },
  {
   "property": "C04",
   "status": "proved",
   "theorems": [
    "Flare.C04_cas_visible",
    "Flare.C04_cas_absent",
    "Flare.C04_cas_held",
    "Flare.C04_cas_refused",
    "Flare.C04_single_winner",
    "Flare.C04_single_winner_history"
   ],
   "note": ""
  },
  {
   "property": "C05",
   "status": "proved",
   "theorems": [
    "Flare.C05_get",
    "Flare.C05_incr",
    "Flare.C05_conditional",
    "Flare.C05_cas_add_delete"
   ],
   "note": ""
  },
  {
   "property": "C06",
   "status": "proved",
   "theorems": [
    "Flare.C06_set",
    "Flare.C06_add",
    "Flare.C06_replace",
    "Flare.C06_append_prepend",
    "Flare.C06_touch",
    "Flare.C06_refused_unchanged"
   ],
   "note": ""
  },
  {
   "property": "C07",
   "status": "proved",
   "theorems": [
    "Flare.C07_incr_decr",
    "Flare.C07_result_is_number",
    "Flare.C07_absent"
   ],
   "note": ""
  },
  {
   "property": "C08",
   "status": "proved",
   "theorems": [
    "Flare.C08_deleted_iff",
    "Flare.C08_absent_afterwards",
    "Flare.C08_stale",
    "Flare.C08_refused_unchanged"
   ],
   "note": ""
  },
  {
   "property": "C09",
   "status": "proved",
   "theorems": [
    "Flare.C09_blocks",
    "Flare.C09_hold"
   ],
   "note": ""
  },
  {
   "property": "C10",
   "status": "proved",
   "theorems": [
    "Flare.C10_stale_set",
    "Flare.C10_newer_set",
    "Flare.C10_stale_dump",
    "Flare.C10_dump_after_delete",
    "Flare.C10_stale_set_after_delete_resurrects"
   ],
   "note": "C10_stale_set_after_delete_resurrects: outside the claim, a plain replicated set is not checked against the deletion cache."
  },
  {
   "property": "C11",
   "status": "partial",
   "theorems": [
    "Flare.C11_replica_equal_partial",
    "Flare.C11_late_touch",
    "Flare.C11_clock_skew",
    "Flare.C11_flush_not_replicated"
   ],
   "note": "Equality of all visible contents at every later time, for histories of all write commands with arbitrary lag, reads at both ends, through the bytes of the text protocol. Missing: a touch must arrive before the old expiry (C11_late_touch shows the replica loses the key otherwise), a slave clock that is not behind (C11_clock_skew), and flush_all, which is not replicated (C11_flush_not_replicated)."
  },
  {
   "property": "C12",
   "status": "partial",
   "theorems": [
    "Flare.C12_replica_rebuilt_partial",
    "Flare.C12_replica_built_partial",
    "Flare.C12_growing",
    "Flare.C12_touch_overtakes_dump",
    "Flare.C12_leftover",
    "Flare.C12_forgotten_deletion"
   ],
   "note": "Every interleaving of copies and dumped records, duplicates and losses of dumped records included, clocks unrelated; for keys not touched meanwhile. The replica may be anything that is older, and records of others may arrive as long as they are older (C12_replica_rebuilt_partial). The conditions are needed: C12_touch_overtakes_dump, C12_leftover; the cache condition too: C12_forgotten_deletion."
  },
  {
   "property": "C13",
   "status": "proved",
   "theorems": [
    "Flare.C13_all_absent",
    "Flare.C13_starts_again"
   ],
   "note": ""
  },
  {
   "property": "C14",
   "status": "proved",
   "theorems": [
    "Flare.C14_other_version",
    "Flare.C14_history",
    "Flare.C14_same_version_destroyed"
   ],
   "note": "C14_same_version_destroyed shows that the condition 'another version' is needed."
  },
  {
   "property": "C15",
   "status": "partial",
   "theorems": [
    "Flare.C15_slot",
    "Flare.C15_slot_negative",
    "Flare.C15_ordered_partial",
    "Flare.C15_progress_partial",
    "Flare.C15_completes_partial",
    "Flare.C15_exclusive_partial",
    "Flare.C15_tcb_waits_for_itself",
    "Flare.C15_tcb_blocks_iteration"
   ],
   "note": "Proved for any number of threads, slots and commands of storage_tch and storage_kch (and storage_tcb except one path), under both policies for waiting writers: ordered acquisition, progress in every reachable state, completion with nothing left locked, and exclusive access per lock. Missing: storage_tcb::incr of an expired key violates the order and blocks itself (C15_tcb_waits_for_itself, C15_tcb_blocks_iteration); exceptions other than the int ones thrown by the code (e.g. bad_alloc) are not modelled."
  },
  {
   "property": "C16",
   "status": "proved",
   "theorems": [
    "Flare.C16_at_most_one",
    "Flare.C16_end_between",
    "Flare.C16_refusals"
   ],
   "note": ""
  },
  {
   "property": "C17",
   "status": "partial",
   "theorems": [
    "Flare.C17_nonneg_partial",
    "Flare.C17_negative",
    "Flare.C17_simple",
    "Flare.C17_nul"
   ],
   "note": "Non-negative for every algorithm and key except the raw value -2^31, which an ordinary bitshift key reaches (C17_negative): the code violates the claim there."
  },
  {
   "property": "C18",
   "status": "proved",
   "theorems": [
    "Flare.C18_in_range",
    "Flare.C18_min_value",
    "Flare.C18_undefined"
   ],
   "note": "Every configuration with hint>=1, virtual size>=1; the three undefined cases (C18_undefined) and the harmless minimum value are proved separately."
  },
  {
   "property": "C19",
   "status": "proved",
   "theorems": [
    "Flare.C19_minimal_movement"
   ],
   "note": "All sizes at or beyond the hint."
  },
  {
   "property": "C20",
   "status": "partial",
   "theorems": [
    "Flare.C20_one_master_partial",
    "Flare.C20_split_brain"
   ],
   "note": "Holds in every history without the commands that lose a partition (Loses) and without commands between a failed save and the next reload; false without that: C20_split_brain is a 21-command history with two active masters of one partition."
  },
  {
   "property": "C21",
   "status": "partial",
   "theorems": [
    "Flare.C21_consistent_partial",
    "Flare.C21_orphan_slave"
   ],
   "note": "Holds in every history without the commands that lose a partition (Loses) and without commands between a failed save and the next reload; C21_orphan_slave shows a slave without master otherwise."
  },
  {
   "property": "C22",
   "status": "partial",
   "theorems": [
    "Flare.C22_failover_partial",
    "Flare.C22_failed_save_promotes_proxy"
   ],
   "note": "Holds in every history without the commands that lose a partition (Loses) and without commands between a failed save and the next reload; C22_failed_save_promotes_proxy shows the failed-save case."
  },
  {
   "property": "C23",
   "status": "partial",
   "theorems": [
    "Flare.C23_partitions_stay_partial",
    "Flare.C23_partition_lost"
   ],
   "note": "Holds in every history without the commands that lose a partition (Loses) and without commands between a failed save and the next reload; C23_partition_lost is the counterexample."
  },
  {
   "property": "C24",
   "status": "partial",
   "theorems": [
    "Flare.C24_version_step",
    "Flare.C24_messages",
    "Flare.C24_stale_ignored",
    "Flare.C24_newest_wins",
    "Flare.C24_version_read_race",
    "Flare.C24_startup_version_zero"
   ],
   "note": "Version steps, messages and delivery in any order for every history, with each message taken atomically; C24_version_read_race shows what happens when map and version are read at different times, C24_startup_version_zero the start of a node. (No _partial suffix: each theorem is complete for what it states.)"
  },
  {
   "property": "C25",
   "status": "proved",
   "theorems": [
    "Flare.C25_accepted",
    "Flare.C25_down_negative",
    "Flare.C25_index_tables_partial",
    "Flare.C25_node_tables"
   ],
   "note": "C25_accepted is for every node map with the stated condition (needed, C25_down_negative); the reachable-state version is for orderly histories."
  },
  {
   "property": "C26",
   "status": "partial",
   "theorems": [
    "Flare.C26_rejected_unchanged_partial",
    "Flare.C26_failed_save_stays",
    "Flare.C26_obeyed",
    "Flare.C26_kept"
   ],
   "note": "Holds in every history without the commands that lose a partition (Loses) and without commands between a failed save and the next reload; C26_failed_save_stays: a refused command changes the map in memory when storing fails. C26_obeyed and C26_kept: in every state a command answered with OK has been carried out and stored."
  },
  {
   "property": "C27",
   "status": "partial",
   "theorems": [
    "Flare.C27_restart_text_partial",
    "Flare.C27_works_text_partial",
    "Flare.C27_restart_same_partial",
    "Flare.C27_restart_works_partial"
   ],
   "note": "For orderly histories (those in which no command meets a failed save or a lost partition); with the text that is stored (Model/Archive) as well as with the stored values."
  },
  {
   "property": "C28",
   "status": "partial",
   "theorems": [
    "Flare.C28_old_or_new_partial",
    "Flare.C28_lost",
    "Flare.C28_rename_fails",
    "Flare.C28_disk_full",
    "Flare.C28_history_partial"
   ],
   "note": "Old or new state for a crash at every point but one, and over all histories of saves, failures and crashes never a part of a state. Fails between unlink and rename (C28_lost, C28_rename_fails) and when the disk is full (C28_disk_full)."
  },
  {
   "property": "C29",
   "status": "partial",
   "theorems": [
    "Flare.C29_decision",
    "Flare.C29_no_partition",
    "Flare.C29_agreement",
    "Flare.C29_known_target",
    "Flare.C29_stale_map_loses_write"
   ],
   "note": "C29_decision is exact for every consistent map, request and node; C29_agreement says how the nodes come to agree. While maps differ the claim fails: C29_stale_map_loses_write."
  },
  {
   "property": "C30",
   "status": "partial",
   "theorems": [
    "Flare.C30_target",
    "Flare.C30_proportional",
    "Flare.C30_one_hop_partial"
   ],
   "note": "Exact for every consistent map, node and random number, with the shares of the nodes. The one-hop claim needs agreeing maps; C31_loop has a read that never arrives."
  },
  {
   "property": "C31",
   "status": "partial",
   "theorems": [
    "Flare.C31_bounded_partial",
    "Flare.C31_copies_bounded",
    "Flare.C31_loop"
   ],
   "note": "At most three hops with agreeing maps; with any maps no node copies a write more than twice along a path. Plain forwarding can go on for ever: C31_loop."
  },
  {
   "property": "C32",
   "status": "proved",
   "theorems": [
    "Flare.C32_copies",
    "Flare.C32_exactly_once"
   ],
   "note": "One node with any consistent map and queues that may be full (C32_copies), and the whole spread of a client's write over agreeing nodes with room in all queues (C32_exactly_once)."
  },
  {
   "property": "C33",
   "status": "partial",
   "theorems": [
    "Flare.C33_fifo_partial",
    "Flare.C33_order_partial",
    "Flare.C33_one_writer",
    "Flare.C33_overtaken",
    "Flare.C33_new_sender",
    "Flare.C33_sets_converge",
    "Flare.C33_any_order"
   ],
   "note": "For all histories of client threads and senders with a fixed set of senders, the copies of a key pass through one queue and are sent in the order they were enqueued, and in the order of execution if no two threads are between execution and enqueueing of the key at the same time (in particular if one thread writes it). Without that the order is lost: C33_overtaken, C33_new_sender. Versioned sets converge in any order."
  },
  {
   "property": "C34",
   "status": "proved",
   "theorems": [
    "Flare.C34_answer",
    "Flare.C34_dump",
    "Flare.C34_response_fits"
   ],
   "note": "Byte-exact round trip for every answer type and for whole dumps, any values, keys without blank/newline/NUL shorter than the buffer; also that the buffer suffices."
  },
  {
   "property": "C35",
   "status": "proved",
   "theorems": [
    "Flare.C35_forwarded_writes",
    "Flare.C35_store_unchanged",
    "Flare.C35_request_fits",
    "Flare.C35_key_injection"
   ],
   "note": "Any sequence of forwarded writes over one connection, plain keys and node names; C35_key_injection shows that keys of the binary protocol with line ends break it."
  },
  {
   "property": "C36",
   "status": "partial",
   "theorems": [
    "Flare.C36_next_word",
    "Flare.C36_next_digit",
    "Flare.C36_next_digit_token_partial",
    "Flare.C36_request_overflow"
   ],
   "note": "next_word is in bounds for every input; next_digit is out of bounds in exactly the case of C36_next_digit, which a client reaches (C36_request_overflow): the code violates the claim there."
  },
  {
   "property": "C37",
   "status": "proved",
   "theorems": [
    "Flare.C37_round_trip",
    "Flare.C37_short_rejected",
    "Flare.C37_write_back"
   ],
   "note": ""
  },
  {
   "property": "C38",
   "status": "proved",
   "theorems": [
    "Flare.C38_fields",
    "Flare.C38_network_order",
    "Flare.C38_new",
    "Flare.C38_get_answer",
    "Flare.C38_quiet"
   ],
   "note": "Fields, byte order, size; also the exact bytes of the answer to a get. Opaque and cas of a request are not sent back by the code, and C38_get_answer says so."
  },
  {
   "property": "C39",
   "status": "partial",
   "theorems": [
    "Flare.C39_framing",
    "Flare.C39_packets",
    "Flare.C39_inside_partial",
    "Flare.C39_round_trip",
    "Flare.C39_reads_outside",
    "Flare.C39_body_becomes_request"
   ],
   "note": "C39_inside_partial characterises exactly the requests that make the server read outside the body; C39_reads_outside and C39_body_becomes_request show that they exist. Well-formed requests: every field arrives (C39_round_trip), however the stream is split (C39_framing, C39_packets)."
  },
  {
   "property": "C40",
   "status": "partial",
   "theorems": [
    "Flare.C40_reads",
    "Flare.C40_split",
    "Flare.C40_request_partial",
    "Flare.C40_forwarded_partial",
    "Flare.C40_lost_byte",
    "Flare.C40_value_becomes_request",
    "Flare.C40_double_cr"
   ],
   "note": "Lines and blocks: every stream, split and sequence of reads. Requests with push_back: whenever the connection is fresh and the line clean; C40_lost_byte, C40_value_becomes_request and C40_double_cr show that the code violates the claim otherwise."
  },
  {
   "property": "C41",
   "status": "proved",
   "theorems": [
    "Flare.C41_round_trip",
    "Flare.C41_standard",
    "Flare.C41_decode_fits",
    "Flare.C41_foreign"
   ],
   "note": ""
  },
  {
   "property": "C42",
   "status": "proved",
   "theorems": [
    "Flare.C42_casts",
    "Flare.C42_options",
    "Flare.C42_compatible"
   ],
   "note": "All casts of storage, cluster, key resolver, cluster replication and op: every value has a name that is cast back to it, nothing else is accepted; options likewise for single options; storage results and op results agree in number and name."
  },
  {
   "property": "C43",
   "status": "partial",
   "theorems": [
    "Flare.C43_woken",
    "Flare.C43_served_partial",
    "Flare.C43_one",
    "Flare.C43_early_return",
    "Flare.C43_preparing_not_awaited",
    "Flare.C43_shutdown_hangs",
    "Flare.C43_exit_unserved",
    "Flare.C43_refused"
   ],
   "note": "No lost wake-up for any number of destinations and any schedule, with a bound on the steps (C43_woken); returns only after the request has been processed if no signal is on its way when the wait begins (C43_served_partial), in particular always with at most one destination (C43_one). False with two destinations (C43_early_return); the preparing master is not waited for (C43_preparing_not_awaited); a sender shut down after dequeueing leaves the owner waiting for ever (C43_shutdown_hangs); an exiting sender wakes it unserved (C43_exit_unserved)."
  },
  {
   "property": "C44",
   "status": "partial",
   "theorems": [
    "Flare.C44_unique_partial",
    "Flare.C44_exclusive",
    "Flare.C44_found",
    "Flare.C44_before_wrap",
    "Flare.C44_pools_collide"
   ],
   "note": "For every history and any number of wrap-arounds: ids in one pool are non-zero and different and find their thread (C44_unique_partial), a thread object is in one place only (C44_exclusive), a free id is found (C44_found), and before the counter wraps the ids of both pools are different (C44_before_wrap). False across the two pools after a wrap-around (C44_pools_collide)."
  },
  {
   "property": "C45",
   "status": "proved",
   "theorems": [
    "Flare.C45_not_early",
    "Flare.C45_every",
    "Flare.C45_up",
    "Flare.C45_bounded",
    "Flare.C45_threshold_zero",
    "Flare.C45_late_signal"
   ],
   "note": "For every history with a positive threshold that is not changed meanwhile: never early (C45_not_early, any threshold), exactly every t-th failure while the map says the node is not down (C45_every), up exactly for a successful check of a node that counts as down (C45_up). C45_threshold_zero and C45_late_signal show what happens with threshold 0 and with a late signal."
  },
  {
   "property": "C46",
   "status": "proved",
   "theorems": [
    "Flare.C46_add_sub",
    "Flare.C46_add_sub_cancel",
    "Flare.C46_is_bigger",
    "Flare.C46_conversions",
    "Flare.C46_observe"
   ],
   "note": "time_t and tv_nsec as unbounded integers"
  },
  {
   "property": "C47",
   "status": "partial",
   "theorems": [
    "Flare.C47_only",
    "Flare.C47_end",
    "Flare.C47_once",
    "Flare.C47_store_partial",
    "Flare.C47_partitions",
    "Flare.C47_nul_key"
   ],
   "note": "All interleavings with other threads: nothing else is sent (C47_only), END only at the end of the iteration (C47_end), an unchanged key exactly once with its record (C47_once); store at rest: exactly the visible records of the partition (C47_store_partial). False for keys with a NUL byte (C47_nul_key). Which keys tchdbiternext returns is an input."
  },
  {
   "property": "C48",
   "status": "partial",
   "theorems": [
    "Flare.C48_end_marker_partial",
    "Flare.C48_cut",
    "Flare.C48_both_ends",
    "Flare.C48_shutdown_activates",
    "Flare.C48_busy",
    "Flare.C48_copied",
    "Flare.C48_refused_record",
    "Flare.C48_ready_when",
    "Flare.C48_master_partial",
    "Flare.C48_early_ready",
    "Flare.C48_stuck"
   ],
   "note": "Without a shutdown request: success only after END, never on a cut stream, and sender plus receiver together end in active exactly if the iteration reached its end. False on a shutdown request, for refused records, and for new masters (early ready, stuck counter), each with a witness or general theorem."
  },
  {
   "property": "C49",
   "status": "partial",
   "theorems": [
    "Flare.C49_own_value_partial",
    "Flare.C49_wrong_value",
    "Flare.C49_overread"
   ],
   "note": "Proved when every key is still visible when it is read; false otherwise (C49_wrong_value, C49_overread)."
  },
  {
   "property": "C50",
   "status": "proved",
   "theorems": [
    "Flare.C50_expiry",
    "Flare.C50_converted_stays"
   ],
   "note": "Clock at least 0 (for C50_converted_stays past January 1970) and not within 30 days of the end of time."
  },
  {
   "property": "C51",
   "status": "proved",
   "theorems": [
    "Flare.C51_even_movement",
    "Flare.C51_total"
   ],
   "note": "Exact number of slots each old partition gives up, and conservation."
  },
  {
   "property": "C53",
   "status": "partial",
   "theorems": [
    "Flare.C53_thread_types_partial",
    "Flare.C53_removed_nodes_promoted"
   ],
   "note": "For orderly histories. Without that restriction it is false: C53_removed_nodes_promoted (after a lost partition the tables still list removed slaves; they come into being by operator[] and become two masters of partition 0 with the same thread type, no command refused). This also shows C22 false for such histories."
  },
  {
   "property": "C54",
   "status": "proved",
   "theorems": [
    "Flare.C54_master_sources",
    "Flare.C54_slave_source",
    "Flare.C54_only_from_proxy"
   ],
   "note": "Threads and their order are not modelled; the list of reconstructions started is."
  },
  {
   "property": "C55",
   "status": "partial",
   "theorems": [
    "Flare.C55_value_size",
    "Flare.C55_size_overflow"
   ],
   "note": "Exact value bytes for every accepted request; C55_size_overflow shows a request line that makes the server copy from a null pointer."
  },
  {
   "property": "C56",
   "status": "partial",
   "theorems": [
    "Flare.C56_amount",
    "Flare.C56_negative_amount"
   ],
   "note": "All unsigned amounts; C56_negative_amount shows that negative ones are taken modulo 2^64."
  },
  {
   "property": "C52",
   "status": "partial",
   "theorems": [
    "Flare.C52_node_key_injective",
    "Flare.C52_node_key_back_partial",
    "Flare.C52_colon",
    "Flare.C52_node_key_sound"
   ],
   "note": "Injective for all names and ports. Name and port come back exactly if the name has no colon (C52_node_key_back_partial); with a colon the name never comes back (C52_colon), e.g. for an IPv6 address."
  },
  {
   "property": "C59",
   "status": "proved",
   "theorems": [
    "Flare.C59_answer",
    "Flare.C59_newline"
   ],
   "note": "For every result and every message without NUL and newline that does not begin with a blank; C59_newline shows what a newline does."
  },
  {
   "property": "C60",
   "status": "proved",
   "theorems": [
    "Flare.C60_sync",
    "Flare.C60_sync_no_version",
    "Flare.C60_add",
    "Flare.C60_role",
    "Flare.C60_state",
    "Flare.C60_unknown_role",
    "Flare.C60_other_word",
    "Flare.C60_state_refused",
    "Flare.C60_role_short"
   ],
   "note": "For every node map and request with host names without blank, newline and NUL that fit the buffers. C60_unknown_role: role and state numbers are not checked by the receiver."
  },
  {
   "property": "C61",
   "status": "proved",
   "theorems": [
    "Flare.C61_meta",
    "Flare.C61_same_partition",
    "Flare.C61_unknown",
    "Flare.C61_no_number",
    "Flare.C61_too_large",
    "Flare.C61_type_missing"
   ],
   "note": "For every value of the five numbers. C61_too_large and C61_type_missing show what other answers do."
  },
  {
   "property": "C57",
   "status": "partial",
   "theorems": [
    "Flare.C57_unlimited",
    "Flare.C57_accounting",
    "Flare.C57_rate_partial",
    "Flare.C57_not_slower_partial",
    "Flare.C57_defined",
    "Flare.C57_clock_set_back",
    "Flare.C57_sleep_truncated",
    "Flare.C57_parts"
   ],
   "note": "Accounting for every sequence of calls, whatever usleep does; the rate bound when no sleep is cut short; never slower than the limit; no overflow for ordinary numbers; the split over partitions. All of it for a clock that does not go back; C57_clock_set_back and C57_sleep_truncated show what happens otherwise."
  },
  {
   "property": "C58",
   "status": "partial",
   "theorems": [
    "Flare.C58_bounded",
    "Flare.C58_at_most_four",
    "Flare.C58_once_partial",
    "Flare.C58_incr_counted",
    "Flare.C58_incr_four_times",
    "Flare.C58_add_wrong_answer",
    "Flare.C58_cas_wrong_answer",
    "Flare.C58_delete_wrong_answer",
    "Flare.C58_append_twice",
    "Flare.C58_set_value",
    "Flare.C58_copy_repeated"
   ],
   "note": "The number of executions is bounded by the number of tries, and at most one if no answer is lost (C58_once_partial). The full claim fails for the code: after a lost answer the write is repeated, and C58_incr_counted, C58_incr_four_times, C58_add_wrong_answer, C58_cas_wrong_answer, C58_delete_wrong_answer and C58_append_twice show what follows. Plain set and copies with a version are not harmed (C58_set_value, C58_copy_repeated)."
  },
  {
   "property": "C62",
   "status": "partial",
   "theorems": [
    "Flare.C62_forwarded_partial",
    "Flare.C62_text",
    "Flare.C62_cas_forwarded",
    "Flare.C62_amount_lost",
    "Flare.C62_copy_stays_at_slave"
   ],
   "note": "C62_forwarded_partial covers every command except conditional binary sets; C62_text goes from the client's bytes to the bytes the receiver reads, for every text request. The full claim fails: C62_cas_forwarded (a binary set with a version is handed on as a plain set with a version), C62_amount_lost (mode forward of the cluster replication loses the amount of incr and decr), C62_copy_stays_at_slave (a copy for another cluster that reaches a slave is executed there only)."
  },
  {
   "property": "C63",
   "status": "partial",
   "theorems": [
    "Flare.C63_own_answer_partial",
    "Flare.C63_refines_partial",
    "Flare.C63_shift",
    "Flare.C63_noreply_error",
    "Flare.C63_late",
    "Flare.C63_noreply_silent",
    "Flare.C63_closed_clean"
   ],
   "note": "Holds as long as no answer comes late and no noreply write is answered with an error; both leave a line unread and shift all later answers (C63_shift, C63_noreply_error, C63_late). Reads on the same connection, and the bytes, are in C97."
  },
  {
   "property": "C64",
   "status": "partial",
   "theorems": [
    "Flare.C64_no_key",
    "Flare.C64_keys",
    "Flare.C64_answers",
    "Flare.C64_repeated",
    "Flare.C64_local",
    "Flare.C64_forwarded",
    "Flare.C64_absent",
    "Flare.C64_unchanged_partial",
    "Flare.C64_failure_is_miss",
    "Flare.C64_mixed",
    "Flare.C64_mixed_answer",
    "Flare.C64_overread",
    "Flare.C64_error_shifts",
    "Flare.C64_late_end",
    "Flare.C64_version_lost",
    "Flare.C64_size_overflow"
   ],
   "note": "Proved: keys of a line (C64_keys), answers for distinct and repeated keys wherever they are read (C64_answers, C64_repeated), local reads against the store (C64_local), forwarded reads that end with a complete answer, are absent, or do not change during the tries (C64_forwarded, C64_absent, C64_unchanged_partial). Missing because the code violates it: mixed values, over-read, failure reported as miss, late END, lost version (C64_mixed, C64_overread, C64_failure_is_miss, C64_late_end, C64_version_lost)."
  },
  {
   "property": "C65",
   "status": "partial",
   "theorems": [
    "Flare.C65_alike",
    "Flare.C65_history",
    "Flare.C65_tcb_stale",
    "Flare.C65_tcb_wrong_key",
    "Flare.C65_kch_sync",
    "Flare.C65_kch_keys",
    "Flare.C65_no_iteration",
    "Flare.C65_large",
    "Flare.C65_tcb_history"
   ],
   "note": "every command except storage_tcb::incr of an expired record, and for storage_kch every command without failing synchronize() and without oversized records, equals storage_tch step by step, hence for histories from the empty store; the exceptions are proved as defects (wrong key removed, error although stored, keys with NUL). Not modelled: tcbdbget3's shared buffer"
  },
  {
   "property": "C66",
   "status": "partial",
   "theorems": [
    "Flare.C66_request",
    "Flare.C66_bad_limit",
    "Flare.C66_search",
    "Flare.C66_answers",
    "Flare.C66_forwarded",
    "Flare.C66_lost",
    "Flare.C66_wrong_prefixes",
    "Flare.C66_truncated",
    "Flare.C66_phantom",
    "Flare.C66_unable_lost",
    "Flare.C66_left_over",
    "Flare.C66_twice",
    "Flare.C66_expired",
    "Flare.C66_partition"
   ],
   "note": "request and answer are read as written, the local search is sound and complete up to the limit, a forwarded search whose first sent request is answered in full brings the keys. Fails (proved): connection lost before or after the first keys, nothing sent, storage without search, expired keys, keys in other partitions"
  },
  {
   "property": "C67",
   "status": "partial",
   "theorems": [
    "Flare.C67_any_order_partial",
    "Flare.C67_last_copy_partial",
    "Flare.C67_comes_back",
    "Flare.C67_resurrected",
    "Flare.C67_old_value",
    "Flare.C67_one_thread",
    "Flare.C67_no_thread"
   ],
   "note": "Proved: C67_any_order_partial (any order, values only, no expiry), C67_last_copy_partial (deletions and expiry, if the last copy of the key arrives last), C67_one_thread. Missing in general: a record of the dump that arrives late brings back deleted or old values (C67_comes_back, C67_resurrected, C67_old_value); touches are not covered; without a thread copies are dropped (C67_no_thread)."
  },
  {
   "property": "C68",
   "status": "partial",
   "theorems": [
    "Flare.C68_one_holder_partial",
    "Flare.C68_no_lost_update_partial",
    "Flare.C68_in_order_partial",
    "Flare.C68_next_gets_it_partial",
    "Flare.C68_watches_next_partial",
    "Flare.C68_printed_width",
    "Flare.C68_names",
    "Flare.C68_expired_holder",
    "Flare.C68_late_write",
    "Flare.C68_no_watch",
    "Flare.C68_numbers_wrap"
   ],
   "note": "Mutual exclusion, order, progress and no lost operation for any number of clients and any interleaving; missing: the session of a holder must not expire, no answer to a write may get lost, below 2^31 numbers. The code breaks each of these: C68_expired_holder, C68_late_write, C68_numbers_wrap."
  },
  {
   "property": "C69",
   "status": "partial",
   "theorems": [
    "Flare.C69_as_one_partial",
    "Flare.C69_one_master_partial",
    "Flare.C69_gap_no_failover",
    "Flare.C69_gap_partition_lost",
    "Flare.C69_gap_at_start",
    "Flare.C69_restore_exact",
    "Flare.C69_restore_torn"
   ],
   "note": "Any number of index servers are simulated by one, for orderly histories and as long as no change falls between a load and the setting of the watch; C69_gap_no_failover and C69_gap_partition_lost show that the code fails otherwise. The lock is taken to work (C68)."
  },
  {
   "property": "C70",
   "status": "partial",
   "theorems": [
    "Flare.C70_kept_partial",
    "Flare.C70_agree_partial",
    "Flare.C70_monotone_partial",
    "Flare.C70_not_copied",
    "Flare.C70_gave_up",
    "Flare.C70_answered",
    "Flare.C70_async",
    "Flare.C70_deleted",
    "Flare.C70_equal_versions",
    "Flare.C70_two_masters",
    "Flare.C70_succession_partial",
    "Flare.C70_unwritten",
    "Flare.C70_slave_behind",
    "Flare.C70_leftover_wins",
    "Flare.C70_dump_too_early"
   ],
   "note": "Proved: with steady roles, queues that take the copies and no copy given up, a write answered STORED after waiting is at every slave and stays there or is replaced by a later one through any later history (C70_kept); the same when masters are lost one after the other and nodes that are new or come back are rebuilt by a dump from the master and take over in turn, if each time the node with the newest value takes over and a node that comes back holds nothing newer than or as new as the master's value (C70_succession); at rest slaves equal the master (C70_agree); versions never go back at any node (C70_monotone). Refuted otherwise: refused or given up copies, asynchronous mode, equal versions after a failover, two masters, overtaking deletions; a slave that missed a copy stays behind after a failover (C70_slave_behind); a node that comes back with a value of the same version keeps it, and wins when it is the master again (C70_leftover_wins); a dump that begins before the master knows of the new slave misses writes for good (C70_dump_too_early). Not covered by the positive part: values that expire; deletions, which C93 adds for the loss of one master."
  },
  {
   "property": "C71",
   "status": "partial",
   "theorems": [
    "Flare.C71_in_step_partial",
    "Flare.C71_own_outcome",
    "Flare.C71_quit",
    "Flare.C71_noreply_answered",
    "Flare.C71_out_of_step",
    "Flare.C71_key_with_blank",
    "Flare.C71_value_as_requests",
    "Flare.C71_end_not_checked",
    "Flare.C71_gat_no_end",
    "Flare.C71_gat_forwarded",
    "Flare.C71_gat_noreply",
    "Flare.C71_cut_value",
    "Flare.C71_refused_line",
    "Flare.C71_effects",
    "Flare.C71_own_told"
   ],
   "note": "Proved for every sequence of well-formed requests and every behaviour of the rest of the node: exactly these are carried out, in order, and the answers read one after the other are those of the requests (C71_in_step_partial); what the own storage returns makes sense (C71_own_outcome); a forwarded gat is read back (C71_gat_forwarded). Refuted: a failed noreply write is answered (C71_noreply_answered, C71_out_of_step); the value behind a refused line is carried out as requests (C71_key_with_blank, C71_value_as_requests); the end of a value is not checked (C71_end_not_checked); gat has no END and waits for the answer to a noreply (C71_gat_no_end, C71_gat_noreply). Not modelled: binary protocol, dump, keys and node commands inside a session, read timeouts."
  },
  {
   "property": "C72",
   "status": "partial",
   "theorems": [
    "Flare.C72_meaning",
    "Flare.C72_in_step_partial",
    "Flare.C72_quit",
    "Flare.C72_cut_off",
    "Flare.C72_tag_lost",
    "Flare.C72_never_quiet",
    "Flare.C72_number_as_text",
    "Flare.C72_unknown_as_noop",
    "Flare.C72_own_outcome",
    "Flare.C72_magic"
   ],
   "note": "Proved for every sequence of requests with lengths that fit, every behaviour of the rest of the node and every place where the connection ends: exactly the accepted requests are carried out, in order; there is exactly one answer for each request, read back by the client as the message meant, also for refused and unknown ones (C72_in_step_partial); for requests built from the protocol description, what is carried out is what they mean, whatever their kind, key, value, flags, expiry, version and amounts (C72_meaning); quit ends the session with an answer (C72_quit); a request cut off has no effect (C72_cut_off); what the own storage returns can be sent (C72_own_outcome). Refuted: tags and versions do not come back (C72_tag_lost), quiet requests are answered (C72_never_quiet), forwarded incr and decr are answered in the text protocol (C72_number_as_text), unknown requests are answered as noop (C72_unknown_as_noop). Not modelled: stat, mixing both protocols on a connection, read timeouts."
  },
  {
   "property": "C73",
   "status": "partial",
   "theorems": [
    "Flare.C73_accepted",
    "Flare.C73_restart_partial",
    "Flare.C73_options",
    "Flare.C73_applied",
    "Flare.C73_refused_kept",
    "Flare.C73_again",
    "Flare.C73_refused_limit",
    "Flare.C73_refused_later",
    "Flare.C73_command_line_lost",
    "Flare.C73_index_on_command_line",
    "Flare.C73_removed_stays",
    "Flare.C73_cluster_replication_off",
    "Flare.C73_no_range",
    "Flare.C73_index_list",
    "Flare.C73_index_left_out",
    "Flare.C73_index_misread",
    "Flare.C73_signal_partial",
    "Flare.C73_signal_lost",
    "Flare.C73_index_server",
    "Flare.C73_index_history",
    "Flare.C73_index_applied_partial",
    "Flare.C73_index_restart_partial",
    "Flare.C73_index_week",
    "Flare.C73_index_command_line_lost",
    "Flare.C73_index_options"
   ],
   "note": "Proved: which files are accepted, that a reload with a complete file is a restart, what the options are after any history of files, that a refused file leaves the running parts alone, that well-formed lists of index servers are read as written, and the index server's reload. Partial because the code violates the rest: a refused file changes the limit of connections at once and other options later, the command line is overridden, an index server on the command line makes every reload fail, removed options keep their value, ranges are not checked, parts of the list of index servers are skipped or misread, a signal during a reload is lost."
  },
  {
   "property": "C74",
   "status": "partial",
   "theorems": [
    "Flare.C74_stream",
    "Flare.C74_row",
    "Flare.C74_mirror_partial",
    "Flare.C74_full_packet",
    "Flare.C74_full_packet_exists",
    "Flare.C74_injection",
    "Flare.C74_delete_all",
    "Flare.C74_quote_stops",
    "Flare.C74_backslash",
    "Flare.C74_nul",
    "Flare.C74_signed_length",
    "Flare.C74_greeting",
    "Flare.C74_silent",
    "Flare.C74_beginning",
    "Flare.C74_beyond",
    "Flare.C74_column",
    "Flare.C74_cells",
    "Flare.C74_columns_joined",
    "Flare.C74_set_names",
    "Flare.C74_hello",
    "Flare.C74_sent",
    "Flare.C74_off",
    "Flare.C74_overtaken",
    "Flare.C74_flush_stays",
    "Flare.C74_welcome",
    "Flare.C74_text_clean",
    "Flare.C74_query_cut"
   ],
   "note": "Proved: a copy with a key without quote, backslash or NUL changes its own row and nothing else, for every value (C74_row); what is sent is read by a MySQL slave as one event per copy, in order, with positions that add up (C74_stream); the table then says what is read at the master, over all histories of writes and reads (C74_mirror_partial); logging in and the known queries work (C74_greeting); sent, lost and waiting copies account for all that are accepted (C74_sent). Partial because the code violates the rest: keys are not escaped (C74_injection, C74_delete_all, C74_quote_stops, C74_backslash, C74_nul), an event of a multiple of 2^24-1 bytes runs into the next (C74_full_packet, C74_full_packet_exists), lengths are read from signed bytes (C74_signed_length), other commands get no answer (C74_silent), beginnings of queries are taken for queries or read behind the packet (C74_beginning, C74_beyond), writes without a slave are never sent and clients can be left waiting (C74_off), overtaken copies leave the older value (C74_overtaken), flush_all is not copied (C74_flush_stays). Dates are a function that can be read back; local time put back by an hour cannot. The slave's side is a model of MySQL after its manual."
  },
  {
   "property": "C75",
   "status": "partial",
   "theorems": [
    "Flare.C75_end_told",
    "Flare.C75_start_told",
    "Flare.C75_started_once_partial",
    "Flare.C75_start_comes",
    "Flare.C75_accounted",
    "Flare.C75_own_entries_partial",
    "Flare.C75_dead_on_stack",
    "Flare.C75_start_missed",
    "Flare.C75_wrong_handler",
    "Flare.C75_given_twice",
    "Flare.C75_stop_awaited",
    "Flare.C75_stop_not_awaited"
   ],
   "note": "For every history in which the thread is shut down and its queue is used only while the handler meant is busy: what is given is started once each, in order (C75_started_once_partial), after at most four steps of the thread (C75_start_comes); threads on the stack are alive and empty; entries are processed by the handler they were meant for (C75_own_entries_partial). For every history: entries are neither lost nor taken twice (C75_accounted); the first shutdown waits for the end (C75_stop_awaited). Refuted otherwise: a kill in the moment the handler returns, or a wait that ends by itself, leaves an ended thread on the stack, and what it is given is never started (C75_dead_on_stack); a late entry is processed by the next handler (C75_wrong_handler); a kill before the handler is there makes two callers share the thread (C75_given_twice); a caller can miss the start (C75_start_missed); after one shutdown nobody waits for the end again (C75_stop_not_awaited). Modelled: one thread of the pool, sequentially consistent memory; not the failure of pthread_create."
  },
  {
   "property": "C76",
   "status": "partial",
   "theorems": [
    "Flare.C76_returned_partial",
    "Flare.C76_closed",
    "Flare.C76_prefix_partial",
    "Flare.C76_whole_partial",
    "Flare.C76_arrives_partial",
    "Flare.C76_room_partial",
    "Flare.C76_too_much",
    "Flare.C76_waits_for_ever",
    "Flare.C76_zero_loses",
    "Flare.C76_zero_skips",
    "Flare.C76_eighth_call"
   ],
   "note": "Partial: the prefix, completeness, end-to-end and room theorems need a kernel that never answers 0 to ::write, and less than 2147475456 bytes kept back. Negations: C76_too_much (a get with many keys overflows the length of the buffer), C76_waits_for_ever (write_timeout never ends a write), C76_zero_loses, C76_zero_skips, C76_eighth_call. Not modelled: statistics, _errno, failures of close."
  },
  {
   "property": "C77",
   "status": "partial",
   "theorems": [
    "Flare.C77_break",
    "Flare.C77_between_requests_partial",
    "Flare.C77_late_value",
    "Flare.C77_value_carried_out",
    "Flare.C77_late_body"
   ],
   "note": "The session with breaks is described completely (C77_break). Holds between requests and within lines (C77_between_requests_partial); fails within values: C77_late_value, C77_value_carried_out and for the binary protocol C77_late_body. The requests left out of the session model (stats, dump, ...) are left out here too."
  },
  {
   "property": "C78",
   "status": "partial",
   "theorems": [
    "Flare.C78_line_partial",
    "Flare.C78_every_line",
    "Flare.C78_session_partial",
    "Flare.C78_history",
    "Flare.C78_one_master",
    "Flare.C78_asked",
    "Flare.C78_told",
    "Flare.C78_failure_told",
    "Flare.C78_answered",
    "Flare.C78_typo_taken",
    "Flare.C78_more_taken",
    "Flare.C78_glued_taken"
   ],
   "note": "Proved: every line of words without NUL and of less than 1024 bytes is taken as its words are meant or refused (C78_line_partial; every such text is such a line, C78_every_line), sessions are the meaning of their lines (C78_session_partial), for any bytes the cluster is the result of the commands carried out and the answers are true (C78_history, C78_told), so that at most one active master per partition is left if the history is orderly (C78_one_master), and the requests of nodes arrive (C78_asked). Missing: node role, stats, verbosity and show accept lines that mean nothing, and a port may run into the state; shown by C78_typo_taken, C78_more_taken and C78_glued_taken."
  },
  {
   "property": "C79",
   "status": "partial",
   "theorems": [
    "Flare.C79_one_memory_partial",
    "Flare.C79_orderly",
    "Flare.C79_clients_partial",
    "Flare.C79_orderly_clients",
    "Flare.C79_flush_undone",
    "Flare.C79_eviction_undone",
    "Flare.C79_hold_lost",
    "Flare.C79_get_torn"
   ],
   "note": "C79_clients_partial goes from the bytes of any number of clients, through their sessions and the interleaved sections of the storage, to one abstract memory (Spec/Memory) that explains all that was told, and to the replies each client reads. C79_one_memory_partial is the storage part. Missing: removals of expired records have to be harmless when they are made; C79_orderly and C79_orderly_clients show that they are on a node that starts empty, with a clock that does not go back, room for all keys in the deletion cache and neither flush_all nor deletions with a hold. That they are not in general is shown by C79_flush_undone, C79_eviction_undone and C79_hold_lost; C79_get_torn shows that a get of several keys is not one request."
  },
  {
   "property": "C80",
   "status": "partial",
   "theorems": [
    "Flare.C80_one_memory_partial",
    "Flare.C80_orderly_partial",
    "Flare.C80_clients_partial",
    "Flare.C80_stale_read",
    "Flare.C80_number",
    "Flare.C80_flush_one_node"
   ],
   "note": "Proved for every cluster whose maps agree and do not change and in which only masters are read from: every request ends, and what the clients are told - also through nodes that hand requests on, byte by byte - is explained by one memory; for nodes that start empty and clocks that do not go back without any condition on the late removals. Missing: changing maps, flush_all and slaves with a balance, for which it is false (C80_flush_one_node, C80_stale_read); connections between nodes that fail."
  },
  {
   "property": "C81",
   "status": "partial",
   "theorems": [
    "Flare.C81_clients_partial",
    "Flare.C81_orderly_clients",
    "Flare.C81_append_version",
    "Flare.C81_delete_version",
    "Flare.C81_version_planted",
    "Flare.C81_add_version",
    "Flare.C81_no_initial"
   ],
   "note": "Proved for any run of the sections of all threads on the shared storage, any number of clients of both protocols, failing storage calls: one memory explains what all are told, and each client reads its answers in its own protocol. Missing: removals of expired records have to be harmless (as in C79); versions with requests other than set, which are not compared for equality (C81_append_version, C81_delete_version, C81_version_planted, C81_add_version show what they do instead); quit and stat; the initial value of a counter is not used (C81_no_initial)."
  },
  {
   "property": "C82",
   "status": "partial",
   "theorems": [
    "Flare.C82_one_fate",
    "Flare.C82_bound",
    "Flare.C82_closed_when_full",
    "Flare.C82_served",
    "Flare.C82_late_place",
    "Flare.C82_node_leaves_none",
    "Flare.C82_index_leaves_some",
    "Flare.C82_descriptors",
    "Flare.C82_descriptors_wrap",
    "Flare.C82_total",
    "Flare.C82_accept_tries",
    "Flare.C82_total_asked",
    "Flare.C82_idle_bound",
    "Flare.C82_one_at_a_time"
   ],
   "note": "Proved: order, one fate for each connection, the bound, why connections are closed, that whoever waits is served if there is room, that a data node serves or closes everybody. Refuted for the index server: a connection whose thread cannot be created is neither served nor closed (C82_index_leaves_some); a place is held longer than its client (C82_late_place); the limit of descriptors wraps (C82_descriptors_wrap). Time-outs and the backlog of the operating system are not modelled."
  },
  {
   "property": "C83",
   "status": "partial",
   "theorems": [
    "Flare.C83_counter",
    "Flare.C83_no_underflow",
    "Flare.C83_limit_partial",
    "Flare.C83_one_queue",
    "Flare.C83_over_limit",
    "Flare.C83_refused",
    "Flare.C83_unlimited"
   ],
   "note": "Proved: the counter is the number of waiting entries, never underflows, a refused call changes nothing, and the limit holds up to one entry for each other queue (exactly with one queue). Refuted beyond that: C83_over_limit."
  },
  {
   "property": "C84",
   "status": "partial",
   "theorems": [
    "Flare.C84_bin_told_partial",
    "Flare.C84_bin_own_storage",
    "Flare.C84_bin_passed_on",
    "Flare.C84_bin_refused",
    "Flare.C84_told_partial",
    "Flare.C84_own_storage",
    "Flare.C84_passed_on",
    "Flare.C84_reads_add_up",
    "Flare.C84_sums",
    "Flare.C84_key_twice"
   ],
   "note": "Proved for sessions of the text protocol whose requests are answered and carried out where they arrive, with different keys in a get, and for sessions of the binary protocol whose writes are carried out where they arrive (C84_bin_told_partial); reads always add up. Requests that are passed on count only as cmd_set (C84_passed_on, C84_bin_passed_on); a key named twice can be sent and counted as missing (C84_key_twice). The counters of bytes are covered by C100; the command keys is not covered."
  },
  {
   "property": "C85",
   "status": "partial",
   "theorems": [
    "Flare.C85_asked",
    "Flare.C85_asked_keys",
    "Flare.C85_accepted",
    "Flare.C85_overflow",
    "Flare.C85_outside",
    "Flare.C85_only",
    "Flare.C85_listed_partial",
    "Flare.C85_cut",
    "Flare.C85_key_ends_list",
    "Flare.C85_expired_listed",
    "Flare.C85_busy"
   ],
   "note": "Proved: requests are read as meant, accepted lines can be meant, only keys of the partition are listed and END arrives only at the end of the iteration, the receiver reads the exact list and does not take a cut list for complete. Partial: for plain keys; a key with CR LF in it (binary protocol) ends the list. Defects: overflow in the check of the partition number, number of partitions larger than the table of the resolver is accepted, keys of expired records are listed."
  },
  {
   "property": "C86",
   "status": "partial",
   "theorems": [
    "Flare.C86_moved_partial",
    "Flare.C86_grown_partial",
    "Flare.C86_deleted_returns",
    "Flare.C86_map_late",
    "Flare.C86_only_new_keys"
   ],
   "note": "Proved for every key about which everything left elsewhere is older than what its master has, whose master knows of the new partition when this begins, which is not touched meanwhile, and whose copies arrive in order (MovesWell). Defects shown where this does not hold: a deleted key comes back from the master it had moved away from before; a write between the dump and the arrival of the node map is lost."
  },
  {
   "property": "C87",
   "status": "partial",
   "theorems": [
    "Flare.C87_inside_first_partial",
    "Flare.C87_one_inside_partial",
    "Flare.C87_front_partial",
    "Flare.C87_next_gets_in_partial",
    "Flare.C87_nothing_left_partial",
    "Flare.C87_one_node_partial",
    "Flare.C87_unlock_for_ever_step",
    "Flare.C87_unlock_for_ever",
    "Flare.C87_wait_for_ever_step",
    "Flare.C87_wait_for_ever",
    "Flare.C87_two_inside",
    "Flare.C87_node_left",
    "Flare.C87_owner_refused",
    "Flare.C87_parent_race",
    "Flare.C87_buffer_read",
    "Flare.C87_expired_leaves_nothing"
   ],
   "note": "In the model of zookeeper_lock.cc call by call (Model/ZkCode), while the two threads of an object are not both inside _lock_internal and fewer than 2^31 numbers are used: who is inside with a live session has the first node, nobody else is inside, front() is not called on an empty list, a waiting thread whose node is first gets in, and an object that is done has left no node if no answer to a creation was lost. Missing: the code does not keep the two threads apart, and then two are inside (C87_two_inside); a lost answer leaves a node for good (C87_node_left); a dead session makes unlock and wait_for_ownership run for ever; an owner is refused after an earlier error; two servers that create the directory at the same time; the buffer of a failed zoo_create is read."
  },
  {
   "property": "C88",
   "status": "partial",
   "theorems": [
    "Flare.C88_session",
    "Flare.C88_joined_partial",
    "Flare.C88_refused",
    "Flare.C88_cut",
    "Flare.C88_taken_partial",
    "Flare.C88_own_partial",
    "Flare.C88_again_partial",
    "Flare.C88_older",
    "Flare.C88_near",
    "Flare.C88_whole_list",
    "Flare.C88_near_none",
    "Flare.C88_near_undefined",
    "Flare.C88_near_unknown",
    "Flare.C88_near_one_unknown"
   ],
   "note": "The index server's history must be orderly (as for C20) with no failed save pending, names must be words of less than 900 bytes, and the numbers of the map must be ints. Which index server is asked, and the threads for monitoring, are left out. Defects: the version of the map is not told (C88_older), a node that lost the connection after it was added is refused until the index server has noticed (C88_again_partial), prefix lengths above 32 are not refused (C88_near_undefined), nodes without an address are near to each other (C88_near_unknown)."
  },
  {
   "property": "C89",
   "status": "proved",
   "theorems": [
    "Flare.C89_broken",
    "Flare.C89_watched",
    "Flare.C89_hanging",
    "Flare.C89_sound",
    "Flare.C89_for_good",
    "Flare.C89_ping",
    "Flare.C89_taken_out",
    "Flare.C89_default_breaks",
    "Flare.C89_warn_hides",
    "Flare.C89_next_number"
   ],
   "note": "Steps under the mutex of the watcher are atomic; accesses of incr, touch, keys, dump and flush_all are not watched by the code and do not appear. Weak spots of the code shown with the claim: with the default thresholds any access seen by a look breaks the node for good (C89_default_breaks); the threshold for errors has no effect below the one for warnings (C89_warn_hides)."
  },
  {
   "property": "C90",
   "status": "partial",
   "theorems": [
    "Flare.C90_taken_down",
    "Flare.C90_brought_up",
    "Flare.C90_left_alone",
    "Flare.C90_watched_partial",
    "Flare.C90_first_failed",
    "Flare.C90_stale_up",
    "Flare.C90_raised",
    "Flare.C90_late_down"
   ],
   "note": "Proved for every interleaving in which no step of an operation fails and no command loses a partition (C23): a node that does not answer is taken down, one that answers is brought up. That a node which does not fail often enough is left alone is proved without those assumptions, as long as the threshold is not changed and nobody gives the command. That exactly the nodes of the map are watched is proved for orderly histories after a first map was stored. Missing, and shown to fail: a first node whose storing failed is never watched, a request to bring a node up that waited makes a new slave active before it has copied, a raised threshold is not kept after a node was down, and a request to take a node down is carried out although the node has answered since."
  },
  {
   "property": "C91",
   "status": "partial",
   "theorems": [
    "Flare.C91_accounted",
    "Flare.C91_none_lost_partial",
    "Flare.C91_storage_last_partial",
    "Flare.C91_ends",
    "Flare.C91_time",
    "Flare.C91_async_answered",
    "Flare.C91_never_sent",
    "Flare.C91_sender_sleeps_on",
    "Flare.C91_leaving_blocks",
    "Flare.C91_signal_missed",
    "Flare.C91_async_lost",
    "Flare.C91_answers_when_down",
    "Flare.C91_late_sender_lost",
    "Flare.C91_bad_only_late",
    "Flare.C91_sender_woken",
    "Flare.C91_asked_clerk_ends",
    "Flare.C91_storage_in_use"
   ],
   "note": "Proved: for every run every executed write is accounted for and sent copies are a beginning of what each sender was given (C91_accounted); with copies waited for, no thread killed and no wait given up, everything acknowledged has been sent and nothing is left over (C91_none_lost_partial); the storage is closed last (C91_storage_last_partial); the stop ends after a bounded number of steps and at most 60 seconds for each thread (C91_ends, C91_time). Refuted: copies that wait when their sender is asked to stop are never sent (C91_never_sent, C91_async_answered, C91_async_lost), also writes acknowledged after the node was reported as down (C91_answers_when_down) and copies that are waited for when a wait runs out (C91_late_sender_lost); the storage is closed under a request of a thread that was killed once (C91_storage_in_use); a sender can miss the request to stop (C91_sender_sleeps_on), a leaving client can block it for 60 seconds (C91_leaving_blocks), the signal can be missed (C91_signal_missed). One slave; what the network does with a copy that is handed over is not followed."
  },
  {
   "property": "C92",
   "status": "partial",
   "theorems": [
    "Flare.C92_nodes_text",
    "Flare.C92_nodes_binary",
    "Flare.C92_nodes_found",
    "Flare.C92_nodes_known",
    "Flare.C92_long_name",
    "Flare.C92_threads_text",
    "Flare.C92_threads_binary",
    "Flare.C92_readers_partial",
    "Flare.C92_readers_race",
    "Flare.C92_all_types",
    "Flare.C92_all_stay"
   ],
   "note": "Nodes in text (C92_nodes_text), in binary (C92_nodes_binary), by name (C92_nodes_found), and equal answers mean equal node lists (C92_nodes_known); threads in text and binary (C92_threads_text, C92_threads_binary). Names of 8191 bytes and more hide the fields (C92_long_name). Requests do not disturb each other if every type asked for has had a thread (C92_readers_partial); otherwise two of them race on the map (C92_readers_race)."
  },
  {
   "property": "C93",
   "status": "partial",
   "theorems": [
    "Flare.C93_succession_partial",
    "Flare.C93_succession_stored_partial",
    "Flare.C93_returned",
    "Flare.C93_cas_reused",
    "Flare.C93_deleted_partial",
    "Flare.C93_stored_partial",
    "Flare.C93_agree_partial",
    "Flare.C93_monotone_partial",
    "Flare.C93_in_order_partial",
    "Flare.C93_forgotten"
   ],
   "note": "Proved for keys that are written and deleted, without values that expire: a deletion answered DELETED after waiting is carried out at every slave, and no history after it brings the deleted value or an older one back at such a node (C93_deleted); an answered value is there, or a later one, or it was deleted (C93_stored); both hold over any number of masters, with nodes that join, at the nodes that have everything (C93_succession, C93_succession_stored); at rest slaves agree with the master, also on the version last seen (C93_agree); no node goes back to an older value or undoes a deletion (C93_monotone). Needed: no copy of a value reaches a node after the deletion of this or a later value, which holds if copies of the key arrive in the order sent (C93_in_order), no node's cache loses the deletion, a new master is not behind the nodes that are left. Refuted otherwise: C70_deleted (overtaking), C93_forgotten (deletion pushed out of the cache while a dump is on its way), C93_returned and C93_cas_reused (a dump tells nothing of deletions: a node that comes back keeps the deleted value, a new node gives the versions again)."
  },
  {
   "property": "C94",
   "status": "partial",
   "theorems": [
    "Flare.C94_newest",
    "Flare.C94_follows_partial",
    "Flare.C94_failed_flush",
    "Flare.C94_failed_flush_happens",
    "Flare.C94_expired_for_good",
    "Flare.C94_watch_lost_for_good",
    "Flare.C94_change_in_gap",
    "Flare.C94_failed_update",
    "Flare.C94_unsaved_kept",
    "Flare.C94_setup",
    "Flare.C94_own_node_refused",
    "Flare.C94_others_go_on"
   ],
   "note": "Every operation starts from the newest map, unconditionally; following is proved while no call of the handler, no save and no session fails and no change falls into the gap of C69. The rest of the statement is refuted: see the defects."
  },
  {
   "property": "C95",
   "status": "partial",
   "theorems": [
    "Flare.C95_same",
    "Flare.C95_resolves",
    "Flare.C95_last_read",
    "Flare.C95_unread",
    "Flare.C95_unread_differ",
    "Flare.C95_hash_apart",
    "Flare.C95_unknown_type",
    "Flare.C95_hint_below_one",
    "Flare.C95_no_slots",
    "Flare.C95_null_variable"
   ],
   "note": "Equality, totality and refusal after a failed last read are proved; a failed read in the middle, an unknown type, a hint below 1 and no virtual slots refute the rest. Stack and memory exhaustion are not modelled."
  },
  {
   "property": "C96",
   "status": "partial",
   "theorems": [
    "Flare.C96_all_closed",
    "Flare.C96_limit",
    "Flare.C96_files_partial",
    "Flare.C96_again_partial",
    "Flare.C96_long_path",
    "Flare.C96_killed",
    "Flare.C96_chmod_left",
    "Flare.C96_cut_off",
    "Flare.C96_accepted",
    "Flare.C96_unix_connection"
   ],
   "note": "Descriptors and ports: proved for all failures. Files: while no listen(2) or chmod fails and paths are shorter than 14 bytes; the rest is refuted."
  },
  {
   "property": "C97",
   "status": "partial",
   "theorems": [
    "Flare.C97_own_partial",
    "Flare.C97_answered",
    "Flare.C97_fresh",
    "Flare.C97_stale_reads",
    "Flare.C97_missing",
    "Flare.C97_forged",
    "Flare.C97_count_twice",
    "Flare.C97_write_thrice",
    "Flare.C97_late_end",
    "Flare.C97_forged_crash",
    "Flare.C97_gat_four"
   ],
   "note": "Proved as long as no answer is late (connections may break in the middle of answers, requests may be refused or not be sent). The code does not close a connection when the time to wait runs out, so for late answers the claim is false: C97_stale_reads, C97_late_end, C97_missing, C97_forged, C97_forged_crash, C97_count_twice, C97_write_thrice and C97_gat_four say in general what happens instead."
  },
  {
   "property": "C98",
   "status": "partial",
   "theorems": [
    "Flare.C98_round_trip",
    "Flare.C98_injective",
    "Flare.C98_old",
    "Flare.C98_part",
    "Flare.C98_accepted",
    "Flare.C98_any_text",
    "Flare.C98_member",
    "Flare.C98_entities",
    "Flare.C98_twice",
    "Flare.C98_disk_full",
    "Flare.C98_stored",
    "Flare.C98_update_partial",
    "Flare.C98_grown",
    "Flare.C98_restart_part"
   ],
   "note": "Proved: the text is read back as it was written, and as nothing else, whatever was in memory; the old format is read; a part that is accepted is the whole; whatever text is loaded, the result can be stored again. The claim fails: a text that is cut behind its first tag is refused but empties the map in memory, a full disk and a state that grows between two requests to ZooKeeper lead to such texts, and an empty text is taken for a cluster without nodes."
  },
  {
   "property": "C99",
   "status": "partial",
   "theorems": [
    "Flare.C99_tch",
    "Flare.C99_tch_dump",
    "Flare.C99_kch_partial",
    "Flare.C99_kch_skip",
    "Flare.C99_kch_dump",
    "Flare.C99_kch_dump_lost",
    "Flare.C99_tcb_partial",
    "Flare.C99_tcb_grow_partial",
    "Flare.C99_tcb_skip",
    "Flare.C99_tcb_dropped",
    "Flare.C99_tcb_dump",
    "Flare.C99_tcb_dump_lost",
    "Flare.C99_ends",
    "Flare.C99_no_expired_partial",
    "Flare.C99_slave_lacks",
    "Flare.C99_tch_copy",
    "Flare.C99_kch_copy_lost",
    "Flare.C99_tcb_copy_lost",
    "Flare.C99_list"
   ],
   "note": "Proved: with the hash database of Tokyo Cabinet every key that is left alone is returned exactly once, whatever else happens, and a dump sends every visible record of the partition; what the dumps of the other two engines send is given exactly. The claim fails for these: the cursor of a B+ tree is an index in a leaf and the cursor of Kyoto Cabinet moves on when its record goes, so that the record behind a removed one is passed over; a dump does this to itself by reading expired records. The copy to another cluster misses records in the same way (C99_kch_copy_lost, C99_tcb_copy_lost); dump_key reads no record and lists every key with all engines (C99_list). What the engines do is modelled from their documentation and sources, which are not in the repository."
  },
  {
   "property": "C100",
   "status": "partial",
   "theorems": [
    "Flare.C100_reads_partial",
    "Flare.C100_live",
    "Flare.C100_counted",
    "Flare.C100_written",
    "Flare.C100_suffix",
    "Flare.C100_timeout_lost",
    "Flare.C100_closed",
    "Flare.C100_line_closed",
    "Flare.C100_intr_lost",
    "Flare.C100_urgent_closed"
   ],
   "note": "proved for every stream, every sequence of reads and every answers of the system calls: up to the first read that fails the lines and blocks are those of the stream (C100_reads_partial), all of them where nothing fails (C100_live), what is left is always an end of what there was (C100_suffix), the counters count what was moved (C100_counted, C100_written). Missing: no `::read` may be interrupted (refuted: C100_intr_lost); a read that times out, or is interrupted in poll, leaves an open connection in the middle of a block (refuted: C100_timeout_lost); urgent data closes the connection (C100_urgent_closed)"
  },
  {
   "property": "C101",
   "status": "partial",
   "theorems": [
    "Flare.C101_bound_partial",
    "Flare.C101_one_by_one_partial",
    "Flare.C101_stay",
    "Flare.C101_stopped",
    "Flare.C101_ended",
    "Flare.C101_refused",
    "Flare.C101_too_many",
    "Flare.C101_moved",
    "Flare.C101_zero",
    "Flare.C101_gone"
   ],
   "note": "Proved: at most N times the configured number of senders for N client threads, no division by zero while none stops, both exact with one call at a time; once complete, the senders stay and the choice depends on the hash alone. The claim itself fails: C101_refused, C101_too_many, C101_moved, C101_zero, C101_gone."
  },
  {
   "property": "C102",
   "status": "partial",
   "theorems": [
    "Flare.C102_deleted_partial",
    "Flare.C102_stored_partial",
    "Flare.C102_sole_slave",
    "Flare.C102_named_by_balance",
    "Flare.C102_two_masters",
    "Flare.C102_stopped"
   ],
   "note": "Proved: in a cluster whose index server has an orderly history, with any number of failovers, answered deletions (C102_deleted_partial) and values (C102_stored_partial) hold at the last master and all its slaves, whatever happens afterwards; with one slave the takeover needs nothing but the delivery of the map (C102_sole_slave). Assumed: the old master has really stopped and the named one is not behind its slaves; both are not assured by the code (C102_two_masters, C102_named_by_balance). Missing: expiring values, nodes that join, other partitions' keys in the same run."
  },
  {
   "property": "C103",
   "status": "proved",
   "theorems": [
    "Flare.C103_no_key",
    "Flare.C103_no_time",
    "Flare.C103_no_size",
    "Flare.C103_bad_option"
   ],
   "note": "For every key, number and word. C103_bad_option is about words that do not begin like a number: such words are read as a version."
  },
  {
   "property": "C104",
   "status": "partial",
   "theorems": [
    "Flare.C104_told",
    "Flare.C104_session_partial",
    "Flare.C104_disconnect",
    "Flare.C104_stale",
    "Flare.C104_get_closed",
    "Flare.C104_reused",
    "Flare.C104_injected",
    "Flare.C104_cut"
   ],
   "note": "Proved: with answers in time every call is carried out as meant and told as it was done (C104_told), and sequences of calls with breaking connections, refusals and connections that cannot be opened are told failures or their own results (C104_session_partial). Fails: disconnect leaves an open connection open (C104_disconnect), so a late answer is told to the next get even after disconnect and connect (C104_stale); get never opens a closed connection (C104_get_closed); an entry used before makes a missing key a hit with the old data (C104_reused); a key with a line break adds requests (C104_injected)."
  },
  {
   "property": "C105",
   "status": "partial",
   "theorems": [
    "Flare.C105_asked",
    "Flare.C105_answered",
    "Flare.C105_index_servers",
    "Flare.C105_told_partial",
    "Flare.C105_known",
    "Flare.C105_in_force_partial",
    "Flare.C105_refused_shown",
    "Flare.C105_line_break",
    "Flare.C105_servers_alike",
    "Flare.C105_index_told_partial",
    "Flare.C105_index_known",
    "Flare.C105_index_in_force_partial",
    "Flare.C105_index_apart",
    "Flare.C105_switches"
   ],
   "note": "Proved for options whose texts fit into lines: which requests are taken, that every option is read under its name, that the text determines the options, that what is shown is in force after an accepted file, that the list of index servers can be used in a file. Fails: values of refused files are shown as if they were in force (C105_refused_shown), an index server shows its own partitioning and not the shared one it uses (C105_index_apart), line ends forge options (C105_line_break), one server can look like two (C105_servers_alike)."
  },
  {
   "property": "C106",
   "status": "partial",
   "theorems": [
    "Flare.C106_accepted",
    "Flare.C106_where",
    "Flare.C106_apart_partial",
    "Flare.C106_root",
    "Flare.C106_relative",
    "Flare.C106_cut",
    "Flare.C106_shared",
    "Flare.C106_servers_partial",
    "Flare.C106_many",
    "Flare.C106_no_path",
    "Flare.C106_no_port",
    "Flare.C106_user",
    "Flare.C106_no_match",
    "Flare.C106_authority",
    "Flare.C106_odd_server",
    "Flare.C106_big_port"
   ],
   "note": "Exact for every data directory (C106_where, C106_root, C106_relative, C106_cut) and every index-db that is accepted or refused (C106_accepted). Partial because the code violates the rest: relative paths and question marks lead elsewhere (C106_root, C106_relative, C106_cut, C106_shared), and lists of more than five servers, servers without a port or without a path are not asked (C106_many, C106_no_port, C106_no_path)."
  },
  {
   "property": "C107",
   "status": "partial",
   "theorems": [
    "Flare.C107_when",
    "Flare.C107_bound",
    "Flare.C107_checks",
    "Flare.C107_blocked",
    "Flare.C107_week",
    "Flare.C107_alive",
    "Flare.C107_late",
    "Flare.C107_starved",
    "Flare.C107_interval_zero"
   ],
   "note": "C107_when gives the exact moment for every sequence of checks and node maps, C107_checks and C107_bound what follows, C107_alive the other direction. Partial because the code violates the rest: a node map on its way to a silent node delays the request by the timeout of the network (C107_blocked, C107_week), options that keep coming and the interval 0 stop the checks (C107_starved, C107_interval_zero). Connections that break or are refused are not timed."
  },
  {
   "property": "C108",
   "status": "partial",
   "theorems": [
    "Flare.C108_alone_partial",
    "Flare.C108_orderly",
    "Flare.C108_crashed",
    "Flare.C108_freed",
    "Flare.C108_garbage",
    "Flare.C108_interrupted",
    "Flare.C108_race",
    "Flare.C108_unguarded",
    "Flare.C108_guards",
    "Flare.C108_lost",
    "Flare.C108_zero",
    "Flare.C108_foreign",
    "Flare.C108_word"
   ],
   "note": "Holds for every history in which starts are not interrupted (C108_alone_partial, C108_orderly, C108_freed), and a written file keeps all others out (C108_guards, C108_foreign, C108_word). Violated by overlapping starts (C108_race, C108_unguarded, C108_lost), by a start that is cut off between opening and writing (C108_interrupted, C108_garbage), and by a process id that comes back (C108_crashed, C108_zero)."
  },
  {
   "property": "C109",
   "status": "partial",
   "theorems": [
    "Flare.C109_start",
    "Flare.C109_starts_iff",
    "Flare.C109_never_lowered",
    "Flare.C109_enough_partial",
    "Flare.C109_reload_short",
    "Flare.C109_no_restart",
    "Flare.C109_wrapped"
   ],
   "note": "Holds after every start with a sane max-connection (C109_start, C109_starts_iff) and after reloads of a server that may raise its limits (C109_enough_partial); limits are never lowered. Violated by reloads without the privilege (C109_reload_short, C109_no_restart) and by values that overflow (C109_wrapped)."
  },
  {
   "property": "C110",
   "status": "partial",
   "theorems": [
    "Flare.C110_lines_partial",
    "Flare.C110_read",
    "Flare.C110_cut",
    "Flare.C110_same",
    "Flare.C110_forged",
    "Flare.C110_facility",
    "Flare.C110_names",
    "Flare.C110_levels"
   ],
   "note": "Proved: one line per message in order when no text has an end of a line in it, the line tells thread, level, place and text up to the cut of 1023 bytes, and the facility through all histories of reloads. Refuted: a text with an end of a line in it (keys of the binary protocol are logged) is read as two messages, the second wholly chosen by the sender; texts that differ only behind 1023 bytes are logged alike. A facility that is not known is passed over without a word."
  }
 ]
}