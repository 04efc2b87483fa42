{
 "claims": [
  {
   "property": "C01",
   "status": "proved",
   "theorems": [
    "CocotbBus.C01_binding",
    "CocotbBus.C01_unique_member",
    "CocotbBus.C01_binding_all_modes",
    "CocotbBus.C01_nothing_else"
   ],
   "note": ""
  },
  {
   "property": "C02",
   "status": "partial",
   "theorems": [
    "CocotbBus.C02_violated",
    "CocotbBus.C02_missing_required_partial"
   ],
   "note": "False of the code in the default (case-insensitive, un-indexed) mode: C02_violated shows every such construction succeeds with the attribute bound to None. Proved for case-sensitive lookup and for array_idx."
  },
  {
   "property": "C03",
   "status": "partial",
   "theorems": [
    "CocotbBus.C03_optional_partial",
    "CocotbBus.C03_case_sensitive_partial",
    "CocotbBus.C03_array_partial",
    "CocotbBus.C03_violated"
   ],
   "note": "Proved in full for the default mode. False with case_insensitive=False when only a case variant exists (C03_violated)."
  },
  {
   "property": "C04",
   "status": "proved",
   "theorems": [
    "CocotbBus.C04_drive",
    "CocotbBus.C04_drive_frame",
    "CocotbBus.C04_unbound"
   ],
   "note": ""
  },
  {
   "property": "C05",
   "status": "proved",
   "theorems": [
    "CocotbBus.C05_drive_strict",
    "CocotbBus.C05_drive_strict_prefix",
    "CocotbBus.C05_sample_strict"
   ],
   "note": ""
  },
  {
   "property": "C06",
   "status": "partial",
   "theorems": [
    "CocotbBus.C06_capture_partial",
    "CocotbBus.C06_violated",
    "CocotbBus.C06_unbound"
   ],
   "note": "False for signals whose name is an attribute of Python's dict (keys, items, pop, ...)."
  },
  {
   "property": "C07",
   "status": "proved",
   "theorems": [
    "CocotbBus.C07_drive_capture",
    "CocotbBus.C07_sample",
    "CocotbBus.C07_unbound",
    "CocotbBus.C07_drive_sample",
    "CocotbBus.C07_reachable"
   ],
   "note": ""
  },
  {
   "property": "C08",
   "status": "proved",
   "theorems": [
    "CocotbBus.C08_roundtrip_padded",
    "CocotbBus.C08_roundtrip",
    "CocotbBus.C08_roundtrip_other_order",
    "CocotbBus.C08_too_narrow"
   ],
   "note": ""
  },
  {
   "property": "C09",
   "status": "proved",
   "theorems": [
    "CocotbBus.C09_slice_bits",
    "CocotbBus.C09_slice_out_of_range",
    "CocotbBus.C09_lane_slice"
   ],
   "note": ""
  },
  {
   "property": "C10",
   "status": "proved",
   "theorems": [
    "CocotbBus.C10_order",
    "CocotbBus.C10_order_clear",
    "CocotbBus.C10_all"
   ],
   "note": ""
  },
  {
   "property": "C11",
   "status": "proved",
   "theorems": [
    "CocotbBus.C11_no_lost_wakeup",
    "CocotbBus.C11_drains"
   ],
   "note": ""
  },
  {
   "property": "C12",
   "status": "proved",
   "theorems": [
    "CocotbBus.C12_sync",
    "CocotbBus.C12_sync_meaning"
   ],
   "note": ""
  },
  {
   "property": "C13",
   "status": "proved",
   "theorems": [
    "CocotbBus.C13_notifications"
   ],
   "note": ""
  },
  {
   "property": "C14",
   "status": "partial",
   "theorems": [
    "CocotbBus.C14_violated",
    "CocotbBus.C14_no_failure_partial"
   ],
   "note": "False of the code: C14_violated proves that after any raising send or callback nothing is ever sent again. Proved part: without failures the coroutine stays alive (and C11_drains applies)."
  },
  {
   "property": "C15",
   "status": "partial",
   "theorems": [
    "CocotbBus.C15_mutex_partial",
    "CocotbBus.C15_no_lost_waiter",
    "CocotbBus.C15_violated_two_waiters",
    "CocotbBus.C15_violated_reacquire"
   ],
   "note": "False of the code for two or more waiters and for release followed by immediate re-acquisition. Proved under the stated discipline, for any number of tasks."
  },
  {
   "property": "C16",
   "status": "proved",
   "theorems": [
    "CocotbBus.C16_waveform",
    "CocotbBus.C16_no_generator"
   ],
   "note": "Generators are finite lists; an infinite generator agrees with its long enough prefixes on every finite execution."
  },
  {
   "property": "C17",
   "status": "proved",
   "theorems": [
    "CocotbBus.C17_gaps",
    "CocotbBus.C17_no_generator",
    "CocotbBus.C35_gaps",
    "CocotbBus.C17_words"
   ],
   "note": "Words (C17_gaps), packets (C35_gaps) and packets given as words without valid attribute (C17_words)."
  },
  {
   "property": "C18",
   "status": "proved",
   "theorems": [
    "CocotbBus.C18_socket"
   ],
   "note": ""
  },
  {
   "property": "C19",
   "status": "partial",
   "theorems": [
    "CocotbBus.C19_violated",
    "CocotbBus.C19_no_effect",
    "CocotbBus.C19_timing_partial"
   ],
   "note": "False of the code: C19_no_effect proves that no signal is ever changed by a plain BusDriver send. Only the timing part is proved."
  },
  {
   "property": "C20",
   "status": "partial",
   "theorems": [
    "CocotbBus.C20_exclusive_partial",
    "CocotbBus.C20_queue_only",
    "CocotbBus.C20_violated"
   ],
   "note": "False of the code (C20_violated). Proved for callers that do not mix send() with a busy queue, and for queued sends alone."
  },
  {
   "property": "C21",
   "status": "proved",
   "theorems": [
    "CocotbBus.C21_delivery",
    "CocotbBus.C21_raising",
    "CocotbBus.C21_first_callback",
    "CocotbBus.C21_no_callback"
   ],
   "note": "Histories whose callbacks do not raise; what a raising callback does is C21_raising."
  },
  {
   "property": "C22",
   "status": "partial",
   "theorems": [
    "CocotbBus.C22_returns_first_partial",
    "CocotbBus.C22_returns_last",
    "CocotbBus.C22_never_stale",
    "CocotbBus.C22_timeout",
    "CocotbBus.C22_can_time_out",
    "CocotbBus.C22_no_timeout",
    "CocotbBus.C22_stored",
    "CocotbBus.C22_violated"
   ],
   "note": "False when a second transaction is received before the released task runs (C22_violated: it returns the second). Proved when at most one transaction arrives before the task resumes; never-stale and timeout parts proved in full."
  },
  {
   "property": "C23",
   "status": "proved",
   "theorems": [
    "CocotbBus.C23_in_reset",
    "CocotbBus.C23_in_reset_vector"
   ],
   "note": ""
  },
  {
   "property": "C24",
   "status": "proved",
   "theorems": [
    "CocotbBus.C24_in_order",
    "CocotbBus.C24_mismatches_count"
   ],
   "note": ""
  },
  {
   "property": "C25",
   "status": "partial",
   "theorems": [
    "CocotbBus.C25_reorder_partial",
    "CocotbBus.C25_permutation",
    "CocotbBus.C25_depth_zero",
    "CocotbBus.C25_violated"
   ],
   "note": "False for transactions of different types that compare equal (C25_violated). Proved when == agrees with the acceptance relation and is symmetric and transitive."
  },
  {
   "property": "C26",
   "status": "partial",
   "theorems": [
    "CocotbBus.C26_counts_partial",
    "CocotbBus.C26_repeated_partial",
    "CocotbBus.C26_mixed_partial",
    "CocotbBus.C26_violated"
   ],
   "note": "False when one monitor is added twice (C26_violated). Proved for any number of distinct monitors and lists and any history; with monitors added several times (C26_repeated_partial) nothing unexpected is accepted on any interface, and the counts agree on the last interface of each monitor; the same when some interfaces have a function as expected output (C26_mixed_partial), whose transactions were all accepted."
  },
  {
   "property": "C27",
   "status": "proved",
   "theorems": [
    "CocotbBus.C27_fail_immediately",
    "CocotbBus.C27_firstBad"
   ],
   "note": ""
  },
  {
   "property": "C28",
   "status": "proved",
   "theorems": [
    "CocotbBus.C28_compare"
   ],
   "note": ""
  },
  {
   "property": "C29",
   "status": "partial",
   "theorems": [
    "CocotbBus.C29_rejected_partial",
    "CocotbBus.C29_violated"
   ],
   "note": "False of the code (C29_violated): the expected list is registered before the checks. Proved: nothing else changes, and the verdict is unchanged for callables and empty lists."
  },
  {
   "property": "C30",
   "status": "partial",
   "theorems": [
    "CocotbBus.C30_bus_monitors_partial",
    "CocotbBus.C30_violated"
   ],
   "note": "False for the XGMII monitor, which has no name attribute (C30_violated). Proved for all monitors with a name."
  },
  {
   "property": "C31",
   "status": "proved",
   "theorems": [
    "CocotbBus.C31_exactly_once",
    "CocotbBus.C31_session",
    "CocotbBus.C31_progress",
    "CocotbBus.C31_word_bits"
   ],
   "note": "Includes progress: enough ready edges complete the sends."
  },
  {
   "property": "C32",
   "status": "partial",
   "theorems": [
    "CocotbBus.C32_violated",
    "CocotbBus.C32_reversed",
    "CocotbBus.C32_low_first_partial"
   ],
   "note": "False with the default configuration: the driver ignores firstSymbolInHighOrderBits and the bytes come back reversed (C32_reversed, for every schedule). Proved for firstSymbolInHighOrderBits=False."
  },
  {
   "property": "C33",
   "status": "proved",
   "theorems": [
    "CocotbBus.C33_monitor",
    "CocotbBus.C33_unresolvable"
   ],
   "note": "A 1-bit data signal makes the monitor fail with AttributeError (C33_unresolvable)."
  },
  {
   "property": "C34",
   "status": "proved",
   "theorems": [
    "CocotbBus.C34_roundtrip",
    "CocotbBus.C34_session",
    "CocotbBus.C34_default_no_timeout"
   ],
   "note": "Whole-byte buses, 8-bit symbols, not in reset, monitor timeout not expiring; the trace may stop anywhere."
  },
  {
   "property": "C35",
   "status": "proved",
   "theorems": [
    "CocotbBus.C35_framing",
    "CocotbBus.C35_session",
    "CocotbBus.C35_beat_count",
    "CocotbBus.C35_gaps",
    "CocotbBus.C35_progress"
   ],
   "note": "Whole-byte buses. Also the idle edges between beats and progress."
  },
  {
   "property": "C36",
   "status": "proved",
   "theorems": [
    "CocotbBus.C36_decode",
    "CocotbBus.C36_decode_prefix"
   ],
   "note": "Arbitrary X in the empty symbols; traces that stop anywhere."
  },
  {
   "property": "C37",
   "status": "proved",
   "theorems": [
    "CocotbBus.C37_duplicate_sop",
    "CocotbBus.C37_outside_packet",
    "CocotbBus.C37_channel_too_big",
    "CocotbBus.C37_channel_changed",
    "CocotbBus.C37_only_at_beats"
   ],
   "note": "If a beat breaks a channel rule and its data cannot be read either, the read error is raised first."
  },
  {
   "property": "C38",
   "status": "proved",
   "theorems": [
    "CocotbBus.C38_timeout"
   ],
   "note": ""
  },
  {
   "property": "C39",
   "status": "partial",
   "theorems": [
    "CocotbBus.C39_violated",
    "CocotbBus.C39_unbound",
    "CocotbBus.C39_empty_used_partial"
   ],
   "note": "False of the code: UnboundLocalError unless this or an earlier last beat had a nonzero empty value; the histories are characterised exactly."
  },
  {
   "property": "C40",
   "status": "partial",
   "theorems": [
    "CocotbBus.C40_violated",
    "CocotbBus.C40_reset_keeps_packet",
    "CocotbBus.C40_reset_between_packets_partial"
   ],
   "note": "False of the code: reset does not clear the monitor's packet state."
  },
  {
   "property": "C41",
   "status": "partial",
   "theorems": [
    "CocotbBus.C41_wire",
    "CocotbBus.C41_reported",
    "CocotbBus.C41_no_channel_signal",
    "CocotbBus.C41_out_of_range",
    "CocotbBus.C41_violated"
   ],
   "note": "Everything holds except that an out-of-range channel leaves valid at 1."
  },
  {
   "property": "C42",
   "status": "partial",
   "theorems": [
    "CocotbBus.C42_violated",
    "CocotbBus.C42_no_signal_driven",
    "CocotbBus.C42_timing_partial",
    "CocotbBus.C42_kinds"
   ],
   "note": "False of the code: no signal but valid is ever driven. Only the timing is proved."
  },
  {
   "property": "C43",
   "status": "partial",
   "theorems": [
    "CocotbBus.C43_violated",
    "CocotbBus.C43_full_beats_partial",
    "CocotbBus.C43_exact",
    "CocotbBus.C43_unchanged_iff"
   ],
   "note": "False of the code for partly filled last beats; proved for packets that fill their beats, any symbol width. C43_exact: for symbols of k bytes, exactly what comes back of every packet; unchanged iff k = 1 or the packet fills its beats."
  },
  {
   "property": "C44",
   "status": "proved",
   "theorems": [
    "CocotbBus.C44_write",
    "CocotbBus.C44_write_progress",
    "CocotbBus.C44_read",
    "CocotbBus.C44_released",
    "CocotbBus.C44_no_signal"
   ],
   "note": "waitrequest/readdatavalid defined (0 or 1) in the cycles looked at."
  },
  {
   "property": "C45",
   "status": "proved",
   "theorems": [
    "CocotbBus.C45_coherent",
    "CocotbBus.C45_back_door",
    "CocotbBus.C45_unknown",
    "CocotbBus.C45_last_write"
   ],
   "note": "Single transfers: every read of a known location returns the bytes of the last writes (or of the initial dictionary), for every schedule of requests."
  },
  {
   "property": "C46",
   "status": "proved",
   "theorems": [
    "CocotbBus.C46_responses",
    "CocotbBus.C46_order_and_latency",
    "CocotbBus.C46_fixed_latency"
   ],
   "note": "One response per read in order, each after its drawn latency."
  },
  {
   "property": "C47",
   "status": "proved",
   "theorems": [
    "CocotbBus.C47_burst_read"
   ],
   "note": "Requests made while the memory is idle; C81 is about the others."
  },
  {
   "property": "C48",
   "status": "partial",
   "theorems": [
    "CocotbBus.C48_burst_write_partial",
    "CocotbBus.C48_read_back",
    "CocotbBus.C48_violated_first_wait",
    "CocotbBus.C48_violated_gap"
   ],
   "note": "False of the code: a wait chosen before the first beat raises in the ReadOnly phase; a zero-length wait followed by a gap stores garbage. Proved for all other random outcomes and schedules."
  },
  {
   "property": "C49",
   "status": "partial",
   "theorems": [
    "CocotbBus.C49_violated",
    "CocotbBus.C49_last_given",
    "CocotbBus.C49_not_given_partial"
   ],
   "note": "Violated: the properties dictionary is a class attribute, so options given to one memory leak into later ones. The partial theorem covers memories where the option was never given before."
  },
  {
   "property": "C50",
   "status": "proved",
   "theorems": [
    "CocotbBus.C50_length"
   ],
   "note": "All integers."
  },
  {
   "property": "C51",
   "status": "proved",
   "theorems": [
    "CocotbBus.C51_size",
    "CocotbBus.C51_code",
    "CocotbBus.C54_write",
    "CocotbBus.C54_read"
   ],
   "note": "All integers; C54 says that AxSIZE carries the logarithm."
  },
  {
   "property": "C52",
   "status": "proved",
   "theorems": [
    "CocotbBus.C52_exact",
    "CocotbBus.C52_others"
   ],
   "note": "Any address and length, aligned or not."
  },
  {
   "property": "C53",
   "status": "partial",
   "theorems": [
    "CocotbBus.C53_illegal_partial",
    "CocotbBus.C53_violated"
   ],
   "note": "False of the code for an empty byte_enable (IndexError with the address already on the bus) and an address that is too large (OverflowError with the data on the bus). Proved for lengths, sizes and page crossings."
  },
  {
   "property": "C54",
   "status": "proved",
   "theorems": [
    "CocotbBus.C54_write",
    "CocotbBus.C54_read"
   ],
   "note": "Every ready schedule, latency and legal request."
  },
  {
   "property": "C55",
   "status": "partial",
   "theorems": [
    "CocotbBus.C55_one_per_beat_partial",
    "CocotbBus.C55_any_latency_partial",
    "CocotbBus.C55_exact",
    "CocotbBus.C55_calm_partial",
    "CocotbBus.C55_violated"
   ],
   "note": "False of the code with data latency and several beats: WVALID stays high between the beats and beats are duplicated. Proved without data latency or for one value; with latency dl every beat but the last is transferred 1 to dl+1 times. C55_exact: what is on the channel at every edge, for every latency and WREADY schedule; C55_calm_partial: exactly one transfer per beat if the slave is not ready in the gaps."
  },
  {
   "property": "C56",
   "status": "proved",
   "theorems": [
    "CocotbBus.C56_incr_beats",
    "CocotbBus.C56_incr",
    "CocotbBus.C56_calm"
   ],
   "note": "The statement is about the beats (C56_incr_beats); on the bus it also needs that each beat is transferred once, which is C55: no data latency, one value, or no WREADY in the gaps (C56_calm)."
  },
  {
   "property": "C57",
   "status": "proved",
   "theorems": [
    "CocotbBus.C57_fixed_beats",
    "CocotbBus.C57_fixed",
    "CocotbBus.C57_calm"
   ],
   "note": "As C56."
  },
  {
   "property": "C58",
   "status": "partial",
   "theorems": [
    "CocotbBus.C58_wrap_write_partial",
    "CocotbBus.C58_wrap_read_partial",
    "CocotbBus.C58_read_partial",
    "CocotbBus.C58_short_write",
    "CocotbBus.C58_short_read",
    "CocotbBus.C58_violated"
   ],
   "note": "False of the code for wrapping bursts shorter than the bus is wide that do not start at the boundary: the wrong byte lanes. Proved for all other aligned ones; and that all of these go wrong."
  },
  {
   "property": "C59",
   "status": "proved",
   "theorems": [
    "CocotbBus.C59_incr",
    "CocotbBus.C59_fixed"
   ],
   "note": ""
  },
  {
   "property": "C60",
   "status": "partial",
   "theorems": [
    "CocotbBus.C60_round_trip_partial",
    "CocotbBus.C60_calm_partial",
    "CocotbBus.C60_violated"
   ],
   "note": "False of the code with data latency (C55); proved without, or for one value, or if the slave is not ready in the gaps."
  },
  {
   "property": "C61",
   "status": "proved",
   "theorems": [
    "CocotbBus.C61_beats"
   ],
   "note": "RRESP defined, RDATA as wide as the bus."
  },
  {
   "property": "C62",
   "status": "proved",
   "theorems": [
    "CocotbBus.C62_read",
    "CocotbBus.C62_write"
   ],
   "note": ""
  },
  {
   "property": "C63",
   "status": "partial",
   "theorems": [
    "CocotbBus.C63_order",
    "CocotbBus.C63_addresses",
    "CocotbBus.C63_responses_partial",
    "CocotbBus.C63_violated",
    "CocotbBus.C63_reads",
    "CocotbBus.C63_reads_all"
   ],
   "note": "Order of addresses, bursts and responses: proved for all executions. Matching of responses: proved for reads, and for writes unless an address is refused; false in that case."
  },
  {
   "property": "C64",
   "status": "proved",
   "theorems": [
    "CocotbBus.C64_sequence",
    "CocotbBus.C64_write",
    "CocotbBus.C64_write_response",
    "CocotbBus.C64_read"
   ],
   "note": ""
  },
  {
   "property": "C65",
   "status": "partial",
   "theorems": [
    "CocotbBus.C65_violated",
    "CocotbBus.C65_never_stores",
    "CocotbBus.C65_idle_partial",
    "CocotbBus.C65_data_partial"
   ],
   "note": "False of the code for every request: the coroutine raises as soon as AWVALID is high."
  },
  {
   "property": "C66",
   "status": "partial",
   "theorems": [
    "CocotbBus.C66_violated",
    "CocotbBus.C66_violated_relaxed",
    "CocotbBus.C66_lost_relaxed",
    "CocotbBus.C66_size_relaxed",
    "CocotbBus.C66_never_data",
    "CocotbBus.C66_constructed",
    "CocotbBus.C66_idle_partial",
    "CocotbBus.C66_beat_partial"
   ],
   "note": "False of the code for every request: the coroutine raises (cocotb 2.x: at once; 1.x: when the first beat should be driven)."
  },
  {
   "property": "C67",
   "status": "proved",
   "theorems": [
    "CocotbBus.C67_lossless",
    "CocotbBus.C67_index"
   ],
   "note": "Lanes may be assigned in any order and left out."
  },
  {
   "property": "C68",
   "status": "proved",
   "theorems": [
    "CocotbBus.C68_layer1"
   ],
   "note": "For every check sum function, hence for zlib.crc32; CRC-32 itself is computed bit by bit in C109."
  },
  {
   "property": "C69",
   "status": "partial",
   "theorems": [
    "CocotbBus.C69_round_trip_partial",
    "CocotbBus.C69_violated"
   ],
   "note": "Proved for the module with its missing import added, on buses no wider than a frame (n <= max(len,60)+12); false on wider ones (IndexError) and of the code as it is (C70)."
  },
  {
   "property": "C70",
   "status": "partial",
   "theorems": [
    "CocotbBus.C70_violated",
    "CocotbBus.C70_repaired_partial",
    "CocotbBus.C70_width"
   ],
   "note": "False of the code: create_binary is not imported, so construction raises NameError for every width."
  },
  {
   "property": "C71",
   "status": "partial",
   "theorems": [
    "CocotbBus.C71_monitor",
    "CocotbBus.C71_characters",
    "CocotbBus.C71_unresolved",
    "CocotbBus.C71_violated"
   ],
   "note": "Exact description of the monitor; false as stated only for frames without any data byte, which are dropped without an error."
  },
  {
   "property": "C72",
   "status": "partial",
   "theorems": [
    "CocotbBus.C72_read",
    "CocotbBus.C72_write",
    "CocotbBus.C72_not_early",
    "CocotbBus.C72_quiet",
    "CocotbBus.C72_violated"
   ],
   "note": "Exact characterisation; false as stated because an acknowledge in the first cycle of the request is not seen."
  },
  {
   "property": "C73",
   "status": "partial",
   "theorems": [
    "CocotbBus.C73_acknowledged",
    "CocotbBus.C73_violated",
    "CocotbBus.C73_immediate_partial",
    "CocotbBus.C73_no_transfer",
    "CocotbBus.C73_held_partial"
   ],
   "note": "False of the code: an acknowledged transfer raises."
  },
  {
   "property": "C74",
   "status": "partial",
   "theorems": [
    "CocotbBus.C74_request_left",
    "CocotbBus.C74_every_error",
    "CocotbBus.C74_stuck",
    "CocotbBus.C74_violated",
    "CocotbBus.C74_completed_partial"
   ],
   "note": "False of the code for every operation that raises."
  },
  {
   "property": "C75",
   "status": "partial",
   "theorems": [
    "CocotbBus.C75_exact",
    "CocotbBus.C75_usable_partial",
    "CocotbBus.C75_violated",
    "CocotbBus.C75_violated_construction"
   ],
   "note": "False as stated; which names break which operation is characterised exactly for every bus, and for the other names the operations and the constructor behave as in the model behind C01-C07."
  },
  {
   "property": "C76",
   "status": "partial",
   "theorems": [
    "CocotbBus.C76_violated",
    "CocotbBus.C76_stuck_valid",
    "CocotbBus.C76_raises_partial"
   ],
   "note": "False of the code: valid is left at 1, for every unconvertible value."
  },
  {
   "property": "C77",
   "status": "partial",
   "theorems": [
    "CocotbBus.C77_never_completes",
    "CocotbBus.C77_violated",
    "CocotbBus.C77_whole_bytes_partial"
   ],
   "note": "False of the code for widths that are not whole bytes: below 8 bits the send never ends."
  },
  {
   "property": "C78",
   "status": "partial",
   "theorems": [
    "CocotbBus.C78_accepts",
    "CocotbBus.C78_attribute_error",
    "CocotbBus.C78_default",
    "CocotbBus.C78_default_accepted",
    "CocotbBus.C78_violated"
   ],
   "note": "The accepted configurations are exact; a channel wider than 128 bits raises TypeError instead of AttributeError."
  },
  {
   "property": "C79",
   "status": "partial",
   "theorems": [
    "CocotbBus.C79_violated",
    "CocotbBus.C79_lock_kept",
    "CocotbBus.C79_every_error",
    "CocotbBus.C79_stuck",
    "CocotbBus.C79_completed_partial"
   ],
   "note": "False of the code: the lock is not released when the operation raises; every later operation then hangs."
  },
  {
   "property": "C80",
   "status": "partial",
   "theorems": [
    "CocotbBus.C80_violated",
    "CocotbBus.C80_sync_partial"
   ],
   "note": "False of the code for sync=False: read returns in the ReadOnly phase."
  },
  {
   "property": "C81",
   "status": "partial",
   "theorems": [
    "CocotbBus.C81_violated",
    "CocotbBus.C81_exact",
    "CocotbBus.C81_spaced_partial",
    "CocotbBus.C47_burst_read"
   ],
   "note": "False of the code: requests made while a burst is being returned are lost, though waitrequest is 0. C81_exact gives the pins in every cycle for every schedule of read bursts without writes; C81_spaced_partial: with enough cycles between the requests every one is answered with its words, in order."
  },
  {
   "property": "C82",
   "status": "partial",
   "theorems": [
    "CocotbBus.C82_not_driven",
    "CocotbBus.C82_violated"
   ],
   "note": "False of the code for every write."
  },
  {
   "property": "C83",
   "status": "proved",
   "theorems": [
    "CocotbBus.C83_verdict",
    "CocotbBus.C83_no_false_alarm"
   ],
   "note": "Whole-byte buses, 8-bit symbols, not in reset, no monitor timeout, no X on ready."
  },
  {
   "property": "C84",
   "status": "proved",
   "theorems": [
    "CocotbBus.C84_memory",
    "CocotbBus.C84_general",
    "CocotbBus.C84_exists"
   ],
   "note": "Buses without burstcount, whole-byte widths, addresses and values that fit. C84_exists: there is a simulation of every length, so the hypothesis that the two run together can always be met."
  },
  {
   "property": "C85",
   "status": "partial",
   "theorems": [
    "CocotbBus.C85_latency_zero_partial",
    "CocotbBus.C85_violated",
    "CocotbBus.C85_exact",
    "CocotbBus.C85_previous"
   ],
   "note": "False with the default latency of 1 (witness: the read returns stale data); proved for latency 0. C85_exact says for every latency what the reads return instead, C85_previous that with latency 1 to 2 each read returns the word of the read before it."
  },
  {
   "property": "C86",
   "status": "partial",
   "theorems": [
    "CocotbBus.C86_violated",
    "CocotbBus.C86_repeats_partial",
    "CocotbBus.C86_idle_partial",
    "CocotbBus.C86_resume_partial",
    "CocotbBus.C86_packets_violated",
    "CocotbBus.C86_packets_repeats_partial",
    "CocotbBus.C86_packets_idle_partial",
    "CocotbBus.C86_packets_resume_partial"
   ],
   "note": "False: valid stays 1, so the word in flight is transferred again and again. Proved: only that word is repeated; nothing is if valid was not 1 at the cancellation, or if the driver is used again in the same cycle."
  },
  {
   "property": "C87",
   "status": "partial",
   "theorems": [
    "CocotbBus.C87_violated",
    "CocotbBus.C87_never",
    "CocotbBus.C87_opb_read_never",
    "CocotbBus.C87_opb_write_never",
    "CocotbBus.C87_ended_partial",
    "CocotbBus.C87_waiting_partial",
    "CocotbBus.C87_write_partial"
   ],
   "note": "False, and never true: the lock of the master is not released, so after any call given up before its end no later call ends. Proved: no effect if the call had ended; the slave sees no other write than the one given up."
  },
  {
   "property": "C88",
   "status": "partial",
   "theorems": [
    "CocotbBus.C88_violated",
    "CocotbBus.C88_partial"
   ],
   "note": "False: the later read takes the answer to the earlier one. Proved if every accepted address has been answered when the read starts."
  },
  {
   "property": "C89",
   "status": "proved",
   "theorems": [
    "CocotbBus.C89_suites",
    "CocotbBus.C89_testcases",
    "CocotbBus.C89_totals"
   ],
   "note": "Elements are tag, attributes and children; files are given as trees."
  },
  {
   "property": "C90",
   "status": "proved",
   "theorems": [
    "CocotbBus.C90"
   ],
   "note": "Only `failure` elements count, not `error`, which cocotb does not write."
  },
  {
   "property": "C91",
   "status": "proved",
   "theorems": [
    "CocotbBus.C91_axi_master",
    "CocotbBus.C91_axi_slave",
    "CocotbBus.C91_axi_missing",
    "CocotbBus.C91_avalon_master",
    "CocotbBus.C91_memory",
    "CocotbBus.C91_opb",
    "CocotbBus.C91_avalon_st",
    "CocotbBus.C91_avalon_pkts"
   ],
   "note": "Attributes of the AXI bus are bound to different signals. XGMII: see C70."
  },
  {
   "property": "C92",
   "status": "partial",
   "theorems": [
    "CocotbBus.C92_stop_partial",
    "CocotbBus.C92_restart",
    "CocotbBus.C92_violated"
   ],
   "note": "False if start() is called twice: stop() ends only the second coroutine. Proved for histories in which start() is only called at first and after stop()."
  },
  {
   "property": "C93",
   "status": "proved",
   "theorems": [
    "CocotbBus.C93_signal",
    "CocotbBus.C93_nsignal"
   ],
   "note": "Called outside the ReadOnly phase; signals change at most once per clock cycle. Undefined values after the call: waited over by the first, ValueError from the second."
  },
  {
   "property": "C94",
   "status": "partial",
   "theorems": [
    "CocotbBus.C94_passed_partial",
    "CocotbBus.C94_unknown",
    "CocotbBus.C94_package",
    "CocotbBus.C94_violated"
   ],
   "note": "False for sync given to append(): TypeError in the sending coroutine."
  },
  {
   "property": "C95",
   "status": "partial",
   "theorems": [
    "CocotbBus.C95_create_partial",
    "CocotbBus.C95_convert_partial",
    "CocotbBus.C95_slice",
    "CocotbBus.C95_violated"
   ],
   "note": "False for values that do not fit (2.x raises, 1.x drops bits) and for converting one-bit values (2.x raises). Proved otherwise. BinaryValue of cocotb 1.x is modelled as far as it is used."
  },
  {
   "property": "C96",
   "status": "partial",
   "theorems": [
    "CocotbBus.C96_violated",
    "CocotbBus.C96_reversed",
    "CocotbBus.C96_low_first_partial",
    "CocotbBus.C96_no_false_alarm_partial"
   ],
   "note": "False with the default configuration: exactly the reversed words pass. Proved with firstSymbolInHighOrderBits=False on the monitor."
  },
  {
   "property": "C97",
   "status": "partial",
   "theorems": [
    "CocotbBus.C97_violated",
    "CocotbBus.C97_runs",
    "CocotbBus.C97_silent_partial",
    "CocotbBus.C97_until_end",
    "CocotbBus.C97_keyerror",
    "CocotbBus.C97_stray",
    "CocotbBus.C97_started"
   ],
   "note": "False for errors about the channel: the monitor runs as if it had been constructed. After the other errors it reports nothing."
  },
  {
   "property": "C98",
   "status": "partial",
   "theorems": [
    "CocotbBus.C98_violated",
    "CocotbBus.C98_refused",
    "CocotbBus.C98_functions_partial"
   ],
   "note": "False for callables without __qualname__, e.g. functools.partial objects; add_interface then leaves the expected list registered."
  },
  {
   "property": "C99",
   "status": "partial",
   "theorems": [
    "CocotbBus.C99_violated",
    "CocotbBus.C99_in_order_partial",
    "CocotbBus.C99_prompt_partial",
    "CocotbBus.C99_delivered_partial",
    "CocotbBus.C99_packets_partial",
    "CocotbBus.C99_monitored_partial",
    "CocotbBus.C99_packets_delivered_partial",
    "CocotbBus.C99_verdict_partial"
   ],
   "note": "False if append() is called in the ReadOnly phase while the sending coroutine waits: it is resumed in that phase, writes and dies. Proved for every schedule of append() calls outside that phase."
  },
  {
   "property": "C100",
   "status": "partial",
   "theorems": [
    "CocotbBus.C100_violated",
    "CocotbBus.C100_memory_partial",
    "CocotbBus.C100_returns_partial",
    "CocotbBus.C100_exists"
   ],
   "note": "False with a data latency in a burst of several words (C55) and for WRAP bursts that are unaligned or, not starting at the boundary, shorter than the bus is wide (C58). Proved for all sequences of the other legal calls."
  },
  {
   "property": "C101",
   "status": "partial",
   "theorems": [
    "CocotbBus.C101_violated",
    "CocotbBus.C101_online_partial",
    "CocotbBus.C101_model_partial",
    "CocotbBus.C101_dff"
   ],
   "note": "False if an output is delivered before the expected value is in the list (e.g. a device without latency whose output monitor runs first). Proved exactly: success iff every output is in time and the values agree; for the flip-flop example the order of the monitors is irrelevant."
  },
  {
   "property": "C102",
   "status": "partial",
   "theorems": [
    "CocotbBus.C102_violated",
    "CocotbBus.C102_usable_partial",
    "CocotbBus.C102_returns_partial",
    "CocotbBus.C102_exists"
   ],
   "note": "False where C100 is (data latency in a burst of several words, C55; WRAP bursts as in C58). Proved for all sequences of the other legal calls and all response codes."
  },
  {
   "property": "C103",
   "status": "partial",
   "theorems": [
    "CocotbBus.C103_violated",
    "CocotbBus.C103_parallel_partial",
    "CocotbBus.C103_undisturbed_partial",
    "CocotbBus.C103_disjoint_partial",
    "CocotbBus.C103_returns_partial",
    "CocotbBus.C103_exists"
   ],
   "note": "False where C100 is (data latency in a burst of several words, C55; WRAP bursts as in C58). Proved for all other legal calls of the two tasks."
  },
  {
   "property": "C104",
   "status": "partial",
   "theorems": [
    "CocotbBus.C104_violated",
    "CocotbBus.C104_window_partial",
    "CocotbBus.C104_model_partial",
    "CocotbBus.C104_permutation",
    "CocotbBus.C104_deeper_partial",
    "CocotbBus.C104_static"
   ],
   "note": "False, as C25 is, for values of different types that compare equal. Proved when == agrees with the comparison of the scoreboard on interfaces with a positive depth; nothing is assumed about interfaces with depth 0."
  },
  {
   "property": "C105",
   "status": "proved",
   "theorems": [
    "CocotbBus.C105_avalon_st",
    "CocotbBus.C105_avalon_pkts",
    "CocotbBus.C105_avalon_words",
    "CocotbBus.C105_avalon_read",
    "CocotbBus.C105_avalon_write",
    "CocotbBus.C105_axi_write",
    "CocotbBus.C105_axi_read",
    "CocotbBus.C105_axi_lite",
    "CocotbBus.C105_opb"
   ],
   "note": "For all arguments, configurations, states before the call and schedules of the other side. The AXI write assumes WVALID is 0 before the call (a write of no beats does not touch it)."
  },
  {
   "property": "C106",
   "status": "partial",
   "theorems": [
    "CocotbBus.C106_violated",
    "CocotbBus.C106_many_partial",
    "CocotbBus.C106_answers_partial",
    "CocotbBus.C106_returns_partial"
   ],
   "note": "False where C100 is (data latency in a burst of several words, C55; WRAP bursts as in C58). Proved for all other legal calls, made by any number of tasks at any moments."
  },
  {
   "property": "C107",
   "status": "partial",
   "theorems": [
    "CocotbBus.C107_violated",
    "CocotbBus.C107_three_violated",
    "CocotbBus.C107_one_task_partial",
    "CocotbBus.C107_calm_partial",
    "CocotbBus.C107_two_tasks_partial"
   ],
   "note": "False of the code: a task that calls again at once and a task that waited for the lock both get it, and so do two tasks that waited. Proved for two tasks that let an edge pass between calls, and for any number of tasks as long as no task calls between the release of the lock and the resumption of the one that waited, and at most one waits. Proved for any slave (one_task) and for a memory, with the number of edges."
  },
  {
   "property": "C108",
   "status": "partial",
   "theorems": [
    "CocotbBus.C108_violated",
    "CocotbBus.C108_words_violated",
    "CocotbBus.C108_tasks_violated",
    "CocotbBus.C108_axi_addresses",
    "CocotbBus.C108_axi_data_partial",
    "CocotbBus.C108_mm",
    "CocotbBus.C108_mm_tasks_partial",
    "CocotbBus.C108_st",
    "CocotbBus.C108_st_queue",
    "CocotbBus.C108_packets_partial",
    "CocotbBus.C108_packet_queue",
    "CocotbBus.C108_opb"
   ],
   "note": "False of AXI write data with a data latency in a burst, of packets given word by word with valid false in a word, and of Avalon-MM tasks that break the lock (C107). Proved for everything else, with no condition on the arguments (calls that raise included)."
  },
  {
   "property": "C109",
   "status": "partial",
   "theorems": [
    "CocotbBus.C109_noticed_partial",
    "CocotbBus.C109_limit"
   ],
   "note": "Proved, with CRC-32 computed bit by bit, for the module with its missing import added (C70) and on buses no wider than a frame, as C69. C109_limit: damage in 33 consecutive bits can go unnoticed."
  },
  {
   "property": "C110",
   "status": "proved",
   "theorems": [
    "CocotbBus.C110_order",
    "CocotbBus.C110_order_any",
    "CocotbBus.C110_order_clear",
    "CocotbBus.C110_no_lost_wakeup",
    "CocotbBus.C110_sync",
    "CocotbBus.C110_chain",
    "CocotbBus.C110_notifications",
    "CocotbBus.C110_alive"
   ],
   "note": "A callback that calls kill on its own driver is not modelled (a coroutine that kills itself is a matter of cocotb)."
  },
  {
   "property": "C111",
   "status": "partial",
   "theorems": [
    "CocotbBus.C111_registered_meanwhile",
    "CocotbBus.C111_exception",
    "CocotbBus.C111_ends",
    "CocotbBus.C111_violated"
   ],
   "note": "False of the code in that the handling may not end: if every callback registers one, for example itself, the loop over the callbacks goes on for ever (C111_violated). Everything else is proved, and that the handling ends if from some number of calls on nothing is registered."
  },
  {
   "property": "C112",
   "status": "partial",
   "theorems": [
    "CocotbBus.C112_violated",
    "CocotbBus.C112_unchanged_partial",
    "CocotbBus.C112_sent_partial",
    "CocotbBus.C112_later_partial"
   ],
   "note": "False of the code: the queue holds references. Proved if no object is changed while it is queued or its send has not looked at it. Each send looks at its transaction at one moment, which is a simplification for packets sent word by word."
  },
  {
   "property": "C113",
   "status": "partial",
   "theorems": [
    "CocotbBus.C113_exact",
    "CocotbBus.C113_violated",
    "CocotbBus.C113_alone_partial"
   ],
   "note": "False of the code if a callback changes the transaction, which is possible for the dict reported with the channel. Proved if none does."
  },
  {
   "property": "C114",
   "status": "partial",
   "theorems": [
    "CocotbBus.C114_bursts_partial",
    "CocotbBus.C114_waits_partial",
    "CocotbBus.C114_violated_next",
    "CocotbBus.C114_violated_gap"
   ],
   "note": "False of the code, also with the random waits switched off (with them a burst may kill the memory, C48): a beat following a write burst at once is accepted and ignored, and in a pause between beats whatever is on writedata is stored. Proved without random waits for every sequence of bursts in which writes have no pauses and are followed by a cycle without request, and reads are not disturbed by other requests. With the random waits (the default) proved for every sequence of bursts, also back to back, that the master performs according to the waitrequest it sees, as long as the memory has not died and either write bursts have no pauses or no wait of zero cycles is drawn."
  },
  {
   "property": "C115",
   "status": "partial",
   "theorems": [
    "CocotbBus.C115_ignored",
    "CocotbBus.C115_violated_driver",
    "CocotbBus.C115_violated_monitor",
    "CocotbBus.C115_driver_partial",
    "CocotbBus.C115_monitor_partial"
   ],
   "note": "False of the code: the option is accepted and has no effect whatever (C115_ignored). Proved for every schedule in which, at the edges with a beat on offer, ready is what it was L edges before (for example a sink that is always ready)."
  },
  {
   "property": "C116",
   "status": "partial",
   "theorems": [
    "CocotbBus.C116_array",
    "CocotbBus.C116_drivers_partial",
    "CocotbBus.C116_monitors_partial",
    "CocotbBus.C116_loggers_partial",
    "CocotbBus.C116_violated_driver",
    "CocotbBus.C116_violated_monitor",
    "CocotbBus.C116_violated_logger"
   ],
   "note": "False of the code: monitors of the elements of an array all have the name of the array, and element 1 of `a` has the name of the bus `a_1`. Proved for the drivers of one array, for all drivers whose given names do not end with an underscore and a number, and for monitors with different given names. The drivers of the elements of an array share one logger; with different given names the loggers of one entity are different."
  },
  {
   "property": "C117",
   "status": "proved",
   "theorems": [
    "CocotbBus.C117_decode",
    "CocotbBus.C117_decode_prefix",
    "CocotbBus.C117_constant",
    "CocotbBus.C117_change",
    "CocotbBus.C117_order"
   ],
   "note": "Each edge of the trace carries the configuration the monitor finds there; the signals, the symbol width and report_channel stay the same. C117_order states the effect of the opposite order for packets of whole words on a bus without a channel."
  },
  {
   "property": "C118",
   "status": "proved",
   "theorems": [
    "CocotbBus.C118_packets",
    "CocotbBus.C118_test"
   ],
   "note": "The device is modelled from its SystemVerilog source with four-valued registers, out of reset, for any bus width in bytes; ready is 0 or 1; no channel signal, no in-packet timeout. Reads of the registers change nothing and are left out. The condition on the first packet is needed (example in Props/EndianSwapper.lean)."
  },
  {
   "property": "C119",
   "status": "proved",
   "theorems": [
    "CocotbBus.C119_registers",
    "CocotbBus.C119_exists"
   ],
   "note": "Master and device in a closed loop: the inputs at every edge are those of the device as modelled from its Verilog source (out of reset, registers without unknown bits); there is such a simulation of every length for all calls (C119_exists). Addresses 1 to 3, where the device has no register but does not refuse the access, are left out. The condition on writes without sync is needed (example in Props/AxiDemo.lean): WREADY of the device is still 1 after a write has ended, and the data of the next write are lost."
  },
  {
   "property": "C120",
   "status": "proved",
   "theorems": [
    "CocotbBus.C120_test"
   ],
   "note": "The generator is a finite list (at its end the coroutine of BitDriver ends with an exception); that of the example is infinite, of which any number of edges sees a finite part. The values of the signals are four-valued."
  },
  {
   "property": "C121",
   "status": "proved",
   "theorems": [
    "CocotbBus.C121_value",
    "CocotbBus.C121_test"
   ],
   "note": "The device is modelled from its SystemVerilog source without unknown bits. An edge after the last numbers is needed: the monitor reports in the read-only phase, where the test ended at that edge would no longer see it (example in Props/SmallExamples.lean)."
  },
  {
   "property": "C122",
   "status": "partial",
   "theorems": [
    "CocotbBus.C122_violated",
    "CocotbBus.C122_whole_partial",
    "CocotbBus.C122_returns_partial"
   ],
   "note": "The calls that AxOpOk excludes (C55: a data latency with several values; C58: WRAP bursts shorter than the bus) go wrong whether given up or not (C122_violated). Proved for all others. A call is not given up in the read-only phase."
  },
  {
   "property": "C123",
   "status": "partial",
   "theorems": [
    "CocotbBus.C123_violated",
    "CocotbBus.C123_which_partial",
    "CocotbBus.C123_own_partial"
   ],
   "note": "False: a later call takes the late response to the one given up, so that a write that succeeded raises, or one that was refused returns. Proved which response each call takes (its own or that to an earlier write, and each only once), and that it is its own if all earlier writes have been answered before or all earlier calls have returned."
  },
  {
   "property": "C124",
   "status": "partial",
   "theorems": [
    "CocotbBus.C124_violated",
    "CocotbBus.C124_partial",
    "CocotbBus.C124_idle_partial",
    "CocotbBus.C124_count"
   ],
   "note": "False: ARVALID stays 1, and the slave accepts the address at every edge with ARREADY (C124_count). Proved: no other address is accepted, and at most once if ARVALID is not 1 when the call is given up."
  },
  {
   "property": "C125",
   "status": "proved",
   "theorems": [
    "CocotbBus.C125_stream",
    "CocotbBus.C125_verdict",
    "CocotbBus.C125_exists",
    "CocotbBus.C125_success"
   ],
   "note": "The device is modelled from its SystemVerilog source. Words at consecutive edges (send(data, sync=False) in a row) are excluded: the device loses the eleventh one (example in Props/StreamFifo.lean). The six edges that the test waits for at the end do not suffice for every back pressure; C125_verdict says what does. The wave generator of the test is any sequence of values here."
  },
  {
   "property": "C126",
   "status": "proved",
   "theorems": [
    "CocotbBus.C126_memory",
    "CocotbBus.C126_test",
    "CocotbBus.C126_exists"
   ],
   "note": "The memory is modelled from its SystemVerilog source; it does not drive waitrequest, which is taken to be 0. There is such a simulation of every length for all calls (C126_exists). Addresses outside the memory are left out. Unlike in C85 the slave is hardware: its answer is there at the edge after the request, before the master looks."
  },
  {
   "property": "C127",
   "status": "proved",
   "theorems": [
    "CocotbBus.C127_passes",
    "CocotbBus.C127_completes",
    "CocotbBus.C127_unmapped",
    "CocotbBus.C127_refused",
    "CocotbBus.C127_crossing",
    "CocotbBus.C127_exists"
   ],
   "note": "Any memory that answers as in C100, not the one of the tests (axi_ram.v, which has no WRAP). Bus widths for which the tests are not meant are left out: test_narrow_burst shifts by 16, right for a bus of four bytes; data_width - 1 in test_illegal_operations is a legal size on a bus of two bytes (example in Props/AxiTests.lean). return_rresp has its default value. The situations of test_simultaneous are those of C103 and C106, test_read_length_mismatch that of C61."
  },
  {
   "property": "C128",
   "status": "partial",
   "theorems": [
    "CocotbBus.C128_violated",
    "CocotbBus.C128_len_partial",
    "CocotbBus.C128_wide",
    "CocotbBus.C128_avalon_partial",
    "CocotbBus.C128_axi_partial",
    "CocotbBus.C128_axi_write_partial"
   ],
   "note": "False: from 63 address bits on, which AXI systems have, len(master) and `if master:` raise OverflowError, since Python's len() cannot return a number above sys.maxsize. Proved for up to 62 bits, together with the meaning of the length for reads and writes of Avalon and AXI (the length is that of ARADDR; AWADDR is assumed to be as wide)."
  },
  {
   "property": "C129",
   "status": "proved",
   "theorems": [
    "CocotbBus.C129_stays",
    "CocotbBus.C129_received",
    "CocotbBus.C129_raising",
    "CocotbBus.C129_prefix",
    "CocotbBus.C129_monitors",
    "CocotbBus.C129_wait"
   ],
   "note": "The coroutine of the monitor is any function of its state and the values at a clock edge; C129_monitors says that the three monitors of the package are of this form. C129_received and C129_prefix assume callbacks that do not raise; C129_raising is for any callback, which ends the coroutine when it raises. C129_received and C129_raising assume that no callback is added in between. A callback that calls kill() itself is not modelled."
  },
  {
   "property": "C130",
   "status": "partial",
   "theorems": [
    "CocotbBus.C130_violated",
    "CocotbBus.C130_violated_enable",
    "CocotbBus.C130_rejected_partial",
    "CocotbBus.C130_returns_partial",
    "CocotbBus.C130_too_far"
   ],
   "note": "False: a write whose address is too large raises OverflowError with its data on the bus, and one with an empty byte_enable IndexError with its address on the bus; the next write is then stored with the wrong data or at the wrong address, silently. Proved for calls that are not legal (ValueError), reads of addresses that are too large, and calls refused by the slave. As in C53 an exception of one of the two tasks of a write is reported after the other has ended."
  },
  {
   "property": "C131",
   "status": "proved",
   "theorems": [
    "CocotbBus.C131_nothing_more",
    "CocotbBus.C131_split",
    "CocotbBus.C131_send"
   ],
   "note": "In the model of the send queue (C10-C14), where sending is a black box; what a cut-off send leaves on an Avalon-ST bus is C86. C131_split leaves out clear(), which drops what is queued (C10_order_clear). A callback that calls kill() itself is not modelled."
  }
 ]
}