{
 "C01": {
  "note": "Python allocator for every history that frees only what is allocated; Linux bitmap allocator unconditionally. C01_double_free_counterexample shows the Python allocator double-allocates after a double free."
 },
 "C03": {
  "note": "All pointer reads except the Linux mqnic_cq_read_prod_ptr, which reads the wrong register half (C03_linux_cq_counterexample; the function has no caller)."
 },
 "C09": {
  "status": "partial",
  "note": "The property as stated is false of the code: C09_short_frame_wedges (for every ring and continuation) and C09_short_frame_counterexample; C09_recycled_partial proves recycling when no short frame arrives."
 },
 "C45": {
  "status": "partial",
  "note": "False when the last frame of a burst is dropped (C45_dropped_burst_counterexample); proved for bursts whose last frame is not dropped."
 },
 "C44": {
  "note": "Sequentially consistent memory."
 },
 "C15": {
  "status": "partial",
  "note": "Arming race proved in full (exactly one event, silence means empty, one-shot). Delivery proved with the event sink always ready, and under any back-pressure when no arm command itself reports an event; false otherwise: C15_event_overwritten_counterexample (an arm command overwrites a pending event)."
 },
 "C14": {
  "note": "C14_base_strobe_counterexample records a byte-strobe defect of the base address register (not part of the property)."
 },
 "C22": {
  "note": "Checksum 0 is not replaced by 0xFFFF; recorded as a counterexample theorem."
 },
 "C16": {
  "note": "For register writes with byte 0 enabled; C16_strobe_counterexample shows that a write with byte 0 disabled schedules a queue twice."
 },
 "C18": {
  "status": "partial",
  "note": "Proved without the scheduler control port (or with the per-queue scheduler enable set), for every completion order in which 'nothing sent' is never reported for an overtaken request. False otherwise: C18_overtaken_counterexample, C18_sched_ctrl_counterexample. Doorbells dropped by a full doorbell FIFO (depth 256, ready ignored) are outside the statement: it speaks of processed doorbells."
 },
 "C25": {
  "note": "Hardware: every accepted word except ordered set followed by start (C25_os_start_flags: data bytes come back flagged as control). Python: every IEEE block format except ordered set plus four control characters (C25_python_os0_counterexample, C25_python_sig_os_counterexample)."
 },
 "C29": {
  "status": "partial",
  "note": "Python hash functions and the RTL on IPv4 and non-IP frames proved; the RTL misreads the payload of longer IPv6 frames as a new header because its beat counter wraps (C29_ipv6_wrap_counterexample), so the RTL theorem covers IPv6 frames only up to that length, and frames of at least 38 bytes."
 },
 "C30": {
  "note": "Bus widths 4*2^d bytes. C30_reset_counterexample: a reset in the middle of a frame leaves the accumulator uncleared (resets are outside the property)."
 },
 "C41": {
  "status": "partial",
  "note": "Proved when event and processing fall into one 256-second block and the cache is less than 65281 s away; false otherwise: C41_rollover_counterexample, C41_stale_counterexample (C41_crossing gives the value returned)."
 },
 "C42": {
  "note": "Unbounded integers. Comparisons need normalised inputs (C42_compare_unnormalised_counterexample); remainder for dividends below 2^63-2 seconds (C42_mod_range_counterexample at the end of the range). Conversions from/to double not modelled."
 },
 "C48": {
  "note": "get_lower_address (used nowhere in the repository) is wrong: C48_lower_address_counterexample."
 },
 "C49": {
  "note": "Region length a multiple of 4. Transport between requester and completer (ports, flow control) is not modelled."
 },
 "C50": {
  "status": "partial",
  "note": "Proved for RootComplex.mem_read. For Function.mem_read proved when one request suffices; false otherwise (C50_device_read_counterexample): set_be is given the whole length."
 },
 "C51": {
  "status": "partial",
  "note": "Proved for completions and for the common header of every TLP; false for memory, IO and configuration requests: C51_read_request_counterexample, C51_write_request_counterexample."
 },
 "C53": {
  "status": "partial",
  "note": "Proved for even sizes (the only ones used in the repository); false for odd sizes: C53_odd_counterexample."
 },
 "C54": {
  "status": "partial",
  "note": "For any sequence of calls two capabilities share at most one register; disjoint when all offsets are automatic. False in general (C54_overlap_counterexample: automatic placement in front of a fixed capability). A single capability has no next pointer (C54_single_counterexample)."
 },
 "C56": {
  "status": "partial",
  "note": "Proved for 64-bit BARs below 4 GB and less than 2 GB of prefetchable space (with the default bases). False otherwise: C56_big_counterexample (a 4 GB BAR is never decoded), C56_alias_counterexample (32-bit BARs ignore the upper address bits)."
 },
 "C58": {
  "status": "partial",
  "note": "C58_no_lost_wakeup and C58_never_stuck hold as long as no event of the queue is dropped; C58_no_drop says when none is; C58_overflow_stalls shows, for every event queue size, a run in which the handler re-arms faster than it acknowledges and the queue is lost (C58_dropped_event_is_fatal)."
 },
 "C59": {
  "note": "Under the ordering condition stated in the property; C59_overflow_stalls shows that without it (polling on another CPU while the handler runs) the event queue can overflow."
 },
 "C60": {
  "note": "Configuration requests on the requester request stream only, as in the code. C60_format_not_kept and C60_atomics_one_way state the two limits."
 },
 "C63": {
  "note": "Frames with at least one double word, parity and (where the stream has them) byte enables for each double word; C63_empty_dropped for the rest."
 },
 "C64": {
  "note": "Table sizes that are powers of two. A request whose port number is not below PORTS is outside the legal inputs: the engine would wait for ever."
 },
 "C65": {
  "note": "proved for size limits that are multiples of the step size, a pause between packets, descriptors within the limit and a constant receive size; each of these conditions is shown to be needed by a counterexample (C65_tx_back_to_back, C65_tx_rounding, C65_tx_long, C65_rx_mtu)"
 },
 "C66": {
  "note": "proved for surroundings that answer each request once, pause between packets, keep the size limit and need fewer reads per packet than the counters count; DMA read errors are not modelled (the engine ignores them). C66_checksum_start and C66_counter_wraps are the exceptions."
 },
 "C67": {
  "note": "proved for surroundings that answer each request once, keep the configured size, and report writes after the last descriptor of the packet and before its tag is free; DMA errors are not modelled (the engine ignores them). C67_multi_write, C67_stale_report, C67_checksum_shift, C67_late_descriptor, C67_truncated and C67_empty_stalls are the exceptions."
 },
 "C68": {
  "note": "proved for surroundings that answer each request once, hold their answers and write only to slots of fetches under way; commits under the further hypothesis that they are taken when offered (queue_manager.v does when enabled) or that there is one port. C68_lost_commit and C68_long_block are the exceptions."
 },
 "C69": {
  "note": "the bound in time is proved for receivers that take what is offered and increments whose unreported sum stays below 2^STAT_INC_WIDTH (Calm); C69_overflow shows that this is needed, C69_modulo what holds without it."
 },
 "C70": {
  "note": "proved for surroundings that hold what they offer until it is taken and use counter numbers within STAT_ID_WIDTH; the write channels, whose data is discarded, are not modelled. C70_starvation and C70_torn are the exceptions."
 },
 "C71": {
  "note": "the two FIFOs are lists with arbitrary readiness and latency; assumed of the checksum FIFO only that it stays ready until something is written to it, proved of axis_fifo in C31_ready_stays. C71_stuck and C71_init_odd_counterexample are the exceptions."
 },
 "C72": {
  "note": "C72_page_end, C72_wrap and C72_credits_counterexample are the exceptions, the first two as universal statements about exactly the operations excluded in C72_cover."
 },
 "C73": {
  "note": "completions are as the PCIe specification prescribes (Part, answer). C73_page_end follows the exception C72_page_end to the RAM."
 },
 "C74": {
  "note": "proved for descriptors outside the exceptions of C72 with buffers apart from those in use, for a host that answers each request in order of its bytes or ends it with an error and then sends no more for it, and for 2^w tags with w at least 5. C74_early_counterexample and C74_poison_counterexample show that the last two are needed."
 },
 "C75": {
  "note": "proved for descriptors that fit the address spaces, immediate data no wider than the RAM, and RAMs whose bytes do not change while a descriptor that reads them has no status. C75_payload_4096_loses_data is the exception."
 },
 "C76": {
  "note": "proved for sequence numbers that come back once for each TLP whose first beat has been sent. The limit on TLPs in flight, which only delays, is in C77."
 },
 "C77": {
  "note": "C77_write_exceeds_limit and C77_write_limit_lost are the exceptions; the operation table bounds the number of TLPs in flight independently."
 },
 "C78": {
  "note": "C78_none_lost for up to 2^14 vectors. C78_needs_pause is the exception."
 },
 "C79": {
  "note": "C79_wrap_breaks_interval shows that the condition on the wrap is needed."
 },
 "C81": {
  "note": "vectors 0 to 31 for the parts about pending bits; C81_masked_blocks is an exception, C82 has the others. Writes of the table over AXI-lite are inputs."
 },
 "C82": {
  "note": "the property describes a defect of the code; proved as such."
 },
 "C85": {
  "note": "selects of ports that exist; a select of another is not excluded by the code if PORTS is not a power of two."
 },
 "C86": {
  "note": "one segment; the segments are independent copies."
 },
 "C87": {
  "note": "one segment; the segments are independent copies."
 },
 "C89": {
  "note": "all optional signals present. tlp_abort of a frame is lost (C89_abort_lost)."
 },
 "C91": {
  "note": "the bits and registers for which the claim fails are listed in the specification (dev, Raises) and each has a theorem (C91_rcb_misplaced, C91_link_width_lost, C91_sec_status_stuck, C91_status_cleared, C91_write_raises, C91_readable)."
 },
 "C92": {
  "note": "up to 2048 devices and message numbers below 32; C92_wraps and C92_beyond show what happens otherwise. Mask bits are ignored by the code (C92_mask_ignored)."
 },
 "C93": {
  "note": "frames of at least a word starting with 0x55, no error flag in the first word; C93_short_frame shows what happens to shorter ones."
 },
 "C94": {
  "note": ""
 },
 "C95": {
  "note": "frames of one byte (GMII) and unaligned 0xD5 (nibble modes) are excluded; C95_one_byte_merges and C95_unsynced_shifted show why."
 },
 "C96": {
  "note": "frames without error flags; C96_error_wipes_block shows what happens to those with."
 },
 "C97": {
  "note": "operations in the order Op.Ok; C97_limits shows that size, block size and alignment limits are sharp."
 },
 "C98": {
  "note": "operations in the order Op.Ok; C98_eq_first and C98_second_ring show what happens outside it."
 },
 "C99": {
  "status": "partial",
  "note": "open is proved. close is false for every interface with a queue (C99_close_raises, C99_no_reopen): coroutines are not awaited and None is awaited. C99_close_partial proves that the calls it intends to make would do what is claimed."
 },
 "C100": {
  "note": "results and return of all operations for executions without timeouts; C100_late_completion shows that with timeouts they fail."
 },
 "C101": {
  "note": "completer is the one of pcie.py (model of C50); executions without timeouts."
 },
 "C102": {
  "note": "assumes that the bits of the commit pointer arrive at most one read clock after its update flag was sampled; C102_commit_skew_counterexample shows what happens otherwise."
 },
 "C103": {
  "status": "partial",
  "note": "Proved for completions. False for messages routed by ID (C103_message_counterexample: in every tree); a completion for a missing device below a switch circulates forever (C103_stray_counterexample)."
 },
 "C104": {
  "status": "partial",
  "note": "Delivery to BARs proved under the assumptions of C56 (BARs below 4 GB, less prefetchable space than the memory base leaves below it), which the code needs."
 },
 "C105": {
  "status": "partial",
  "note": "Proved for reads. For writes proved that nobody answers when no bridge has a BAR, the base addresses are aligned and the address is not the first one after a range (C105_write_partial). False when the bridge of a switch has a BAR (C105_switch_counterexample) and for writes in general, which a switch or root complex does answer (C105_posted_counterexample)."
 },
 "C106": {
  "status": "partial",
  "note": "Proved when tkeep is driven, also where S_KEEP_ENABLE is 0, and has no gaps where the output has no tkeep. False when S_KEEP_ENABLE is 0 and tkeep is wired to 0 (C106_keep_counterexample)."
 },
 "C110": {
  "status": "partial",
  "note": "Lowered is proved for at most 14 bad headers; false for 15 (C110_fifteen_counterexample). When COUNT_125US is a power of two the flag is never raised (C110_power_counterexample)."
 },
 "C111": {
  "status": "partial",
  "note": "Reset and rise of the status are proved. Status down on loss of lock is false in the last cycle of an interval (C111_glitch_counterexample); errors alone never lower it (C111_errors_counterexample); the reset is also issued when the signal has recovered (C111_recovered_counterexample)."
 },
 "C112": {
  "status": "partial",
  "note": "Time is proved with the drift applied as the code does it. False: drift is applied in all but one of drift_rate cycles (C112_drift_counterexample); nanoseconds reach 10^9 (C112_second_counterexample)."
 },
 "C113": {
  "status": "partial",
  "note": "Proved after a reset of three cycles. False without reset after power up (C113_powerup_counterexample) and for loads of the 64 bit time with a fraction other than 16 bits (C113_load64_counterexample)."
 },
 "C114": {
  "status": "partial",
  "note": "Proved when no adjustment is pending and the net increment is not negative; false otherwise (C114_lost_counterexample, C114_negative_counterexample)."
 },
 "C115": {
  "status": "proved",
  "note": "Exact one period after lock, and from the second pulse on for a start ahead; lock for a start in the past in C115_past. The first pulse is never put out (C115_first_counterexample); disabling does not end a pulse (C115_disable_counterexample)."
 },
 "C116": {
  "status": "partial",
  "note": "Proved for lists without the page register; a page register in the list is not noticed and the following registers go to the wrong page (C116_page_counterexample)."
 },
 "C117": {
  "status": "partial",
  "note": "Proved for tables of the documented form. A delay in a data block is skipped (C117_delay_counterexample)."
 },
 "C118": {
  "status": "partial",
  "note": "Proved for a sink that starts between messages. A sink that starts during a message ends with an exception (C118_join_counterexample); with td_delay above 256 no message ever takes effect (C118_delay_counterexample)."
 },
 "C125": {
  "status": "partial",
  "note": "Proved as long as permits are left. An exception in a task, as from output that is not UTF-8, never returns its permits; with as many as the limit the script hangs (C125_exception_counterexample)."
 },
 "C126": {
  "status": "partial",
  "note": "Different directories can get the same name, and names with hyphens the same file (C126_same_name_counterexample)."
 },
 "C128": {
  "status": "partial",
  "note": "Proved for the start of a pause of the link without tx_lfc_resend; for its end and for priorities provided that no request comes in the cycle in which a frame is about to be launched. Otherwise the end of a pause, or the pause of a second priority, is not sent (C128_end_counterexample, C128_priority_counterexample, C128_resend_counterexample)."
 },
 "C129": {
  "status": "partial",
  "note": "Proved for pauses of the link with priorities disabled and ready high; the refresh of priorities is not covered."
 },
 "C131": {
  "status": "partial",
  "note": "The end is proved for every history; the beginning for a slot that begins when no slot is under way and while the RAM is not written. A slot that begins while the one before is still being switched on is lost, and its end cuts the slot after it short (C131_lost_counterexample)."
 },
 "C136": {
  "status": "partial",
  "note": "The acknowledge follows the end of a frame of more than one transfer; frames of a single transfer without gaps hold the pause off for ever (C136_single_counterexample)."
 },
 "C140": {
  "status": "partial",
  "note": "No edge is lost and lines that were never high have no run; but the handler of a line that is high runs again at every change of the signal (C140_repeated_counterexample), and Interrupt.from_edge never runs its handler (C140_from_edge_counterexample)."
 },
 "C142": {
  "status": "partial",
  "note": "Proved for lists without empty reads at aligned addresses; such a read puts the following reads out of step (C142_empty_counterexample)."
 },
 "C143": {
  "status": "partial",
  "note": "Proved for more than one lane or a RAM as wide as the stream, and lengths from 1; with one lane and several parts bytes go to the wrong address (C143_one_lane_counterexample), and a length of 0 does not limit the frame (C143_zero_length_counterexample)."
 },
 "C145": {
  "status": "partial",
  "note": "Proved for more than one lane or a RAM as wide as the stream, and lengths from 1; with one lane and several parts another byte is read (C145_one_lane_counterexample), and a length of 0 puts out the longest frame (C145_zero_length_counterexample)."
 },
 "C148": {
  "status": "partial",
  "note": "Proved while the backlog does not pass 2^COUNT_WIDTH-1; beyond that the counter wraps round and 2^COUNT_WIDTH pulses are lost (C148_overflow_counterexample, for every width)."
 },
 "C153": {
  "status": "partial",
  "note": "Proved for calls that start while the enable bit reads 0 (C153_read, C153_write). The code violates the property after a call that failed: C153_after_failure_counterexample."
 },
 "C155": {
  "status": "partial",
  "note": "Proved for TLPs with up to 512 words of data (C155_counts, C155_three, C155_not_ready). The code is wrong beyond: C155_long_counterexample."
 },
 "C156": {
  "status": "partial",
  "note": "Proved if no access of the registers fails (C156_history, C156_values, C156_values_all; C156_others in any case). If one fails the code returns 0 all the same: C156_failure_counterexample."
 },
 "C157": {
  "status": "proved",
  "note": "C157_lossless, C157_spread, C157_stable, C157_drained, C157_rate."
 },
 "C158": {
  "status": "proved",
  "note": "C158_lossless, C158_stable, C158_rate, C158_drop_ready."
 },
 "C159": {
  "status": "partial",
  "note": "Proved: what is put out is whole or marked (C159_copy, C159_cut, C159_recover), and everything is put out if the output is always ready (C159_all). The code can skip a frame during which the output is ready: C159_skip_counterexample."
 },
 "C160": {
  "status": "proved",
  "note": "C160_pad, C160_min."
 },
 "C161": {
  "status": "proved",
  "note": "C161_empty, C161_order, C161_round, C161_sop."
 },
 "C162": {
  "status": "proved",
  "note": "C162_shown, C162_settled."
 }
}