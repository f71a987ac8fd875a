{
 "claims": [
  {
   "property": "C01",
   "status": "proved",
   "theorems": [
    "Corundum.Resource.C01_no_double_allocation",
    "Corundum.Resource.C01_alloc_least_free",
    "Corundum.Resource.C01_alloc_fails_iff_exhausted",
    "Corundum.Resource.C01_double_free_counterexample",
    "Corundum.Resource.C01_linux_allocator"
   ],
   "note": "Python allocator for every history that frees only what is allocated; Linux bitmap allocator unconditionally. C01_double_free_counterexample shows the Python allocator double-allocates after a double free."
  },
  {
   "property": "C02",
   "status": "proved",
   "theorems": [
    "Corundum.RegBlock.C02_discovery",
    "Corundum.RegBlock.C02_report_unique",
    "Corundum.RegBlock.C02_find",
    "Corundum.RegBlock.C02_linux_discovery"
   ],
   "note": ""
  },
  {
   "property": "C03",
   "status": "proved",
   "theorems": [
    "Corundum.Pointers.C03_read_prod",
    "Corundum.Pointers.C03_read_cons",
    "Corundum.Pointers.C03_read_monotone",
    "Corundum.Pointers.C03_linux",
    "Corundum.Pointers.C03_linux_cq_counterexample"
   ],
   "note": "All pointer reads except the Linux mqnic_cq_read_prod_ptr, which reads the wrong register half (C03_linux_cq_counterexample; the function has no caller)."
  },
  {
   "property": "C04",
   "status": "proved",
   "theorems": [
    "Corundum.Driver.C04_no_exception",
    "Corundum.Driver.C04_tx_window",
    "Corundum.Driver.C04_tx_frames_intact",
    "Corundum.Driver.C04_xmit_accepts"
   ],
   "note": ""
  },
  {
   "property": "C05",
   "status": "proved",
   "theorems": [
    "Corundum.Segments.C05_tx_segments",
    "Corundum.Segments.C05_tx_gather"
   ],
   "note": ""
  },
  {
   "property": "C06",
   "status": "proved",
   "theorems": [
    "Corundum.Segments.C06_rx_segments"
   ],
   "note": ""
  },
  {
   "property": "C07",
   "status": "proved",
   "theorems": [
    "Corundum.CplRing.C07_exactly_once_in_order",
    "Corundum.CplRing.C07_poll_exact",
    "Corundum.CplRing.C07_pass",
    "Corundum.CplRing.C07_pass_terminates"
   ],
   "note": ""
  },
  {
   "property": "C08",
   "status": "proved",
   "theorems": [
    "Corundum.Driver.C08_rx_delivered",
    "Corundum.Driver.C08_rx_complete",
    "Corundum.Driver.C08_buffers_disjoint",
    "Corundum.Driver.C08_buffers_conserved",
    "Corundum.Driver.C08_rx_replenished",
    "Corundum.Driver.C08_rx_window",
    "Corundum.Driver.C08_refill_keeps"
   ],
   "note": ""
  },
  {
   "property": "C09",
   "status": "partial",
   "theorems": [
    "Corundum.LinuxRx.C09_short_frame_wedges",
    "Corundum.LinuxRx.C09_short_frame_counterexample",
    "Corundum.LinuxRx.C09_recycled_partial"
   ],
   "note": "The property as stated is false of the code: C09_short_frame_wedges (for every ring and continuation) and C09_short_frame_counterexample; C09_recycled_partial proves recycling when no short frame arrives."
  },
  {
   "property": "C10",
   "status": "proved",
   "theorems": [
    "Corundum.QueueManager.C10_refines_atomic",
    "Corundum.QueueManager.C10_consecutive",
    "Corundum.QueueManager.C10_from_power_up",
    "Corundum.QueueManager.C10_answers",
    "Corundum.QueueManager.C10_never_past_producer",
    "Corundum.QueueManager.C10_failed_request_no_effect",
    "Corundum.QueueManager.C10_no_response_lost",
    "Corundum.QueueManager.C10_executed_in_order",
    "Corundum.QueueManager.C10_ready_means_accepted"
   ],
   "note": ""
  },
  {
   "property": "C11",
   "status": "proved",
   "theorems": [
    "Corundum.QueueManager.C11_retire_in_order",
    "Corundum.QueueManager.C11_pointer_visible",
    "Corundum.QueueManager.C11_tag_not_reused",
    "Corundum.QueueManager.C11_progress"
   ],
   "note": ""
  },
  {
   "property": "C12",
   "status": "proved",
   "theorems": [
    "Corundum.QueueManager.C12_address_in_ring",
    "Corundum.QueueManager.C12_disjoint"
   ],
   "note": ""
  },
  {
   "property": "C13",
   "status": "proved",
   "theorems": [
    "Corundum.QueueManager.C13_config_stable",
    "Corundum.QueueManager.C13_doorbell",
    "Corundum.QueueManager.C13_other_queues",
    "Corundum.QueueManager.C13_read_data",
    "Corundum.QueueManager.C13_write_response",
    "Corundum.QueueManager.C13_doorbell_output"
   ],
   "note": ""
  },
  {
   "property": "C14",
   "status": "proved",
   "theorems": [
    "Corundum.CplQueue.C14_refines_atomic",
    "Corundum.CplQueue.C14_grant_within_ring",
    "Corundum.CplQueue.C14_consecutive",
    "Corundum.CplQueue.C14_from_power_up",
    "Corundum.CplQueue.C14_bounded_by_free_space",
    "Corundum.CplQueue.C14_no_overwrite",
    "Corundum.CplQueue.C14_no_response_lost",
    "Corundum.CplQueue.C14_register_channel",
    "Corundum.CplQueue.C14_executed_in_order",
    "Corundum.CplQueue.C14_publish_in_order",
    "Corundum.CplQueue.C14_address_in_ring",
    "Corundum.CplQueue.C14_base_strobe_counterexample"
   ],
   "note": "C14_base_strobe_counterexample records a byte-strobe defect of the base address register (not part of the property)."
  },
  {
   "property": "C15",
   "status": "partial",
   "theorems": [
    "Corundum.CplQueue.C15_exactly_one_event",
    "Corundum.CplQueue.C15_one_shot",
    "Corundum.CplQueue.C15_silence_means_empty",
    "Corundum.CplQueue.C15_event_correct",
    "Corundum.CplQueue.C15_events_delivered",
    "Corundum.CplQueue.C15_events_delivered_backpressure_partial",
    "Corundum.CplQueue.C15_publish_progress",
    "Corundum.CplQueue.C15_event_overwritten_counterexample"
   ],
   "note": "Arming race proved in full (exactly one event, silence means empty, one-shot). Delivery proved with the event sink always ready, and under any back-pressure when no arm command itself reports an event; false otherwise: C15_event_overwritten_counterexample (an arm command overwrites a pending event)."
  },
  {
   "property": "C16",
   "status": "proved",
   "theorems": [
    "Corundum.Sched.C16_scheduled_once",
    "Corundum.Sched.C16_no_overflow",
    "Corundum.Sched.C16_count",
    "Corundum.Sched.C16_count_zero",
    "Corundum.Sched.C16_strobe_counterexample",
    "Corundum.Sched.C16_read_value",
    "Corundum.Sched.C16_register_channel"
   ],
   "note": "For register writes with byte 0 enabled; C16_strobe_counterexample shows that a write with byte 0 disabled schedules a queue twice."
  },
  {
   "property": "C17",
   "status": "proved",
   "theorems": [
    "Corundum.Sched.C17_fifo",
    "Corundum.Sched.C17_no_overtaking",
    "Corundum.Sched.C17_round_robin",
    "Corundum.Sched.C17_progress"
   ],
   "note": ""
  },
  {
   "property": "C18",
   "status": "partial",
   "theorems": [
    "Corundum.Sched.C18_no_lost_doorbell",
    "Corundum.Sched.C18_not_skipped",
    "Corundum.Sched.C18_overtaken_counterexample",
    "Corundum.Sched.C18_sched_ctrl_counterexample"
   ],
   "note": "Proved without the scheduler control port (or with the per-queue scheduler enable set), for every completion order in which 'nothing sent' is never reported for an overtaken request. False otherwise: C18_overtaken_counterexample, C18_sched_ctrl_counterexample. Doorbells dropped by a full doorbell FIFO (depth 256, ready ignored) are outside the statement: it speaks of processed doorbells."
  },
  {
   "property": "C19",
   "status": "proved",
   "theorems": [
    "Corundum.Frames.C19_eth_roundtrip",
    "Corundum.Frames.C19_eth_parse_total",
    "Corundum.Frames.C19_eth_rebuild",
    "Corundum.Frames.C19_eth_fcs"
   ],
   "note": ""
  },
  {
   "property": "C20",
   "status": "proved",
   "theorems": [
    "Corundum.Frames.C20_arp_roundtrip"
   ],
   "note": ""
  },
  {
   "property": "C21",
   "status": "proved",
   "theorems": [
    "Corundum.Frames.C21_ip_roundtrip",
    "Corundum.Frames.C21_ip_checksum",
    "Corundum.Frames.C21_ip_verify"
   ],
   "note": ""
  },
  {
   "property": "C22",
   "status": "proved",
   "theorems": [
    "Corundum.Frames.C22_udp_roundtrip",
    "Corundum.Frames.C22_udp_checksum",
    "Corundum.Frames.C22_udp_zero_checksum_counterexample"
   ],
   "note": "Checksum 0 is not replaced by 0xFFFF; recorded as a counterexample theorem."
  },
  {
   "property": "C23",
   "status": "proved",
   "theorems": [
    "Corundum.Frames.C23_ip_single_word",
    "Corundum.Frames.C23_udp_single_word"
   ],
   "note": ""
  },
  {
   "property": "C24",
   "status": "proved",
   "theorems": [
    "Corundum.AxisFrame.C24_pack_roundtrip",
    "Corundum.AxisFrame.C24_keep",
    "Corundum.AxisFrame.C24_delivery",
    "Corundum.AxisFrame.C24_drains"
   ],
   "note": ""
  },
  {
   "property": "C25",
   "status": "proved",
   "theorems": [
    "Corundum.BaseR.C25_rtl_roundtrip",
    "Corundum.BaseR.C25_os_start_flags",
    "Corundum.BaseR.C25_rtl_accepts",
    "Corundum.BaseR.C25_python_roundtrip",
    "Corundum.BaseR.C25_python_os0_counterexample",
    "Corundum.BaseR.C25_python_sig_os_counterexample",
    "Corundum.BaseR.C25_python_matches_rtl"
   ],
   "note": "Hardware: every accepted word except ordered set followed by start (C25_os_start_flags: data bytes come back flagged as control). Python: every IEEE block format except ordered set plus four control characters (C25_python_os0_counterexample, C25_python_sig_os_counterexample)."
  },
  {
   "property": "C26",
   "status": "proved",
   "theorems": [
    "Corundum.Scrambler.C26_serial_sync",
    "Corundum.Scrambler.C26_single_error",
    "Corundum.Scrambler.C26_phy_sync",
    "Corundum.Scrambler.C26_prbs_sync",
    "Corundum.Scrambler.C26_python_matches_rtl",
    "Corundum.Scrambler.C26_python_roundtrip"
   ],
   "note": ""
  },
  {
   "property": "C27",
   "status": "proved",
   "theorems": [
    "Corundum.Crc.C27_residue",
    "Corundum.Crc.C27_accepts_iff",
    "Corundum.Crc.C27_burst_detected",
    "Corundum.Crc.C27_single_bit_detected",
    "Corundum.Crc.C27_built_frame_accepted",
    "Corundum.Crc.C27_fcs_generator"
   ],
   "note": ""
  },
  {
   "property": "C28",
   "status": "proved",
   "theorems": [
    "Corundum.Lfsr.C28_parallel_eq_serial",
    "Corundum.Lfsr.C28_parallel_eq_serial_reversed"
   ],
   "note": ""
  },
  {
   "property": "C29",
   "status": "partial",
   "theorems": [
    "Corundum.RxHash.C29_rtl_toeplitz_partial",
    "Corundum.RxHash.C29_same_flow",
    "Corundum.RxHash.C29_python_toeplitz",
    "Corundum.RxHash.C29_ipv6_wrap_counterexample"
   ],
   "note": "Python hash functions and the RTL on IPv4 and non-IP frames proved; the RTL misreads the payload of longer IPv6 frames as a new header because its beat counter wraps (C29_ipv6_wrap_counterexample), so the RTL theorem covers IPv6 frames only up to that length, and frames of at least 38 bytes."
  },
  {
   "property": "C30",
   "status": "proved",
   "theorems": [
    "Corundum.RxCsum.C30_ones_complement_sum",
    "Corundum.RxCsum.C30_default_offset",
    "Corundum.RxCsum.C30_reset_counterexample"
   ],
   "note": "Bus widths 4*2^d bytes. C30_reset_counterexample: a reset in the middle of a frame leaves the accumulator uncleared (resets are outside the property)."
  },
  {
   "property": "C31",
   "status": "proved",
   "theorems": [
    "Corundum.AxisFifo.C31_order",
    "Corundum.AxisFifo.C31_capacity",
    "Corundum.AxisFifo.C31_ready_stays",
    "Corundum.AxisFifo.C31_frame_mode",
    "Corundum.AxisFifo.C31_status_pulses",
    "Corundum.AxisFifo.C31_frame_kept",
    "Corundum.AxisFifo.C31_frame_gapless",
    "Corundum.AxisFifo.C31_frame_gap_counterexample",
    "Corundum.AxisFifo.C31_stable",
    "Corundum.AxisFifo.C31_status",
    "Corundum.AxisFifo.C31_status_exact",
    "Corundum.AxisFifo.C31_mark_mode",
    "Corundum.AxisFifo.C31_mark_starvation_counterexample",
    "Corundum.AxisFifo.C31_pause",
    "Corundum.AxisFifo.C31_drains",
    "Corundum.AxisFifo.C31_ready_again"
   ],
   "note": ""
  },
  {
   "property": "C32",
   "status": "proved",
   "theorems": [
    "Corundum.Arbiter.C32_one_hot",
    "Corundum.Arbiter.C32_only_requesters",
    "Corundum.Arbiter.C32_blocking",
    "Corundum.Arbiter.C32_priority",
    "Corundum.Arbiter.C32_fair",
    "Corundum.Arbiter.C32_fair_nonblocking"
   ],
   "note": ""
  },
  {
   "property": "C33",
   "status": "proved",
   "theorems": [
    "Corundum.PriorityEncoder.C33_valid",
    "Corundum.PriorityEncoder.C33_encoded",
    "Corundum.PriorityEncoder.C33_width"
   ],
   "note": ""
  },
  {
   "property": "C34",
   "status": "proved",
   "theorems": [
    "Corundum.Cobs.C34_encode",
    "Corundum.Cobs.C34_zero_free",
    "Corundum.Cobs.C34_wire",
    "Corundum.Cobs.C34_overhead",
    "Corundum.Cobs.C34_decode",
    "Corundum.Cobs.C34_roundtrip",
    "Corundum.Cobs.C34_decoder_tlast_counterexample"
   ],
   "note": ""
  },
  {
   "property": "C35",
   "status": "proved",
   "theorems": [
    "Corundum.AxisRegister.C35_skid_order",
    "Corundum.AxisRegister.C35_skid_prefix",
    "Corundum.AxisRegister.C35_skid_stable",
    "Corundum.AxisRegister.C35_skid_throughput",
    "Corundum.AxisRegister.C35_skid_idle_ready",
    "Corundum.AxisRegister.C35_simple_order",
    "Corundum.AxisRegister.C35_simple_stable"
   ],
   "note": ""
  },
  {
   "property": "C36",
   "status": "proved",
   "theorems": [
    "Corundum.Axi.C36_write",
    "Corundum.Axi.C36_exact",
    "Corundum.Axi.C36_bursts",
    "Corundum.Axi.C36_beats"
   ],
   "note": ""
  },
  {
   "property": "C37",
   "status": "proved",
   "theorems": [
    "Corundum.Axi.C37_read",
    "Corundum.Axi.C37_bursts",
    "Corundum.Axi.C37_read_back",
    "Corundum.Axi.C37_wrap_burst",
    "Corundum.Axi.C37_fixed_burst"
   ],
   "note": ""
  },
  {
   "property": "C38",
   "status": "proved",
   "theorems": [
    "Corundum.PsdpRam.C38_write",
    "Corundum.PsdpRam.C38_write_done",
    "Corundum.PsdpRam.C38_no_error",
    "Corundum.PsdpRam.C38_exact",
    "Corundum.PsdpRam.C38_read",
    "Corundum.PsdpRam.C38_read_done"
   ],
   "note": ""
  },
  {
   "property": "C39",
   "status": "proved",
   "theorems": [
    "Corundum.Ptp.C39_wellformed",
    "Corundum.Ptp.C39_advance",
    "Corundum.Ptp.C39_rate",
    "Corundum.Ptp.C39_monotone",
    "Corundum.Ptp.C39_offset"
   ],
   "note": ""
  },
  {
   "property": "C40",
   "status": "proved",
   "theorems": [
    "Corundum.Ptp.C40_words",
    "Corundum.Ptp.C40_message",
    "Corundum.Ptp.C40_lock"
   ],
   "note": ""
  },
  {
   "property": "C41",
   "status": "partial",
   "theorems": [
    "Corundum.CplTs.C41_extend_partial",
    "Corundum.CplTs.C41_crossing",
    "Corundum.CplTs.C41_rollover_counterexample",
    "Corundum.CplTs.C41_stale_counterexample"
   ],
   "note": "Proved when event and processing fall into one 256-second block and the cache is less than 65281 s away; false otherwise: C41_rollover_counterexample, C41_stale_counterexample (C41_crossing gives the value returned)."
  },
  {
   "property": "C42",
   "status": "proved",
   "theorems": [
    "Corundum.Timespec.C42_normalise",
    "Corundum.Timespec.C42_add_sub",
    "Corundum.Timespec.C42_compare",
    "Corundum.Timespec.C42_compare_unnormalised_counterexample",
    "Corundum.Timespec.C42_mod",
    "Corundum.Timespec.C42_mod_range_counterexample",
    "Corundum.Timespec.C42_convert"
   ],
   "note": "Unbounded integers. Comparisons need normalised inputs (C42_compare_unnormalised_counterexample); remainder for dividends below 2^63-2 seconds (C42_mod_range_counterexample at the end of the range). Conversions from/to double not modelled."
  },
  {
   "property": "C43",
   "status": "proved",
   "theorems": [
    "Corundum.QueueMap.C43_lookup",
    "Corundum.QueueMap.C43_block",
    "Corundum.QueueMap.C43_stream",
    "Corundum.QueueMap.C43_same_flow",
    "Corundum.QueueMap.C43_configured",
    "Corundum.QueueMap.C43_config"
   ],
   "note": ""
  },
  {
   "property": "C44",
   "status": "proved",
   "theorems": [
    "Corundum.LinuxTx.C44_slot_free",
    "Corundum.LinuxTx.C44_frees_exact",
    "Corundum.LinuxTx.C44_no_lost_wake",
    "Corundum.LinuxTx.C44_wakes"
   ],
   "note": "Sequentially consistent memory."
  },
  {
   "property": "C45",
   "status": "partial",
   "theorems": [
    "Corundum.LinuxTx.C45_doorbell_partial",
    "Corundum.LinuxTx.C45_dropped_burst_counterexample"
   ],
   "note": "False when the last frame of a burst is dropped (C45_dropped_burst_counterexample); proved for bursts whose last frame is not dropped."
  },
  {
   "property": "C46",
   "status": "proved",
   "theorems": [
    "Corundum.Sched.C46_tags_unique",
    "Corundum.Sched.C46_balance"
   ],
   "note": ""
  },
  {
   "property": "C47",
   "status": "proved",
   "theorems": [
    "Corundum.QueueMap.C47_reads",
    "Corundum.QueueMap.C47_responses",
    "Corundum.QueueMap.C47_table",
    "Corundum.QueueMap.C47_writes"
   ],
   "note": ""
  },
  {
   "property": "C48",
   "status": "proved",
   "theorems": [
    "Corundum.Pcie.C48_set_be",
    "Corundum.Pcie.C48_count_pos",
    "Corundum.Pcie.C48_lower_address_counterexample"
   ],
   "note": "get_lower_address (used nowhere in the repository) is wrong: C48_lower_address_counterexample."
  },
  {
   "property": "C49",
   "status": "proved",
   "theorems": [
    "Corundum.Pcie.C49_write_enabled",
    "Corundum.Pcie.C49_write_endpoint",
    "Corundum.Pcie.C49_write_root"
   ],
   "note": "Region length a multiple of 4. Transport between requester and completer (ports, flow control) is not modelled."
  },
  {
   "property": "C50",
   "status": "partial",
   "theorems": [
    "Corundum.Pcie.C50_completions",
    "Corundum.Pcie.C50_read_endpoint",
    "Corundum.Pcie.C50_read_after_write",
    "Corundum.Pcie.C50_device_read_partial",
    "Corundum.Pcie.C50_device_read_counterexample"
   ],
   "note": "Proved for RootComplex.mem_read. For Function.mem_read proved when one request suffices; false otherwise (C50_device_read_counterexample): set_be is given the whole length."
  },
  {
   "property": "C51",
   "status": "partial",
   "theorems": [
    "Corundum.Pcie.C51_completion_partial",
    "Corundum.Pcie.C51_header",
    "Corundum.Pcie.C51_read_request_counterexample",
    "Corundum.Pcie.C51_write_request_counterexample"
   ],
   "note": "Proved for completions and for the common header of every TLP; false for memory, IO and configuration requests: C51_read_request_counterexample, C51_write_request_counterexample."
  },
  {
   "property": "C52",
   "status": "proved",
   "theorems": [
    "Corundum.Pcie.C52_io_write",
    "Corundum.Pcie.C52_io_read",
    "Corundum.Pcie.C52_io_read_enables"
   ],
   "note": ""
  },
  {
   "property": "C53",
   "status": "partial",
   "theorems": [
    "Corundum.PcieAlloc.C53_disjoint_partial",
    "Corundum.PcieAlloc.C53_find_partial",
    "Corundum.PcieAlloc.C53_aligned",
    "Corundum.PcieAlloc.C53_odd_counterexample"
   ],
   "note": "Proved for even sizes (the only ones used in the repository); false for odd sizes: C53_odd_counterexample."
  },
  {
   "property": "C54",
   "status": "partial",
   "theorems": [
    "Corundum.PcieCap.C54_overlap_partial",
    "Corundum.PcieCap.C54_overlap_counterexample",
    "Corundum.PcieCap.C54_fixed",
    "Corundum.PcieCap.C54_automatic",
    "Corundum.PcieCap.C54_chain",
    "Corundum.PcieCap.C54_single_counterexample"
   ],
   "note": "For any sequence of calls two capabilities share at most one register; disjoint when all offsets are automatic. False in general (C54_overlap_counterexample: automatic placement in front of a fixed capability). A single capability has no next pointer (C54_single_counterexample)."
  },
  {
   "property": "C55",
   "status": "proved",
   "theorems": [
    "Corundum.PcieEnum.C55_in_range",
    "Corundum.PcieEnum.C55_disjoint",
    "Corundum.PcieEnum.C55_nested",
    "Corundum.PcieEnum.C55_complete",
    "Corundum.PcieEnum.C55_configure"
   ],
   "note": ""
  },
  {
   "property": "C56",
   "status": "partial",
   "theorems": [
    "Corundum.PcieEnum.C56_delivered_partial",
    "Corundum.PcieEnum.C56_unclaimed_partial",
    "Corundum.PcieEnum.C56_big_counterexample",
    "Corundum.PcieEnum.C56_alias_counterexample"
   ],
   "note": "Proved for 64-bit BARs below 4 GB and less than 2 GB of prefetchable space (with the default bases). False otherwise: C56_big_counterexample (a 4 GB BAR is never decoded), C56_alias_counterexample (32-bit BARs ignore the upper address bits)."
  },
  {
   "property": "C57",
   "status": "proved",
   "theorems": [
    "Corundum.PcieEnum.C57_numbers",
    "Corundum.PcieEnum.C57_routed"
   ],
   "note": ""
  },
  {
   "property": "C58",
   "status": "partial",
   "theorems": [
    "Corundum.Wake.C58_no_lost_wakeup",
    "Corundum.Wake.C58_never_stuck",
    "Corundum.Wake.C58_dropped_event_is_fatal",
    "Corundum.Wake.C58_no_drop",
    "Corundum.Wake.C58_overflow_stalls"
   ],
   "note": "C58_no_lost_wakeup and C58_never_stuck hold as long as no event of the queue is dropped; C58_no_drop says when none is; C58_overflow_stalls shows, for every event queue size, a run in which the handler re-arms faster than it acknowledges and the queue is lost (C58_dropped_event_is_fatal)."
  },
  {
   "property": "C59",
   "status": "proved",
   "theorems": [
    "Corundum.WakeLinux.C59_no_lost_wakeup",
    "Corundum.WakeLinux.C59_never_missed",
    "Corundum.WakeLinux.C59_event_finds_idle",
    "Corundum.WakeLinux.C59_poll_exclusive",
    "Corundum.WakeLinux.C59_dropped_event_is_fatal",
    "Corundum.WakeLinux.C59_no_drop",
    "Corundum.WakeLinux.C59_overflow_stalls"
   ],
   "note": "Under the ordering condition stated in the property; C59_overflow_stalls shows that without it (polling on another CPU while the handler runs) the event queue can overflow."
  },
  {
   "property": "C60",
   "status": "proved",
   "theorems": [
    "Corundum.Pcie.C60_cq_round_trip",
    "Corundum.Pcie.C60_rq_round_trip",
    "Corundum.Pcie.C60_rq_config_round_trip",
    "Corundum.Pcie.C60_cq_write_bytes",
    "Corundum.Pcie.C60_format_not_kept",
    "Corundum.Pcie.C60_atomics_one_way"
   ],
   "note": "Configuration requests on the requester request stream only, as in the code. C60_format_not_kept and C60_atomics_one_way state the two limits."
  },
  {
   "property": "C61",
   "status": "proved",
   "theorems": [
    "Corundum.Pcie.C61_cc_round_trip",
    "Corundum.Pcie.C61_rc_round_trip",
    "Corundum.Pcie.C61_rc_byte_enables"
   ],
   "note": ""
  },
  {
   "property": "C62",
   "status": "proved",
   "theorems": [
    "Corundum.Pcie.C62_odd_parity",
    "Corundum.Pcie.C62_error_detected",
    "Corundum.Pcie.C62_single_bit",
    "Corundum.Pcie.C62_parity_error_detected",
    "Corundum.Pcie.C62_even_errors_undetected"
   ],
   "note": ""
  },
  {
   "property": "C63",
   "status": "proved",
   "theorems": [
    "Corundum.UsStream.C63_delivers",
    "Corundum.UsStream.C63_drains",
    "Corundum.UsStream.C63_carried",
    "Corundum.UsStream.C63_cq_end_to_end",
    "Corundum.UsStream.C63_rq_end_to_end",
    "Corundum.UsStream.C63_cc_end_to_end",
    "Corundum.UsStream.C63_rc_end_to_end",
    "Corundum.UsStream.C63_empty_dropped"
   ],
   "note": "Frames with at least one double word, parity and (where the stream has them) byte enables for each double word; C63_empty_dropped for the rest."
  },
  {
   "property": "C64",
   "status": "proved",
   "theorems": [
    "Corundum.CplWrite.C64_enqueue",
    "Corundum.CplWrite.C64_in_flight",
    "Corundum.CplWrite.C64_write",
    "Corundum.CplWrite.C64_contents",
    "Corundum.CplWrite.C64_commit",
    "Corundum.CplWrite.C64_status",
    "Corundum.CplWrite.C64_response_used",
    "Corundum.CplWrite.C64_progress",
    "Corundum.CplWrite.C64_accepts"
   ],
   "note": "Table sizes that are powers of two. A request whose port number is not below PORTS is outside the legal inputs: the engine would wait for ever."
  },
  {
   "property": "C65",
   "status": "proved",
   "theorems": [
    "Corundum.BufRing.C65_tx_apart",
    "Corundum.BufRing.C65_tx_contents",
    "Corundum.BufRing.C65_tx_length",
    "Corundum.BufRing.C65_tx_accepts",
    "Corundum.BufRing.C65_rx_apart",
    "Corundum.BufRing.C65_rx_accepts",
    "Corundum.BufRing.C65_tx_back_to_back",
    "Corundum.BufRing.C65_tx_rounding",
    "Corundum.BufRing.C65_tx_long",
    "Corundum.BufRing.C65_rx_mtu"
   ],
   "note": "proved for size limits that are multiples of the step size, a pause between packets, descriptors within the limit and a constant receive size; each of these conditions is shown to be needed by a counterexample (C65_tx_back_to_back, C65_tx_rounding, C65_tx_long, C65_rx_mtu)"
  },
  {
   "property": "C66",
   "status": "proved",
   "theorems": [
    "Corundum.TxEngine.C66_fetch",
    "Corundum.TxEngine.C66_tags",
    "Corundum.TxEngine.C66_transmit",
    "Corundum.TxEngine.C66_frame",
    "Corundum.TxEngine.C66_checksum",
    "Corundum.TxEngine.C66_completion",
    "Corundum.TxEngine.C66_record",
    "Corundum.TxEngine.C66_status",
    "Corundum.TxEngine.C66_status_all",
    "Corundum.TxEngine.C66_limit",
    "Corundum.TxEngine.C66_hands_over",
    "Corundum.TxEngine.C66_checksum_start",
    "Corundum.TxEngine.C66_counter_wraps"
   ],
   "note": "proved for surroundings that answer each request once, pause between packets, keep the size limit and need fewer reads per packet than the counters count; DMA read errors are not modelled (the engine ignores them). C66_checksum_start and C66_counter_wraps are the exceptions."
  },
  {
   "property": "C67",
   "status": "proved",
   "theorems": [
    "Corundum.RxEngine.C67_orders",
    "Corundum.RxEngine.C67_buffers_apart",
    "Corundum.RxEngine.C67_tags",
    "Corundum.RxEngine.C67_fetch",
    "Corundum.RxEngine.C67_limit",
    "Corundum.RxEngine.C67_writes",
    "Corundum.RxEngine.C67_data",
    "Corundum.RxEngine.C67_data_single",
    "Corundum.RxEngine.C67_completion",
    "Corundum.RxEngine.C67_user",
    "Corundum.RxEngine.C67_record",
    "Corundum.RxEngine.C67_checksum",
    "Corundum.RxEngine.C67_status",
    "Corundum.RxEngine.C67_truncated",
    "Corundum.RxEngine.C67_empty_stalls",
    "Corundum.RxEngine.C67_multi_write",
    "Corundum.RxEngine.C67_stale_report",
    "Corundum.RxEngine.C67_checksum_shift",
    "Corundum.RxEngine.C67_late_descriptor"
   ],
   "note": "proved for surroundings that answer each request once, keep the configured size, and report writes after the last descriptor of the packet and before its tag is free; DMA errors are not modelled (the engine ignores them). C67_multi_write, C67_stale_report, C67_checksum_shift, C67_late_descriptor, C67_truncated and C67_empty_stalls are the exceptions."
  },
  {
   "property": "C68",
   "status": "proved",
   "theorems": [
    "Corundum.DescFetch.C68_asks",
    "Corundum.DescFetch.C68_status",
    "Corundum.DescFetch.C68_used",
    "Corundum.DescFetch.C68_fetch",
    "Corundum.DescFetch.C68_slots",
    "Corundum.DescFetch.C68_reads",
    "Corundum.DescFetch.C68_data",
    "Corundum.DescFetch.C68_commit",
    "Corundum.DescFetch.C68_limit",
    "Corundum.DescFetch.C68_responds",
    "Corundum.DescFetch.C68_accepts",
    "Corundum.DescFetch.C68_no_deadlock",
    "Corundum.DescFetch.C68_lost_commit",
    "Corundum.DescFetch.C68_long_block"
   ],
   "note": "proved for surroundings that answer each request once, hold their answers and write only to slots of fetches under way; commits under the further hypothesis that they are taken when offered (queue_manager.v does when enabled) or that there is one port. C68_lost_commit and C68_long_block are the exceptions."
  },
  {
   "property": "C69",
   "status": "proved",
   "theorems": [
    "Corundum.StatsCollect.C69_never_more",
    "Corundum.StatsCollect.C69_update",
    "Corundum.StatsCollect.C69_in_time",
    "Corundum.StatsCollect.C69_accumulators",
    "Corundum.StatsCollect.C69_modulo",
    "Corundum.StatsCollect.C69_overflow"
   ],
   "note": "the bound in time is proved for receivers that take what is offered and increments whose unreported sum stays below 2^STAT_INC_WIDTH (Calm); C69_overflow shows that this is needed, C69_modulo what holds without it."
  },
  {
   "property": "C70",
   "status": "proved",
   "theorems": [
    "Corundum.StatsCounter.C70_answers",
    "Corundum.StatsCounter.C70_handed",
    "Corundum.StatsCounter.C70_clear",
    "Corundum.StatsCounter.C70_latency",
    "Corundum.StatsCounter.C70_reads_accepted",
    "Corundum.StatsCounter.C70_increments_accepted",
    "Corundum.StatsCounter.C70_starvation",
    "Corundum.StatsCounter.C70_address",
    "Corundum.StatsCounter.C70_words",
    "Corundum.StatsCounter.C70_torn"
   ],
   "note": "proved for surroundings that hold what they offer until it is taken and use counter numbers within STAT_ID_WIDTH; the write channels, whose data is discarded, are not modelled. C70_starvation and C70_torn are the exceptions."
  },
  {
   "property": "C71",
   "status": "proved",
   "theorems": [
    "Corundum.TxCsum.C71_stream",
    "Corundum.TxCsum.C71_drain",
    "Corundum.TxCsum.C71_bytes",
    "Corundum.TxCsum.C71_verifies",
    "Corundum.TxCsum.C71_fits",
    "Corundum.TxCsum.C71_stuck",
    "Corundum.TxCsum.C71_init_odd_counterexample"
   ],
   "note": "the two FIFOs are lists with arbitrary readiness and latency; assumed of the checksum FIFO only that it stays ready until something is written to it, proved of axis_fifo in C31_ready_stays. C71_stuck and C71_init_odd_counterexample are the exceptions."
  },
  {
   "property": "C72",
   "status": "proved",
   "theorems": [
    "Corundum.DmaRd.C72_cover",
    "Corundum.DmaRd.C72_zero_len",
    "Corundum.DmaRd.C72_credits",
    "Corundum.DmaRd.C72_credits_counterexample",
    "Corundum.DmaRd.C72_page_end",
    "Corundum.DmaRd.C72_wrap"
   ],
   "note": "C72_page_end, C72_wrap and C72_credits_counterexample are the exceptions, the first two as universal statements about exactly the operations excluded in C72_cover."
  },
  {
   "property": "C73",
   "status": "proved",
   "theorems": [
    "Corundum.DmaRd.C73_completion",
    "Corundum.DmaRd.C73_operation",
    "Corundum.DmaRd.C73_page_end"
   ],
   "note": "completions are as the PCIe specification prescribes (Part, answer). C73_page_end follows the exception C72_page_end to the RAM."
  },
  {
   "property": "C74",
   "status": "proved",
   "theorems": [
    "Corundum.DmaRd.C74_tags",
    "Corundum.DmaRd.C74_once",
    "Corundum.DmaRd.C74_data",
    "Corundum.DmaRd.C74_isolated",
    "Corundum.DmaRd.C74_progress",
    "Corundum.DmaRd.C74_fifo",
    "Corundum.DmaRd.C74_early_counterexample",
    "Corundum.DmaRd.C74_poison_counterexample"
   ],
   "note": "proved for descriptors outside the exceptions of C72 with buffers apart from those in use, for a host that answers each request in order of its bytes or ends it with an error and then sends no more for it, and for 2^w tags with w at least 5. C74_early_counterexample and C74_poison_counterexample show that the last two are needed."
  },
  {
   "property": "C75",
   "status": "proved",
   "theorems": [
    "Corundum.DmaWr.C75_tlps_well_formed",
    "Corundum.DmaWr.C75_writes_what_was_asked",
    "Corundum.DmaWr.C75_status_means_written",
    "Corundum.DmaWr.C75_payload_4096_loses_data"
   ],
   "note": "proved for descriptors that fit the address spaces, immediate data no wider than the RAM, and RAMs whose bytes do not change while a descriptor that reads them has no status. C75_payload_4096_loses_data is the exception."
  },
  {
   "property": "C76",
   "status": "proved",
   "theorems": [
    "Corundum.DmaWr.C76_status_in_order",
    "Corundum.DmaWr.C76_status_after_sent",
    "Corundum.DmaWr.C76_sequence_numbers",
    "Corundum.DmaWr.C76_idle_means_done",
    "Corundum.DmaWr.C76_comes_to_rest"
   ],
   "note": "proved for sequence numbers that come back once for each TLP whose first beat has been sent. The limit on TLPs in flight, which only delays, is in C77."
  },
  {
   "property": "C77",
   "status": "proved",
   "theorems": [
    "Corundum.DmaLimit.C77_read_limit",
    "Corundum.DmaLimit.C77_write_limit_plus_one",
    "Corundum.DmaLimit.C77_write_exceeds_limit",
    "Corundum.DmaLimit.C77_write_limit_lost"
   ],
   "note": "C77_write_exceeds_limit and C77_write_limit_lost are the exceptions; the operation table bounds the number of TLPs in flight independently."
  },
  {
   "property": "C78",
   "status": "proved",
   "theorems": [
    "Corundum.IrqRate.C78_none_made_up",
    "Corundum.IrqRate.C78_none_lost",
    "Corundum.IrqRate.C78_kept",
    "Corundum.IrqRate.C78_needs_pause"
   ],
   "note": "C78_none_lost for up to 2^14 vectors. C78_needs_pause is the exception."
  },
  {
   "property": "C79",
   "status": "proved",
   "theorems": [
    "Corundum.IrqRate.C79_min_interval",
    "Corundum.IrqRate.C79_wrap_breaks_interval"
   ],
   "note": "C79_wrap_breaks_interval shows that the condition on the wrap is needed."
  },
  {
   "property": "C80",
   "status": "proved",
   "theorems": [
    "Corundum.Msix.C80_messages_as_programmed",
    "Corundum.Msix.C80_offered_until_taken"
   ],
   "note": ""
  },
  {
   "property": "C81",
   "status": "proved",
   "theorems": [
    "Corundum.Msix.C81_direct",
    "Corundum.Msix.C81_none_made_up",
    "Corundum.Msix.C81_none_lost",
    "Corundum.Msix.C81_masked_blocks"
   ],
   "note": "vectors 0 to 31 for the parts about pending bits; C81_masked_blocks is an exception, C82 has the others. Writes of the table over AXI-lite are inputs."
  },
  {
   "property": "C82",
   "status": "proved",
   "theorems": [
    "Corundum.Msix.C82_masked_high_lost",
    "Corundum.Msix.C82_wrong_vector"
   ],
   "note": "the property describes a defect of the code; proved as such."
  },
  {
   "property": "C83",
   "status": "proved",
   "theorems": [
    "Corundum.ArbMux.C83_lossless",
    "Corundum.ArbMux.C83_marked",
    "Corundum.ArbMux.C83_frames_whole",
    "Corundum.ArbMux.C83_stable"
   ],
   "note": ""
  },
  {
   "property": "C84",
   "status": "proved",
   "theorems": [
    "Corundum.ArbMux.C84_bounded_overtaking",
    "Corundum.ArbMux.C84_progress",
    "Corundum.ArbMux.C84_priority_starves"
   ],
   "note": ""
  },
  {
   "property": "C85",
   "status": "proved",
   "theorems": [
    "Corundum.RamDemux.C85_select",
    "Corundum.RamDemux.C85_read_commands",
    "Corundum.RamDemux.C85_write_commands",
    "Corundum.RamDemux.C85_read_stable",
    "Corundum.RamDemux.C85_write_stable"
   ],
   "note": "selects of ports that exist; a select of another is not excluded by the code if PORTS is not a power of two."
  },
  {
   "property": "C86",
   "status": "proved",
   "theorems": [
    "Corundum.RamDemux.C86_responses_in_order",
    "Corundum.RamDemux.C86_none_lost",
    "Corundum.RamDemux.C86_taken_for_commands",
    "Corundum.RamDemux.C86_progress"
   ],
   "note": "one segment; the segments are independent copies."
  },
  {
   "property": "C87",
   "status": "proved",
   "theorems": [
    "Corundum.RamDemux.C87_done_in_order",
    "Corundum.RamDemux.C87_all_reported"
   ],
   "note": "one segment; the segments are independent copies."
  },
  {
   "property": "C88",
   "status": "proved",
   "theorems": [
    "Corundum.TagMux.C88_status_returns",
    "Corundum.TagMux.C88_tags_distinct",
    "Corundum.TagMux.C88_data_returns",
    "Corundum.TagMux.C88_ram_returns"
   ],
   "note": ""
  },
  {
   "property": "C89",
   "status": "proved",
   "theorems": [
    "Corundum.PcieIf.C89_received_in_order",
    "Corundum.PcieIf.C89_all_received",
    "Corundum.PcieIf.C89_progress",
    "Corundum.PcieIf.C89_abort_lost"
   ],
   "note": "all optional signals present. tlp_abort of a frame is lost (C89_abort_lost)."
  },
  {
   "property": "C90",
   "status": "proved",
   "theorems": [
    "Corundum.PcieIf.C90_parity_meaning",
    "Corundum.PcieIf.C90_update_check",
    "Corundum.PcieIf.C90_single_bit"
   ],
   "note": ""
  },
  {
   "property": "C91",
   "status": "proved",
   "theorems": [
    "Corundum.CfgSpace.C91_register_write",
    "Corundum.CfgSpace.C91_config_write",
    "Corundum.CfgSpace.C91_config_read",
    "Corundum.CfgSpace.C91_config_read_ok",
    "Corundum.CfgSpace.C91_read_back",
    "Corundum.CfgSpace.C91_read_range",
    "Corundum.CfgSpace.C91_readable",
    "Corundum.CfgSpace.C91_write_raises",
    "Corundum.CfgSpace.C91_rcb_misplaced",
    "Corundum.CfgSpace.C91_link_width_lost",
    "Corundum.CfgSpace.C91_sec_status_stuck",
    "Corundum.CfgSpace.C91_status_cleared",
    "Corundum.CfgSpace.C91_mem_window",
    "Corundum.CfgSpace.C91_pref_window"
   ],
   "note": "the bits and registers for which the claim fails are listed in the specification (dev, Raises) and each has a theorem (C91_rcb_misplaced, C91_link_width_lost, C91_sec_status_stuck, C91_status_cleared, C91_write_raises, C91_readable)."
  },
  {
   "property": "C92",
   "status": "proved",
   "theorems": [
    "Corundum.Msi.C92_msi_delivered",
    "Corundum.Msi.C92_no_message",
    "Corundum.Msi.C92_wraps",
    "Corundum.Msi.C92_beyond",
    "Corundum.Msi.C92_mask_ignored"
   ],
   "note": "up to 2048 devices and message numbers below 32; C92_wraps and C92_beyond show what happens otherwise. Mask bits are ignored by the code (C92_mask_ignored)."
  },
  {
   "property": "C93",
   "status": "proved",
   "theorems": [
    "Corundum.Xgmii.C93_frames_in_order",
    "Corundum.Xgmii.C93_all_arrive",
    "Corundum.Xgmii.C93_short_frame"
   ],
   "note": "frames of at least a word starting with 0x55, no error flag in the first word; C93_short_frame shows what happens to shorter ones."
  },
  {
   "property": "C94",
   "status": "proved",
   "theorems": [
    "Corundum.Xgmii.C94_gaps_long_enough",
    "Corundum.Xgmii.C94_gaps_no_longer"
   ],
   "note": ""
  },
  {
   "property": "C95",
   "status": "proved",
   "theorems": [
    "Corundum.Gmii.C95_frames_in_order",
    "Corundum.Gmii.C95_all_arrive",
    "Corundum.Gmii.C95_rgmii_in_order",
    "Corundum.Gmii.C95_rgmii_all_arrive",
    "Corundum.Gmii.C95_preamble_sync",
    "Corundum.Gmii.C95_one_byte_merges",
    "Corundum.Gmii.C95_unsynced_shifted"
   ],
   "note": "frames of one byte (GMII) and unaligned 0xD5 (nibble modes) are excluded; C95_one_byte_merges and C95_unsynced_shifted show why."
  },
  {
   "property": "C96",
   "status": "proved",
   "theorems": [
    "Corundum.BaseRSerdes.C96_frames_in_order",
    "Corundum.BaseRSerdes.C96_all_arrive",
    "Corundum.BaseRSerdes.C96_resync",
    "Corundum.BaseRSerdes.C96_gaps_long_enough",
    "Corundum.BaseRSerdes.C96_gaps_no_longer",
    "Corundum.BaseRSerdes.C96_error_wipes_block"
   ],
   "note": "frames without error flags; C96_error_wipes_block shows what happens to those with."
  },
  {
   "property": "C97",
   "status": "proved",
   "theorems": [
    "Corundum.Lifecycle.C97_rings",
    "Corundum.Lifecycle.C97_cqs",
    "Corundum.Lifecycle.C97_eqs",
    "Corundum.Lifecycle.C97_open",
    "Corundum.Lifecycle.C97_distinct",
    "Corundum.Lifecycle.C97_enabled_owned",
    "Corundum.Lifecycle.C97_errors",
    "Corundum.Lifecycle.C97_all_closed",
    "Corundum.Lifecycle.C97_limits"
   ],
   "note": "operations in the order Op.Ok; C97_limits shows that size, block size and alignment limits are sharp."
  },
  {
   "property": "C98",
   "status": "proved",
   "theorems": [
    "Corundum.Lifecycle.C98_route",
    "Corundum.Lifecycle.C98_events_found",
    "Corundum.Lifecycle.C98_table_exact",
    "Corundum.Lifecycle.C98_eq_first",
    "Corundum.Lifecycle.C98_second_ring"
   ],
   "note": "operations in the order Op.Ok; C98_eq_first and C98_second_ring show what happens outside it."
  },
  {
   "property": "C99",
   "status": "partial",
   "theorems": [
    "Corundum.Lifecycle.C99_open",
    "Corundum.Lifecycle.C99_open_needs_cqs",
    "Corundum.Lifecycle.C99_close_raises",
    "Corundum.Lifecycle.C99_no_reopen",
    "Corundum.Lifecycle.C99_close_partial"
   ],
   "note": "open is proved. close is false for every interface with a queue (C99_close_raises, C99_no_reopen): coroutines are not awaited and None is awaited. C99_close_partial proves that the calls it intends to make would do what is claimed."
  },
  {
   "property": "C100",
   "status": "proved",
   "theorems": [
    "Corundum.Requester.C100_tags",
    "Corundum.Requester.C100_results",
    "Corundum.Requester.C100_terminates",
    "Corundum.Requester.C100_all_return",
    "Corundum.Requester.C100_late_completion"
   ],
   "note": "results and return of all operations for executions without timeouts; C100_late_completion shows that with timeouts they fail."
  },
  {
   "property": "C101",
   "status": "proved",
   "theorems": [
    "Corundum.Requester.C101_requests",
    "Corundum.Requester.C101_answered",
    "Corundum.Requester.C101_read"
   ],
   "note": "completer is the one of pcie.py (model of C50); executions without timeouts."
  },
  {
   "property": "C102",
   "status": "proved",
   "theorems": [
    "Corundum.AsyncFifo.C102_order",
    "Corundum.AsyncFifo.C102_capacity",
    "Corundum.AsyncFifo.C102_frame_mode",
    "Corundum.AsyncFifo.C102_mark_mode",
    "Corundum.AsyncFifo.C102_stable",
    "Corundum.AsyncFifo.C102_drains",
    "Corundum.AsyncFifo.C102_ready_again",
    "Corundum.AsyncFifo.C102_commit_skew_counterexample"
   ],
   "note": "assumes that the bits of the commit pointer arrive at most one read clock after its update flag was sampled; C102_commit_skew_counterexample shows what happens otherwise."
  },
  {
   "property": "C103",
   "status": "partial",
   "theorems": [
    "Corundum.PcieRoute.C103_delivered",
    "Corundum.PcieRoute.C103_from_root",
    "Corundum.PcieRoute.C103_to_root",
    "Corundum.PcieRoute.C103_stranger",
    "Corundum.PcieRoute.C103_message_counterexample",
    "Corundum.PcieRoute.C103_stray_counterexample"
   ],
   "note": "Proved for completions. False for messages routed by ID (C103_message_counterexample: in every tree); a completion for a missing device below a switch circulates forever (C103_stray_counterexample)."
  },
  {
   "property": "C104",
   "status": "partial",
   "theorems": [
    "Corundum.PcieRoute.C104_peer_partial",
    "Corundum.PcieRoute.C104_host",
    "Corundum.PcieRoute.C104_unclaimed"
   ],
   "note": "Delivery to BARs proved under the assumptions of C56 (BARs below 4 GB, less prefetchable space than the memory base leaves below it), which the code needs."
  },
  {
   "property": "C105",
   "status": "partial",
   "theorems": [
    "Corundum.PcieRoute.C105_answered",
    "Corundum.PcieRoute.C105_write_partial",
    "Corundum.PcieRoute.C105_switch_counterexample",
    "Corundum.PcieRoute.C105_posted_counterexample"
   ],
   "note": "Proved for reads. For writes proved that nobody answers when no bridge has a BAR, the base addresses are aligned and the address is not the first one after a range (C105_write_partial). False when the bridge of a switch has a BAR (C105_switch_counterexample) and for writes in general, which a switch or root complex does answer (C105_posted_counterexample)."
  },
  {
   "property": "C106",
   "status": "partial",
   "theorems": [
    "Corundum.AxisAdapter.C106_lossless_partial",
    "Corundum.AxisAdapter.C106_bypass",
    "Corundum.AxisAdapter.C106_reset",
    "Corundum.AxisAdapter.C106_keep_counterexample"
   ],
   "note": "Proved when tkeep is driven, also where S_KEEP_ENABLE is 0, and has no gaps where the output has no tkeep. False when S_KEEP_ENABLE is 0 and tkeep is wired to 0 (C106_keep_counterexample)."
  },
  {
   "property": "C107",
   "status": "proved",
   "theorems": [
    "Corundum.AxisAdapter.C107_drained_up",
    "Corundum.AxisAdapter.C107_drained_down",
    "Corundum.AxisAdapter.C107_stable"
   ],
   "note": ""
  },
  {
   "property": "C108",
   "status": "proved",
   "theorems": [
    "Corundum.AxisAdapter.C108_packed"
   ],
   "note": ""
  },
  {
   "property": "C109",
   "status": "proved",
   "theorems": [
    "Corundum.PhyRx.C109_lock",
    "Corundum.PhyRx.C109_unlock",
    "Corundum.PhyRx.C109_lost",
    "Corundum.PhyRx.C109_found",
    "Corundum.PhyRx.C109_pulse"
   ],
   "note": ""
  },
  {
   "property": "C110",
   "status": "partial",
   "theorems": [
    "Corundum.PhyRx.C110_raised",
    "Corundum.PhyRx.C110_lowered_partial",
    "Corundum.PhyRx.C110_reason",
    "Corundum.PhyRx.C110_fifteen_counterexample",
    "Corundum.PhyRx.C110_interval",
    "Corundum.PhyRx.C110_power_counterexample"
   ],
   "note": "Lowered is proved for at most 14 bad headers; false for 15 (C110_fifteen_counterexample). When COUNT_125US is a power of two the flag is never raised (C110_power_counterexample)."
  },
  {
   "property": "C111",
   "status": "partial",
   "theorems": [
    "Corundum.PhyRx.C111_reset",
    "Corundum.PhyRx.C111_reset_follows",
    "Corundum.PhyRx.C111_status",
    "Corundum.PhyRx.C111_status_follows",
    "Corundum.PhyRx.C111_unlock_partial",
    "Corundum.PhyRx.C111_errors_counterexample",
    "Corundum.PhyRx.C111_recovered_counterexample",
    "Corundum.PhyRx.C111_glitch_counterexample"
   ],
   "note": "Reset and rise of the status are proved. Status down on loss of lock is false in the last cycle of an interval (C111_glitch_counterexample); errors alone never lower it (C111_errors_counterexample); the reset is also issued when the signal has recovered (C111_recovered_counterexample)."
  },
  {
   "property": "C112",
   "status": "partial",
   "theorems": [
    "Corundum.PtpClock.C112_time_partial",
    "Corundum.PtpClock.C112_set",
    "Corundum.PtpClock.C112_second_counterexample",
    "Corundum.PtpClock.C112_drift_counterexample"
   ],
   "note": "Time is proved with the drift applied as the code does it. False: drift is applied in all but one of drift_rate cycles (C112_drift_counterexample); nanoseconds reach 10^9 (C112_second_counterexample)."
  },
  {
   "property": "C113",
   "status": "partial",
   "theorems": [
    "Corundum.PtpClock.C113_time",
    "Corundum.PtpClock.C113_monotone",
    "Corundum.PtpClock.C113_load",
    "Corundum.PtpClock.C113_load64_counterexample",
    "Corundum.PtpClock.C113_powerup_counterexample"
   ],
   "note": "Proved after a reset of three cycles. False without reset after power up (C113_powerup_counterexample) and for loads of the 64 bit time with a fraction other than 16 bits (C113_load64_counterexample)."
  },
  {
   "property": "C114",
   "status": "partial",
   "theorems": [
    "Corundum.PtpClock.C114_offset",
    "Corundum.PtpClock.C114_active",
    "Corundum.PtpClock.C114_lost_counterexample",
    "Corundum.PtpClock.C114_negative_counterexample"
   ],
   "note": "Proved when no adjustment is pending and the net increment is not negative; false otherwise (C114_lost_counterexample, C114_negative_counterexample)."
  },
  {
   "property": "C115",
   "status": "proved",
   "theorems": [
    "Corundum.Perout.C115_restart",
    "Corundum.Perout.C115_never",
    "Corundum.Perout.C115_exact",
    "Corundum.Perout.C115_future",
    "Corundum.Perout.C115_first_counterexample",
    "Corundum.Perout.C115_past",
    "Corundum.Perout.C115_disabled",
    "Corundum.Perout.C115_disable_counterexample"
   ],
   "note": "Exact one period after lock, and from the second pulse on for a start ahead; lock for a start in the past in C115_past. The first pulse is never put out (C115_first_counterexample); disabling does not end a pulse (C115_disable_counterexample)."
  },
  {
   "property": "C116",
   "status": "partial",
   "theorems": [
    "Corundum.I2cInit.C116_written",
    "Corundum.I2cInit.C116_prefix",
    "Corundum.I2cInit.C116_delay",
    "Corundum.I2cInit.C116_page_counterexample"
   ],
   "note": "Proved for lists without the page register; a page register in the list is not noticed and the following registers go to the wrong page (C116_page_counterexample)."
  },
  {
   "property": "C117",
   "status": "partial",
   "theorems": [
    "Corundum.I2cInit.C117_prefix",
    "Corundum.I2cInit.C117_complete",
    "Corundum.I2cInit.C117_delay",
    "Corundum.I2cInit.C117_delay_counterexample",
    "Corundum.I2cInit.C117_busy_counterexample"
   ],
   "note": "Proved for tables of the documented form. A delay in a data block is skipped (C117_delay_counterexample)."
  },
  {
   "property": "C118",
   "status": "partial",
   "theorems": [
    "Corundum.PtpTd.C118_follows",
    "Corundum.PtpTd.C118_relative",
    "Corundum.PtpTd.C118_get",
    "Corundum.PtpTd.C118_delay_counterexample",
    "Corundum.PtpTd.C118_join_counterexample"
   ],
   "note": "Proved for a sink that starts between messages. A sink that starts during a message ends with an exception (C118_join_counterexample); with td_delay above 256 no message ever takes effect (C118_delay_counterexample)."
  },
  {
   "property": "C119",
   "status": "proved",
   "theorems": [
    "Corundum.PtpTd.C119_time"
   ],
   "note": ""
  },
  {
   "property": "C120",
   "status": "proved",
   "theorems": [
    "Corundum.PtpTd.C120_offsets",
    "Corundum.PtpTd.C120_received"
   ],
   "note": ""
  },
  {
   "property": "C121",
   "status": "proved",
   "theorems": [
    "Corundum.PcieLink.C121_no_duplicates",
    "Corundum.PcieLink.C121_not_early",
    "Corundum.PcieLink.C121_in_time",
    "Corundum.PcieLink.C121_in_the_end"
   ],
   "note": ""
  },
  {
   "property": "C122",
   "status": "proved",
   "theorems": [
    "Corundum.PcieLink.C122_order",
    "Corundum.PcieLink.C122_spaced",
    "Corundum.PcieLink.C122_overtake_counterexample"
   ],
   "note": ""
  },
  {
   "property": "C123",
   "status": "proved",
   "theorems": [
    "Corundum.PcieLink.C123_accepted",
    "Corundum.PcieLink.C123_agree",
    "Corundum.PcieLink.C123_refused",
    "Corundum.PcieLink.C123_takes_time",
    "Corundum.PcieLink.C123_no_time_counterexample",
    "Corundum.PcieLink.C123_self_counterexample"
   ],
   "note": ""
  },
  {
   "property": "C124",
   "status": "proved",
   "theorems": [
    "Corundum.BuildImages.C124_parallel",
    "Corundum.BuildImages.C124_synth"
   ],
   "note": ""
  },
  {
   "property": "C125",
   "status": "partial",
   "theorems": [
    "Corundum.BuildImages.C125_bounded",
    "Corundum.BuildImages.C125_never_stuck",
    "Corundum.BuildImages.C125_returned",
    "Corundum.BuildImages.C125_in_order",
    "Corundum.BuildImages.C125_exception_counterexample"
   ],
   "note": "Proved as long as permits are left. An exception in a task, as from output that is not UTF-8, never returns its permits; with as many as the limit the script hangs (C125_exception_counterexample)."
  },
  {
   "property": "C126",
   "status": "partial",
   "theorems": [
    "Corundum.BuildImages.C126_distinct",
    "Corundum.BuildImages.C126_same_name_counterexample"
   ],
   "note": "Different directories can get the same name, and names with hyphens the same file (C126_same_name_counterexample)."
  },
  {
   "property": "C127",
   "status": "proved",
   "theorems": [
    "Corundum.PauseCtrl.C127_pause",
    "Corundum.PauseCtrl.C127_no_pause",
    "Corundum.PauseCtrl.C127_priority",
    "Corundum.PauseCtrl.C127_no_priority",
    "Corundum.PauseCtrl.C127_same_frame"
   ],
   "note": ""
  },
  {
   "property": "C128",
   "status": "partial",
   "theorems": [
    "Corundum.PauseCtrl.C128_pause_told",
    "Corundum.PauseCtrl.C128_end_told",
    "Corundum.PauseCtrl.C128_end_counterexample",
    "Corundum.PauseCtrl.C128_resend_counterexample",
    "Corundum.PauseCtrl.C128_priority_told",
    "Corundum.PauseCtrl.C128_priority_counterexample"
   ],
   "note": "Proved for the start of a pause of the link without tx_lfc_resend; for its end and for priorities provided that no request comes in the cycle in which a frame is about to be launched. Otherwise the end of a pause, or the pause of a second priority, is not sent (C128_end_counterexample, C128_priority_counterexample, C128_resend_counterexample)."
  },
  {
   "property": "C129",
   "status": "partial",
   "theorems": [
    "Corundum.PauseCtrl.C129_not_sooner",
    "Corundum.PauseCtrl.C129_again"
   ],
   "note": "Proved for pauses of the link with priorities disabled and ready high; the refresh of priorities is not covered."
  },
  {
   "property": "C130",
   "status": "proved",
   "theorems": [
    "Corundum.TdmaCtrl.C130_exact",
    "Corundum.TdmaCtrl.C130_in_turn"
   ],
   "note": ""
  },
  {
   "property": "C131",
   "status": "partial",
   "theorems": [
    "Corundum.TdmaCtrl.C131_off_in_time",
    "Corundum.TdmaCtrl.C131_on_in_time",
    "Corundum.TdmaCtrl.C131_lost_counterexample"
   ],
   "note": "The end is proved for every history; the beginning for a slot that begins when no slot is under way and while the RAM is not written. A slot that begins while the one before is still being switched on is lost, and its end cuts the slot after it short (C131_lost_counterexample)."
  },
  {
   "property": "C132",
   "status": "proved",
   "theorems": [
    "Corundum.TdmaSched.C132_edge",
    "Corundum.TdmaSched.C132_balance",
    "Corundum.TdmaSched.C132_restart"
   ],
   "note": ""
  },
  {
   "property": "C133",
   "status": "proved",
   "theorems": [
    "Corundum.TdmaSched.C133_silent",
    "Corundum.TdmaSched.C133_exact"
   ],
   "note": ""
  },
  {
   "property": "C134",
   "status": "proved",
   "theorems": [
    "Corundum.TdmaSched.C134_future",
    "Corundum.TdmaSched.C134_past"
   ],
   "note": ""
  },
  {
   "property": "C135",
   "status": "proved",
   "theorems": [
    "Corundum.MacCtrl.C135_merge",
    "Corundum.MacCtrl.C135_rate"
   ],
   "note": ""
  },
  {
   "property": "C136",
   "status": "partial",
   "theorems": [
    "Corundum.MacCtrl.C136_stopped",
    "Corundum.MacCtrl.C136_frame_end",
    "Corundum.MacCtrl.C136_acknowledged",
    "Corundum.MacCtrl.C136_single_counterexample"
   ],
   "note": "The acknowledge follows the end of a frame of more than one transfer; frames of a single transfer without gaps hold the pause off for ever (C136_single_counterexample)."
  },
  {
   "property": "C137",
   "status": "proved",
   "theorems": [
    "Corundum.MacCtrl.C137_one_frame",
    "Corundum.MacCtrl.C137_served"
   ],
   "note": ""
  },
  {
   "property": "C138",
   "status": "proved",
   "theorems": [
    "Corundum.MacCtrl.C138_reception",
    "Corundum.MacCtrl.C138_rate",
    "Corundum.MacCtrl.C138_short_counterexample"
   ],
   "note": ""
  },
  {
   "property": "C139",
   "status": "proved",
   "theorems": [
    "Corundum.MacCtrl.C139_roundtrip"
   ],
   "note": ""
  },
  {
   "property": "C140",
   "status": "partial",
   "theorems": [
    "Corundum.IrqEdge.C140_not_lost",
    "Corundum.IrqEdge.C140_served",
    "Corundum.IrqEdge.C140_only_high",
    "Corundum.IrqEdge.C140_repeated_counterexample",
    "Corundum.IrqEdge.C140_from_edge_counterexample"
   ],
   "note": "No edge is lost and lines that were never high have no run; but the handler of a line that is high runs again at every change of the signal (C140_repeated_counterexample), and Interrupt.from_edge never runs its handler (C140_from_edge_counterexample)."
  },
  {
   "property": "C141",
   "status": "proved",
   "theorems": [
    "Corundum.Axil.C141_write",
    "Corundum.Axil.C141_exact",
    "Corundum.Axil.C141_strobes",
    "Corundum.Axil.C141_response"
   ],
   "note": ""
  },
  {
   "property": "C142",
   "status": "partial",
   "theorems": [
    "Corundum.Axil.C142_read",
    "Corundum.Axil.C142_response",
    "Corundum.Axil.C142_roundtrip",
    "Corundum.Axil.C142_empty_counterexample"
   ],
   "note": "Proved for lists without empty reads at aligned addresses; such a read puts the following reads out of step (C142_empty_counterexample)."
  },
  {
   "property": "C143",
   "status": "partial",
   "theorems": [
    "Corundum.DmaSink.C143_store",
    "Corundum.DmaSink.C143_idle",
    "Corundum.DmaSink.C143_exact",
    "Corundum.DmaSink.C143_one_lane_counterexample",
    "Corundum.DmaSink.C143_zero_length_counterexample"
   ],
   "note": "Proved for more than one lane or a RAM as wide as the stream, and lengths from 1; with one lane and several parts bytes go to the wrong address (C143_one_lane_counterexample), and a length of 0 does not limit the frame (C143_zero_length_counterexample)."
  },
  {
   "property": "C144",
   "status": "proved",
   "theorems": [
    "Corundum.DmaSinkDone.C144_lossless",
    "Corundum.DmaSinkDone.C144_after_writes",
    "Corundum.DmaSinkDone.C144_reported",
    "Corundum.DmaSinkDone.C144_progress"
   ],
   "note": ""
  },
  {
   "property": "C145",
   "status": "partial",
   "theorems": [
    "Corundum.DmaSource.C145_frames",
    "Corundum.DmaSource.C145_roundtrip",
    "Corundum.DmaSource.C145_one_lane_counterexample",
    "Corundum.DmaSource.C145_zero_length_counterexample"
   ],
   "note": "Proved for more than one lane or a RAM as wide as the stream, and lengths from 1; with one lane and several parts another byte is read (C145_one_lane_counterexample), and a length of 0 puts out the longest frame (C145_zero_length_counterexample)."
  },
  {
   "property": "C146",
   "status": "proved",
   "theorems": [
    "Corundum.RegIf.C146_writes",
    "Corundum.RegIf.C146_stable",
    "Corundum.RegIf.C146_timeout",
    "Corundum.RegIf.C146_progress"
   ],
   "note": ""
  },
  {
   "property": "C147",
   "status": "proved",
   "theorems": [
    "Corundum.RegIf.C147_reads",
    "Corundum.RegIf.C147_stable",
    "Corundum.RegIf.C147_timeout",
    "Corundum.RegIf.C147_progress"
   ],
   "note": ""
  },
  {
   "property": "C148",
   "status": "partial",
   "theorems": [
    "Corundum.PulseMerge.C148_conserved",
    "Corundum.PulseMerge.C148_drained",
    "Corundum.PulseMerge.C148_overflow_counterexample"
   ],
   "note": "Proved while the backlog does not pass 2^COUNT_WIDTH-1; beyond that the counter wraps round and 2^COUNT_WIDTH pulses are lost (C148_overflow_counterexample, for every width)."
  },
  {
   "property": "C149",
   "status": "proved",
   "theorems": [
    "Corundum.MacTs.C149_stamped",
    "Corundum.MacTs.C149_same"
   ],
   "note": ""
  },
  {
   "property": "C150",
   "status": "proved",
   "theorems": [
    "Corundum.TlpDemux.C150_routes",
    "Corundum.TlpDemux.C150_stray",
    "Corundum.TlpDemux.C150_unique",
    "Corundum.TlpDemux.C150_progress"
   ],
   "note": ""
  },
  {
   "property": "C151",
   "status": "proved",
   "theorems": [
    "Corundum.PipeFifo.C151_lossless",
    "Corundum.PipeFifo.C151_room",
    "Corundum.PipeFifo.C151_rate",
    "Corundum.PipeFifo.C151_drained",
    "Corundum.PipeFifo.C151_offered"
   ],
   "note": ""
  },
  {
   "property": "C152",
   "status": "proved",
   "theorems": [
    "Corundum.RbDrp.C152_once",
    "Corundum.RbDrp.C152_result",
    "Corundum.RbDrp.C152_progress",
    "Corundum.RbDrp.C152_busy_write_counterexample"
   ],
   "note": ""
  },
  {
   "property": "C153",
   "status": "partial",
   "theorems": [
    "Corundum.DrpSw.C153_read",
    "Corundum.DrpSw.C153_write",
    "Corundum.DrpSw.C153_after_failure_counterexample"
   ],
   "note": "Proved for calls that start while the enable bit reads 0 (C153_read, C153_write). The code violates the property after a call that failed: C153_after_failure_counterexample."
  },
  {
   "property": "C154",
   "status": "proved",
   "theorems": [
    "Corundum.XcvrReg.C154_field",
    "Corundum.XcvrReg.C154_others",
    "Corundum.XcvrReg.C154_separate",
    "Corundum.XcvrReg.C154_table_others",
    "Corundum.XcvrReg.C154_table"
   ],
   "note": ""
  },
  {
   "property": "C155",
   "status": "partial",
   "theorems": [
    "Corundum.FcCount.C155_counts",
    "Corundum.FcCount.C155_three",
    "Corundum.FcCount.C155_not_ready",
    "Corundum.FcCount.C155_long_counterexample"
   ],
   "note": "Proved for TLPs with up to 512 words of data (C155_counts, C155_three, C155_not_ready). The code is wrong beyond: C155_long_counterexample."
  },
  {
   "property": "C156",
   "status": "partial",
   "theorems": [
    "Corundum.XcvrReg.C156_history",
    "Corundum.XcvrReg.C156_values",
    "Corundum.XcvrReg.C156_values_all",
    "Corundum.XcvrReg.C156_others",
    "Corundum.XcvrReg.C156_failure_counterexample"
   ],
   "note": "Proved if no access of the registers fails (C156_history, C156_values, C156_values_all; C156_others in any case). If one fails the code returns 0 all the same: C156_failure_counterexample."
  },
  {
   "property": "C157",
   "status": "proved",
   "theorems": [
    "Corundum.Broadcast.C157_lossless",
    "Corundum.Broadcast.C157_spread",
    "Corundum.Broadcast.C157_stable",
    "Corundum.Broadcast.C157_drained",
    "Corundum.Broadcast.C157_rate"
   ],
   "note": "C157_lossless, C157_spread, C157_stable, C157_drained, C157_rate."
  },
  {
   "property": "C158",
   "status": "proved",
   "theorems": [
    "Corundum.AxisDemux.C158_lossless",
    "Corundum.AxisDemux.C158_stable",
    "Corundum.AxisDemux.C158_rate",
    "Corundum.AxisDemux.C158_drop_ready"
   ],
   "note": "C158_lossless, C158_stable, C158_rate, C158_drop_ready."
  },
  {
   "property": "C159",
   "status": "partial",
   "theorems": [
    "Corundum.AxisTap.C159_copy",
    "Corundum.AxisTap.C159_cut",
    "Corundum.AxisTap.C159_all",
    "Corundum.AxisTap.C159_recover",
    "Corundum.AxisTap.C159_skip_counterexample"
   ],
   "note": "Proved: what is put out is whole or marked (C159_copy, C159_cut, C159_recover), and everything is put out if the output is always ready (C159_all). The code can skip a frame during which the output is ready: C159_skip_counterexample."
  },
  {
   "property": "C160",
   "status": "proved",
   "theorems": [
    "Corundum.CmacPad.C160_pad",
    "Corundum.CmacPad.C160_min"
   ],
   "note": "C160_pad, C160_min."
  },
  {
   "property": "C161",
   "status": "proved",
   "theorems": [
    "Corundum.Avst.C161_empty",
    "Corundum.Avst.C161_order",
    "Corundum.Avst.C161_round",
    "Corundum.Avst.C161_sop"
   ],
   "note": "C161_empty, C161_order, C161_round, C161_sop."
  },
  {
   "property": "C162",
   "status": "proved",
   "theorems": [
    "Corundum.LedSreg.C162_shown",
    "Corundum.LedSreg.C162_settled"
   ],
   "note": "C162_shown, C162_settled."
  }
 ]
}