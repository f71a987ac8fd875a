import Verif.Props.ArbMux
import Verif.Props.Arbiter
import Verif.Props.AsyncFifo
import Verif.Props.Avst
import Verif.Props.Axi
import Verif.Props.Axil
import Verif.Props.AxisAdapter
import Verif.Props.AxisDemux
import Verif.Props.AxisFifo
import Verif.Props.AxisFrame
import Verif.Props.AxisRegister
import Verif.Props.AxisTap
import Verif.Props.BaseR
import Verif.Props.BaseRSerdes
import Verif.Props.Broadcast
import Verif.Props.BufRing
import Verif.Props.BuildImages
import Verif.Props.CfgSpace
import Verif.Props.CmacPad
import Verif.Props.Cobs
import Verif.Props.CplQueue
import Verif.Props.CplRing
import Verif.Props.CplTs
import Verif.Props.CplWrite
import Verif.Props.Crc
import Verif.Props.DescFetch
import Verif.Props.DmaLimit
import Verif.Props.DmaRd
import Verif.Props.DmaRdCpl
import Verif.Props.DmaRdReq
import Verif.Props.DmaSink
import Verif.Props.DmaSinkDone
import Verif.Props.DmaSource
import Verif.Props.DmaWr
import Verif.Props.Driver
import Verif.Props.DrpSw
import Verif.Props.FcCount
import Verif.Props.Frames
import Verif.Props.Gmii
import Verif.Props.I2cInit
import Verif.Props.IrqEdge
import Verif.Props.IrqRate
import Verif.Props.LedSreg
import Verif.Props.Lfsr
import Verif.Props.Lifecycle
import Verif.Props.LinuxRx
import Verif.Props.LinuxTx
import Verif.Props.MacCtrlRx
import Verif.Props.MacCtrlTx
import Verif.Props.MacTs
import Verif.Props.Msi
import Verif.Props.Msix
import Verif.Props.PauseCtrl
import Verif.Props.PcieAlloc
import Verif.Props.PcieCap
import Verif.Props.PcieEnum
import Verif.Props.PcieIf
import Verif.Props.PcieLink
import Verif.Props.PcieRoute
import Verif.Props.Perout
import Verif.Props.PhyRx
import Verif.Props.PipeFifo
import Verif.Props.Pointers
import Verif.Props.PriorityEncoder
import Verif.Props.PsdpRam
import Verif.Props.Ptp
import Verif.Props.PtpClock
import Verif.Props.PtpTd
import Verif.Props.PulseMerge
import Verif.Props.QueueManager
import Verif.Props.QueueMap
import Verif.Props.RamDemux
import Verif.Props.RbDrp
import Verif.Props.RegBlock
import Verif.Props.RegIf
import Verif.Props.Requester
import Verif.Props.Resource
import Verif.Props.RxCsum
import Verif.Props.RxEngine
import Verif.Props.RxHash
import Verif.Props.Sched
import Verif.Props.Scrambler
import Verif.Props.Segments
import Verif.Props.StatsCollect
import Verif.Props.StatsCounter
import Verif.Props.TagMux
import Verif.Props.TdmaCtrl
import Verif.Props.TdmaSched
import Verif.Props.Timespec
import Verif.Props.Tlp
import Verif.Props.TlpDemux
import Verif.Props.TlpPack
import Verif.Props.TxCsum
import Verif.Props.TxEngine
import Verif.Props.UsStream
import Verif.Props.UsTlp
import Verif.Props.Wake
import Verif.Props.WakeLinux
import Verif.Props.XcvrReg
import Verif.Props.XcvrTables
import Verif.Props.Xgmii
/-! Axiom audit of every property theorem (generated by tools/gen.py). -/
#print axioms Corundum.Resource.C01_no_double_allocation
#print axioms Corundum.Resource.C01_alloc_least_free
#print axioms Corundum.Resource.C01_alloc_fails_iff_exhausted
#print axioms Corundum.Resource.C01_double_free_counterexample
#print axioms Corundum.Resource.C01_linux_allocator
#print axioms Corundum.RegBlock.C02_discovery
#print axioms Corundum.RegBlock.C02_report_unique
#print axioms Corundum.RegBlock.C02_find
#print axioms Corundum.RegBlock.C02_linux_discovery
#print axioms Corundum.Pointers.C03_read_prod
#print axioms Corundum.Pointers.C03_read_cons
#print axioms Corundum.Pointers.C03_read_monotone
#print axioms Corundum.Pointers.C03_linux
#print axioms Corundum.Pointers.C03_linux_cq_counterexample
#print axioms Corundum.Driver.C04_no_exception
#print axioms Corundum.Driver.C04_tx_window
#print axioms Corundum.Driver.C04_tx_frames_intact
#print axioms Corundum.Driver.C04_xmit_accepts
#print axioms Corundum.Segments.C05_tx_segments
#print axioms Corundum.Segments.C05_tx_gather
#print axioms Corundum.Segments.C06_rx_segments
#print axioms Corundum.CplRing.C07_exactly_once_in_order
#print axioms Corundum.CplRing.C07_poll_exact
#print axioms Corundum.CplRing.C07_pass
#print axioms Corundum.CplRing.C07_pass_terminates
#print axioms Corundum.Driver.C08_rx_delivered
#print axioms Corundum.Driver.C08_rx_complete
#print axioms Corundum.Driver.C08_buffers_disjoint
#print axioms Corundum.Driver.C08_buffers_conserved
#print axioms Corundum.Driver.C08_rx_replenished
#print axioms Corundum.Driver.C08_rx_window
#print axioms Corundum.Driver.C08_refill_keeps
#print axioms Corundum.LinuxRx.C09_short_frame_wedges
#print axioms Corundum.LinuxRx.C09_short_frame_counterexample
#print axioms Corundum.LinuxRx.C09_recycled_partial
#print axioms Corundum.QueueManager.C10_refines_atomic
#print axioms Corundum.QueueManager.C10_consecutive
#print axioms Corundum.QueueManager.C10_from_power_up
#print axioms Corundum.QueueManager.C10_answers
#print axioms Corundum.QueueManager.C10_never_past_producer
#print axioms Corundum.QueueManager.C10_failed_request_no_effect
#print axioms Corundum.QueueManager.C10_no_response_lost
#print axioms Corundum.QueueManager.C10_executed_in_order
#print axioms Corundum.QueueManager.C10_ready_means_accepted
#print axioms Corundum.Requester.C100_tags
#print axioms Corundum.Requester.C100_results
#print axioms Corundum.Requester.C100_terminates
#print axioms Corundum.Requester.C100_all_return
#print axioms Corundum.Requester.C100_late_completion
#print axioms Corundum.Requester.C101_requests
#print axioms Corundum.Requester.C101_answered
#print axioms Corundum.Requester.C101_read
#print axioms Corundum.AsyncFifo.C102_order
#print axioms Corundum.AsyncFifo.C102_capacity
#print axioms Corundum.AsyncFifo.C102_frame_mode
#print axioms Corundum.AsyncFifo.C102_mark_mode
#print axioms Corundum.AsyncFifo.C102_stable
#print axioms Corundum.AsyncFifo.C102_drains
#print axioms Corundum.AsyncFifo.C102_ready_again
#print axioms Corundum.AsyncFifo.C102_commit_skew_counterexample
#print axioms Corundum.PcieRoute.C103_delivered
#print axioms Corundum.PcieRoute.C103_from_root
#print axioms Corundum.PcieRoute.C103_to_root
#print axioms Corundum.PcieRoute.C103_stranger
#print axioms Corundum.PcieRoute.C103_message_counterexample
#print axioms Corundum.PcieRoute.C103_stray_counterexample
#print axioms Corundum.PcieRoute.C104_peer_partial
#print axioms Corundum.PcieRoute.C104_host
#print axioms Corundum.PcieRoute.C104_unclaimed
#print axioms Corundum.PcieRoute.C105_answered
#print axioms Corundum.PcieRoute.C105_write_partial
#print axioms Corundum.PcieRoute.C105_switch_counterexample
#print axioms Corundum.PcieRoute.C105_posted_counterexample
#print axioms Corundum.AxisAdapter.C106_lossless_partial
#print axioms Corundum.AxisAdapter.C106_bypass
#print axioms Corundum.AxisAdapter.C106_reset
#print axioms Corundum.AxisAdapter.C106_keep_counterexample
#print axioms Corundum.AxisAdapter.C107_drained_up
#print axioms Corundum.AxisAdapter.C107_drained_down
#print axioms Corundum.AxisAdapter.C107_stable
#print axioms Corundum.AxisAdapter.C108_packed
#print axioms Corundum.PhyRx.C109_lock
#print axioms Corundum.PhyRx.C109_unlock
#print axioms Corundum.PhyRx.C109_lost
#print axioms Corundum.PhyRx.C109_found
#print axioms Corundum.PhyRx.C109_pulse
#print axioms Corundum.QueueManager.C11_retire_in_order
#print axioms Corundum.QueueManager.C11_pointer_visible
#print axioms Corundum.QueueManager.C11_tag_not_reused
#print axioms Corundum.QueueManager.C11_progress
#print axioms Corundum.PhyRx.C110_raised
#print axioms Corundum.PhyRx.C110_lowered_partial
#print axioms Corundum.PhyRx.C110_reason
#print axioms Corundum.PhyRx.C110_fifteen_counterexample
#print axioms Corundum.PhyRx.C110_interval
#print axioms Corundum.PhyRx.C110_power_counterexample
#print axioms Corundum.PhyRx.C111_reset
#print axioms Corundum.PhyRx.C111_reset_follows
#print axioms Corundum.PhyRx.C111_status
#print axioms Corundum.PhyRx.C111_status_follows
#print axioms Corundum.PhyRx.C111_unlock_partial
#print axioms Corundum.PhyRx.C111_errors_counterexample
#print axioms Corundum.PhyRx.C111_recovered_counterexample
#print axioms Corundum.PhyRx.C111_glitch_counterexample
#print axioms Corundum.PtpClock.C112_time_partial
#print axioms Corundum.PtpClock.C112_set
#print axioms Corundum.PtpClock.C112_second_counterexample
#print axioms Corundum.PtpClock.C112_drift_counterexample
#print axioms Corundum.PtpClock.C113_time
#print axioms Corundum.PtpClock.C113_monotone
#print axioms Corundum.PtpClock.C113_load
#print axioms Corundum.PtpClock.C113_load64_counterexample
#print axioms Corundum.PtpClock.C113_powerup_counterexample
#print axioms Corundum.PtpClock.C114_offset
#print axioms Corundum.PtpClock.C114_active
#print axioms Corundum.PtpClock.C114_lost_counterexample
#print axioms Corundum.PtpClock.C114_negative_counterexample
#print axioms Corundum.Perout.C115_restart
#print axioms Corundum.Perout.C115_never
#print axioms Corundum.Perout.C115_exact
#print axioms Corundum.Perout.C115_future
#print axioms Corundum.Perout.C115_first_counterexample
#print axioms Corundum.Perout.C115_past
#print axioms Corundum.Perout.C115_disabled
#print axioms Corundum.Perout.C115_disable_counterexample
#print axioms Corundum.I2cInit.C116_written
#print axioms Corundum.I2cInit.C116_prefix
#print axioms Corundum.I2cInit.C116_delay
#print axioms Corundum.I2cInit.C116_page_counterexample
#print axioms Corundum.I2cInit.C117_prefix
#print axioms Corundum.I2cInit.C117_complete
#print axioms Corundum.I2cInit.C117_delay
#print axioms Corundum.I2cInit.C117_delay_counterexample
#print axioms Corundum.I2cInit.C117_busy_counterexample
#print axioms Corundum.PtpTd.C118_follows
#print axioms Corundum.PtpTd.C118_relative
#print axioms Corundum.PtpTd.C118_get
#print axioms Corundum.PtpTd.C118_delay_counterexample
#print axioms Corundum.PtpTd.C118_join_counterexample
#print axioms Corundum.PtpTd.C119_time
#print axioms Corundum.QueueManager.C12_address_in_ring
#print axioms Corundum.QueueManager.C12_disjoint
#print axioms Corundum.PtpTd.C120_offsets
#print axioms Corundum.PtpTd.C120_received
#print axioms Corundum.PcieLink.C121_no_duplicates
#print axioms Corundum.PcieLink.C121_not_early
#print axioms Corundum.PcieLink.C121_in_time
#print axioms Corundum.PcieLink.C121_in_the_end
#print axioms Corundum.PcieLink.C122_order
#print axioms Corundum.PcieLink.C122_spaced
#print axioms Corundum.PcieLink.C122_overtake_counterexample
#print axioms Corundum.PcieLink.C123_accepted
#print axioms Corundum.PcieLink.C123_agree
#print axioms Corundum.PcieLink.C123_refused
#print axioms Corundum.PcieLink.C123_takes_time
#print axioms Corundum.PcieLink.C123_no_time_counterexample
#print axioms Corundum.PcieLink.C123_self_counterexample
#print axioms Corundum.BuildImages.C124_parallel
#print axioms Corundum.BuildImages.C124_synth
#print axioms Corundum.BuildImages.C125_bounded
#print axioms Corundum.BuildImages.C125_never_stuck
#print axioms Corundum.BuildImages.C125_returned
#print axioms Corundum.BuildImages.C125_in_order
#print axioms Corundum.BuildImages.C125_exception_counterexample
#print axioms Corundum.BuildImages.C126_distinct
#print axioms Corundum.BuildImages.C126_same_name_counterexample
#print axioms Corundum.PauseCtrl.C127_pause
#print axioms Corundum.PauseCtrl.C127_no_pause
#print axioms Corundum.PauseCtrl.C127_priority
#print axioms Corundum.PauseCtrl.C127_no_priority
#print axioms Corundum.PauseCtrl.C127_same_frame
#print axioms Corundum.PauseCtrl.C128_pause_told
#print axioms Corundum.PauseCtrl.C128_end_told
#print axioms Corundum.PauseCtrl.C128_end_counterexample
#print axioms Corundum.PauseCtrl.C128_resend_counterexample
#print axioms Corundum.PauseCtrl.C128_priority_told
#print axioms Corundum.PauseCtrl.C128_priority_counterexample
#print axioms Corundum.PauseCtrl.C129_not_sooner
#print axioms Corundum.PauseCtrl.C129_again
#print axioms Corundum.QueueManager.C13_config_stable
#print axioms Corundum.QueueManager.C13_doorbell
#print axioms Corundum.QueueManager.C13_other_queues
#print axioms Corundum.QueueManager.C13_read_data
#print axioms Corundum.QueueManager.C13_write_response
#print axioms Corundum.QueueManager.C13_doorbell_output
#print axioms Corundum.TdmaCtrl.C130_exact
#print axioms Corundum.TdmaCtrl.C130_in_turn
#print axioms Corundum.TdmaCtrl.C131_off_in_time
#print axioms Corundum.TdmaCtrl.C131_on_in_time
#print axioms Corundum.TdmaCtrl.C131_lost_counterexample
#print axioms Corundum.TdmaSched.C132_edge
#print axioms Corundum.TdmaSched.C132_balance
#print axioms Corundum.TdmaSched.C132_restart
#print axioms Corundum.TdmaSched.C133_silent
#print axioms Corundum.TdmaSched.C133_exact
#print axioms Corundum.TdmaSched.C134_future
#print axioms Corundum.TdmaSched.C134_past
#print axioms Corundum.MacCtrl.C135_merge
#print axioms Corundum.MacCtrl.C135_rate
#print axioms Corundum.MacCtrl.C136_stopped
#print axioms Corundum.MacCtrl.C136_frame_end
#print axioms Corundum.MacCtrl.C136_acknowledged
#print axioms Corundum.MacCtrl.C136_single_counterexample
#print axioms Corundum.MacCtrl.C137_one_frame
#print axioms Corundum.MacCtrl.C137_served
#print axioms Corundum.MacCtrl.C138_reception
#print axioms Corundum.MacCtrl.C138_rate
#print axioms Corundum.MacCtrl.C138_short_counterexample
#print axioms Corundum.MacCtrl.C139_roundtrip
#print axioms Corundum.CplQueue.C14_refines_atomic
#print axioms Corundum.CplQueue.C14_grant_within_ring
#print axioms Corundum.CplQueue.C14_consecutive
#print axioms Corundum.CplQueue.C14_from_power_up
#print axioms Corundum.CplQueue.C14_bounded_by_free_space
#print axioms Corundum.CplQueue.C14_no_overwrite
#print axioms Corundum.CplQueue.C14_no_response_lost
#print axioms Corundum.CplQueue.C14_register_channel
#print axioms Corundum.CplQueue.C14_executed_in_order
#print axioms Corundum.CplQueue.C14_publish_in_order
#print axioms Corundum.CplQueue.C14_address_in_ring
#print axioms Corundum.CplQueue.C14_base_strobe_counterexample
#print axioms Corundum.IrqEdge.C140_not_lost
#print axioms Corundum.IrqEdge.C140_served
#print axioms Corundum.IrqEdge.C140_only_high
#print axioms Corundum.IrqEdge.C140_repeated_counterexample
#print axioms Corundum.IrqEdge.C140_from_edge_counterexample
#print axioms Corundum.Axil.C141_write
#print axioms Corundum.Axil.C141_exact
#print axioms Corundum.Axil.C141_strobes
#print axioms Corundum.Axil.C141_response
#print axioms Corundum.Axil.C142_read
#print axioms Corundum.Axil.C142_response
#print axioms Corundum.Axil.C142_roundtrip
#print axioms Corundum.Axil.C142_empty_counterexample
#print axioms Corundum.DmaSink.C143_store
#print axioms Corundum.DmaSink.C143_idle
#print axioms Corundum.DmaSink.C143_exact
#print axioms Corundum.DmaSink.C143_one_lane_counterexample
#print axioms Corundum.DmaSink.C143_zero_length_counterexample
#print axioms Corundum.DmaSinkDone.C144_lossless
#print axioms Corundum.DmaSinkDone.C144_after_writes
#print axioms Corundum.DmaSinkDone.C144_reported
#print axioms Corundum.DmaSinkDone.C144_progress
#print axioms Corundum.DmaSource.C145_frames
#print axioms Corundum.DmaSource.C145_roundtrip
#print axioms Corundum.DmaSource.C145_one_lane_counterexample
#print axioms Corundum.DmaSource.C145_zero_length_counterexample
#print axioms Corundum.RegIf.C146_writes
#print axioms Corundum.RegIf.C146_stable
#print axioms Corundum.RegIf.C146_timeout
#print axioms Corundum.RegIf.C146_progress
#print axioms Corundum.RegIf.C147_reads
#print axioms Corundum.RegIf.C147_stable
#print axioms Corundum.RegIf.C147_timeout
#print axioms Corundum.RegIf.C147_progress
#print axioms Corundum.PulseMerge.C148_conserved
#print axioms Corundum.PulseMerge.C148_drained
#print axioms Corundum.PulseMerge.C148_overflow_counterexample
#print axioms Corundum.MacTs.C149_stamped
#print axioms Corundum.MacTs.C149_same
#print axioms Corundum.CplQueue.C15_exactly_one_event
#print axioms Corundum.CplQueue.C15_one_shot
#print axioms Corundum.CplQueue.C15_silence_means_empty
#print axioms Corundum.CplQueue.C15_event_correct
#print axioms Corundum.CplQueue.C15_events_delivered
#print axioms Corundum.CplQueue.C15_events_delivered_backpressure_partial
#print axioms Corundum.CplQueue.C15_publish_progress
#print axioms Corundum.CplQueue.C15_event_overwritten_counterexample
#print axioms Corundum.TlpDemux.C150_routes
#print axioms Corundum.TlpDemux.C150_stray
#print axioms Corundum.TlpDemux.C150_unique
#print axioms Corundum.TlpDemux.C150_progress
#print axioms Corundum.PipeFifo.C151_lossless
#print axioms Corundum.PipeFifo.C151_room
#print axioms Corundum.PipeFifo.C151_rate
#print axioms Corundum.PipeFifo.C151_drained
#print axioms Corundum.PipeFifo.C151_offered
#print axioms Corundum.RbDrp.C152_once
#print axioms Corundum.RbDrp.C152_result
#print axioms Corundum.RbDrp.C152_progress
#print axioms Corundum.RbDrp.C152_busy_write_counterexample
#print axioms Corundum.DrpSw.C153_read
#print axioms Corundum.DrpSw.C153_write
#print axioms Corundum.DrpSw.C153_after_failure_counterexample
#print axioms Corundum.XcvrReg.C154_field
#print axioms Corundum.XcvrReg.C154_others
#print axioms Corundum.XcvrReg.C154_separate
#print axioms Corundum.XcvrReg.C154_table_others
#print axioms Corundum.XcvrReg.C154_table
#print axioms Corundum.FcCount.C155_counts
#print axioms Corundum.FcCount.C155_three
#print axioms Corundum.FcCount.C155_not_ready
#print axioms Corundum.FcCount.C155_long_counterexample
#print axioms Corundum.XcvrReg.C156_history
#print axioms Corundum.XcvrReg.C156_values
#print axioms Corundum.XcvrReg.C156_values_all
#print axioms Corundum.XcvrReg.C156_others
#print axioms Corundum.XcvrReg.C156_failure_counterexample
#print axioms Corundum.Broadcast.C157_lossless
#print axioms Corundum.Broadcast.C157_spread
#print axioms Corundum.Broadcast.C157_stable
#print axioms Corundum.Broadcast.C157_drained
#print axioms Corundum.Broadcast.C157_rate
#print axioms Corundum.AxisDemux.C158_lossless
#print axioms Corundum.AxisDemux.C158_stable
#print axioms Corundum.AxisDemux.C158_rate
#print axioms Corundum.AxisDemux.C158_drop_ready
#print axioms Corundum.AxisTap.C159_copy
#print axioms Corundum.AxisTap.C159_cut
#print axioms Corundum.AxisTap.C159_all
#print axioms Corundum.AxisTap.C159_recover
#print axioms Corundum.AxisTap.C159_skip_counterexample
#print axioms Corundum.Sched.C16_scheduled_once
#print axioms Corundum.Sched.C16_no_overflow
#print axioms Corundum.Sched.C16_count
#print axioms Corundum.Sched.C16_count_zero
#print axioms Corundum.Sched.C16_strobe_counterexample
#print axioms Corundum.Sched.C16_read_value
#print axioms Corundum.Sched.C16_register_channel
#print axioms Corundum.CmacPad.C160_pad
#print axioms Corundum.CmacPad.C160_min
#print axioms Corundum.Avst.C161_empty
#print axioms Corundum.Avst.C161_order
#print axioms Corundum.Avst.C161_round
#print axioms Corundum.Avst.C161_sop
#print axioms Corundum.LedSreg.C162_shown
#print axioms Corundum.LedSreg.C162_settled
#print axioms Corundum.Sched.C17_fifo
#print axioms Corundum.Sched.C17_no_overtaking
#print axioms Corundum.Sched.C17_round_robin
#print axioms Corundum.Sched.C17_progress
#print axioms Corundum.Sched.C18_no_lost_doorbell
#print axioms Corundum.Sched.C18_not_skipped
#print axioms Corundum.Sched.C18_overtaken_counterexample
#print axioms Corundum.Sched.C18_sched_ctrl_counterexample
#print axioms Corundum.Frames.C19_eth_roundtrip
#print axioms Corundum.Frames.C19_eth_parse_total
#print axioms Corundum.Frames.C19_eth_rebuild
#print axioms Corundum.Frames.C19_eth_fcs
#print axioms Corundum.Frames.C20_arp_roundtrip
#print axioms Corundum.Frames.C21_ip_roundtrip
#print axioms Corundum.Frames.C21_ip_checksum
#print axioms Corundum.Frames.C21_ip_verify
#print axioms Corundum.Frames.C22_udp_roundtrip
#print axioms Corundum.Frames.C22_udp_checksum
#print axioms Corundum.Frames.C22_udp_zero_checksum_counterexample
#print axioms Corundum.Frames.C23_ip_single_word
#print axioms Corundum.Frames.C23_udp_single_word
#print axioms Corundum.AxisFrame.C24_pack_roundtrip
#print axioms Corundum.AxisFrame.C24_keep
#print axioms Corundum.AxisFrame.C24_delivery
#print axioms Corundum.AxisFrame.C24_drains
#print axioms Corundum.BaseR.C25_rtl_roundtrip
#print axioms Corundum.BaseR.C25_os_start_flags
#print axioms Corundum.BaseR.C25_rtl_accepts
#print axioms Corundum.BaseR.C25_python_roundtrip
#print axioms Corundum.BaseR.C25_python_os0_counterexample
#print axioms Corundum.BaseR.C25_python_sig_os_counterexample
#print axioms Corundum.BaseR.C25_python_matches_rtl
#print axioms Corundum.Scrambler.C26_serial_sync
#print axioms Corundum.Scrambler.C26_single_error
#print axioms Corundum.Scrambler.C26_phy_sync
#print axioms Corundum.Scrambler.C26_prbs_sync
#print axioms Corundum.Scrambler.C26_python_matches_rtl
#print axioms Corundum.Scrambler.C26_python_roundtrip
#print axioms Corundum.Crc.C27_residue
#print axioms Corundum.Crc.C27_accepts_iff
#print axioms Corundum.Crc.C27_burst_detected
#print axioms Corundum.Crc.C27_single_bit_detected
#print axioms Corundum.Crc.C27_built_frame_accepted
#print axioms Corundum.Crc.C27_fcs_generator
#print axioms Corundum.Lfsr.C28_parallel_eq_serial
#print axioms Corundum.Lfsr.C28_parallel_eq_serial_reversed
#print axioms Corundum.RxHash.C29_rtl_toeplitz_partial
#print axioms Corundum.RxHash.C29_same_flow
#print axioms Corundum.RxHash.C29_python_toeplitz
#print axioms Corundum.RxHash.C29_ipv6_wrap_counterexample
#print axioms Corundum.RxCsum.C30_ones_complement_sum
#print axioms Corundum.RxCsum.C30_default_offset
#print axioms Corundum.RxCsum.C30_reset_counterexample
#print axioms Corundum.AxisFifo.C31_order
#print axioms Corundum.AxisFifo.C31_capacity
#print axioms Corundum.AxisFifo.C31_ready_stays
#print axioms Corundum.AxisFifo.C31_frame_mode
#print axioms Corundum.AxisFifo.C31_status_pulses
#print axioms Corundum.AxisFifo.C31_frame_kept
#print axioms Corundum.AxisFifo.C31_frame_gapless
#print axioms Corundum.AxisFifo.C31_frame_gap_counterexample
#print axioms Corundum.AxisFifo.C31_stable
#print axioms Corundum.AxisFifo.C31_status
#print axioms Corundum.AxisFifo.C31_status_exact
#print axioms Corundum.AxisFifo.C31_mark_mode
#print axioms Corundum.AxisFifo.C31_mark_starvation_counterexample
#print axioms Corundum.AxisFifo.C31_pause
#print axioms Corundum.AxisFifo.C31_drains
#print axioms Corundum.AxisFifo.C31_ready_again
#print axioms Corundum.Arbiter.C32_one_hot
#print axioms Corundum.Arbiter.C32_only_requesters
#print axioms Corundum.Arbiter.C32_blocking
#print axioms Corundum.Arbiter.C32_priority
#print axioms Corundum.Arbiter.C32_fair
#print axioms Corundum.Arbiter.C32_fair_nonblocking
#print axioms Corundum.PriorityEncoder.C33_valid
#print axioms Corundum.PriorityEncoder.C33_encoded
#print axioms Corundum.PriorityEncoder.C33_width
#print axioms Corundum.Cobs.C34_encode
#print axioms Corundum.Cobs.C34_zero_free
#print axioms Corundum.Cobs.C34_wire
#print axioms Corundum.Cobs.C34_overhead
#print axioms Corundum.Cobs.C34_decode
#print axioms Corundum.Cobs.C34_roundtrip
#print axioms Corundum.Cobs.C34_decoder_tlast_counterexample
#print axioms Corundum.AxisRegister.C35_skid_order
#print axioms Corundum.AxisRegister.C35_skid_prefix
#print axioms Corundum.AxisRegister.C35_skid_stable
#print axioms Corundum.AxisRegister.C35_skid_throughput
#print axioms Corundum.AxisRegister.C35_skid_idle_ready
#print axioms Corundum.AxisRegister.C35_simple_order
#print axioms Corundum.AxisRegister.C35_simple_stable
#print axioms Corundum.Axi.C36_write
#print axioms Corundum.Axi.C36_exact
#print axioms Corundum.Axi.C36_bursts
#print axioms Corundum.Axi.C36_beats
#print axioms Corundum.Axi.C37_read
#print axioms Corundum.Axi.C37_bursts
#print axioms Corundum.Axi.C37_read_back
#print axioms Corundum.Axi.C37_wrap_burst
#print axioms Corundum.Axi.C37_fixed_burst
#print axioms Corundum.PsdpRam.C38_write
#print axioms Corundum.PsdpRam.C38_write_done
#print axioms Corundum.PsdpRam.C38_no_error
#print axioms Corundum.PsdpRam.C38_exact
#print axioms Corundum.PsdpRam.C38_read
#print axioms Corundum.PsdpRam.C38_read_done
#print axioms Corundum.Ptp.C39_wellformed
#print axioms Corundum.Ptp.C39_advance
#print axioms Corundum.Ptp.C39_rate
#print axioms Corundum.Ptp.C39_monotone
#print axioms Corundum.Ptp.C39_offset
#print axioms Corundum.Ptp.C40_words
#print axioms Corundum.Ptp.C40_message
#print axioms Corundum.Ptp.C40_lock
#print axioms Corundum.CplTs.C41_extend_partial
#print axioms Corundum.CplTs.C41_crossing
#print axioms Corundum.CplTs.C41_rollover_counterexample
#print axioms Corundum.CplTs.C41_stale_counterexample
#print axioms Corundum.Timespec.C42_normalise
#print axioms Corundum.Timespec.C42_add_sub
#print axioms Corundum.Timespec.C42_compare
#print axioms Corundum.Timespec.C42_compare_unnormalised_counterexample
#print axioms Corundum.Timespec.C42_mod
#print axioms Corundum.Timespec.C42_mod_range_counterexample
#print axioms Corundum.Timespec.C42_convert
#print axioms Corundum.QueueMap.C43_lookup
#print axioms Corundum.QueueMap.C43_block
#print axioms Corundum.QueueMap.C43_stream
#print axioms Corundum.QueueMap.C43_same_flow
#print axioms Corundum.QueueMap.C43_configured
#print axioms Corundum.QueueMap.C43_config
#print axioms Corundum.LinuxTx.C44_slot_free
#print axioms Corundum.LinuxTx.C44_frees_exact
#print axioms Corundum.LinuxTx.C44_no_lost_wake
#print axioms Corundum.LinuxTx.C44_wakes
#print axioms Corundum.LinuxTx.C45_doorbell_partial
#print axioms Corundum.LinuxTx.C45_dropped_burst_counterexample
#print axioms Corundum.Sched.C46_tags_unique
#print axioms Corundum.Sched.C46_balance
#print axioms Corundum.QueueMap.C47_reads
#print axioms Corundum.QueueMap.C47_responses
#print axioms Corundum.QueueMap.C47_table
#print axioms Corundum.QueueMap.C47_writes
#print axioms Corundum.Pcie.C48_set_be
#print axioms Corundum.Pcie.C48_count_pos
#print axioms Corundum.Pcie.C48_lower_address_counterexample
#print axioms Corundum.Pcie.C49_write_enabled
#print axioms Corundum.Pcie.C49_write_endpoint
#print axioms Corundum.Pcie.C49_write_root
#print axioms Corundum.Pcie.C50_completions
#print axioms Corundum.Pcie.C50_read_endpoint
#print axioms Corundum.Pcie.C50_read_after_write
#print axioms Corundum.Pcie.C50_device_read_partial
#print axioms Corundum.Pcie.C50_device_read_counterexample
#print axioms Corundum.Pcie.C51_completion_partial
#print axioms Corundum.Pcie.C51_header
#print axioms Corundum.Pcie.C51_read_request_counterexample
#print axioms Corundum.Pcie.C51_write_request_counterexample
#print axioms Corundum.Pcie.C52_io_write
#print axioms Corundum.Pcie.C52_io_read
#print axioms Corundum.Pcie.C52_io_read_enables
#print axioms Corundum.PcieAlloc.C53_disjoint_partial
#print axioms Corundum.PcieAlloc.C53_find_partial
#print axioms Corundum.PcieAlloc.C53_aligned
#print axioms Corundum.PcieAlloc.C53_odd_counterexample
#print axioms Corundum.PcieCap.C54_overlap_partial
#print axioms Corundum.PcieCap.C54_overlap_counterexample
#print axioms Corundum.PcieCap.C54_fixed
#print axioms Corundum.PcieCap.C54_automatic
#print axioms Corundum.PcieCap.C54_chain
#print axioms Corundum.PcieCap.C54_single_counterexample
#print axioms Corundum.PcieEnum.C55_in_range
#print axioms Corundum.PcieEnum.C55_disjoint
#print axioms Corundum.PcieEnum.C55_nested
#print axioms Corundum.PcieEnum.C55_complete
#print axioms Corundum.PcieEnum.C55_configure
#print axioms Corundum.PcieEnum.C56_delivered_partial
#print axioms Corundum.PcieEnum.C56_unclaimed_partial
#print axioms Corundum.PcieEnum.C56_big_counterexample
#print axioms Corundum.PcieEnum.C56_alias_counterexample
#print axioms Corundum.PcieEnum.C57_numbers
#print axioms Corundum.PcieEnum.C57_routed
#print axioms Corundum.Wake.C58_no_lost_wakeup
#print axioms Corundum.Wake.C58_never_stuck
#print axioms Corundum.Wake.C58_dropped_event_is_fatal
#print axioms Corundum.Wake.C58_no_drop
#print axioms Corundum.Wake.C58_overflow_stalls
#print axioms Corundum.WakeLinux.C59_no_lost_wakeup
#print axioms Corundum.WakeLinux.C59_never_missed
#print axioms Corundum.WakeLinux.C59_event_finds_idle
#print axioms Corundum.WakeLinux.C59_poll_exclusive
#print axioms Corundum.WakeLinux.C59_dropped_event_is_fatal
#print axioms Corundum.WakeLinux.C59_no_drop
#print axioms Corundum.WakeLinux.C59_overflow_stalls
#print axioms Corundum.Pcie.C60_cq_round_trip
#print axioms Corundum.Pcie.C60_rq_round_trip
#print axioms Corundum.Pcie.C60_rq_config_round_trip
#print axioms Corundum.Pcie.C60_cq_write_bytes
#print axioms Corundum.Pcie.C60_format_not_kept
#print axioms Corundum.Pcie.C60_atomics_one_way
#print axioms Corundum.Pcie.C61_cc_round_trip
#print axioms Corundum.Pcie.C61_rc_round_trip
#print axioms Corundum.Pcie.C61_rc_byte_enables
#print axioms Corundum.Pcie.C62_odd_parity
#print axioms Corundum.Pcie.C62_error_detected
#print axioms Corundum.Pcie.C62_single_bit
#print axioms Corundum.Pcie.C62_parity_error_detected
#print axioms Corundum.Pcie.C62_even_errors_undetected
#print axioms Corundum.UsStream.C63_delivers
#print axioms Corundum.UsStream.C63_drains
#print axioms Corundum.UsStream.C63_carried
#print axioms Corundum.UsStream.C63_cq_end_to_end
#print axioms Corundum.UsStream.C63_rq_end_to_end
#print axioms Corundum.UsStream.C63_cc_end_to_end
#print axioms Corundum.UsStream.C63_rc_end_to_end
#print axioms Corundum.UsStream.C63_empty_dropped
#print axioms Corundum.CplWrite.C64_enqueue
#print axioms Corundum.CplWrite.C64_in_flight
#print axioms Corundum.CplWrite.C64_write
#print axioms Corundum.CplWrite.C64_contents
#print axioms Corundum.CplWrite.C64_commit
#print axioms Corundum.CplWrite.C64_status
#print axioms Corundum.CplWrite.C64_response_used
#print axioms Corundum.CplWrite.C64_progress
#print axioms Corundum.CplWrite.C64_accepts
#print axioms Corundum.BufRing.C65_tx_apart
#print axioms Corundum.BufRing.C65_tx_contents
#print axioms Corundum.BufRing.C65_tx_length
#print axioms Corundum.BufRing.C65_tx_accepts
#print axioms Corundum.BufRing.C65_rx_apart
#print axioms Corundum.BufRing.C65_rx_accepts
#print axioms Corundum.BufRing.C65_tx_back_to_back
#print axioms Corundum.BufRing.C65_tx_rounding
#print axioms Corundum.BufRing.C65_tx_long
#print axioms Corundum.BufRing.C65_rx_mtu
#print axioms Corundum.TxEngine.C66_fetch
#print axioms Corundum.TxEngine.C66_tags
#print axioms Corundum.TxEngine.C66_transmit
#print axioms Corundum.TxEngine.C66_frame
#print axioms Corundum.TxEngine.C66_checksum
#print axioms Corundum.TxEngine.C66_completion
#print axioms Corundum.TxEngine.C66_record
#print axioms Corundum.TxEngine.C66_status
#print axioms Corundum.TxEngine.C66_status_all
#print axioms Corundum.TxEngine.C66_limit
#print axioms Corundum.TxEngine.C66_hands_over
#print axioms Corundum.TxEngine.C66_checksum_start
#print axioms Corundum.TxEngine.C66_counter_wraps
#print axioms Corundum.RxEngine.C67_orders
#print axioms Corundum.RxEngine.C67_buffers_apart
#print axioms Corundum.RxEngine.C67_tags
#print axioms Corundum.RxEngine.C67_fetch
#print axioms Corundum.RxEngine.C67_limit
#print axioms Corundum.RxEngine.C67_writes
#print axioms Corundum.RxEngine.C67_data
#print axioms Corundum.RxEngine.C67_data_single
#print axioms Corundum.RxEngine.C67_completion
#print axioms Corundum.RxEngine.C67_user
#print axioms Corundum.RxEngine.C67_record
#print axioms Corundum.RxEngine.C67_checksum
#print axioms Corundum.RxEngine.C67_status
#print axioms Corundum.RxEngine.C67_truncated
#print axioms Corundum.RxEngine.C67_empty_stalls
#print axioms Corundum.RxEngine.C67_multi_write
#print axioms Corundum.RxEngine.C67_stale_report
#print axioms Corundum.RxEngine.C67_checksum_shift
#print axioms Corundum.RxEngine.C67_late_descriptor
#print axioms Corundum.DescFetch.C68_asks
#print axioms Corundum.DescFetch.C68_status
#print axioms Corundum.DescFetch.C68_used
#print axioms Corundum.DescFetch.C68_fetch
#print axioms Corundum.DescFetch.C68_slots
#print axioms Corundum.DescFetch.C68_reads
#print axioms Corundum.DescFetch.C68_data
#print axioms Corundum.DescFetch.C68_commit
#print axioms Corundum.DescFetch.C68_limit
#print axioms Corundum.DescFetch.C68_responds
#print axioms Corundum.DescFetch.C68_accepts
#print axioms Corundum.DescFetch.C68_no_deadlock
#print axioms Corundum.DescFetch.C68_lost_commit
#print axioms Corundum.DescFetch.C68_long_block
#print axioms Corundum.StatsCollect.C69_never_more
#print axioms Corundum.StatsCollect.C69_update
#print axioms Corundum.StatsCollect.C69_in_time
#print axioms Corundum.StatsCollect.C69_accumulators
#print axioms Corundum.StatsCollect.C69_modulo
#print axioms Corundum.StatsCollect.C69_overflow
#print axioms Corundum.StatsCounter.C70_answers
#print axioms Corundum.StatsCounter.C70_handed
#print axioms Corundum.StatsCounter.C70_clear
#print axioms Corundum.StatsCounter.C70_latency
#print axioms Corundum.StatsCounter.C70_reads_accepted
#print axioms Corundum.StatsCounter.C70_increments_accepted
#print axioms Corundum.StatsCounter.C70_starvation
#print axioms Corundum.StatsCounter.C70_address
#print axioms Corundum.StatsCounter.C70_words
#print axioms Corundum.StatsCounter.C70_torn
#print axioms Corundum.TxCsum.C71_stream
#print axioms Corundum.TxCsum.C71_drain
#print axioms Corundum.TxCsum.C71_bytes
#print axioms Corundum.TxCsum.C71_verifies
#print axioms Corundum.TxCsum.C71_fits
#print axioms Corundum.TxCsum.C71_stuck
#print axioms Corundum.TxCsum.C71_init_odd_counterexample
#print axioms Corundum.DmaRd.C72_cover
#print axioms Corundum.DmaRd.C72_zero_len
#print axioms Corundum.DmaRd.C72_credits
#print axioms Corundum.DmaRd.C72_credits_counterexample
#print axioms Corundum.DmaRd.C72_page_end
#print axioms Corundum.DmaRd.C72_wrap
#print axioms Corundum.DmaRd.C73_completion
#print axioms Corundum.DmaRd.C73_operation
#print axioms Corundum.DmaRd.C73_page_end
#print axioms Corundum.DmaRd.C74_tags
#print axioms Corundum.DmaRd.C74_once
#print axioms Corundum.DmaRd.C74_data
#print axioms Corundum.DmaRd.C74_isolated
#print axioms Corundum.DmaRd.C74_progress
#print axioms Corundum.DmaRd.C74_fifo
#print axioms Corundum.DmaRd.C74_early_counterexample
#print axioms Corundum.DmaRd.C74_poison_counterexample
#print axioms Corundum.DmaWr.C75_tlps_well_formed
#print axioms Corundum.DmaWr.C75_writes_what_was_asked
#print axioms Corundum.DmaWr.C75_status_means_written
#print axioms Corundum.DmaWr.C75_payload_4096_loses_data
#print axioms Corundum.DmaWr.C76_status_in_order
#print axioms Corundum.DmaWr.C76_status_after_sent
#print axioms Corundum.DmaWr.C76_sequence_numbers
#print axioms Corundum.DmaWr.C76_idle_means_done
#print axioms Corundum.DmaWr.C76_comes_to_rest
#print axioms Corundum.DmaLimit.C77_read_limit
#print axioms Corundum.DmaLimit.C77_write_limit_plus_one
#print axioms Corundum.DmaLimit.C77_write_exceeds_limit
#print axioms Corundum.DmaLimit.C77_write_limit_lost
#print axioms Corundum.IrqRate.C78_none_made_up
#print axioms Corundum.IrqRate.C78_none_lost
#print axioms Corundum.IrqRate.C78_kept
#print axioms Corundum.IrqRate.C78_needs_pause
#print axioms Corundum.IrqRate.C79_min_interval
#print axioms Corundum.IrqRate.C79_wrap_breaks_interval
#print axioms Corundum.Msix.C80_messages_as_programmed
#print axioms Corundum.Msix.C80_offered_until_taken
#print axioms Corundum.Msix.C81_direct
#print axioms Corundum.Msix.C81_none_made_up
#print axioms Corundum.Msix.C81_none_lost
#print axioms Corundum.Msix.C81_masked_blocks
#print axioms Corundum.Msix.C82_masked_high_lost
#print axioms Corundum.Msix.C82_wrong_vector
#print axioms Corundum.ArbMux.C83_lossless
#print axioms Corundum.ArbMux.C83_marked
#print axioms Corundum.ArbMux.C83_frames_whole
#print axioms Corundum.ArbMux.C83_stable
#print axioms Corundum.ArbMux.C84_bounded_overtaking
#print axioms Corundum.ArbMux.C84_progress
#print axioms Corundum.ArbMux.C84_priority_starves
#print axioms Corundum.RamDemux.C85_select
#print axioms Corundum.RamDemux.C85_read_commands
#print axioms Corundum.RamDemux.C85_write_commands
#print axioms Corundum.RamDemux.C85_read_stable
#print axioms Corundum.RamDemux.C85_write_stable
#print axioms Corundum.RamDemux.C86_responses_in_order
#print axioms Corundum.RamDemux.C86_none_lost
#print axioms Corundum.RamDemux.C86_taken_for_commands
#print axioms Corundum.RamDemux.C86_progress
#print axioms Corundum.RamDemux.C87_done_in_order
#print axioms Corundum.RamDemux.C87_all_reported
#print axioms Corundum.TagMux.C88_status_returns
#print axioms Corundum.TagMux.C88_tags_distinct
#print axioms Corundum.TagMux.C88_data_returns
#print axioms Corundum.TagMux.C88_ram_returns
#print axioms Corundum.PcieIf.C89_received_in_order
#print axioms Corundum.PcieIf.C89_all_received
#print axioms Corundum.PcieIf.C89_progress
#print axioms Corundum.PcieIf.C89_abort_lost
#print axioms Corundum.PcieIf.C90_parity_meaning
#print axioms Corundum.PcieIf.C90_update_check
#print axioms Corundum.PcieIf.C90_single_bit
#print axioms Corundum.CfgSpace.C91_register_write
#print axioms Corundum.CfgSpace.C91_config_write
#print axioms Corundum.CfgSpace.C91_config_read
#print axioms Corundum.CfgSpace.C91_config_read_ok
#print axioms Corundum.CfgSpace.C91_read_back
#print axioms Corundum.CfgSpace.C91_read_range
#print axioms Corundum.CfgSpace.C91_readable
#print axioms Corundum.CfgSpace.C91_write_raises
#print axioms Corundum.CfgSpace.C91_rcb_misplaced
#print axioms Corundum.CfgSpace.C91_link_width_lost
#print axioms Corundum.CfgSpace.C91_sec_status_stuck
#print axioms Corundum.CfgSpace.C91_status_cleared
#print axioms Corundum.CfgSpace.C91_mem_window
#print axioms Corundum.CfgSpace.C91_pref_window
#print axioms Corundum.Msi.C92_msi_delivered
#print axioms Corundum.Msi.C92_no_message
#print axioms Corundum.Msi.C92_wraps
#print axioms Corundum.Msi.C92_beyond
#print axioms Corundum.Msi.C92_mask_ignored
#print axioms Corundum.Xgmii.C93_frames_in_order
#print axioms Corundum.Xgmii.C93_all_arrive
#print axioms Corundum.Xgmii.C93_short_frame
#print axioms Corundum.Xgmii.C94_gaps_long_enough
#print axioms Corundum.Xgmii.C94_gaps_no_longer
#print axioms Corundum.Gmii.C95_frames_in_order
#print axioms Corundum.Gmii.C95_all_arrive
#print axioms Corundum.Gmii.C95_rgmii_in_order
#print axioms Corundum.Gmii.C95_rgmii_all_arrive
#print axioms Corundum.Gmii.C95_preamble_sync
#print axioms Corundum.Gmii.C95_one_byte_merges
#print axioms Corundum.Gmii.C95_unsynced_shifted
#print axioms Corundum.BaseRSerdes.C96_frames_in_order
#print axioms Corundum.BaseRSerdes.C96_all_arrive
#print axioms Corundum.BaseRSerdes.C96_resync
#print axioms Corundum.BaseRSerdes.C96_gaps_long_enough
#print axioms Corundum.BaseRSerdes.C96_gaps_no_longer
#print axioms Corundum.BaseRSerdes.C96_error_wipes_block
#print axioms Corundum.Lifecycle.C97_rings
#print axioms Corundum.Lifecycle.C97_cqs
#print axioms Corundum.Lifecycle.C97_eqs
#print axioms Corundum.Lifecycle.C97_open
#print axioms Corundum.Lifecycle.C97_distinct
#print axioms Corundum.Lifecycle.C97_enabled_owned
#print axioms Corundum.Lifecycle.C97_errors
#print axioms Corundum.Lifecycle.C97_all_closed
#print axioms Corundum.Lifecycle.C97_limits
#print axioms Corundum.Lifecycle.C98_route
#print axioms Corundum.Lifecycle.C98_events_found
#print axioms Corundum.Lifecycle.C98_table_exact
#print axioms Corundum.Lifecycle.C98_eq_first
#print axioms Corundum.Lifecycle.C98_second_ring
#print axioms Corundum.Lifecycle.C99_open
#print axioms Corundum.Lifecycle.C99_open_needs_cqs
#print axioms Corundum.Lifecycle.C99_close_raises
#print axioms Corundum.Lifecycle.C99_no_reopen
#print axioms Corundum.Lifecycle.C99_close_partial
