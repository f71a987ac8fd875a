/-!
Configuration space: registers of a PCIe function and the accesses of the root complex, /repo/fpga/lib/pcie/tb/pcie.py.

Modelled: `byte_mask_update`; `read_config_register`, `write_config_register` of `Function`, `Endpoint` and `Bridge`; the registers of the power management, PCIe, MSI and MSI-X capabilities; `read_register`,
`write_register` of capability lists; `config_read` and `config_write` of the root complex.  The attributes of the Python object are a function from names to numbers (False and True are 0 and 1).  A read is a list of
fields OR-ed together, a write a list of assignments, one for each line of the code.  Not modelled: completion time-outs, extended capabilities (there are none by default), `initiate_function_level_reset`,
`initiate_retrain_link` (they do nothing).
-/
namespace Corundum.CfgSpace

/-- the attributes, pcie.py:826-828, 857-1016, 1351-1359, 1481-1487, 1556-1584, 2124-2129, 2492-2506 -/
inductive Attr where
  | pcie_device_type | pcie_slot_implemented | interrupt_message_number | max_payload_size_supported | phantom_functions_supported | extended_tag_supported | endpoint_l0s_acceptable_latency | endpoint_l1_acceptable_latency
  | role_based_error_reporting | captured_slot_power_limit_value | captured_slot_power_limit_scale | function_level_reset_capability | correctable_error_reporting_enable | non_fatal_error_reporting_enable | fatal_error_reporting_enable | unsupported_request_reporting_enable
  | enable_relaxed_ordering | max_payload_size | extended_tag_field_enable | phantom_functions_enable | aux_power_pm_enable | enable_no_snoop | max_read_request_size | correctable_error_detected
  | nonfatal_error_detected | fatal_error_detected | unsupported_request_detected | aux_power_detected | transactions_pending | max_link_speed | max_link_width | aspm_support
  | l0s_exit_latency | l1_exit_latency | clock_power_management | surprise_down_error_reporting_capability | data_link_layer_link_active_reporting_capable | link_bandwidth_notification_capability | aspm_optionality_compliance | port_number
  | aspm_control | read_completion_boundary | link_disable | common_clock_configuration | extended_synch | enable_clock_power_management | hardware_autonomous_width_disable | link_bandwidth_management_interrupt_enable
  | link_autonomous_bandwidth_interrupt_enable | current_link_speed | negotiated_link_width | link_training | slot_clock_configuration | data_link_layer_link_active | link_bandwidth_management_status | link_autonomous_bandwidth_status
  | attention_button_present | power_controller_present | mrl_sensor_present | attention_indicator_present | power_indicator_present | hot_plug_surprise | hot_plug_capable | slot_power_limit_value
  | slot_power_limit_scale | electromechanical_interlock_present | no_command_completed_support | physical_slot_number | attention_button_pressed_enable | power_fault_detected_enable | mrl_sensor_changed_enable | presence_detect_changed_enable
  | command_completed_interrupt_enable | hot_plug_interrupt_enable | attention_indicator_control | power_indicator_control | power_controller_control | electromechanical_interlock_control | data_link_layer_state_changed_enable | attention_button_pressed
  | power_fault_detected | mrl_sensor_changed | presence_detect_changed | command_completed | mrl_sensor_state | presence_detect_state | electromechanical_interlock_status | data_link_layer_state_changed
  | system_error_on_correctable_error_enable | system_error_on_non_fatal_error_enable | system_error_on_fatal_error_enable | pme_interrupt_enable | crs_software_visibility_enable | crs_software_visibility | pme_requester_id | pme_status
  | pme_pending | completion_timeout_ranges_supported | completion_timeout_disable_supported | ari_forwarding_supported | atomic_op_forwarding_supported | atomic_op_32_bit_completer_supported | atomic_op_64_bit_completer_supported | cas_128_bit_completer_supported
  | no_ro_enabled_pr_pr_passing | ltr_mechanism_supported | tph_completer_supported | obff_supported | extended_fmt_field_supported | end_end_tlp_prefix_supported | max_end_end_tlp_prefix | completion_timeout_value
  | completion_timeout_disable | ari_forwarding_enable | atomic_op_requester_enable | atomic_op_egress_blocking | ido_request_enable | ido_completion_enable | ltr_mechanism_enable | obff_enable
  | end_end_tlp_prefix_blocking | supported_link_speeds | crosslink_supported | target_link_speed | enter_compliance | hardware_autonomous_speed_disable | selectable_de_emphasis | transmit_margin
  | enter_modified_compliance | compliance_sos | compliance_preset_de_emphasis | current_de_emphasis_level | equalization_complete | equalization_phase_1_successful | equalization_phase_2_successful | equalization_phase_3_successful
  | link_equalization_request | device_id | vendor_id | bus_master_enable | parity_error_response | serr_enable | interrupt_disable | interrupt_status
  | capabilities_list | master_data_parity_error | signaled_target_abort | received_target_abort | received_master_abort | signaled_system_error | detected_parity_error | class_code
  | rev_id | bist | header_type | lat_timer | cache_ln | cap_ptr | intr_pin | intr_line
  | cardbus_cis | subsystem_id | subsystem_vendor_id | expansion_rom_addr | sec_lat_timer | sub_bus_num | sec_bus_num | pri_bus_num
  | sec_status | io_limit | io_base | mem_limit | mem_base | prefetchable_mem_limit | prefetchable_mem_base | bridge_control
  | pm_capabilities | pm_data | pm_control_status | msix_table_size | msix_function_mask | msix_enable | msix_table_bar_indicator_register | msix_table_offset
  | msix_pba_bar_indicator_register | msix_pba_offset | msi_enable | msi_multiple_message_capable | msi_multiple_message_enable | msi_64bit_address_capable | msi_per_vector_mask_capable | msi_message_address
  | msi_message_data | msi_mask_bits | msi_pending_bits
deriving DecidableEq

/-- the number of bits an attribute is meant to have -/
def Attr.width : Attr → Nat
  | .phantom_functions_supported | .captured_slot_power_limit_scale | .aspm_support | .aspm_control | .slot_power_limit_scale | .attention_indicator_control | .power_indicator_control | .tph_completer_supported => 2
  | .obff_supported | .max_end_end_tlp_prefix | .obff_enable => 2
  | .max_payload_size_supported | .endpoint_l0s_acceptable_latency | .endpoint_l1_acceptable_latency | .max_payload_size | .max_read_request_size | .l0s_exit_latency | .l1_exit_latency | .transmit_margin => 3
  | .msix_table_bar_indicator_register | .msix_pba_bar_indicator_register | .msi_multiple_message_capable | .msi_multiple_message_enable => 3
  | .pcie_device_type | .max_link_speed | .current_link_speed | .completion_timeout_ranges_supported | .completion_timeout_value | .target_link_speed => 4
  | .interrupt_message_number => 5
  | .max_link_width | .negotiated_link_width => 6
  | .supported_link_speeds => 7
  | .captured_slot_power_limit_value | .port_number | .slot_power_limit_value | .compliance_preset_de_emphasis | .rev_id | .bist | .header_type | .lat_timer => 8
  | .cache_ln | .cap_ptr | .intr_pin | .intr_line | .sec_lat_timer | .sub_bus_num | .sec_bus_num | .pri_bus_num => 8
  | .pm_data => 8
  | .msix_table_size => 11
  | .physical_slot_number => 13
  | .pme_requester_id | .device_id | .vendor_id | .subsystem_id | .subsystem_vendor_id | .sec_status | .bridge_control | .pm_capabilities => 16
  | .pm_control_status | .msi_message_data => 16
  | .class_code => 24
  | .cardbus_cis | .expansion_rom_addr | .io_limit | .io_base | .mem_limit | .mem_base | .msix_table_offset | .msix_pba_offset => 32
  | .msi_mask_bits | .msi_pending_bits => 32
  | .prefetchable_mem_limit | .prefetchable_mem_base | .msi_message_address => 64
  | _ => 1

/-- the attributes of an object -/
abbrev Obj := Attr → Nat

/-- a term of a register as read: `((a & m) << l) >> r`, `if a: val |= 1 << p`, a constant -/
inductive Rd where
  | fld (a : Attr) (m : Option Nat) (l r : Nat)
  | flag (a : Attr) (p : Nat)
  | const (v : Nat)

def Rd.val (o : Obj) : Rd → Nat
  | .fld a m l r => ((match m with
      | some m => o a &&& m
      | none => o a) <<< l) >>> r
  | .flag a p => if o a ≠ 0 then 1 <<< p else 0
  | .const v => v

/-- a register as read -/
def value (o : Obj) (l : List Rd) : Nat := l.foldl (fun v f => v ||| f.val o) 0

/-- `x & ~m` -/
def andNot (x m : Nat) : Nat := x ^^^ (x &&& m)

/-- the loop of `byte_mask_update`, pcie.py:153-157, from byte `k`; `n` bounds the number of rounds -/
def bmuLoop (new mask : Nat) : (n k old : Nat) → Nat
  | 0, _, old => old
  | n + 1, k, old => if 1 <<< k ≤ mask then bmuLoop new mask n (k + 1) (if mask &&& (1 <<< k) ≠ 0 then andNot old (0xff <<< (8 * k)) ||| (new &&& (0xff <<< (8 * k))) else old) else old

/-- `byte_mask_update`, pcie.py:149-158; `none` is the bit mask -1 -/
def byteMaskUpdate (old mask new : Nat) (bm : Option Nat) : Nat :=
  let new := match bm with
    | some b => (new &&& b) ||| andNot old b
    | none => new
  bmuLoop new mask (mask + 1) 0 old

/-- an assignment of a register write; `lane` is a bit of the byte enables -/
inductive Wr where
  /-- `if mask & (1 << lane): a = a & keep | (data >> sh) & m` -/
  | set (a : Attr) (keep m sh lane : Nat)
  /-- `if mask & (1 << lane) and data & 1 << p: a = False` -/
  | clr (a : Attr) (p lane : Nat)
  /-- `a = byte_mask_update(a, ((mask & mm) << ml) >> mr, (data << dl) >> dr, bm)` -/
  | upd (a : Attr) (mm ml mr dl dr : Nat) (bm : Option Nat)
  /-- `a = byte_mask_update(a, (mask & mm) >> mr, 0, (data >> sh) & bm)` -/
  | wclr (a : Attr) (mm mr sh bm : Nat)
  /-- `a |= v` -/
  | or (a : Attr) (v : Nat)
  /-- `a &= v` -/
  | and (a : Attr) (v : Nat)
  /-- an exception if the attribute is set -/
  | raiseIf (a : Attr)
  /-- an exception -/
  | raise

def Obj.put (o : Obj) (a : Attr) (v : Nat) : Obj := fun b => if b = a then v else o b

def Wr.app (data mask : Nat) (o : Obj) : Wr → Option Obj
  | .set a keep m sh lane => some (if mask.testBit lane then o.put a ((o a &&& keep) ||| ((data >>> sh) &&& m)) else o)
  | .clr a p lane => some (if mask.testBit lane ∧ data.testBit p then o.put a 0 else o)
  | .upd a mm ml mr dl dr bm => some (o.put a (byteMaskUpdate (o a) (((mask &&& mm) <<< ml) >>> mr) ((data <<< dl) >>> dr) bm))
  | .wclr a mm mr sh bm => some (o.put a (byteMaskUpdate (o a) ((mask &&& mm) >>> mr) 0 (some ((data >>> sh) &&& bm))))
  | .or a v => some (o.put a (o a ||| v))
  | .and a v => some (o.put a (o a &&& v))
  | .raiseIf a => if o a ≠ 0 then none else some o
  | .raise => none

/-- a register written; `none` is an exception -/
def assign (data mask : Nat) (o : Obj) (l : List Wr) : Option Obj := l.foldlM (Wr.app data mask) o

/-- `read_pcie_cap_register`, pcie.py:1056-1245 -/
def pcieRd : Nat → List Rd
  | 0 => [.const (2 <<< 16), .fld .pcie_device_type (some 0xf) 20 0, .flag .pcie_slot_implemented 24, .fld .interrupt_message_number (some 0x1f) 25 0]
  | 1 => [.fld .max_payload_size_supported (some 0x7) 0 0, .fld .phantom_functions_supported (some 0x3) 3 0, .flag .extended_tag_supported 5, .fld .endpoint_l0s_acceptable_latency (some 0x7) 6 0,
      .fld .endpoint_l1_acceptable_latency (some 7) 9 0, .flag .role_based_error_reporting 15, .fld .captured_slot_power_limit_value (some 0xff) 18 0, .fld .captured_slot_power_limit_scale (some 0x3) 26 0,
      .flag .function_level_reset_capability 28]
  | 2 => [.flag .correctable_error_reporting_enable 0, .flag .non_fatal_error_reporting_enable 1, .flag .fatal_error_reporting_enable 2, .flag .unsupported_request_reporting_enable 3,
      .flag .enable_relaxed_ordering 4, .fld .max_payload_size (some 0x7) 5 0, .flag .extended_tag_field_enable 8, .flag .phantom_functions_enable 9,
      .flag .aux_power_pm_enable 10, .flag .enable_no_snoop 11, .fld .max_read_request_size (some 0x7) 12 0, .flag .correctable_error_detected 16,
      .flag .nonfatal_error_detected 17, .flag .fatal_error_detected 18, .flag .unsupported_request_detected 19, .flag .aux_power_detected 20,
      .flag .transactions_pending 21]
  | 3 => [.fld .max_link_speed (some 0xf) 0 0, .fld .max_link_width (some 0x3f) 0 4, .fld .aspm_support (some 0x3) 0 10, .fld .l0s_exit_latency (some 0x7) 0 12,
      .fld .l1_exit_latency (some 0x7) 0 15, .flag .clock_power_management 18, .flag .surprise_down_error_reporting_capability 19, .flag .data_link_layer_link_active_reporting_capable 20,
      .flag .link_bandwidth_notification_capability 21, .flag .aspm_optionality_compliance 22, .fld .port_number (some 0xff) 24 0]
  | 4 => [.fld .aspm_control (some 0x3) 0 0, .flag .read_completion_boundary 3, .flag .link_disable 4, .flag .common_clock_configuration 6,
      .flag .extended_synch 7, .flag .enable_clock_power_management 8, .flag .hardware_autonomous_width_disable 9, .flag .link_bandwidth_management_interrupt_enable 10,
      .flag .link_autonomous_bandwidth_interrupt_enable 11, .fld .current_link_speed (some 0xf) 16 0, .fld .negotiated_link_width (some 0x3f) 20 0, .flag .link_training 27,
      .flag .slot_clock_configuration 28, .flag .data_link_layer_link_active 29, .flag .link_bandwidth_management_status 30, .flag .link_autonomous_bandwidth_status 31]
  | 5 => [.flag .attention_button_present 0, .flag .power_controller_present 1, .flag .mrl_sensor_present 2, .flag .attention_indicator_present 3,
      .flag .power_indicator_present 4, .flag .hot_plug_surprise 5, .flag .hot_plug_capable 6, .fld .slot_power_limit_value (some 0xff) 7 0,
      .fld .slot_power_limit_scale (some 0x3) 15 0, .flag .electromechanical_interlock_present 17, .flag .no_command_completed_support 18, .fld .physical_slot_number (some 0x1fff) 19 0]
  | 6 => [.flag .attention_button_pressed_enable 0, .flag .power_fault_detected_enable 1, .flag .mrl_sensor_changed_enable 2, .flag .presence_detect_changed_enable 3,
      .flag .command_completed_interrupt_enable 4, .flag .hot_plug_interrupt_enable 5, .fld .attention_indicator_control (some 0x3) 6 0, .fld .power_indicator_control (some 0x3) 8 0,
      .flag .power_controller_control 10, .flag .electromechanical_interlock_control 11, .flag .data_link_layer_state_changed_enable 12, .flag .attention_button_pressed 16,
      .flag .power_fault_detected 17, .flag .mrl_sensor_changed 18, .flag .presence_detect_changed 19, .flag .command_completed 20,
      .flag .mrl_sensor_state 21, .flag .presence_detect_state 22, .flag .electromechanical_interlock_status 23, .flag .data_link_layer_state_changed 24]
  | 7 => [.flag .system_error_on_correctable_error_enable 0, .flag .system_error_on_non_fatal_error_enable 1, .flag .system_error_on_fatal_error_enable 2, .flag .pme_interrupt_enable 3,
      .flag .crs_software_visibility_enable 4, .flag .crs_software_visibility 16]
  | 8 => [.fld .pme_requester_id (some 0xffff) 0 0, .flag .pme_status 16, .flag .pme_pending 17]
  | 9 => [.fld .completion_timeout_ranges_supported (some 0xf) 0 0, .flag .completion_timeout_disable_supported 4, .flag .ari_forwarding_supported 5, .flag .atomic_op_forwarding_supported 6,
      .flag .atomic_op_32_bit_completer_supported 7, .flag .atomic_op_64_bit_completer_supported 8, .flag .cas_128_bit_completer_supported 9, .flag .no_ro_enabled_pr_pr_passing 10,
      .flag .ltr_mechanism_supported 11, .fld .tph_completer_supported (some 0x3) 12 0, .fld .obff_supported (some 0x3) 18 0, .flag .extended_fmt_field_supported 20,
      .flag .end_end_tlp_prefix_supported 21, .fld .max_end_end_tlp_prefix (some 0x3) 22 0]
  | 10 => [.fld .completion_timeout_value (some 0xf) 0 0, .flag .completion_timeout_disable 4, .flag .ari_forwarding_enable 5, .flag .atomic_op_requester_enable 6,
      .flag .atomic_op_egress_blocking 7, .flag .ido_request_enable 8, .flag .ido_completion_enable 9, .flag .ltr_mechanism_enable 10,
      .fld .obff_enable (some 0x3) 13 0, .flag .end_end_tlp_prefix_blocking 15]
  | 11 => [.fld .supported_link_speeds (some 0x7f) 1 0, .flag .crosslink_supported 8]
  | 12 => [.fld .target_link_speed (some 0xf) 0 0, .flag .enter_compliance 4, .flag .hardware_autonomous_speed_disable 5, .flag .selectable_de_emphasis 6,
      .fld .transmit_margin (some 0x7) 7 0, .flag .enter_modified_compliance 10, .flag .compliance_sos 11, .fld .compliance_preset_de_emphasis (some 0xf) 12 0,
      .flag .current_de_emphasis_level 16, .flag .equalization_complete 17, .flag .equalization_phase_1_successful 18, .flag .equalization_phase_2_successful 19,
      .flag .equalization_phase_3_successful 20, .flag .link_equalization_request 21]
  | _ => []

/-- `write_pcie_cap_register`, pcie.py:1247-1337; the last line of register 12 uses a variable that is not there -/
def pcieWr : Nat → List Wr
  | 2 => [.set .correctable_error_reporting_enable 0 1 0 0, .set .non_fatal_error_reporting_enable 0 1 1 0, .set .fatal_error_reporting_enable 0 1 2 0, .set .unsupported_request_reporting_enable 0 1 3 0,
      .set .enable_relaxed_ordering 0 1 4 0, .set .max_payload_size 0 0x7 5 0, .set .extended_tag_field_enable 0 1 8 1, .set .phantom_functions_enable 0 1 9 1,
      .set .aux_power_pm_enable 0 1 10 1, .set .enable_no_snoop 0 1 11 1, .set .max_read_request_size 0 0x7 12 1, .clr .correctable_error_detected 16 2,
      .clr .nonfatal_error_detected 17 2, .clr .fatal_error_detected 18 2, .clr .unsupported_request_detected 19 2, .clr .aux_power_detected 20 2,
      .clr .transactions_pending 21 2]
  | 4 => [.set .aspm_control 0 3 0 0, .set .read_completion_boundary 0 1 4 0, .set .common_clock_configuration 0 1 6 0, .set .extended_synch 0 1 7 0,
      .set .enable_clock_power_management 0 1 8 1, .set .hardware_autonomous_width_disable 0 1 9 1, .set .link_bandwidth_management_interrupt_enable 0 1 10 1, .set .link_autonomous_bandwidth_interrupt_enable 0 1 11 1,
      .clr .link_bandwidth_management_status 30 3, .clr .link_autonomous_bandwidth_status 31 3]
  | 6 => [.set .attention_button_pressed_enable 0 1 0 0, .set .power_fault_detected_enable 0 1 1 0, .set .mrl_sensor_changed_enable 0 1 2 0, .set .presence_detect_changed_enable 0 1 3 0,
      .set .command_completed_interrupt_enable 0 1 4 0, .set .hot_plug_interrupt_enable 0 1 5 0, .set .attention_indicator_control 0 0x3 6 0, .set .power_indicator_control 0 0x3 8 1,
      .set .power_controller_control 0 1 10 1, .set .electromechanical_interlock_control 0 1 11 1, .set .data_link_layer_state_changed_enable 0 1 12 1, .clr .attention_button_pressed 16 2,
      .clr .power_fault_detected 17 2, .clr .mrl_sensor_changed 18 2, .clr .presence_detect_changed 19 2, .clr .command_completed 20 2,
      .clr .data_link_layer_state_changed 24 3]
  | 7 => [.set .system_error_on_correctable_error_enable 0 1 0 0, .set .system_error_on_non_fatal_error_enable 0 1 1 0, .set .system_error_on_fatal_error_enable 0 1 2 0, .set .pme_interrupt_enable 0 1 3 0,
      .set .crs_software_visibility_enable 0 1 4 0]
  | 8 => [.clr .pme_status 16 2]
  | 10 => [.set .completion_timeout_value 0 0xf 0 0, .set .completion_timeout_disable 0 1 4 0, .set .ari_forwarding_enable 0 1 5 0, .set .atomic_op_requester_enable 0 1 6 0,
      .set .atomic_op_egress_blocking 0 1 7 0, .set .ido_request_enable 0 1 8 1, .set .ido_completion_enable 0 1 9 1, .set .ltr_mechanism_enable 0 1 10 1,
      .set .obff_enable 0 0x3 13 1, .set .end_end_tlp_prefix_blocking 0 1 15 1]
  | 12 => [.set .target_link_speed 0 0xf 0 0, .set .enter_compliance 0 1 4 0, .set .hardware_autonomous_speed_disable 0 1 5 0, .set .transmit_margin 0x6 0x1 7 0,
      .set .transmit_margin 0x1 0x6 7 1, .set .enter_modified_compliance 0 1 10 1, .set .compliance_sos 0 1 11 1, .set .compliance_preset_de_emphasis 0 0xff 12 1,
      .raiseIf .link_equalization_request]
  | _ => []

/-- `Function.read_config_register`, pcie.py:1638-1662 -/
def fnRd : Nat → List Rd
  | 0 => [.fld .device_id none 16 0, .fld .vendor_id none 0 0]
  | 1 => [.flag .bus_master_enable 2, .flag .parity_error_response 6, .flag .serr_enable 8, .flag .interrupt_disable 10,
      .flag .interrupt_status 19, .flag .capabilities_list 20, .flag .master_data_parity_error 24, .flag .signaled_target_abort 27,
      .flag .received_target_abort 28, .flag .received_master_abort 29, .flag .signaled_system_error 30, .flag .detected_parity_error 31]
  | 2 => [.fld .class_code none 8 0, .fld .rev_id none 0 0]
  | 3 => [.fld .bist none 24 0, .fld .header_type none 16 0, .fld .lat_timer none 8 0, .fld .cache_ln none 0 0]
  | 13 => [.fld .cap_ptr none 0 0]
  | 15 => [.fld .intr_pin none 8 0, .fld .intr_line none 0 0]
  | _ => []

/-- `Function.write_config_register`, pcie.py:1666-1686 -/
def fnWr : Nat → List Wr
  | 1 => [.set .bus_master_enable 0 1 2 0, .set .parity_error_response 0 1 6 0, .set .serr_enable 0 1 8 1, .set .interrupt_disable 0 1 10 1,
      .clr .master_data_parity_error 24 3, .clr .signaled_target_abort 27 3, .clr .received_target_abort 28 3, .clr .received_master_abort 29 3,
      .clr .signaled_system_error 30 3, .clr .detected_parity_error 31 3]
  | 3 => [.upd .cache_ln 1 0 0 0 0 none, .upd .lat_timer 2 0 1 0 8 none, .upd .bist 8 0 3 0 24 none]
  | 15 => [.upd .intr_line 1 0 0 0 0 none, .upd .intr_pin 2 0 1 0 8 none]
  | _ => []

/-- `Endpoint.read_config_register`, pcie.py:2172-2185, without the BARs -/
def epRd : Nat → List Rd
  | 10 => [.fld .cardbus_cis none 0 0]
  | 11 => [.fld .subsystem_id none 16 0, .fld .subsystem_vendor_id none 0 0]
  | 12 => [.fld .expansion_rom_addr none 0 0]
  | 13 => [.fld .cap_ptr none 0 0]
  | 14 => []
  | 15 => [.fld .intr_pin none 8 0, .fld .intr_line none 0 0]
  | n => fnRd n

/-- `Endpoint.write_config_register`, pcie.py:2187-2199, without the BARs -/
def epWr : Nat → List Wr
  | 12 => [.upd .expansion_rom_addr 0xf 0 0 0 0 none]
  | 15 => [.upd .intr_line 1 0 0 0 0 none, .upd .intr_pin 2 0 1 0 8 none]
  | n => fnWr n

/-- `Bridge.read_config_register`, pcie.py:2559-2572, without the BARs -/
def brRd : Nat → List Rd
  | 6 => [.fld .sec_lat_timer none 24 0, .fld .sub_bus_num none 16 0, .fld .sec_bus_num none 8 0, .fld .pri_bus_num none 0 0]
  | 7 => [.fld .sec_status none 16 0, .fld .io_limit (some 0xf000) 0 0, .fld .io_base (some 0xf000) 0 8]
  | 8 => [.fld .mem_limit (some 0xfff00000) 0 0, .fld .mem_base (some 0xfff00000) 0 16]
  | 9 => [.fld .prefetchable_mem_limit (some 0xfff00000) 0 0, .fld .prefetchable_mem_base (some 0xfff00000) 0 16]
  | 10 => [.fld .prefetchable_mem_base none 0 32]
  | 11 => [.fld .prefetchable_mem_limit none 0 32]
  | 12 => [.fld .io_limit (some 0xffff0000) 0 0, .fld .io_base (some 0xffff0000) 0 16]
  | 13 => [.fld .cap_ptr none 0 0]
  | 14 => [.fld .expansion_rom_addr none 0 0]
  | 15 => [.fld .bridge_control none 16 0, .fld .intr_pin none 8 0, .fld .intr_line none 0 0]
  | n => fnRd n

/-- `Bridge.write_config_register`, pcie.py:2574-2608, without the BARs; register 15 uses an attribute `min_gnt` that is not there -/
def brWr : Nat → List Wr
  | 6 => [.upd .pri_bus_num 1 0 0 0 0 none, .upd .sec_bus_num 2 0 1 0 8 none, .upd .sub_bus_num 4 0 2 0 16 none, .upd .sec_lat_timer 8 0 3 0 24 none]
  | 7 => [.upd .io_base 1 1 0 8 0 (some 0xf000), .upd .io_limit 2 0 0 0 0 (some 0xf000), .or .io_limit 0xfff, .wclr .sec_status 4 2 16 0xf900]
  | 8 => [.upd .mem_base 3 2 0 16 0 (some 0xfff00000), .upd .mem_limit 0xc 0 0 0 0 (some 0xfff00000), .or .mem_limit 0xfffff]
  | 9 => [.upd .prefetchable_mem_base 3 2 0 16 0 (some 0xfff00000), .upd .prefetchable_mem_limit 0xc 0 0 0 0 (some 0xfff00000), .or .prefetchable_mem_limit 0xfffff]
  | 10 => [.upd .prefetchable_mem_base 0xf 4 0 32 0 none]
  | 11 => [.upd .prefetchable_mem_limit 0xf 4 0 32 0 none]
  | 12 => [.upd .io_base 3 2 0 16 0 none, .upd .io_limit 0xc 0 0 0 0 none]
  | 14 => [.upd .expansion_rom_addr 0xf 0 0 0 0 none]
  | 15 => [.upd .intr_line 1 0 0 0 0 none, .upd .intr_pin 2 0 1 0 8 none, .raise]
  | n => fnWr n

/-- `read_pm_cap_register`, pcie.py:842-844 -/
def pmRd : Nat → List Rd
  | 0 => [.fld .pm_capabilities none 16 0]
  | 1 => [.fld .pm_data none 24 0, .fld .pm_control_status none 0 0]
  | _ => []

/-- `read_msix_cap_register`, pcie.py:1503-1519 -/
def msixRd : Nat → List Rd
  | 0 => [.fld .msix_table_size (some 0x7ff) 16 0, .flag .msix_function_mask 30, .flag .msix_enable 31]
  | 1 => [.fld .msix_table_bar_indicator_register (some 7) 0 0, .fld .msix_table_offset (some 0xfffffff8) 0 0]
  | 2 => [.fld .msix_pba_bar_indicator_register (some 7) 0 0, .fld .msix_pba_offset (some 0xfffffff8) 0 0]
  | _ => []

/-- `write_msix_cap_register`, pcie.py:1521-1525 -/
def msixWr : Nat → List Wr
  | 0 => [.set .msix_function_mask 0 1 30 3, .set .msix_enable 0 1 31 3]
  | _ => []

/-- `read_msi_cap_register`, pcie.py:1420-1444, for `msi_64bit_address_capable` and `msi_per_vector_mask_capable`; `none`: no value is returned; the upper address is masked before the shift here -/
def msiRd (b64 mc : Bool) (reg : Nat) : Option (List Rd) :=
  if reg = 0 then some [.flag .msi_enable 16, .fld .msi_multiple_message_capable (some 7) 17 0, .fld .msi_multiple_message_enable (some 7) 20 0, .flag .msi_64bit_address_capable 23, .flag .msi_per_vector_mask_capable 24]
  else if reg = 1 then some [.fld .msi_message_address (some 0xfffffffc) 0 0]
  else if reg = 2 ∧ b64 then some [.fld .msi_message_address (some 0xffffffff00000000) 0 32]
  else if reg = (if b64 then 3 else 2) then some [.fld .msi_message_data (some 0xffff) 0 0]
  else if reg = (if b64 then 4 else 3) ∧ mc then some [.fld .msi_mask_bits (some 0xffffffff) 0 0]
  else if reg = (if b64 then 5 else 4) ∧ mc then some [.fld .msi_pending_bits (some 0xffffffff) 0 0]
  else none

/-- `write_msi_cap_register`, pcie.py:1446-1462 -/
def msiWr (b64 mc : Bool) (reg : Nat) : List Wr :=
  if reg = 0 then [.set .msi_enable 0 1 16 2, .set .msi_multiple_message_enable 0 7 20 2]
  else if reg = 1 then [.upd .msi_message_address 0xf 0 0 0 0 none, .and .msi_message_address 0xfffffffffffffffc]
  else if reg = 2 ∧ b64 then [.upd .msi_message_address 0xf 4 0 32 0 none, .and .msi_message_address 0xfffffffffffffffc]
  else if reg = (if b64 then 3 else 2) then [.upd .msi_message_data 3 0 0 0 0 none, .and .msi_message_data 0xffff]
  else if reg = (if b64 then 4 else 3) ∧ mc then [.upd .msi_mask_bits 0xf 0 0 0 0 none, .and .msi_mask_bits 0xffffffff]
  else []

/-! ### a function -/

inductive Kind where
  | pm | pcie | msi | msix
deriving DecidableEq

/-- capability IDs, pcie.py:116-124 -/
def Kind.id : Kind → Nat
  | .msi => 0x05
  | .msix => 0x11
  | .pm => 0x01
  | .pcie => 0x10

/-- lengths in double words, pcie.py:117-125 -/
def Kind.len : Kind → Nat
  | .msi => 6
  | .msix => 3
  | .pm => 2
  | .pcie => 15

/-- a capability in the list: offset in double words, next pointer -/
structure Cap where
  kind : Kind
  off : Nat
  next : Option Nat
deriving DecidableEq

/-- a function: attributes, BARs with their masks, type 0 or 1 header, capabilities -/
structure Fn where
  obj : Obj
  bar : Nat → Nat
  barMask : Nat → Nat
  bridge : Bool
  caps : List Cap

/-- `find_by_reg`, pcie.py:244-248 -/
def Fn.find (f : Fn) (reg : Nat) : Option Cap := f.caps.find? fun c => decide (c.off ≤ reg ∧ reg < c.off + c.kind.len)

/-- the registers of a capability -/
def capRd (o : Obj) : Kind → Nat → Option (List Rd)
  | .pm, r => some (pmRd r)
  | .pcie, r => some (pcieRd r)
  | .msi, r => msiRd (o .msi_64bit_address_capable != 0) (o .msi_per_vector_mask_capable != 0) r
  | .msix, r => some (msixRd r)

/-- `write_pm_cap_register` does nothing, pcie.py:846-848 -/
def capWr (o : Obj) : Kind → Nat → List Wr
  | .pm, _ => []
  | .pcie, r => pcieWr r
  | .msi, r => msiWr (o .msi_64bit_address_capable != 0) (o .msi_per_vector_mask_capable != 0) r
  | .msix, r => msixWr r

/-- `PcieCap.read_register`, pcie.py:211-215 -/
def Cap.read (o : Obj) (c : Cap) (r : Nat) : Option Nat := do
  let v ← capRd o c.kind r
  if r = 0 then
    let n ← c.next
    pure ((value o v &&& 0xffff0000) ||| ((n &&& 0xff) <<< 8) ||| (c.kind.id &&& 0xff))
  else pure (value o v)

/-- the BAR of a register: 4 to 9 of an endpoint, 4 and 5 of a bridge -/
def Fn.barOf (f : Fn) (reg : Nat) : Option Nat := if 4 ≤ reg ∧ reg < (if f.bridge then 6 else 10) then some (reg - 4) else none

/-- `read_config_register`; registers 16 to 255 are those of the capability list, pcie.py:1661, 250-254; there are no extended capabilities -/
def Fn.read (f : Fn) (reg : Nat) : Option Nat :=
  match f.barOf reg with
  | some b => some (f.bar b)
  | none =>
    if reg < 16 then some (value f.obj (if f.bridge then brRd reg else epRd reg))
    else if reg < 256 then
      match f.find reg with
      | some c => c.read f.obj (reg - c.off)
      | none => some 0
    else some 0

/-- `write_config_register`; pcie.py:1685, 256-259 -/
def Fn.write (f : Fn) (reg data mask : Nat) : Option Fn :=
  match f.barOf reg with
  | some b => some { f with bar := fun k => if k = b then byteMaskUpdate (f.bar b) mask data (some (f.barMask b)) else f.bar k }
  | none =>
    if reg < 16 then (assign data mask f.obj (if f.bridge then brWr reg else epWr reg)).map fun o => { f with obj := o }
    else if reg < 256 then
      match f.find reg with
      | some c => (assign data mask f.obj (capWr f.obj c.kind (reg - c.off))).map fun o => { f with obj := o }
      | none => some f
    else some f

/-! ### accesses -/

/-- bytes of a register as read: `struct.pack('<L', ..)`, pcie.py:3672 -/
def bytes4 (v : Nat) : List Nat := (List.range 4).map fun k => v / 256 ^ k % 256

/-- a number from bytes, least significant first: `set_data`, pcie.py:481-486 -/
def le : List Nat → Nat
  | [] => 0
  | b :: l => b + 256 * le l

/-- byte enables of a chunk in one register: `set_be`, pcie.py:467-479 -/
def be (pad len : Nat) : Nat := ((0xf <<< pad) &&& 0xf) &&& (0xf >>> (3 - (pad + len + 3) % 4))

/-- `config_write`, pcie.py:3712-3732; the fuel is the number of bytes -/
def configWrite : (fuel : Nat) → Fn → (addr : Nat) → List Nat → Option Fn
  | _, f, _, [] => some f
  | 0, _, _, _ => none
  | n + 1, f, addr, data@(_ :: _) => do
    let len := min data.length (4 - addr % 4)
    let f ← f.write (addr / 4) (le (List.replicate (addr % 4) 0 ++ data.take len)) (be (addr % 4) len)
    configWrite n f (addr + len) (data.drop len)

/-- the loop of `config_read`, pcie.py:3651-3676 -/
def readLoop (f : Fn) : (fuel : Nat) → (addr len : Nat) → Option (List Nat)
  | _, _, 0 => some []
  | 0, _, _ => none
  | n + 1, addr, len@(_ + 1) => do
    let k := min len (4 - addr % 4)
    let v ← f.read (addr / 4)
    let rest ← readLoop f n (addr + k) (len - k)
    pure ((bytes4 v).drop (addr % 4) ++ rest)

/-- `config_read`, pcie.py:3647-3678 -/
def configRead (f : Fn) (addr len : Nat) : Option (List Nat) := (readLoop f len addr len).map fun l => l.take len

end Corundum.CfgSpace
