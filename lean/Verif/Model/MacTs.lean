/-!
Receive timestamps of MACs without their own: fpga/common/rtl/mac_ts_insert.v, used for example in
fpga/mqnic/DK_DEV_1SDX_P_A/fpga_100g/rtl/eth_mac_wrapper.v. One step per clock edge without reset. Data and keep are one field, which is only copied; the user
field is split into the part from the input and the timestamp.
-/
namespace Corundum.MacTs

/-- inputs, mac_ts_insert.v:35-53 -/
structure In where
  ts : Nat
  valid : Bool
  data : Nat
  last : Bool
  user : Nat
  ready : Bool
deriving DecidableEq, Repr

/-- registers, mac_ts_insert.v:66-72 -/
structure St where
  data : Nat
  valid : Bool
  last : Bool
  user : Nat
  ts : Nat
  frame : Bool
deriving DecidableEq, Repr

/-- initial values -/
def St.init : St := ⟨0, false, false, 0, 0, false⟩

/-- mac_ts_insert.v:82-103; `s_axis_tready` is `m_axis_tready`, line 74 -/
def St.step (s : St) (i : In) : St :=
  if i.ready then
    { data := i.data
      valid := i.valid
      last := i.last
      user := i.user
      ts := if !s.frame then i.ts else s.ts
      frame := if i.valid then !i.last else s.frame }
  else s

end Corundum.MacTs
