/-! Pause frames and priority flow control of the Ethernet MAC: `mac_pause_ctrl_rx.v` and `mac_pause_ctrl_tx.v` (fpga/lib/eth/rtl), one step per clock
edge, without reset.  `MCF_PARAMS_SIZE` is 18. -/
namespace Corundum.PauseCtrl

/-! ### receiver -/

/-- inputs of the receiver at an edge; bytes of `mcf_params` by number (mac_pause_ctrl_rx.v:40-75) -/
structure RxIn where
  valid : Bool := false
  opcode : Nat := 0
  params : Nat → Nat := fun _ => 0
  lfcEn : Bool := true
  lfcAck : Bool := false
  pfcEn : Nat → Bool := fun _ => true
  pfcAck : Nat → Bool := fun _ => false
  cfgLfcOpcode : Nat := 1
  cfgLfcEn : Bool := true
  cfgPfcOpcode : Nat := 0x101
  cfgPfcEn : Bool := true
  step : Nat := 0
  clkEn : Bool := false

/-- registers of the receiver (mac_pause_ctrl_rx.v:100-111) -/
structure Rx where
  lfcReq : Bool := false
  pfcReq : Nat → Bool := fun _ => false
  lfcQuanta : Nat := 0
  pfcQuanta : Nat → Nat := fun _ => 0
  lfcPkt : Bool := false
  lfcXon : Bool := false
  lfcXoff : Bool := false
  pfcPkt : Bool := false
  pfcXon : Nat → Bool := fun _ => false
  pfcXoff : Nat → Bool := fun _ => false

/-- `{mcf_params[8*i +: 8], mcf_params[8*i+8 +: 8]}` (mac_pause_ctrl_rx.v:169-180) -/
def RxIn.word (x : RxIn) (i : Nat) : Nat := x.params i % 256 * 256 + x.params (i + 1) % 256

/-- a counter after a tick (mac_pause_ctrl_rx.v:141-149, 154-162) -/
def countdown (tick : Bool) (step q : Nat) : Nat := if tick then (if q > step then q - step else 0) else q

/-- one edge; `pfcEnable` is the parameter `PFC_ENABLE` (mac_pause_ctrl_rx.v:133-200) -/
def Rx.edge (pfcEnable : Bool) (s : Rx) (x : RxIn) : Rx :=
  let isLfc := x.valid && x.opcode == x.cfgLfcOpcode && x.cfgLfcEn
  let isPfc := x.valid && !(x.opcode == x.cfgLfcOpcode && x.cfgLfcEn) && (pfcEnable && x.opcode == x.cfgPfcOpcode && x.cfgPfcEn)
  { lfcReq := s.lfcQuanta != 0 && x.lfcEn && x.cfgLfcEn
    pfcReq := fun k => s.pfcQuanta k != 0 && x.pfcEn k && x.cfgPfcEn
    lfcQuanta := if isLfc then x.word 0 * 256 else countdown (x.clkEn && x.lfcAck) x.step s.lfcQuanta
    pfcQuanta := fun k =>
      if isPfc && (x.params 1).testBit k then x.word (2 + 2 * k) * 256 else countdown (x.clkEn && x.pfcAck k) x.step (s.pfcQuanta k)
    lfcPkt := isLfc
    lfcXon := isLfc && x.word 0 == 0
    lfcXoff := isLfc && x.word 0 != 0
    pfcPkt := isPfc
    pfcXon := fun k => isPfc && (x.params 1).testBit k && x.word (2 + 2 * k) == 0
    pfcXoff := fun k => isPfc && (x.params 1).testBit k && x.word (2 + 2 * k) != 0 }

/-! ### transmitter -/

/-- inputs of the transmitter at an edge; addresses and types of the frames are left out (mac_pause_ctrl_tx.v:40-84) -/
structure TxIn where
  ready : Bool := true
  lfcReq : Bool := false
  lfcResend : Bool := false
  pfcReq : Nat := 0
  pfcResend : Bool := false
  cfgLfcEn : Bool := true
  lfcQuanta : Nat := 0xffff
  lfcRefresh : Nat := 0x7fff
  cfgPfcEn : Bool := false
  pfcQuanta : Nat → Nat := fun _ => 0xffff
  pfcRefresh : Nat → Nat := fun _ => 0x7fff
  step : Nat := 0
  clkEn : Bool := false

/-- registers of the transmitter (mac_pause_ctrl_tx.v:109-129); those for statistics are left out -/
structure Tx where
  lfcReq : Bool := false
  lfcAct : Bool := false
  lfcSend : Bool := false
  pfcReq : Nat := 0
  pfcAct : Nat := 0
  pfcEn : Nat := 0
  pfcSend : Bool := false
  lfcRefresh : Nat := 0
  pfcRefresh : Nat → Nat := fun _ => 0
  sel : Bool := true
  valid : Bool := false

/-- a control frame that is offered: a pause frame with its time, or priorities with the time of each -/
inductive Frame where
  | pause (quanta : Nat)
  | prio (enable : Nat) (quanta : Nat → Nat)

/-- the frame on the outputs while `mcf_valid` (mac_pause_ctrl_tx.v:131-150); `pfcEnable` is the parameter -/
def Tx.frame (pfcEnable : Bool) (s : Tx) (x : TxIn) : Frame :=
  if pfcEnable && s.sel then .prio s.pfcEn (fun k => if s.pfcReq.testBit k then x.pfcQuanta k else 0)
  else .pause (if s.lfcReq then x.lfcQuanta else 0)

/-- byte `i` of `mcf_params` (mac_pause_ctrl_tx.v:131-143) -/
def Frame.bytes : Frame → Nat → Nat
  | .pause q, 0 => q / 256 % 256
  | .pause q, 1 => q % 256
  | .pause _, _ => 0
  | .prio _ _, 0 => 0
  | .prio e _, 1 => e % 256
  | .prio _ q, i => if i ≥ 18 then 0 else if i % 2 = 0 then q ((i - 2) / 2) / 256 % 256 else q ((i - 2) / 2) % 256

/-- counters and what they ask for (mac_pause_ctrl_tx.v:170-214) -/
def Tx.count (s : Tx) (x : TxIn) : Tx :=
  { s with
    lfcRefresh := countdown x.clkEn x.step s.lfcRefresh
    lfcSend := s.lfcSend || x.lfcResend || (x.clkEn && !(s.lfcRefresh > x.step) && s.lfcReq)
    pfcRefresh := fun k => countdown x.clkEn x.step (s.pfcRefresh k)
    pfcSend := s.pfcSend || x.pfcResend || (x.clkEn && (List.range 8).any fun k => !(s.pfcRefresh k > x.step) && s.pfcReq.testBit k)
    valid := s.valid && !x.ready }

/-- pause frames; `s` are the registers, `t` what is to become of them (mac_pause_ctrl_tx.v:216-236) -/
def Tx.lfc (pfcEnable : Bool) (s t : Tx) (x : TxIn) : Tx :=
  if x.cfgLfcEn && !s.valid then
    let t := if s.lfcReq != x.lfcReq then { t with lfcReq := x.lfcReq, lfcAct := s.lfcAct || x.lfcReq, lfcSend := true } else t
    if s.lfcSend && !(pfcEnable && x.cfgPfcEn && s.pfcSend) then
      { t with
        sel := false
        valid := s.lfcAct
        lfcAct := s.lfcReq
        lfcRefresh := if s.lfcReq then x.lfcRefresh * 256 else 0
        lfcSend := false }
    else t
  else t

/-- priorities (mac_pause_ctrl_tx.v:238-262) -/
def Tx.pfc (pfcEnable : Bool) (s t : Tx) (x : TxIn) : Tx :=
  if pfcEnable && x.cfgPfcEn && !s.valid then
    let t := if s.pfcReq != x.pfcReq then { t with pfcReq := x.pfcReq, pfcAct := s.pfcAct ||| x.pfcReq, pfcSend := true } else t
    if s.pfcSend then
      { t with
        sel := true
        valid := s.pfcAct != 0
        pfcEn := s.pfcAct
        pfcAct := s.pfcReq
        pfcRefresh := fun k => if s.pfcReq.testBit k then x.pfcRefresh k * 256 else 0
        pfcSend := false }
    else t
  else t

/-- one edge (mac_pause_ctrl_tx.v:169-286) -/
def Tx.edge (pfcEnable : Bool) (s : Tx) (x : TxIn) : Tx := s.pfc pfcEnable (s.lfc pfcEnable (s.count x) x) x

/-- the frame handed over at an edge (`mcf_valid && mcf_ready`) -/
def Tx.taken (pfcEnable : Bool) (s : Tx) (x : TxIn) : List Frame := if s.valid && x.ready then [s.frame pfcEnable x] else []

/-- state after a list of edges and the frames handed over -/
def Tx.run (pfcEnable : Bool) (s : Tx) : List TxIn → Tx × List Frame
  | [] => (s, [])
  | x :: xs => (((s.edge pfcEnable x).run pfcEnable xs).1, s.taken pfcEnable x ++ ((s.edge pfcEnable x).run pfcEnable xs).2)

/-- state of the receiver before edge `n` -/
def Rx.at (pfcEnable : Bool) (ins : Nat → RxIn) : Nat → Rx
  | 0 => {}
  | n + 1 => (Rx.at pfcEnable ins n).edge pfcEnable (ins n)

end Corundum.PauseCtrl
