/-!
AXI-Lite register interface: fpga/lib/axi/rtl/axil_reg_if_wr.v and axil_reg_if_rd.v, as used by axil_reg_if.v in
mqnic_core.v:683 and mqnic_interface.v:987 for the register blocks. One step per clock edge without reset. `t` is TIMEOUT, taken to be at least 2 (the
counter has $clog2(TIMEOUT) bits, so TIMEOUT-1 fits). `awprot` and `arprot` are not used by the code.
-/
namespace Corundum.RegIf

/-- inputs of the write part, axil_reg_if_wr.v:52-72; data with strobes -/
structure WIn where
  awvalid : Bool
  awaddr : Nat
  wvalid : Bool
  wdata : Nat × Nat
  bready : Bool
  wait : Bool
  ack : Bool
deriving DecidableEq, Repr

/-- registers, axil_reg_if_wr.v:77-86 -/
structure WSt where
  timer : Nat
  addr : Nat
  awv : Bool
  data : Nat × Nat
  wv : Bool
  bv : Bool
  en : Bool
deriving DecidableEq, Repr

/-- initial values, also after reset as far as they matter -/
def WSt.init : WSt := ⟨0, 0, false, (0, 0), false, false, false⟩

/-- axil_reg_if_wr.v:88 -/
def WSt.awready (s : WSt) : Bool := !s.awv

/-- axil_reg_if_wr.v:89 -/
def WSt.wready (s : WSt) : Bool := !s.wv

/-- the access ends, axil_reg_if_wr.v:108 -/
def WSt.done (s : WSt) (i : WIn) : Bool := s.en && (i.ack || decide (s.timer = 0))

/-- axil_reg_if_wr.v:98-144 -/
def WSt.step (t : Nat) (s : WSt) (i : WIn) : WSt :=
  let bv := if s.done i then true else s.bv && !i.bready
  let awv := if !s.awv then i.awvalid else if s.done i then false else s.awv
  let wv := if !s.wv then i.wvalid else if s.done i then false else s.wv
  { timer := if s.en && !i.wait && decide (s.timer ≠ 0) then s.timer - 1 else if !s.awv then t - 1 else s.timer
    addr := if !s.awv then i.awaddr else s.addr
    awv := awv
    data := if !s.wv then i.wdata else s.data
    wv := wv
    bv := bv
    en := awv && wv && !bv }

/-- inputs of the read part, axil_reg_if_rd.v:52-68 -/
structure RIn where
  arvalid : Bool
  araddr : Nat
  rready : Bool
  data : Nat
  wait : Bool
  ack : Bool
deriving DecidableEq, Repr

/-- registers, axil_reg_if_rd.v:73-80 -/
structure RSt where
  timer : Nat
  addr : Nat
  arv : Bool
  data : Nat
  rv : Bool
  en : Bool
deriving DecidableEq, Repr

/-- initial values -/
def RSt.init : RSt := ⟨0, 0, false, 0, false, false⟩

/-- axil_reg_if_rd.v:82 -/
def RSt.arready (s : RSt) : Bool := !s.arv

/-- the access ends, axil_reg_if_rd.v:98 -/
def RSt.done (s : RSt) (i : RIn) : Bool := s.en && (i.ack || decide (s.timer = 0))

/-- axil_reg_if_rd.v:90-124 -/
def RSt.step (t : Nat) (s : RSt) (i : RIn) : RSt :=
  let rv := if s.done i then true else s.rv && !i.rready
  let arv := if !s.arv then i.arvalid else if s.done i then false else s.arv
  { timer := if s.en && !i.wait && decide (s.timer ≠ 0) then s.timer - 1 else if !s.arv then t - 1 else s.timer
    addr := if !s.arv then i.araddr else s.addr
    arv := arv
    data := if s.done i then i.data else s.data
    rv := rv
    en := arv && !rv }

end Corundum.RegIf
