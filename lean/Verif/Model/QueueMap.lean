/-!
Receive queue map: /repo/fpga/common/rtl/mqnic_rx_queue_map.v, one step per clock cycle.

Modelled: mask/direct registers with their write port (:203-223), the three-stage lookup pipeline (:256-283), reset (:285-302), and the
AXI-lite slave with the indirection table memory (:329-391). Not modelled: the register read port (:225-254), address widths
(addresses are naturals reduced to the width of the table index), `wstrb` (ignored by the code as well). `offset_reg` is never read.
-/
namespace Corundum.QueueMap

/-- module parameters, :24-58 -/
structure Cfg where
  ports : Nat
  /-- INDIR_TBL_ADDR_WIDTH -/
  A : Nat
  /-- QUEUE_INDEX_WIDTH -/
  Q : Nat
  /-- DEST_WIDTH -/
  D : Nat
  /-- CL_PORTS -/
  CP : Nat
  /-- RBB -/
  rbb : Nat

structure In where
  rst : Bool := false
  wrEn : Bool := false
  wrAddr : Nat := 0
  wrData : Nat := 0
  valid : Bool := false
  id : Nat := 0
  dest : Nat := 0
  hash : Nat := 0
  tag : Nat := 0
  awvalid : Bool := false
  awaddr : Nat := 0
  wvalid : Bool := false
  wdata : Nat := 0
  bready : Bool := false
  arvalid : Bool := false
  araddr : Nat := 0
  rready : Bool := false

/-- AXI-lite slave registers, :309-318 (`s_axil_wready_reg` always equals `s_axil_awready_reg`) -/
structure Axil where
  lastRead : Bool
  awready : Bool
  bvalid : Bool
  arready : Bool
  rdata : Nat
  rvalid : Bool
  rdataP : Nat
  rvalidP : Bool

/-- :162-179 -/
structure St where
  ack : Bool
  hmask : Nat → Nat
  amask : Nat → Nat
  direct : Nat → Bool
  tbl : Nat → Nat
  idx : Nat
  queue : Nat
  d1 : Nat
  d2 : Nat
  t1 : Nat
  t2 : Nat
  v1 : Bool
  v2 : Bool
  respQ : Nat
  respT : Nat
  respV : Bool
  ax : Axil

def upd (f : Nat → α) (k : Nat) (v : α) : Nat → α := fun j => if j = k then v else f j

/-- register write port for one port `k`, :207-217 -/
def regHash (c : Cfg) (i : In) (k : Nat) : Bool := i.wrAddr / 4 * 4 == c.rbb + 0x14 + k * 16
def regApp (c : Cfg) (i : In) (k : Nat) : Bool := i.wrAddr / 4 * 4 == c.rbb + 0x18 + k * 16

/-- write accepted in this cycle, :204 -/
def wr (s : St) (i : In) : Bool := i.wrEn && !s.ack

/-- :368-369 -/
def writeEligible (a : Axil) (i : In) : Bool := i.awvalid && i.wvalid && (!a.bvalid || i.bready) && !a.awready
def readEligible (a : Axil) (i : In) : Bool := i.arvalid && (!a.rvalidP || i.rready || !a.rvalidP) && !a.arready
def memWr (a : Axil) (i : In) : Bool := writeEligible a i && (!readEligible a i || a.lastRead)
def memRd (a : Axil) (i : In) : Bool := !memWr a i && readEligible a i

/-- index of the table, FULL_TABLE_ADDR_WIDTH bits, :320-321 -/
def tblAddr (c : Cfg) (addr : Nat) : Nat := addr / 4 % 2 ^ (c.CP + c.A)

/-- AXI-lite part, :371-422 -/
def axilStep (c : Cfg) (tbl : Nat → Nat) (a : Axil) (i : In) : Axil :=
  let n : Axil :=
    { lastRead := if memWr a i then false else if memRd a i then true else a.lastRead
      awready := memWr a i
      bvalid := memWr a i || (a.bvalid && !i.bready)
      arready := memRd a i
      rdata := if memRd a i then tbl (tblAddr c i.araddr) else a.rdata
      rvalid := memRd a i || (a.rvalid && !(i.rready || !a.rvalidP))
      rdataP := if !a.rvalidP || i.rready then a.rdata else a.rdataP
      rvalidP := if !a.rvalidP || i.rready then a.rvalid else a.rvalidP }
  if i.rst then { n with lastRead := false, awready := false, bvalid := false, arready := false, rvalid := false, rvalidP := false } else n

/-- one clock cycle, :198-303 and :394-422 -/
def step (c : Cfg) (s : St) (i : In) : St :=
  let n : St :=
    { ack := wr s i && (List.range c.ports).any (fun k => regHash c i k || regApp c i k)
      hmask := fun k => if wr s i && decide (k < c.ports) && regHash c i k then i.wrData % 2 ^ c.Q else s.hmask k
      amask := fun k => if wr s i && decide (k < c.ports) && regApp c i k then i.wrData % 2 ^ 31 % 2 ^ c.Q else s.amask k
      direct := fun k => if wr s i && decide (k < c.ports) && regApp c i k then i.wrData.testBit 31 else s.direct k
      tbl := if memRd s.ax i then s.tbl else if memWr s.ax i then upd s.tbl (tblAddr c i.awaddr) i.wdata else s.tbl
      idx := ((i.dest &&& s.amask i.id) + (i.hash &&& s.hmask i.id)) % 2 ^ c.A + (if c.ports > 1 then i.id % 2 ^ c.CP * 2 ^ c.A else 0)
      queue := s.tbl s.idx % 2 ^ c.Q
      d1 := i.dest % 2 ^ (c.D - 1) + (if i.dest.testBit (c.D - 1) && s.direct i.id then 2 ^ (c.D - 1) else 0)
      d2 := s.d1
      t1 := i.tag
      t2 := s.t1
      v1 := i.valid
      v2 := s.v1
      respQ := if s.d2.testBit (c.D - 1) then s.d2 % 2 ^ c.Q else s.queue
      respT := s.t2
      respV := s.v2
      ax := axilStep c s.tbl s.ax i }
  if i.rst then { n with ack := false, hmask := fun _ => 0, amask := fun _ => 0, direct := fun _ => false, v1 := false, v2 := false, respV := false }
  else n

/-- power-on state, :162-196 -/
def init : St :=
  { ack := false, hmask := fun _ => 0, amask := fun _ => 0, direct := fun _ => false, tbl := fun _ => 0, idx := 0, queue := 0
    d1 := 0, d2 := 0, t1 := 0, t2 := 0, v1 := false, v2 := false, respQ := 0, respT := 0, respV := false
    ax := { lastRead := false, awready := false, bvalid := false, arready := false, rdata := 0, rvalid := false, rdataP := 0, rvalidP := false } }

def run (c : Cfg) (s : St) (is : List In) : St := is.foldl (step c) s

/-- responses seen on the output port after each cycle -/
def outs (c : Cfg) : St → List In → List (Nat × Nat)
  | _, [] => []
  | s, i :: is =>
    let s' := step c s i
    (if s'.respV then [(s'.respT, s'.respQ)] else []) ++ outs c s' is

end Corundum.QueueMap
