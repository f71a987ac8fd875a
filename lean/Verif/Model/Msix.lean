/-!
MSI-X: /repo/fpga/lib/pcie/rtl/pcie_msix.v, the part that sends messages.

One step is one clock cycle.  The table is written over AXI-lite (pcie_msix.v:435-548); here its content in every cycle is an input.  The state starts at power-up, with the pending bits cleared.
-/
namespace Corundum.Msix

/-- `state_reg` (pcie_msix.v:139-143) -/
inductive Ph
  | idle
  | rd1
  | rd2
  | send
deriving DecidableEq, Repr

/-- the message: a memory write of one dword (pcie_msix.v:264-298); `long` is the 4DW format -/
structure Tlp where
  long : Bool
  dwAddr : Nat
  data : Nat
deriving DecidableEq, Repr

/-- `state_reg`, `irq_index_reg`, `pba_mem`, `pba_mem_rd_data_reg`, `tbl_mem_rd_data_reg`, `vec_addr_reg`, `vec_data_reg`, `irq_ready_reg`, `tx_wr_req_tlp_*_reg`, `msix_enable_reg`,
`msix_mask_reg` (pcie_msix.v:145-204) -/
structure St where
  ph : Ph
  idx : Nat
  pba : Nat → Nat → Bool
  pbd : Nat → Bool
  tq : Nat
  vaddr : Nat
  vdata : Nat
  rdy : Bool
  ov : Bool
  tlp : Tlp
  en : Bool
  gm : Bool

/-- the inputs of a cycle: `irq_valid`, `irq_index`, `tx_wr_req_tlp_ready`, `msix_enable`, `msix_mask`; the table, two words of 64 bits for each vector -/
structure In where
  iv : Bool
  ii : Nat
  trdy : Bool
  en : Bool
  gm : Bool
  tbl : Nat → Nat

/-- IRQ_INDEX_WIDTH and TLP_FORCE_64_BIT_ADDR -/
structure Cfg where
  w : Nat
  force : Bool

/-- width of `pba_mem_addr`, which is `[-1:0]` for PBA_ADDR_WIDTH = 0 (pcie_msix.v:102, 170) -/
def Cfg.pw (c : Cfg) : Nat := if c.w > 6 then c.w - 6 else 2

/-- words of `pba_mem` (pcie_msix.v:195) -/
def Cfg.words (c : Cfg) : Nat := 2 ^ (c.w - 6)

/-- the address read in `pba_mem` (pcie_msix.v:313, 327, 341), and the one written, the default (pcie_msix.v:249) -/
def Cfg.rdAddr (c : Cfg) (idx : Nat) : Nat := idx / 64 % 2 ^ c.pw
def Cfg.wrAddr (c : Cfg) (idx : Nat) : Nat := idx / 32 % 2 ^ c.pw

def updW (f : Nat → Nat → Bool) (a : Nat) (x : Nat → Bool) : Nat → Nat → Bool := fun b => if b = a then x else f b
def updB (f : Nat → Bool) (a : Nat) (x : Bool) : Nat → Bool := fun b => if b = a then x else f b

/-- a write to `pba_mem`; one outside is ignored (pcie_msix.v:419-420) -/
def writePba (c : Cfg) (s : St) (v : Bool) : Nat → Nat → Bool :=
  if c.wrAddr s.idx < c.words then updW s.pba (c.wrAddr s.idx) (updB s.pbd (s.idx % 64) v) else s.pba

/-- `tlp_hdr` and the data (pcie_msix.v:264-298, 377-378) -/
def msg (c : Cfg) (addr data : Nat) : Tlp where
  long := addr / 2 ^ 32 != 0 || c.force
  dwAddr := if addr / 2 ^ 32 != 0 || c.force then addr / 4 else addr / 4 % 2 ^ 30
  data := data

/-- a message is put into the output register (pcie_msix.v:375) -/
def load (s : St) (i : In) : Bool := s.ph == .send && (!s.ov || i.trdy)

/-- the index behind `idx` in the scan of the pending bits (pcie_msix.v:332-338) -/
def scan (c : Cfg) (s : St) : Nat := if (List.range 64).any s.pbd then (s.idx + 1) % 2 ^ c.w else (s.idx / 64 + 1) * 64 % 2 ^ c.w

/-- the state machine without the output register (pcie_msix.v:300-395, 397-425) -/
def fsm (c : Cfg) (s : St) (i : In) : St :=
  match s.ph with
  | .idle =>
    if i.iv && s.rdy then { s with ph := .rd1, idx := i.ii, tq := i.tbl (2 * i.ii), pbd := s.pba (c.rdAddr i.ii), rdy := false }
    else if !i.iv && s.en && !s.gm then
      if s.pbd (s.idx % 64) then { s with ph := .rd1, tq := i.tbl (2 * s.idx), pbd := s.pba (c.rdAddr s.idx), rdy := false }
      else { s with idx := scan c s, pbd := s.pba (c.rdAddr (scan c s)), rdy := true }
    else { s with rdy := true }
  | .rd1 => { s with ph := .rd2, tq := i.tbl (2 * s.idx + 1), vaddr := s.tq / 4 * 4, rdy := false }
  | .rd2 =>
    if s.en && !s.gm && !s.tq.testBit 32 then { s with ph := .send, vdata := s.tq % 2 ^ 32, rdy := false }
    else { s with ph := .idle, vdata := s.tq % 2 ^ 32, pba := writePba c s true, rdy := true }
  | .send =>
    if load s i then { s with ph := .idle, pba := writePba c s false, idx := (s.idx + 1) % 2 ^ c.w, rdy := true }
    else { s with rdy := false }

/-- a clock cycle (pcie_msix.v:241-431) -/
def step (c : Cfg) (s : St) (i : In) : St :=
  { fsm c s i with
    ov := load s i || (s.ov && !i.trdy)
    tlp := if load s i then msg c s.vaddr s.vdata else s.tlp
    en := i.en
    gm := i.gm }

/-- at power-up (pcie_msix.v:145-239) -/
def init : St :=
  { ph := .idle, idx := 0, pba := fun _ _ => false, pbd := fun _ => false, tq := 0, vaddr := 0, vdata := 0, rdy := false, ov := false, tlp := ⟨false, 0, 0⟩, en := false, gm := false }

end Corundum.Msix
