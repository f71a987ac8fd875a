import Verif.Model.DmaRdCpl

/-!
How a DMA write operation becomes PCIe write requests: /repo/fpga/lib/pcie/rtl/dma_if_pcie_wr.v:519-799 (splitting, reads from the RAM) and 801-967 (header and data of a TLP).

A bus is a function from the lane to the byte; a mask is a function to `Bool`.  Registers have the widths of the source, also where that loses bits.
-/
namespace Corundum.DmaWr

export DmaRd (Ram)

/-- LEN_WIDTH, PCIE_ADDR_WIDTH, `max_payload_size`, the RAM (as in `Model/DmaRdCpl`, dma_if_pcie_wr.v:38-72, 164-178) -/
structure Cfg where
  lw : Nat
  paw : Nat
  mps : Nat
  ram : Ram

/-- `{max_payload_size_dw_reg, 2'b00}` (dma_if_pcie_wr.v:546, 1109) -/
def Cfg.max (c : Cfg) : Nat := 128 * 2 ^ (if c.mps > 5 then 5 else c.mps)

/-- TLP_STRB_WIDTH -/
def Cfg.dws (c : Cfg) : Nat := c.ram.bus / 4

/-- values of a register of CYCLE_COUNT_WIDTH bits (dma_if_pcie_wr.v:174) -/
def Cfg.cycles (c : Cfg) : Nat := 8192 / c.ram.bus

/-- a write descriptor (dma_if_pcie_wr.v:101-110); `imm` the immediate data, if enabled, as lanes -/
structure Desc (Byte : Type) where
  addr : Nat
  sel : Nat
  ram : Nat
  len : Nat
  tag : Nat
  imm : Option (Nat → Byte) := none

/-- `pcie_addr_reg`, `ram_addr_reg`, `op_count_reg` -/
structure Regs where
  addr : Nat
  ram : Nat
  cnt : Nat
deriving DecidableEq, Repr

/-- the registers when a descriptor is taken (dma_if_pcie_wr.v:525-543) -/
def start {Byte : Type} (d : Desc Byte) : Regs := ⟨d.addr, if d.imm.isSome then 0 else d.ram, if d.len = 0 then 1 else d.len⟩

/-- what remains fits one TLP (dma_if_pcie_wr.v:546, 612) -/
def small (c : Cfg) (r : Regs) : Bool := r.cnt ≤ c.max - r.addr % 4

/-- crosses a 4K boundary (dma_if_pcie_wr.v:548, 614) -/
def crossS (r : Regs) : Bool := (r.addr % 4096 + r.cnt % 4096) / 4096 != 0 || r.cnt / 4096 != 0

/-- crosses a 4K boundary (dma_if_pcie_wr.v:557, 623) -/
def crossL (c : Cfg) (r : Regs) : Bool := (r.addr % 4096 + c.max) / 4096 != 0

/-- `tlp_count_reg`, 13 bits (dma_if_pcie_wr.v:545-564, 611-630) -/
def tlpCount (c : Cfg) (r : Regs) : Nat :=
  if small c r then (if crossS r then 4096 - r.addr % 4096 else r.cnt % 8192)
  else (if crossL c r then 4096 - r.addr % 4096 else c.max - r.addr % 4)

/-- the registers after a TLP (dma_if_pcie_wr.v:590-592) -/
def after (c : Cfg) (r : Regs) : Regs where
  addr := (r.addr + tlpCount c r) % 2 ^ c.paw
  ram := (r.ram + tlpCount c r) % 2 ^ c.ram.aw
  cnt := (r.cnt + 2 ^ c.lw - tlpCount c r % 2 ^ c.lw) % 2 ^ c.lw

/-- an entry of the operation table, and the read command made with it (dma_if_pcie_wr.v:580-604) -/
structure Ent (Byte : Type) where
  addr : Nat
  sel : Nat
  ram : Nat
  /-- 12 bits -/
  len : Nat
  zero : Bool
  /-- 10 bits -/
  dw : Nat
  cyc : Nat
  off : Nat
  last : Bool
  tag : Nat
  imm : Option (Nat → Byte)

def ent {Byte : Type} (c : Cfg) (d : Desc Byte) (r : Regs) : Ent Byte where
  addr := r.addr
  sel := if d.imm.isSome then 0 else d.sel
  ram := r.ram
  len := tlpCount c r % 4096
  zero := d.len == 0
  dw := (tlpCount c r + r.addr % 4 + 3) / 4 % 1024
  cyc := (tlpCount c r + r.addr % 4 - 1) / c.ram.bus % c.cycles
  off := (r.addr % 4 + c.ram.lanes - r.ram % c.ram.lanes) % c.ram.lanes
  last := r.cnt == tlpCount c r
  tag := d.tag
  imm := d.imm

/-- the entries made for a descriptor, `n` at most; `none` if the last one has not been reached (dma_if_pcie_wr.v:577-641) -/
def ents {Byte : Type} (c : Cfg) (d : Desc Byte) : Nat → Regs → Option (List (Ent Byte))
  | 0, _ => none
  | n + 1, r => if (ent c d r).last then some [ent c d r] else (ents c d n (after c r)).map (ent c d r :: ·)

/-- `read_ram_sel_reg`, `read_ram_addr_reg`, `read_len_reg`, `cycle_byte_count_reg`, `read_cycle_count_reg`, `read_last_cycle_reg`, `read_imm_en_reg` -/
structure Rd where
  sel : Nat
  addr : Nat
  len : Nat
  cyc : Nat
  left : Nat
  last : Bool
  imm : Bool

/-- a read command is taken (dma_if_pcie_wr.v:677-689, 760-772) -/
def Rd.start {Byte : Type} (c : Cfg) (e : Ent Byte) : Rd where
  sel := e.sel
  addr := e.ram
  len := e.len
  cyc := if e.len > c.ram.bus - e.addr % 4 then c.ram.bus - e.addr % 4 else e.len
  left := e.cyc
  last := e.cyc == 0
  imm := e.imm.isSome

/-- after the reads for a beat (dma_if_pcie_wr.v:717-720, 736-740) -/
def Rd.next (c : Cfg) (r : Rd) : Rd :=
  let len := (r.len + 2 ^ c.lw - r.cyc % 2 ^ c.lw) % 2 ^ c.lw
  let left := (r.left + c.cycles - 1) % c.cycles
  { r with addr := (r.addr + r.cyc) % 2 ^ c.ram.aw, len := len, left := left, last := left == 0, cyc := if len > c.ram.bus then c.ram.bus else len }

/-- `start_offset`, and `{ram_wrap, end_offset}` (dma_if_pcie_wr.v:690-691, 741-742) -/
def Rd.first (c : Cfg) (r : Rd) : Nat := r.addr % c.ram.lanes
def Rd.ends (c : Cfg) (r : Rd) : Nat := (r.first c + r.cyc + 2 * c.ram.lanes - 1) % (2 * c.ram.lanes)
def Rd.wrap (c : Cfg) (r : Rd) : Bool := r.ends c / c.ram.lanes != 0

/-- the two masks before they are combined (dma_if_pcie_wr.v:693-694, 744-745) -/
def Rd.mask0 (c : Cfg) (r : Rd) (i : Nat) : Bool := decide (r.first c / c.ram.segBytes ≤ i)
def Rd.mask1 (c : Cfg) (r : Rd) (i : Nat) : Bool := decide (i ≤ r.ends c % c.ram.lanes / c.ram.segBytes)

/-- `read_ram_mask_reg` (dma_if_pcie_wr.v:696-702, 747-753) -/
def Rd.mask (c : Cfg) (r : Rd) (i : Nat) : Bool := if r.wrap c then r.mask0 c i || r.mask1 c i else r.mask0 c i && r.mask1 c i

/-- the address read in segment `i` (dma_if_pcie_wr.v:722-731) -/
def Rd.row (c : Cfg) (r : Rd) (i : Nat) : Nat :=
  if r.wrap c && r.mask1 c i then (r.addr / c.ram.lanes + 1) % (2 ^ c.ram.aw / c.ram.lanes) else r.addr / c.ram.lanes

/-- the mask put into the mask FIFO (dma_if_pcie_wr.v:733) -/
def Rd.need (c : Cfg) (r : Rd) (i : Nat) : Bool := !r.imm && r.mask c i

/-- the fields of the TLP header that are not constant (dma_if_pcie_wr.v:801-802, 843-877); 3DW or 4DW follows from the address -/
structure Hdr where
  dwAddr : Nat
  len : Nat
  fbe : Nat
  lbe : Nat
deriving DecidableEq, Repr

/-- a beat on the TLP bus -/
structure Beat (Byte : Type) where
  hdr : Hdr
  seq : Nat
  data : Nat → Byte
  strb : Nat → Bool
  sop : Bool
  eop : Bool

/-- the registers of the TLP state machine: the entry, `dword_count_reg`, `offset_reg`, `cycle_count_reg`, `last_cycle_reg`, `tlp_frame_reg` -/
structure Tx (Byte : Type) where
  e : Ent Byte
  dw : Nat
  off : Nat
  left : Nat
  last : Bool
  frame : Bool

section
variable {Byte : Type} (c : Cfg)

/-- a TLP is begun (dma_if_pcie_wr.v:885-895, 941-953) -/
def Tx.start (e : Ent Byte) : Tx Byte := ⟨e, e.dw, e.off, e.cyc, e.cyc == 0, false⟩

/-- after a beat that is not the last (dma_if_pcie_wr.v:926-934) -/
def Tx.next (t : Tx Byte) : Tx Byte :=
  let left := (t.left + c.cycles - 1) % c.cycles
  { t with dw := (t.dw + 1024 - c.dws % 1024) % 1024, off := (t.off + c.ram.bus) % c.ram.lanes, left := left, last := left == 0, frame := true }

/-- `first_be` and `last_be` (dma_if_pcie_wr.v:801-802) -/
def firstBe (e : Ent Byte) : Nat := 15 * 2 ^ (e.addr % 4) % 16
def lastBe (e : Ent Byte) : Nat := 15 / 2 ^ (3 - (e.addr % 4 + e.len % 4 + 3) % 4)

/-- `tlp_hdr` (dma_if_pcie_wr.v:843-877) -/
def Tx.hdr (t : Tx Byte) : Hdr where
  dwAddr := t.e.addr / 4
  len := t.dw
  lbe := if t.e.zero then 0 else if t.dw = 1 then 0 else lastBe t.e
  fbe := if t.e.zero then 0 else if t.dw = 1 then firstBe t.e &&& lastBe t.e else firstBe t.e

/-- what is put on the bus (dma_if_pcie_wr.v:907-917, 932-940); `d` is the RAM read data -/
def Tx.beat (t : Tx Byte) (seq : Nat) (d : Nat → Byte) : Beat Byte where
  hdr := t.hdr
  seq := seq
  data := fun j => (match t.e.imm with | some f => f | none => d) ((j + c.ram.lanes - t.off) % c.ram.lanes)
  strb := fun k => decide (k < if t.dw ≥ c.dws then c.dws else t.dw)
  sop := !t.frame
  eop := t.last

end

end Corundum.DmaWr
