/-!
The status FIFO of the DMA read interface and what holds back completions when it fills: /repo/fpga/lib/pcie/rtl/dma_if_pcie_rd.v:386-411, 998, 1185, 1255, 1296-1302, 1335-1361, 1479-1502.

One step is one clock.  Simplification: `init_done_reg && &ram_wr_cmd_ready_int` is an input.
-/
namespace Corundum.DmaRdFull

structure St (A : Type) where
  mem : Nat → A
  /-- `status_fifo_wr_ptr_reg`, `status_fifo_rd_ptr_reg`: STATUS_FIFO_ADDR_WIDTH + 1 = 6 bits -/
  wp : Nat := 0
  rp : Nat := 0
  /-- `status_fifo_wr_en_reg` and the entry -/
  wr : Option A := none
  /-- `status_fifo_full_reg` -/
  full : Bool := false
  /-- `rx_cpl_tlp_ready_reg` in the states in which an entry can be made -/
  ready : Bool := false
  /-- `status_fifo_rd_valid_reg` and the entry -/
  rd : Option A := none

/-- inputs of a clock: the entry made by the beat taken if `ready` (one at most); whether the entry at the output is taken; readiness of the RAM -/
structure In (A : Type) where
  ent : Option A
  take : Bool
  ram : Bool

variable {A : Type}

/-- entry accepted in this clock -/
def acc (s : St A) (i : In A) : Option A := if s.ready then i.ent else none

/-- entry leaving in this clock -/
def popped (s : St A) (i : In A) : Option A := if i.take then s.rd else none

/-- `status_fifo_rd_en` (dma_if_pcie_rd.v:1335-1361) -/
def rden (s : St A) (i : In A) : Bool := (s.rd.isNone || i.take) && s.rp != s.wp

def step (s : St A) (i : In A) : St A where
  mem := match s.wr with
    | some a => fun j => if j = s.wp % 32 then a else s.mem j
    | none => s.mem
  wp := if s.wr.isSome then (s.wp + 1) % 64 else s.wp
  rp := if rden s i then (s.rp + 1) % 64 else s.rp
  wr := acc s i
  full := decide ((s.wp + 64 - s.rp) % 64 ≥ 28)
  ready := i.ram && !s.full
  rd := if rden s i then some (s.mem (s.rp % 32)) else if i.take then none else s.rd

end Corundum.DmaRdFull
