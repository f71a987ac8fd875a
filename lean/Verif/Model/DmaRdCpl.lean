/-!
Writing the data of completions to the RAM: /repo/fpga/lib/pcie/rtl/dma_if_pcie_rd.v:938-965, 1000-1065, 1185-1250.

One completion at a time, beat by beat.  What happens to a completion with an error is in `Model/DmaRd`.
A bus is a function from the lane to the byte; a mask is a function to `Bool`.
-/
namespace Corundum.DmaRd

/-- RAM_SEG_COUNT, RAM_SEG_BE_WIDTH, RAM_ADDR_WIDTH; the RAM is twice as wide as the TLP bus (dma_if_pcie_rd.v:55-59, 230-233) -/
structure Ram where
  segs : Nat
  segBytes : Nat
  aw : Nat

/-- RAM_DATA_WIDTH / 8 -/
def Ram.lanes (p : Ram) : Nat := p.segs * p.segBytes

/-- TLP_DATA_WIDTH_BYTES -/
def Ram.bus (p : Ram) : Nat := p.lanes / 2

/-- the fields of a completion header used for the data (dma_if_pcie_rd.v:980-1000), the two zeros already read as 1024 and 4096 -/
structure Hdr where
  len : Nat
  bc : Nat
  la : Nat

/-- the registers that go with a beat: `addr_delay_reg`, `cycle_byte_count_reg`, `offset_reg`; the place of the beat in the TLP -/
structure Beat where
  addr : Nat
  cyc : Nat
  off : Nat
  idx : Nat

/-- beats of a TLP with `len` dwords -/
def Ram.tlpBeats (p : Ram) (len : Nat) : Nat := (len * 4 + p.bus - 1) / p.bus

/-- `final_cpl_next` (dma_if_pcie_rd.v:1010-1012, 1033) -/
def finalCpl (h : Hdr) : Bool := !decide (h.bc > h.len * 4 - h.la % 4)

/-- `op_count_next` when a completion starts (dma_if_pcie_rd.v:1011, 1032) -/
def opCount (h : Hdr) : Nat := if finalCpl h then h.bc else h.len * 4 - h.la % 4

/-- `last_cycle` in the first beat (dma_if_pcie_rd.v:1014-1025, 1035-1046) -/
def lastFirst (p : Ram) (h : Hdr) : Bool := if finalCpl h then !decide (opCount h > p.bus - h.la % 4) else !decide (h.len > p.bus / 4)

/-- the beats in `TLP_STATE_WRITE` (dma_if_pcie_rd.v:1188-1246); the first argument counts the beats the TLP still has, the last of which has `rx_cpl_tlp_eop` -/
def more (p : Ram) (off : Nat) : Nat → Nat → Nat → Nat → List Beat
  | 0, _, _, _ => []
  | n + 1, addr, op, idx =>
    if op > p.bus then ⟨addr, p.bus, off, idx⟩ :: more p off n ((addr + p.bus) % 2 ^ p.aw) (op - p.bus) (idx + 1)
    else [⟨addr, op, off, idx⟩]

/-- the beats written for a completion; `ramEnd` is the address noted for the tag (dma_if_pcie_rd.v:1000-1065) -/
def beats (p : Ram) (ramEnd : Nat) (h : Hdr) : List Beat :=
  let addr := (ramEnd + 2 ^ p.aw - h.bc % 2 ^ p.aw) % 2 ^ p.aw
  let off := (ramEnd % p.bus + p.bus - (h.bc + h.la % 4) % p.bus) % p.bus
  let cyc := if lastFirst p h then opCount h else p.bus - h.la % 4
  ⟨addr, cyc, off, 0⟩ :: if lastFirst p h then [] else more p off (p.tlpBeats h.len - 1) ((addr + cyc) % 2 ^ p.aw) (opCount h - cyc) 1

/-- a write command: for each segment whether it is written and at which address, for each lane the byte enable and the byte -/
structure Write (Byte : Type) where
  sel : Nat
  mask : Nat → Bool
  addr : Nat → Nat
  be : Nat → Bool
  data : Nat → Byte

section
variable {Byte : Type} (p : Ram)

/-- `start_offset_reg` (dma_if_pcie_rd.v:1019, 1200) -/
def Beat.first (b : Beat) : Nat := b.addr % p.lanes

/-- `ram_wrap_reg` and `end_offset_reg` (dma_if_pcie_rd.v:1020, 1201) -/
def Beat.wrap (b : Beat) : Bool := (b.first p + b.cyc - 1) / p.lanes != 0
def Beat.last (b : Beat) : Nat := (b.first p + b.cyc - 1) % p.lanes

/-- before the two are combined, `ram_mask_0_next` has the segments from the one of `start_offset` up, `ram_mask_1_next` those up to the one of `end_offset` (dma_if_pcie_rd.v:1052-1053, 1203-1204) -/
def Beat.mask0 (b : Beat) (i : Nat) : Bool := decide (b.first p / p.segBytes ≤ i)
def Beat.mask1 (b : Beat) (i : Nat) : Bool := decide (i ≤ b.last p / p.segBytes)

/-- the write command of a beat (dma_if_pcie_rd.v:940-960, 1055-1061, 1206-1212); `data` is the TLP data of the beat -/
def Beat.write (b : Beat) (sel : Nat) (data : Nat → Byte) : Write Byte where
  sel := sel
  mask := fun i => if b.wrap p then b.mask0 p i || b.mask1 p i else b.mask0 p i && b.mask1 p i
  addr := fun i => if b.wrap p && b.mask1 p i then (b.addr / p.lanes + 1) % (2 ^ p.aw / p.lanes) else b.addr / p.lanes
  be := fun j => if b.wrap p then decide (b.first p ≤ j) || decide (j ≤ b.last p) else decide (b.first p ≤ j) && decide (j ≤ b.last p)
  data := fun j => data ((j + p.bus - b.off) % p.bus)

/-- what a write does to the RAMs: byte `x` of a RAM is in lane `x % lanes` at address `x / lanes` (dma_psdpram.v) -/
def Write.apply (w : Write Byte) (mem : Nat → Nat → Byte) : Nat → Nat → Byte := fun s x =>
  if w.sel = s ∧ w.mask (x % p.lanes / p.segBytes) = true ∧ w.be (x % p.lanes) = true ∧ w.addr (x % p.lanes / p.segBytes) = x / p.lanes then w.data (x % p.lanes) else mem s x

/-- the writes of a completion with data `d` (byte 0 is the first of the first dword) to RAM `sel` -/
def writes (ramEnd sel : Nat) (h : Hdr) (d : Nat → Byte) : List (Write Byte) :=
  (beats p ramEnd h).map fun b => b.write p sel fun j => d (b.idx * p.bus + j)

end

end Corundum.DmaRd
