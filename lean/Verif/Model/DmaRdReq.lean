/-!
Splitting of a read operation into PCIe read requests: /repo/fpga/lib/pcie/rtl/dma_if_pcie_rd.v:655-870.

The request registers and one pass of `REQ_STATE_START`; how often a pass is held up by missing tags, credits or a busy transmit register does not matter here
(`Model/DmaRd` has that).  Numbers are naturals; a truncation by the width of a Verilog expression is written as `%`.
-/
namespace Corundum.DmaRd

/-- parameters and configuration: LEN_WIDTH, PCIE_ADDR_WIDTH, RAM_ADDR_WIDTH, the input `max_read_request_size`, the input `rcb_128b` -/
structure Cfg where
  lw : Nat
  paw : Nat
  raw : Nat
  mrrs : Nat
  rcb : Bool

/-- `max_read_request_size_dw_reg` (dma_if_pcie_rd.v:1479) -/
def Cfg.dw (c : Cfg) : Nat := 32 * 2 ^ (if c.mrrs > 5 then 5 else c.mrrs)

/-- `req_pcie_addr_reg`, `req_ram_addr_reg`, `req_op_count_reg`, `req_zero_len_reg` -/
structure Regs where
  addr : Nat
  ram : Nat
  cnt : Nat
  zero : Bool
deriving DecidableEq, Repr

/-- a read request: the dword address, the length field, the byte enables, the RAM address noted for its tag, the completion credits set aside -/
structure Req where
  dwAddr : Nat
  len : Nat
  fbe : Nat
  lbe : Nat
  ramEnd : Nat
  hfc : Nat
  dfc : Nat
  zero : Bool
deriving DecidableEq, Repr

/-- what remains fits one request (dma_if_pcie_rd.v:663); the sum has the width of the wider operand -/
def small (c : Cfg) (r : Regs) : Bool := (r.cnt + r.addr % 4) % 2 ^ (max c.lw 13) ≤ c.dw * 4

/-- crosses a 4K boundary (dma_if_pcie_rd.v:665) -/
def crossS (r : Regs) : Bool := (r.addr % 4096 + r.cnt % 4096) / 4096 != 0 || r.cnt / 4096 != 0

/-- crosses a 4K boundary (dma_if_pcie_rd.v:695) -/
def crossL (c : Cfg) (r : Regs) : Bool := (r.addr % 4096 + c.dw * 4) / 4096 != 0

/-- `req_tlp_count` (dma_if_pcie_rd.v:667, 681, 697, 711), 13 bits -/
def tlpCount (c : Cfg) (r : Regs) : Nat :=
  if small c r then (if crossS r then 4096 - r.addr % 4096 else r.cnt % 8192)
  else (if crossL c r then 4096 - r.addr % 4096 else c.dw * 4 - r.addr % 128)

/-- `req_dword_count` (dma_if_pcie_rd.v:668, 682, 698, 712), 11 bits -/
def dwordCount (c : Cfg) (r : Regs) : Nat :=
  if small c r then (if crossS r then 1024 - r.addr % 4096 / 4 else (r.cnt + r.addr % 4 + 3) / 4 % 2048)
  else (if crossL c r then 1024 - r.addr % 4096 / 4 else c.dw - r.addr % 128 / 4)

/-- `req_cpld_fc_count` (dma_if_pcie_rd.v:669, 683, 699, 713), 9 bits -/
def dataFc (c : Cfg) (r : Regs) : Nat :=
  if small c r then (if crossS r then 256 - r.addr % 4096 / 16 else (r.cnt + r.addr % 4 + 15) / 16 % 512)
  else (if crossL c r then 256 - r.addr % 4096 / 16 else c.dw / 4 - r.addr % 128 / 16)

/-- `req_cplh_fc_count` (dma_if_pcie_rd.v:670-674, 684-688, 700-704, 714-718), 7 bits -/
def hdrFc (c : Cfg) (r : Regs) : Nat :=
  if small c r then
    (if crossS r then (if c.rcb then 32 - r.addr % 4096 / 128 else 64 - r.addr % 4096 / 64)
     else (if c.rcb then (r.addr % 128 + r.cnt + 127) / 128 % 128 else (r.addr % 64 + r.cnt + 63) / 64 % 128))
  else
    (if crossL c r then (if c.rcb then 32 - r.addr % 4096 / 128 else 64 - r.addr % 4096 / 64)
     else (if c.rcb then c.dw / 32 else c.dw / 16 - r.addr / 64 % 2))

/-- `req_last_tlp` (dma_if_pcie_rd.v:675, 689, 705, 719) -/
def lastTlp (c : Cfg) (r : Regs) : Bool :=
  if small c r then (if crossS r then (r.addr % 4096 + r.cnt % 4096) % 4096 == 0 && r.cnt / 4096 == 0 else true) else false

/-- the next address `req_pcie_addr` (dma_if_pcie_rd.v:676-677, 691-692, 706-707, 720-721) -/
def nextAddr (c : Cfg) (r : Regs) : Nat :=
  if small c r then (if crossS r then (r.addr / 4096 + 1) * 4096 % 2 ^ c.paw else r.addr / 4096 * 4096)
  else (if crossL c r then (r.addr / 4096 + 1) * 4096 % 2 ^ c.paw else r.addr / 4096 * 4096 + (r.addr % 4096 / 128 * 32 + c.dw) * 4 % 4096)

/-- `req_first_be` (dma_if_pcie_rd.v:748) -/
def firstBe (r : Regs) : Nat := 15 * 2 ^ (r.addr % 4) % 16

/-- `req_last_be` (dma_if_pcie_rd.v:749) -/
def lastBe (c : Cfg) (r : Regs) : Nat := 15 / 2 ^ (3 - (r.addr % 4 + tlpCount c r % 4 + 3) % 4)

/-- the header and what is noted for the tag (dma_if_pcie_rd.v:739-746, 754-793); fields that are constant are left out -/
def req (c : Cfg) (r : Regs) : Req where
  dwAddr := r.addr / 4
  len := dwordCount c r % 1024
  fbe := if r.zero then 0 else if dwordCount c r = 1 then firstBe r &&& lastBe c r else firstBe r
  lbe := if r.zero then 0 else if dwordCount c r = 1 then 0 else lastBe c r
  ramEnd := (r.ram + tlpCount c r) % 2 ^ c.raw
  hfc := hdrFc c r
  dfc := dataFc c r
  zero := r.zero

/-- the registers after a request (dma_if_pcie_rd.v:838-840) -/
def after (c : Cfg) (r : Regs) : Regs where
  addr := nextAddr c r
  ram := (r.ram + tlpCount c r) % 2 ^ c.raw
  cnt := (r.cnt + 2 ^ c.lw - tlpCount c r % 2 ^ c.lw) % 2 ^ c.lw
  zero := r.zero

/-- the registers when a descriptor is taken (dma_if_pcie_rd.v:800-813) -/
def start (addr ram len : Nat) : Regs := if len = 0 then ⟨addr, ram, 1, true⟩ else ⟨addr, ram, len, false⟩

/-- the requests of an operation, `n` passes at most; `none` if the last one has not been reached (dma_if_pcie_rd.v:826-880) -/
def requests (c : Cfg) : Nat → Regs → Option (List Req)
  | 0, _ => none
  | n + 1, r => if lastTlp c r then some [req c r] else (requests c n (after c r)).map (req c r :: ·)

end Corundum.DmaRd
