import Verif.Model.DmaWrReq
import Verif.Model.DmaRd

/-!
The DMA write engine: /repo/fpga/lib/pcie/rtl/dma_if_pcie_wr.v, as events: the three state machines (requests, reads, TLPs), the operation table, the mask FIFO, the RAM segments, the
sequence numbers that come back for TLPs sent, and the status output.

Simplifications: the events happen in any order the registers allow, so that the number of cycles between them is free; the commands and responses of a RAM segment are queues (one command
in the register of the module, the others in the RAM, dma_psdpram.v and dma_ram_demux); `ram_mask_reg` is the head of the mask FIFO; the output register of the TLP bus is left out, a beat
counts as sent when it is loaded; whether the number of TLPs sent allows another one is left open here and is in `Model/DmaWrLimit`.
Each entry carries the number of its descriptor; no event depends on it.
-/
namespace Corundum.DmaWr

export DmaRd (upd)

/-- OP_TAG_WIDTH and TX_SEQ_NUM_ENABLE (dma_if_pcie_wr.v:49, 178) -/
structure Par extends Cfg where
  ow : Nat
  seqEn : Bool

/-- an entry with the number of its descriptor (ghost) -/
structure Job (Byte : Type) where
  own : Nat
  e : Ent Byte

/-- the entries of a descriptor -/
def jobs {Byte : Type} (c : Cfg) (own : Nat) (d : Desc Byte) : List (Job Byte) := ((ents c d (d.len + 1) (start d)).getD []).map (Job.mk own)

structure St (Byte : Type) where
  /-- `REQ_STATE_START`: entries to be made -/
  cur : List (Job Byte) := []
  /-- `read_cmd_*_reg` -/
  cmd : Option (Job Byte) := none
  /-- `READ_STATE_READ` -/
  rd : Option (Job Byte × Rd) := none
  /-- mask FIFO and `ram_mask_reg` -/
  masks : List (Job Byte × Rd) := []
  /-- commands to a RAM segment; its responses -/
  seg : Nat → List (Job Byte × Rd) := fun _ => []
  resp : Nat → List ((Job Byte × Rd) × (Nat → Byte)) := fun _ => []
  mem : Nat → Nat → Byte
  /-- `op_table_start_ptr_reg`, `_tx_start_ptr_reg`, `_tx_finish_ptr_reg`, `_finish_ptr_reg` -/
  sp : Nat := 0
  tsp : Nat := 0
  tfp : Nat := 0
  fp : Nat := 0
  active : Nat → Bool := fun _ => false
  txDone : Nat → Bool := fun _ => false
  ent : Nat → Option (Job Byte) := fun _ => none
  /-- `TLP_STATE_TRANSFER` -/
  tx : Option (Job Byte × Tx Byte) := none
  /-- beats sent; tags of the status output -/
  out : List (Beat Byte) := []
  stat : List Nat := []
  /-- ghosts: descriptors taken, with the content of the RAMs at that time; entries made; the four pointers without wrapping; numbers of the TLPs whose sequence number has not come back -/
  hist : List (Desc Byte × (Nat → Nat → Byte)) := []
  made : List (Job Byte) := []
  gts : Nat := 0
  gtf : Nat := 0
  gf : Nat := 0
  await : List Nat := []

inductive Ev (Byte : Type)
  | accept (d : Desc Byte)
  | issue
  | fetch
  | read
  | serve (n : Nat)
  | begin
  | beat (junk : Nat → Byte)
  | ack (k : Nat)
  | finish
  | poke (f : Nat → Nat → Byte)

section
variable {Byte : Type} (c : Par)

/-- the slot of a pointer -/
def Par.slot (p : Nat) : Nat := p % 2 ^ c.ow

/-- a pointer plus one -/
def Par.inc (p : Nat) : Nat := (p + 1) % 2 ^ (c.ow + 1)

/-- a descriptor is taken (dma_if_pcie_wr.v:521-576) -/
def accept (s : St Byte) (d : Desc Byte) : Option (St Byte) :=
  match s.cur with
  | [] => some { s with cur := jobs c.toCfg s.hist.length d, hist := s.hist ++ [(d, s.mem)] }
  | _ => none

/-- an entry and a read command are made (dma_if_pcie_wr.v:577-641, 1122-1136) -/
def issue (s : St Byte) : Option (St Byte) :=
  match s.cur, s.cmd with
  | e :: es, none =>
    if s.active (c.slot s.sp) = false ∧ (s.sp + 2 ^ (c.ow + 1) - s.fp) % 2 ^ (c.ow + 1) < 2 ^ c.ow then
      some { s with cur := es, cmd := some e, sp := c.inc s.sp, active := upd s.active (c.slot s.sp) true, txDone := upd s.txDone (c.slot s.sp) false,
                    ent := upd s.ent (c.slot s.sp) (some e), made := s.made ++ [e] }
    else none
  | _, _ => none

/-- a read command is taken (dma_if_pcie_wr.v:674-710, 758-792) -/
def fetch (s : St Byte) : Option (St Byte) :=
  match s.cmd, s.rd with
  | some j, none => some { s with cmd := none, rd := some (j, Rd.start c.toCfg j.e) }
  | _, _ => none

/-- the reads for a beat are made; the mask FIFO has 2^(OP_TAG_WIDTH+1) places (dma_if_pcie_wr.v:711-757) -/
def read (s : St Byte) : Option (St Byte) :=
  match s.rd with
  | some (j, r) =>
    if s.masks.length ≤ 2 ^ (c.ow + 1) then
      some { s with rd := if r.last then none else some (j, r.next c.toCfg), masks := s.masks ++ [(j, r)],
                    seg := fun n => if n < c.ram.segs ∧ r.need c.toCfg n = true then s.seg n ++ [(j, r)] else s.seg n }
    else none
  | none => none

/-- segment `n` answers its oldest command -/
def serve (s : St Byte) (n : Nat) : Option (St Byte) :=
  match s.seg n with
  | x :: xs => some { s with seg := upd s.seg n xs, resp := upd s.resp n (s.resp n ++ [(x, fun y => s.mem x.2.sel (x.2.row c.toCfg n * c.ram.lanes + n * c.ram.segBytes + y))]) }
  | [] => none

/-- the next TLP is begun (dma_if_pcie_wr.v:881-903, 944-960, 1138-1140) -/
def begin' (s : St Byte) : Option (St Byte) :=
  match s.tx, s.ent (c.slot s.tsp) with
  | none, some j => if s.active (c.slot s.tsp) = true ∧ s.tsp ≠ s.sp then some { s with tx := some (j, Tx.start j.e), tsp := c.inc s.tsp, gts := s.gts + 1 } else none
  | _, _ => none

/-- a beat is sent once its segments have answered (dma_if_pcie_wr.v:904-974, 1142-1144) -/
def beat (s : St Byte) (junk : Nat → Byte) : Option (St Byte) :=
  match s.tx, s.masks with
  | some (j, t), m :: ms =>
    if (List.range c.ram.segs).all (fun n => !m.2.need c.toCfg n || !(s.resp n).isEmpty) then
      let d := fun x => if m.2.need c.toCfg (x / c.ram.segBytes) then (match s.resp (x / c.ram.segBytes) with | y :: _ => y.2 (x % c.ram.segBytes) | [] => junk x) else junk x
      some { s with tx := if t.last then none else some (j, t.next c.toCfg), masks := ms,
                    resp := fun n => if n < c.ram.segs ∧ m.2.need c.toCfg n = true then (s.resp n).tail else s.resp n,
                    out := s.out ++ [t.beat c.toCfg (c.slot s.tfp) d], tfp := if t.last then c.inc s.tfp else s.tfp, gtf := if t.last then s.gtf + 1 else s.gtf,
                    await := if t.frame then s.await else s.gtf :: s.await }
    else none
  | _, _ => none

/-- the sequence number of TLP `k` comes back (dma_if_pcie_wr.v:1146-1150) -/
def ack (s : St Byte) (k : Nat) : Option (St Byte) :=
  if k ∈ s.await then some { s with txDone := upd s.txDone (c.slot k) true, await := s.await.erase k } else none

/-- the oldest entry is finished; with the last of an operation comes the status (dma_if_pcie_wr.v:976-995, 1152-1155) -/
def finish (s : St Byte) : Option (St Byte) :=
  match s.ent (c.slot s.fp) with
  | some j =>
    if s.active (c.slot s.fp) = true ∧ (c.seqEn = true → s.txDone (c.slot s.fp) = true) ∧ s.fp ≠ s.tfp then
      some { s with fp := c.inc s.fp, active := upd s.active (c.slot s.fp) false, stat := if j.e.last then s.stat ++ [j.e.tag] else s.stat, gf := s.gf + 1 }
    else none
  | none => none

def step (s : St Byte) : Ev Byte → Option (St Byte)
  | .accept d => accept c s d
  | .issue => issue c s
  | .fetch => fetch c s
  | .read => read c s
  | .serve n => serve c s n
  | .begin => begin' c s
  | .beat junk => beat c s junk
  | .ack k => ack c s k
  | .finish => finish c s
  | .poke f => some { s with mem := f }

/-- after reset (dma_if_pcie_wr.v:1157-1197) -/
def init (mem : Nat → Nat → Byte) : St Byte := { mem := mem }

end

end Corundum.DmaWr
