import Verif.Model.ArbMux
/-!
Demultiplexers of the DMA RAM interface, one segment: /repo/fpga/lib/pcie/rtl/dma_ram_demux_rd.v and dma_ram_demux_wr.v.  One step is one clock cycle.

The segments are independent copies of the same logic (generate loop, dma_ram_demux_rd.v:96, dma_ram_demux_wr.v:97).  The fields of a command other than the select and the data of a response are arbitrary types.  Reset in
operation is not modelled.
-/
namespace Corundum.RamDemux
open Corundum.ArbMux (Skid)

/-- PORTS, CL_PORTS, S_RAM_SEL_WIDTH, M_RAM_SEL_WIDTH, FIFO_ADDR_WIDTH, OUTPUT_FIFO_ADDR_WIDTH, dma_ram_demux_rd.v:37-82 (the last two are 5 there) -/
structure Cfg where
  ports : Nat
  cl : Nat
  sw : Nat
  mw : Nat
  aw : Nat
  ow : Nat

/-- a command: RAM select, and the other fields -/
structure Cmd (β : Type) where
  sel : Nat
  val : β
deriving DecidableEq

/-- a FIFO: pointers with one bit more than the address, memory; dma_ram_demux_rd.v:98-105 -/
structure Fifo (α : Type) where
  wr : Nat
  rd : Nat
  mem : Nat → α

variable {α β γ : Type}

/-- dma_ram_demux_rd.v:104 -/
def Fifo.empty (f : Fifo α) : Bool := f.wr == f.rd
/-- dma_ram_demux_rd.v:105 -/
def Fifo.full (a : Nat) (f : Fifo α) : Bool := f.wr == (f.rd ^^^ 2 ^ a)
/-- dma_ram_demux_rd.v:269 -/
def Fifo.head (a : Nat) (f : Fifo α) : α := f.mem (f.rd % 2 ^ a)
/-- dma_ram_demux_rd.v:161-162 -/
def Fifo.push (a : Nat) (f : Fifo α) : Option α → Fifo α
  | none => f
  | some x => { f with mem := fun k => if k = f.wr % 2 ^ a then x else f.mem k, wr := (f.wr + 1) % 2 ^ (a + 1) }
/-- dma_ram_demux_rd.v:286 -/
def Fifo.pop (a : Nat) (f : Fifo α) (b : Bool) : Fifo α := if b then { f with rd := (f.rd + 1) % 2 ^ (a + 1) } else f

/-- `select_cmd`, dma_ram_demux_rd.v:151, dma_ram_demux_wr.v:160 -/
def Cfg.select (c : Cfg) (sel : Nat) : Nat := if c.ports > 1 then (sel >>> (c.mw - c.cl)) % 2 ^ c.cl else 0

/-- what is offered to the output registers for a command: the valid bit is shifted to the selected port (out of the vector if there is no such port), the select is cut to S_RAM_SEL_WIDTH bits,
dma_ram_demux_rd.v:153-157, dma_ram_demux_wr.v:162-168 -/
def Cfg.route (c : Cfg) (x : Cmd β) : Option (Nat × Cmd β) := if c.select x.sel < c.ports then some (c.select x.sel, { x with sel := x.sel % 2 ^ c.sw }) else none

/-! ### reads -/

/-- the command registers, the FIFO of selects, the output FIFO, its half full flag, the response register -/
structure Rd (β γ : Type) where
  out : Skid (Nat × Cmd β)
  order : Fifo Nat
  resp : Fifo γ
  half : Bool
  oreg : Option γ

/-- `ctrl_rd_cmd`, `ram_rd_cmd_ready`, `ram_rd_resp` for each port, `ctrl_rd_resp_ready` -/
structure RdIn (β γ : Type) where
  cmd : Option (Cmd β)
  cready : Nat → Bool
  resp : Nat → Option γ
  rready : Bool

/-- `seg_ctrl_rd_cmd_ready`, dma_ram_demux_rd.v:149 -/
def Rd.ready (c : Cfg) (s : Rd β γ) : Bool := s.out.ready && !s.order.full c.aw

/-- the command taken in this cycle, dma_ram_demux_rd.v:156, 160 -/
def Rd.take (c : Cfg) (s : Rd β γ) (i : RdIn β γ) : Option (Cmd β) := if s.ready c then i.cmd else none

/-- the response taken in this cycle, dma_ram_demux_rd.v:271-288 -/
def Rd.use (c : Cfg) (s : Rd β γ) (i : RdIn β γ) : Option γ := if !s.half && !s.order.empty then i.resp (s.order.head c.aw) else none

/-- a command register is taken by its port, dma_ram_demux_rd.v:189, 202, 211 -/
def taken (m : Option (Nat × Cmd β)) (cready : Nat → Bool) : Bool := m.any fun x => cready x.1

/-- a clock cycle, dma_ram_demux_rd.v:159-336 -/
def Rd.step (c : Cfg) (s : Rd β γ) (i : RdIn β γ) : Rd β γ :=
  let load := !s.resp.empty && (s.oreg.isNone || i.rready)
  { out := s.out.step false ((s.take c i).bind c.route) (taken s.out.m i.cready)
    order := (s.order.push c.aw ((s.take c i).map fun x => c.select x.sel)).pop c.aw (s.use c i).isSome
    resp := (s.resp.push c.ow (if s.resp.full c.ow then none else s.use c i)).pop c.ow load
    half := decide (2 ^ (c.ow - 1) ≤ (s.resp.wr + 2 ^ (c.ow + 1) - s.resp.rd) % 2 ^ (c.ow + 1))
    oreg := if load then some (s.resp.head c.ow) else if i.rready then none else s.oreg }

/-- after reset; the memories have any content -/
def Rd.init (mem : Nat → Nat) (rmem : Nat → γ) : Rd β γ := ⟨⟨false, none, none⟩, ⟨0, 0, mem⟩, ⟨0, 0, rmem⟩, false, none⟩

/-! ### writes -/

/-- the command registers, the FIFO of selects, `done_count_reg` and `done_reg` for each port, `select_resp_reg` if valid -/
structure Wr (β : Type) where
  out : Skid (Nat × Cmd β)
  order : Fifo Nat
  count : Nat → Nat
  done : Nat → Bool
  cur : Option Nat

/-- `ctrl_wr_cmd`, `ram_wr_cmd_ready`, `ram_wr_done` for each port -/
structure WrIn (β : Type) where
  cmd : Option (Cmd β)
  cready : Nat → Bool
  done : Nat → Bool

/-- dma_ram_demux_wr.v:158 -/
def Wr.ready (c : Cfg) (s : Wr β) : Bool := s.out.ready && !s.order.full c.aw

/-- dma_ram_demux_wr.v:167, 171 -/
def Wr.take (c : Cfg) (s : Wr β) (i : WrIn β) : Option (Cmd β) := if s.ready c then i.cmd else none

/-- `seg_ram_wr_done_ack`, dma_ram_demux_wr.v:306 -/
def Wr.ack (s : Wr β) (p : Nat) : Bool := s.done p && decide (s.cur = some p)

/-- `seg_ctrl_wr_done`, dma_ram_demux_wr.v:307 -/
def Wr.cdone (c : Cfg) (s : Wr β) : Bool := (List.range c.ports).any s.ack

/-- a clock cycle, dma_ram_demux_wr.v:170-325 -/
def Wr.step (c : Cfg) (s : Wr β) (i : WrIn β) : Wr β :=
  let next := s.cur.isNone || s.cdone c
  { out := s.out.step false ((s.take c i).bind c.route) (taken s.out.m i.cready)
    order := (s.order.push c.aw ((s.take c i).map fun x => c.select x.sel)).pop c.aw (next && !s.order.empty)
    count := fun p => if s.count p < 2 ^ c.aw && i.done p && !s.ack p then s.count p + 1 else if 0 < s.count p && !i.done p && s.ack p then s.count p - 1 else s.count p
    done := fun p => if s.count p < 2 ^ c.aw && i.done p && !s.ack p then true else if 0 < s.count p && !i.done p && s.ack p then decide (1 < s.count p) else s.done p
    cur := if next then (if s.order.empty then none else some (s.order.head c.aw)) else s.cur }

/-- after reset -/
def Wr.init (mem : Nat → Nat) : Wr β := ⟨⟨false, none, none⟩, ⟨0, 0, mem⟩, fun _ => 0, fun _ => false, none⟩

end Corundum.RamDemux
