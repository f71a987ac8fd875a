import Verif.Model.RamDemux
/-!
Tags through the multiplexers: a request leaves with the number of its input in the tag, and what comes back with that tag is routed to that input.
/repo/fpga/common/rtl/desc_op_mux.v, cpl_op_mux.v, tx_req_mux.v (number and tag concatenated) and /repo/fpga/lib/pcie/rtl/dma_if_desc_mux.v (number in the top bits, also of the RAM select).
The request path is that of `Model/ArbMux`.  One step is one clock cycle.
-/
namespace Corundum.TagMux
open Corundum.ArbMux (Skid)

/-- PORTS, CL_PORTS, S_REQ_TAG_WIDTH/S_TAG_WIDTH, M_REQ_TAG_WIDTH/M_TAG_WIDTH; `top`: dma_if_desc_mux -/
structure Cfg where
  ports : Nat
  cl : Nat
  sw : Nat
  mw : Nat
  top : Bool

/-- the tag of a request of input `port` at the output; desc_op_mux.v:173, cpl_op_mux.v:144, tx_req_mux.v:140 (cut to M_REQ_TAG_WIDTH bits); dma_if_desc_mux.v:210-213 -/
def Cfg.out (c : Cfg) (port tag : Nat) : Nat :=
  if c.top then (if c.ports > 1 then tag % 2 ^ (c.mw - c.cl) + port * 2 ^ (c.mw - c.cl) else tag)
  else (port * 2 ^ c.sw + tag) % 2 ^ c.mw

/-- the output that a tag is routed to; desc_op_mux.v:300, :343, cpl_op_mux.v:270, tx_req_mux.v:262; dma_if_desc_mux.v:356 -/
def Cfg.port (c : Cfg) (tag : Nat) : Nat := if c.ports > 1 then (if c.top then tag >>> (c.mw - c.cl) else tag >>> c.sw) else 0

/-- a status or a beat of descriptor data on its way back: the valid bit is shifted to the output, out of the vector if there is none of that number; the tag is cut to S_REQ_TAG_WIDTH bits,
desc_op_mux.v:297-300, :341-346 -/
def Cfg.back (c : Cfg) (tag : Nat) (v : σ) : Option (Nat × Nat × σ) := if c.port tag < c.ports then some (c.port tag, tag % 2 ^ c.sw, v) else none

/-- the status registers after a cycle, desc_op_mux.v:303-316, cpl_op_mux.v:273-283, tx_req_mux.v:265-277, dma_if_desc_mux.v:353-361: output, tag, other fields -/
def status (c : Cfg) (i : Option (Nat × σ)) : Option (Nat × Nat × σ) := i.bind fun x => c.back x.1 x.2

/-- descriptor data demultiplexer, desc_op_mux.v:318-437: the output registers after a cycle; `i` is the input (tid and the rest of the beat) if valid, `rdy` m_axis_desc_tready -/
def dataStep (c : Cfg) (s : Skid (Nat × Nat × σ)) (i : Option (Nat × σ)) (rdy : Nat → Bool) : Skid (Nat × Nat × σ) :=
  s.step false (if s.ready then i.bind fun x => c.back x.1 x.2 else none) (s.m.any fun x => rdy x.1)

/-- `m_axis_desc_ram_sel`, dma_if_desc_mux.v:202-205 with EXTEND_RAM_SEL, for the widths of the RAM demultiplexer behind it (dma_if_mux_rd.v:130-196, dma_if_mux_wr.v:138-204) -/
def ramSel (c : RamDemux.Cfg) (port sel : Nat) : Nat := if c.ports > 1 then sel % 2 ^ (c.mw - c.cl) + port * 2 ^ (c.mw - c.cl) else sel

end Corundum.TagMux
