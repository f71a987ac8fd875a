import Verif.Model.RamDemux
/-!
What the users of the RAM demultiplexers see: commands taken, commands and responses at the RAMs, responses and done signals returned.
-/
namespace Corundum.RamDemux

variable {β γ : Type}

/-- the parameters fit: enough select bits for the ports, dma_ram_demux_rd.v:85-90, and FIFOs that hold something -/
structure Cfg.Ok (c : Cfg) : Prop where
  pos : 0 < c.ports
  cl : c.ports ≤ 2 ^ c.cl
  mw : c.sw + c.cl ≤ c.mw
  ow : 0 < c.ow

/-- select `low` of port `port` in the select of a command -/
def encode (c : Cfg) (port low : Nat) : Nat := if c.ports = 1 then low else port * 2 ^ (c.mw - c.cl) + low

/-- the port a select is meant for -/
def portOf (c : Cfg) (sel : Nat) : Nat := if c.ports = 1 then 0 else sel / 2 ^ (c.mw - c.cl)

/-- the select of a command is one of an existing port -/
def Fits (c : Cfg) (o : Option (Cmd β)) : Prop := ∀ x, o = some x → ∃ port low, port < c.ports ∧ low < 2 ^ c.sw ∧ x.sel = encode c port low

/-- a command as it gets to the RAM of its port -/
def target (c : Cfg) (x : Cmd β) : Nat × Cmd β := (portOf c x.sel, { x with sel := x.sel % 2 ^ c.sw })

/-- how often `p` occurs -/
def times (p : Nat) (l : List Nat) : Nat := l.countP fun q => decide (q = p)

/-- the RAM at port `p` gives `ans p 0`, `ans p 1`, ...: what commands for the ports in `l` are to be answered with -/
def expect (ans : Nat → Nat → γ) (l : List Nat) : List γ := (List.range l.length).map fun i => ans (l.getD i 0) (times (l.getD i 0) (l.take i))

namespace Rd

/-- at reset -/
def Fresh (s : Rd β γ) : Prop := ∃ mem rmem, s = Rd.init mem rmem

/-- the state before cycle `n` -/
def st (c : Cfg) (s0 : Rd β γ) (ins : Nat → RdIn β γ) : Nat → Rd β γ
  | 0 => s0
  | n + 1 => (st c s0 ins n).step c (ins n)

/-- the commands taken before cycle `n` -/
def cmds (c : Cfg) (s0 : Rd β γ) (ins : Nat → RdIn β γ) : Nat → List (Cmd β)
  | 0 => []
  | n + 1 => cmds c s0 ins n ++ if (st c s0 ins n).ready c then (ins n).cmd.toList else []

/-- the commands the RAMs have taken before cycle `n`, with the port -/
def issued (c : Cfg) (s0 : Rd β γ) (ins : Nat → RdIn β γ) : Nat → List (Nat × Cmd β)
  | 0 => []
  | n + 1 => issued c s0 ins n ++ match (st c s0 ins n).out.m with
    | some x => if (ins n).cready x.1 then [x] else []
    | none => []

/-- `ram_rd_resp_ready` of port `p`, dma_ram_demux_rd.v:271 -/
def respReady (c : Cfg) (s : Rd β γ) (p : Nat) : Bool := !s.half && !s.order.empty && decide (s.order.head c.aw = p)

/-- the responses taken from the RAMs before cycle `n`, with the port -/
def used (c : Cfg) (s0 : Rd β γ) (ins : Nat → RdIn β γ) : Nat → List (Nat × γ)
  | 0 => []
  | n + 1 => used c s0 ins n ++ (List.range c.ports).flatMap fun p => if respReady c (st c s0 ins n) p then ((ins n).resp p).toList.map fun x => (p, x) else []

/-- the responses given before cycle `n` -/
def given (c : Cfg) (s0 : Rd β γ) (ins : Nat → RdIn β γ) : Nat → List γ
  | 0 => []
  | n + 1 => given c s0 ins n ++ if (ins n).rready then (st c s0 ins n).oreg.toList else []

end Rd

namespace Wr

/-- at reset -/
def Fresh (s : Wr β) : Prop := ∃ mem, s = Wr.init mem

/-- the state before cycle `n` -/
def st (c : Cfg) (s0 : Wr β) (ins : Nat → WrIn β) : Nat → Wr β
  | 0 => s0
  | n + 1 => (st c s0 ins n).step c (ins n)

/-- the commands taken before cycle `n` -/
def cmds (c : Cfg) (s0 : Wr β) (ins : Nat → WrIn β) : Nat → List (Cmd β)
  | 0 => []
  | n + 1 => cmds c s0 ins n ++ if (st c s0 ins n).ready c then (ins n).cmd.toList else []

/-- the commands the RAMs have taken before cycle `n`, with the port -/
def issued (c : Cfg) (s0 : Wr β) (ins : Nat → WrIn β) : Nat → List (Nat × Cmd β)
  | 0 => []
  | n + 1 => issued c s0 ins n ++ match (st c s0 ins n).out.m with
    | some x => if (ins n).cready x.1 then [x] else []
    | none => []

/-- how often port `p` has signalled done before cycle `n` -/
def ramDone (ins : Nat → WrIn β) (p n : Nat) : Nat := (List.range n).countP fun k => (ins k).done p

/-- how often `ctrl_wr_done` was set before cycle `n` -/
def ctrlDone (c : Cfg) (s0 : Wr β) (ins : Nat → WrIn β) (n : Nat) : Nat := (List.range n).countP fun k => (st c s0 ins k).cdone c

end Wr
end Corundum.RamDemux
