/-!
Long pipeline with a FIFO at its end: fpga/lib/axis/rtl/axis_pipeline_fifo.v with LENGTH > 0 (otherwise it is wires). One step
per clock edge without reset. All fields of a transfer are one field, which is only copied. The pointers and the RAM of the FIFO
are a list; that pointers with one more bit make a FIFO is C31.
-/
namespace Corundum.PipeFifo

/-- FIFO_ADDR_WIDTH, line 88; `$clog2(n + 1)` is `log2 n + 1` for `n > 0` -/
def addrWidth (l : Nat) : Nat := if l < 2 then 3 else Nat.log2 (l * 4) + 1

/-- registers: `axis_tdata_reg` with `axis_tvalid_reg` and `axis_tready_reg` of the stages, lines 103-120;
`out_fifo_half_full_reg`, the FIFO and the output register, lines 174-202 -/
structure St where
  pipe : List (Option Nat)
  rdy : List Bool
  half : Bool
  fifo : List Nat
  out : Option Nat
deriving DecidableEq, Repr

/-- initial values -/
def St.init (l : Nat) : St := ⟨List.replicate l none, List.replicate l false, false, [], none⟩

structure In where
  valid : Bool
  data : Nat
  ready : Bool
deriving DecidableEq, Repr

/-- `s_axis_tready`, lines 128, 160 -/
def St.ready (s : St) : Bool := s.rdy.headD false

/-- what enters the pipeline, line 155 -/
def St.taken (s : St) (i : In) : Option Nat := if i.valid && s.ready then some i.data else none

/-- the FIFO is read, line 226 -/
def St.pop (s : St) (i : In) : Bool := !s.fifo.isEmpty && (s.out.isNone || i.ready)

/-- lines 130-145, 212-243 -/
def St.step (l : Nat) (s : St) (i : In) : St :=
  let arrived : List Nat := if s.fifo.length ≠ 2 ^ addrWidth l then (s.pipe.getLastD none).toList else []
  { pipe := s.taken i :: s.pipe.dropLast
    rdy := s.rdy.tail ++ [!s.half]
    half := decide (s.fifo.length ≥ 2 ^ (addrWidth l - 1))
    fifo := (if s.pop i then s.fifo.tail else s.fifo) ++ arrived
    out := if s.pop i then s.fifo.head? else if i.ready then none else s.out }

end Corundum.PipeFifo
