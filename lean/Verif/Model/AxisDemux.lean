/-!
AXI stream demultiplexer: fpga/lib/axis/rtl/axis_demux.v. A beat is a value and the flag of the last beat of a frame. At most one bit of
`m_axis_tvalid_reg` and of `temp_m_axis_tvalid_reg` is set, as `m_axis_tvalid_int` is one bit shifted, so each of the two registers is a beat
with the number of its output, or nothing. Runs start from the state after reset and have no reset in them.
-/
namespace Corundum.AxisDemux

/-- registers, lines 116-120, 126, 201-215 -/
structure St (m : Nat) (α : Type) where
  sel : Fin m
  drop : Bool
  frame : Bool
  sready : Bool
  iready : Bool
  out : Option (Fin m × α × Bool)
  tmp : Option (Fin m × α × Bool)

/-- after reset, lines 192-197, 292-296 -/
def St.init {m : Nat} {α : Type} (z : Fin m) : St m α := ⟨z, false, false, false, false, none, none⟩

/-- inputs in a cycle; `dest` is the output chosen for a frame, by `select` or by `tdest`, or nothing if it is to be dropped -/
structure In (m : Nat) (α : Type) where
  enable : Bool
  valid : Bool
  data : α
  last : Bool
  dest : Option (Fin m)
  ready : Fin m → Bool

variable {m : Nat} {α : Type}

/-- `s_axis_tvalid && s_axis_tready`, line 133 -/
def fire (s : St m α) (i : In m α) : Bool := i.valid && s.sready && i.enable

/-- a frame starts, line 153 -/
def start (s : St m α) (i : In m α) : Bool := !s.frame && fire s i

/-- `drop_ctl`, lines 139, 158-165 -/
def dropCtl (s : St m α) (i : In m α) : Bool := if start s i then i.dest.isNone else s.drop

/-- `select_ctl`, lines 137, 157-164 -/
def selCtl (s : St m α) (i : In m α) : Fin m := if start s i then i.dest.getD s.sel else s.sel

/-- beat for the output stage, lines 177-183 -/
def int (s : St m α) (i : In m α) : Option (Fin m × α × Bool) :=
  if fire s i && !dropCtl s i then some (selCtl s i, i.data, i.last) else none

/-- `m_axis_tready & m_axis_tvalid` -/
def gone (s : St m α) (i : In m α) : Bool :=
  match s.out with
  | some b => i.ready b.1
  | none => false

/-- `m_axis_tready_int_early`, line 231 -/
def early (s : St m α) (i : In m α) : Bool := gone s i || (s.tmp.isNone && (s.out.isNone || (int s i).isNone))

/-- the two registers of the output stage, lines 233-290 -/
def stage (s : St m α) (i : In m α) : Option (Fin m × α × Bool) × Option (Fin m × α × Bool) :=
  if s.iready then
    if gone s i || s.out.isNone then (int s i, s.tmp) else (s.out, int s i)
  else if gone s i then (s.tmp, none)
  else (s.out, s.tmp)

/-- one clock edge, lines 135-190 and the output stage -/
def step (s : St m α) (i : In m α) : St m α where
  sel := if start s i && !i.last then selCtl s i else s.sel
  drop := if start s i && !i.last then dropCtl s i else if fire s i && i.last then false else s.drop
  frame := if start s i && !i.last then true else if fire s i && i.last then false else s.frame
  sready := early s i || dropCtl s i
  iready := early s i
  out := (stage s i).1
  tmp := (stage s i).2

/-- beats taken from the input in a run, with the choice made in the cycle -/
def accepted : St m α → List (In m α) → List ((α × Bool) × Option (Fin m))
  | _, [] => []
  | s, i :: is => (if fire s i then [((i.data, i.last), i.dest)] else []) ++ accepted (step s i) is

/-- beats given to an output in a run -/
def given (k : Fin m) : St m α → List (In m α) → List (α × Bool)
  | _, [] => []
  | s, i :: is =>
    (match s.out with
      | some b => if b.1 = k ∧ i.ready k = true then [b.2] else []
      | none => []) ++ given k (step s i) is

end Corundum.AxisDemux
