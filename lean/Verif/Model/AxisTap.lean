/-!
AXI stream tap: fpga/lib/axis/rtl/axis_tap.v. A beat of the monitored stream is a value and the flag of the last beat. The output stage
(lines 231-330) is left out: `ready` is its `m_axis_tready_int_reg`, any value in any cycle.
-/
namespace Corundum.AxisTap

/-- `state_reg`, lines 106-112 -/
inductive State | idle | transfer | truncate | wait
deriving DecidableEq, Repr

/-- registers, lines 112, 114 -/
structure St where
  st : State
  frame : Bool
deriving DecidableEq, Repr

/-- after reset, lines 225-228 -/
def St.init : St := ⟨.idle, false⟩

/-- a cycle: the beat passing on the monitored stream, if any, and whether the output stage is ready -/
structure In (α : Type) where
  tap : Option (α × Bool)
  ready : Bool

/-- a beat put out: one of the monitored stream, or the last beat of a frame cut off, marked bad -/
inductive Out (α : Type)
  | beat (x : α) (last : Bool)
  | cut
deriving DecidableEq, Repr

variable {α : Type}

/-- `frame_next`, lines 131-134 -/
def frameNext (s : St) (i : In α) : Bool :=
  match i.tap with
  | some b => !b.2
  | none => s.frame

/-- one clock edge and what is put out, lines 116-229 -/
def step (s : St) (i : In α) : St × Option (Out α) :=
  match s.st, i.tap with
  | .idle, some (x, last) =>
    if i.ready then (⟨if last then .idle else .transfer, frameNext s i⟩, some (.beat x last)) else (⟨.wait, frameNext s i⟩, none)
  | .transfer, some (x, last) =>
    if i.ready then (⟨if last then .idle else .transfer, frameNext s i⟩, some (.beat x last)) else (⟨.truncate, frameNext s i⟩, none)
  | .truncate, _ =>
    if i.ready then (⟨if frameNext s i then .wait else .idle, frameNext s i⟩, some .cut) else (⟨.truncate, frameNext s i⟩, none)
  | .wait, some (_, last) => (⟨if last then .idle else .wait, frameNext s i⟩, none)
  | st, none => (⟨st, frameNext s i⟩, none)

/-- what is put out in a run -/
def outs : St → List (In α) → List (Out α)
  | _, [] => []
  | s, i :: is => (step s i).2.toList ++ outs (step s i).1 is

/-- the state after a run -/
def run (s : St) (is : List (In α)) : St := is.foldl (fun s i => (step s i).1) s

end Corundum.AxisTap
