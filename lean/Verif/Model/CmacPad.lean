/-!
Padding of short frames for the 100G MAC: fpga/common/rtl/cmac_pad.v, 64 bytes in a beat. `tuser` is passed through and left out. Runs start from the
state after reset and have no reset in them.
-/
namespace Corundum.CmacPad

/-- a beat: lanes of data, valid lanes, last beat of the frame -/
structure Beat where
  data : Nat → BitVec 8
  keep : Nat → Bool
  last : Bool

/-- the beat put out, lines 62-76; `frame` is `frame_reg` -/
def padBeat (frame : Bool) (b : Beat) : Beat where
  data := fun k => if b.keep k then b.data k else 0
  keep := fun k => (if frame then false else decide (k < 60)) || b.keep k
  last := b.last

/-- a cycle: `s_axis_tvalid`, `m_axis_tready` and the beat offered -/
structure Cyc where
  valid : Bool
  ready : Bool
  beat : Beat

/-- `frame_reg` after a clock edge, lines 78-82 -/
def next (frame : Bool) (c : Cyc) : Bool := if c.valid && c.ready then !c.beat.last else frame

/-- beats taken from the input in a run: `s_axis_tready` is `m_axis_tready`, line 74 -/
def taken (cs : List Cyc) : List Beat := (cs.filter fun c => c.valid && c.ready).map (·.beat)

/-- beats given to the output in a run: `m_axis_tvalid` is `s_axis_tvalid`, line 73 -/
def given : Bool → List Cyc → List Beat
  | _, [] => []
  | f, c :: cs => (if c.valid && c.ready then [padBeat f c.beat] else []) ++ given (next f c) cs

end Corundum.CmacPad
