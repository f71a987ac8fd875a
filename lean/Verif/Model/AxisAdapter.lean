/-! Bus width adapter for AXI streams: `fpga/lib/axis/rtl/axis_adapter.v`.

A bus is a list of byte lanes, lane 0 first; `tkeep` has one bit per lane.  One function per clock edge and variant of the `generate`
block.  Simplified: `tkeep` is as wide as the number of lanes the code works with (`S_BYTE_LANES`, `M_BYTE_LANES`: 1 when `tkeep` is
disabled, axis_adapter.v:93-94), `seg_reg` is a number without a width (it stays below `SEG_COUNT`). -/
namespace Corundum.AxisAdapter

variable {α : Type}

/-- one transfer: the `s_axis_*` or `m_axis_*` signals (axis_adapter.v:70-89) -/
structure Beat (α : Type) where
  data : List α
  keep : List Bool
  last : Bool
  id : Nat := 0
  dest : Nat := 0
  user : Nat := 0
deriving DecidableEq, Repr

/-- parameters (axis_adapter.v:35-61): lanes of both sides, which of the optional signals are in use -/
structure Cfg where
  s : Nat
  m : Nat
  sKeep : Bool := true
  mKeep : Bool := true
  idEn : Bool := false
  destEn : Bool := false
  userEn : Bool := true
deriving DecidableEq, Repr

/-- inputs of a clock cycle -/
structure Inp (α : Type) where
  beat : Beat α
  valid : Bool
  ready : Bool
  rst : Bool := false

/-- registers of both variants (axis_adapter.v:142-158, :234-248; `seg` only in the first) -/
structure St (α : Type) where
  seg : Nat
  sv : Bool
  sb : Beat α
  mv : Bool
  mb : Beat α

/-- output signals from `m_axis_*_reg` (axis_adapter.v:162-168, :252-258) -/
def outBeat (c : Cfg) (b : Beat α) : Beat α :=
  { b with
    keep := if c.mKeep then b.keep else List.replicate b.keep.length true
    id := if c.idEn then b.id else 0
    dest := if c.destEn then b.dest else 0
    user := if c.userEn then b.user else 0 }

/-- assignment to a part select, `l[pos +: width] <= x` -/
def put {β : Type} (l x : List β) (pos : Nat) : List β := l.take pos ++ x ++ l.drop (pos + x.length)

/-- the registers with a transfer `b` added at segment `seg`; when `seg` is 0 `tkeep` is replaced as a whole (axis_adapter.v:176-186) -/
def load (c : Cfg) (seg : Nat) (mb b : Beat α) : Beat α :=
  { b with
    data := put mb.data b.data (seg * c.s)
    keep := if seg = 0 then b.keep ++ List.replicate (c.m - b.keep.length) false else put mb.keep b.keep (seg * c.s) }

/-- one clock edge of the variant with the wider output (axis_adapter.v:170-223).  `SEG_COUNT` is `m / s`.  In segments other than 0 the
data come from the input, in segment 0 from the buffer if it is in use; the other signals always from the buffer if it is in use. -/
def upStep (c : Cfg) (st : St α) (i : Inp α) : St α :=
  let n :=
    if !st.mv || i.ready then
      let src := if st.sv then st.sb else i.beat
      let inp := if st.seg = 0 then src else i.beat
      let mb := { load c st.seg st.mb inp with last := src.last, id := src.id, dest := src.dest, user := src.user }
      if st.sv then
        if st.sb.last || st.seg == c.m / c.s - 1 then { st with sv := false, mb := mb, seg := 0, mv := true }
        else { st with sv := false, mb := mb, seg := st.seg + 1, mv := st.mv && !i.ready }
      else if i.valid then
        if i.beat.last || st.seg == c.m / c.s - 1 then { st with mb := mb, seg := 0, mv := true }
        else { st with mb := mb, seg := st.seg + 1, mv := st.mv && !i.ready }
      else { st with mb := mb, mv := st.mv && !i.ready }
    else if i.valid && !st.sv then { st with sb := i.beat, sv := true, mv := st.mv && !i.ready }
    else { st with mv := st.mv && !i.ready }
  if i.rst then { n with seg := 0, sv := false, mv := false } else n

/-- `l >> n` lanes -/
def shr {β : Type} (d : β) (l : List β) (n : Nat) : List β := l.drop n ++ List.replicate (min n l.length) d

/-- the buffer after its lowest `m` lanes have gone (axis_adapter.v:275-276, :286-291) -/
def shrBeat [Inhabited α] (c : Cfg) (b : Beat α) : Beat α := { b with data := shr default b.data c.m, keep := shr false b.keep c.m }

/-- no lane in use above the lowest `m` (axis_adapter.v:280, :295) -/
def isLast (c : Cfg) (b : Beat α) : Bool := (shr false b.keep c.m).all (!·)

/-- one clock edge of the variant with the narrower output (axis_adapter.v:260-317) -/
def downStep [Inhabited α] (c : Cfg) (st : St α) (i : Inp α) : St α :=
  let n :=
    if !st.mv || i.ready then
      let src := if st.sv then st.sb else i.beat
      let mb := { src with data := src.data.take c.m, keep := src.keep.take c.m, last := false }
      if st.sv then
        if isLast c st.sb then { st with sb := shrBeat c st.sb, sv := false, mb := { mb with last := st.sb.last }, mv := true }
        else { st with sb := shrBeat c st.sb, mb := mb, mv := true }
      else if i.valid then
        if isLast c i.beat then { st with sb := shrBeat c i.beat, sv := false, mb := { mb with last := i.beat.last }, mv := true }
        else { st with sb := shrBeat c i.beat, sv := true, mb := mb, mv := true }
      else { st with mb := mb, mv := st.mv && !i.ready }
    else if i.valid && !st.sv then { st with sb := i.beat, sv := true, mv := st.mv && !i.ready }
    else { st with mv := st.mv && !i.ready }
  if i.rst then { n with sv := false, mv := false } else n

/-- which variant (axis_adapter.v:120, :133, :225); equal widths are wired through -/
inductive Kind
  | up
  | down

def step [Inhabited α] (k : Kind) (c : Cfg) : St α → Inp α → St α :=
  match k with
  | .up => upStep c
  | .down => downStep c

/-- the transfer accepted in a cycle: `s_axis_tready = !s_axis_tvalid_reg` (axis_adapter.v:160, :250) -/
def taken (st : St α) (i : Inp α) : List (Beat α) := if i.valid && !st.sv then [i.beat] else []

/-- the transfer delivered in a cycle -/
def given (c : Cfg) (st : St α) (i : Inp α) : List (Beat α) := if st.mv && i.ready then [outBeat c st.mb] else []

/-- a run: final registers, transfers accepted, transfers delivered -/
def run [Inhabited α] (k : Kind) (c : Cfg) : St α → List (Inp α) → St α × List (Beat α) × List (Beat α)
  | st, [] => (st, [], [])
  | st, i :: is =>
    let r := run k c (step k c st i) is
    (r.1, taken st i ++ r.2.1, given c st i ++ r.2.2)

/-- equal widths (axis_adapter.v:120-131): the transfer at the output -/
def bypass (c : Cfg) (b : Beat α) : Beat α := outBeat c b

end Corundum.AxisAdapter
