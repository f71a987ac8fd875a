/-!
PCIe interface of the test benches: `PcieIfSource` and `PcieIfSink`, /repo/fpga/lib/pcie/tb/pcie_if.py:76-713.

Modelled: frames, parity, the packing of frames into transactions of several segments, the handshake on the bus with pauses on both sides, and the unpacking with its assertions.  All optional signals are taken to be there
(:57-61).  Coroutines: what happens between two `await`s is one event; the events may come in any order, except that a sample is unpacked before the next clock edge.  Not modelled: reset, occupancy limits of the queues (the
sink may be not ready in any cycle), logging.
-/
namespace Corundum.PcieIf

/-- `PcieIfFrame`, :104-117 -/
structure Frame where
  prfx : Nat := 0
  hdr : Nat := 0
  data : List Nat := []
  prfxPar : Nat := 0
  hdrPar : Nat := 0
  parity : List Nat := []
  func : Nat := 0
  vf : Option Nat := none
  bar : Nat := 0
  abort : Nat := 0
  error : Nat := 0
  seq : Nat := 0
deriving DecidableEq, Inhabited

/-- `dword_parity`, :76-87 -/
def dwordParity (d : Nat) : Nat :=
  let d := d ^^^ (d >>> 4)
  let d := d ^^^ (d >>> 2)
  let d := d ^^^ (d >>> 1)
  let p := d &&& 1
  let p := if d &&& 0x100 ≠ 0 then p ||| 2 else p
  let p := if d &&& 0x10000 ≠ 0 then p ||| 4 else p
  if d &&& 0x1000000 ≠ 0 then p ||| 8 else p

/-- the loop of `parity`, :95-100 -/
def parityLoop (d b p : Nat) : Nat :=
  if h : d = 0 then p else parityLoop (d >>> 8) (b <<< 1) (if d &&& 1 ≠ 0 then p ||| b else p)
termination_by d
decreasing_by simp only [Nat.shiftRight_eq_div_pow]; exact Nat.div_lt_self (by omega) (by decide)

/-- `parity`, :90-101 -/
def parity (d : Nat) : Nat :=
  let d := d ^^^ (d >>> 4)
  let d := d ^^^ (d >>> 2)
  let d := d ^^^ (d >>> 1)
  parityLoop d 1 0

/-- `update_parity`, :170-173 -/
def updateParity (f : Frame) : Frame := { f with parity := f.data.map fun d => dwordParity d ^^^ 0xf, hdrPar := parity f.hdr, prfxPar := dwordParity f.prfx }

/-- `check_parity`, :175-180 -/
def checkParity (f : Frame) : Bool := f.parity == f.data.map (fun d => dwordParity d ^^^ 0xf) && f.hdrPar == parity f.hdr && f.prfxPar == dwordParity f.prfx

/-- `PcieIfTransaction`, :218-231 -/
structure Trans where
  data : Nat := 0
  strb : Nat := 0
  sop : Nat := 0
  eop : Nat := 0
  valid : Nat := 0
  error : Nat := 0
  hdr : Nat := 0
  prfx : Nat := 0
  seq : Nat := 0
  vfActive : Nat := 0
  func : Nat := 0
  vfNum : Nat := 0
  bar : Nat := 0
  abort : Nat := 0
  dataPar : Nat := 0
  hdrPar : Nat := 0
  prfxPar : Nat := 0
deriving DecidableEq

/-- `seg_count`, `seg_byte_lanes`, `seq_width`, :277-290 -/
structure Cfg where
  segs : Nat
  lanes : Nat
  seqW : Nat

/-! ### source -/

/-- `frame`, `frame_offset`, `first` of `_run`, :490-497 -/
structure Cur where
  frame : Frame
  off : Nat
  first : Bool
deriving DecidableEq

/-- start of a frame in segment `seg`, :510-518 -/
def putFirst (seg : Nat) (f : Frame) (t : Trans) : Trans :=
  { t with
    valid := t.valid ||| (1 <<< seg)
    sop := t.sop ||| (1 <<< seg)
    hdr := t.hdr ||| (f.hdr <<< (seg * 128))
    prfx := t.prfx ||| (f.prfx <<< (seg * 32))
    hdrPar := t.hdrPar ||| (f.hdrPar <<< (seg * 16))
    prfxPar := t.prfxPar ||| (f.prfxPar <<< (seg * 4)) }

/-- :520-526 -/
def putMeta (c : Cfg) (seg : Nat) (f : Frame) (t : Trans) : Trans :=
  { t with
    bar := t.bar ||| (f.bar <<< (seg * 3))
    func := t.func ||| (f.func <<< (seg * 8))
    vfActive := if f.vf.isSome then t.vfActive ||| (1 <<< seg) else t.vfActive
    vfNum := match f.vf with
      | some v => t.vfNum ||| (v <<< (seg * 11))
      | none => t.vfNum
    error := t.error ||| (f.error <<< (seg * 4))
    seq := t.seq ||| (f.seq <<< (seg * c.seqW)) }

/-- one lane, :532-535 -/
def putLane (c : Cfg) (seg : Nat) (f : Frame) (off : Nat) (t : Trans) (k : Nat) : Trans :=
  { t with
    data := t.data ||| (f.data.getD (off + k) 0 <<< (32 * (k + seg * c.lanes)))
    dataPar := t.dataPar ||| (f.parity.getD (off + k) 0 <<< (4 * (k + seg * c.lanes)))
    strb := t.strb ||| (1 <<< (k + seg * c.lanes)) }

/-- a segment of a frame, :510-540: the transaction and what is left of the frame -/
def putSeg (c : Cfg) (seg : Nat) (x : Cur) (t : Trans) : Trans × Option Cur :=
  let f := x.frame
  let t := if x.first then putFirst seg f t else t
  let t := putMeta c seg f t
  let m := if f.data = [] then 0 else min c.lanes (f.data.length - x.off)
  let t := if f.data = [] then t else { t with valid := t.valid ||| (1 <<< seg) }
  let t := (List.range m).foldl (putLane c seg f x.off) t
  if f.data.length ≤ x.off + m then ({ t with eop := t.eop ||| (1 <<< seg) }, none) else (t, some ⟨f, x.off + m, false⟩)

/-- the loop over the segments, :500-540: `n` segments are left; a frame is taken from the queue when one has ended, :501-508 -/
def fill (c : Cfg) : (n seg : Nat) → Trans → Option Cur → List Frame → Trans × Option Cur × List Frame
  | 0, _, t, cur, q => (t, cur, q)
  | n + 1, seg, t, some x, q => let (t', cur') := putSeg c seg x t; fill c n (seg + 1) t' cur' q
  | n + 1, seg, t, none, f :: q => let (t', cur') := putSeg c seg ⟨f, 0, true⟩ t; fill c n (seg + 1) t' cur' q
  | _ + 1, _, t, none, [] => (t, none, [])

/-! ### sink -/

/-- what the sink reads of a segment, :655-701 -/
structure View where
  valid : Bool
  sop : Bool
  eop : Bool
  prfx : Nat
  prfxPar : Nat
  hdr : Nat
  hdrPar : Nat
  bar : Nat
  func : Nat
  vfActive : Bool
  vf : Nat
  error : Nat
  seq : Nat
  data : Nat
  dataPar : Nat
  strb : Nat

/-- :655-701; `seg_width` = 32 lanes, `seg_par_width` = 4 lanes, `seg_strb_width` = lanes, :278-284 -/
def view (c : Cfg) (t : Trans) (seg : Nat) : View where
  valid := t.valid &&& (1 <<< seg) != 0
  sop := t.sop &&& (1 <<< seg) != 0
  eop := t.eop &&& (1 <<< seg) != 0
  prfx := (t.prfx >>> (seg * 32)) &&& 0xffffffff
  prfxPar := (t.prfxPar >>> (seg * 4)) &&& 0xf
  hdr := (t.hdr >>> (seg * 128)) &&& (2 ^ 128 - 1)
  hdrPar := (t.hdrPar >>> (seg * 16)) &&& 0xffff
  bar := (t.bar >>> (seg * 3)) &&& 0x7
  func := (t.func >>> (seg * 8)) &&& 0xff
  vfActive := t.vfActive &&& (1 <<< seg) != 0
  vf := (t.vfNum >>> (seg * 11)) &&& 0x7ff
  error := (t.error >>> (seg * 4)) &&& 0xf
  seq := (t.seq >>> (seg * c.seqW)) &&& (2 ^ c.seqW - 1)
  data := (t.data >>> (seg * (32 * c.lanes))) &&& (2 ^ (32 * c.lanes) - 1)
  dataPar := (t.dataPar >>> (seg * (4 * c.lanes))) &&& (2 ^ (4 * c.lanes) - 1)
  strb := (t.strb >>> (seg * c.lanes)) &&& (2 ^ c.lanes - 1)

/-- `frame`, `dword_count` of `_run`, and the queue of frames received -/
structure Snk where
  frame : Option Frame := none
  cnt : Nat := 0
  got : List Frame := []
deriving DecidableEq

/-- `dword_count` of a header, :666-671 -/
def hdrCount (hdr : Nat) : Nat := if hdr &&& (1 <<< 126) ≠ 0 then (if (hdr >>> 96) &&& 0x3ff = 0 then 1024 else (hdr >>> 96) &&& 0x3ff) else 0

/-- one lane, :687-695; `none` is a failed assertion -/
def getLane (v : View) (x : Frame × Nat) (k : Nat) : Option (Frame × Nat) :=
  if x.2 > 0 then
    if (v.strb >>> k) &&& 1 ≠ 0 then some ({ x.1 with data := x.1.data ++ [(v.data >>> (32 * k)) &&& 0xffffffff], parity := x.1.parity ++ [(v.dataPar >>> (4 * k)) &&& 0xf] }, x.2 - 1) else none
  else if (v.strb >>> k) &&& 1 = 0 then some x else none

/-- the data of a segment, :686-699; `none` is a failed assertion -/
def getData (c : Cfg) (v : View) (f : Frame) (cnt : Nat) : Option (Frame × Nat) :=
  if cnt > 0 then (List.range c.lanes).foldlM (getLane v) (f, cnt) else if v.strb = 0 then some (f, cnt) else none

/-- a segment, :655-706; `none` is a failed assertion -/
def getSeg (c : Cfg) (v : View) (s : Snk) : Option Snk :=
  if !v.valid then some s else do
    let s ← if v.sop then
        (if s.frame.isSome then none else
          some { s with
            frame := some { prfx := v.prfx, prfxPar := v.prfxPar, hdr := v.hdr, hdrPar := v.hdrPar, bar := v.bar, func := v.func, vf := if v.vfActive then some v.vf else none, error := v.error, seq := v.seq }
            cnt := hdrCount v.hdr })
      else some s
    let f ← s.frame
    let (f, cnt) ← getData c v f s.cnt
    if v.eop then (if cnt = 0 then some { frame := none, cnt := 0, got := s.got ++ [f] } else none)
    else some { s with frame := some f, cnt := cnt }

/-- a transaction, :654-706 -/
def getTrans (c : Cfg) (s : Snk) (t : Trans) : Option Snk := (List.range c.segs).foldlM (fun s seg => getSeg c (view c t seg) s) s

/-! ### bus -/

/-- the source (frames queued, frame in work, transaction waiting in `_drive`, `drive_obj`), the bus (a transaction, valid if one of its segments is; ready), the sink (`none`: an assertion has failed) -/
structure St where
  queue : List Frame := []
  cur : Option Cur := none
  wait : Option Trans := none
  drive : Option Trans := none
  bus : Trans := {}
  ready : Bool := false
  snk : Option Snk := some {}

/-- `send`, :428-445; `_run` of the source goes on, :490-542; `_drive` goes on, :421-426; a clock edge, with `pause` of the source, and `ready` of the sink from then on (`pause` and `full`, :638) -/
inductive Ev where
  | send (f : Frame)
  | build
  | hand
  | clock (pause : Bool) (ready : Bool)

/-- `_run` of the source up to `_drive`: waits for a frame if it has none, :492; nothing happens while a transaction waits -/
def build (c : Cfg) (s : St) : St :=
  if s.wait.isSome then s else
  match s.cur, s.queue with
  | none, [] => s
  | none, f :: q => let (t, cur, q) := fill c c.segs 0 {} (some ⟨f, 0, true⟩) q; { s with wait := some t, cur := cur, queue := q }
  | some x, q => let (t, cur, q) := fill c c.segs 0 {} (some x) q; { s with wait := some t, cur := cur, queue := q }

/-- the source puts the next transaction on the bus, or none, :479-486 -/
def shift (s : St) (pause : Bool) : St :=
  match pause, s.drive with
  | false, some t => { s with bus := t, drive := none }
  | _, _ => { s with bus := { s.bus with valid := 0 } }

/-- an event -/
def step (c : Cfg) (s : St) : Ev → St
  | .send f => { s with queue := s.queue ++ [f] }
  | .build => build c s
  | .hand => if s.drive.isSome then s else { s with drive := s.wait, wait := none }
  | .clock pause ready =>
    let valid := s.bus.valid ≠ 0
    -- sink, :633-638
    let snk := if s.ready ∧ valid then s.snk.bind fun k => getTrans c k s.bus else s.snk
    -- source, :478-488
    if s.ready ∨ ¬ valid then shift { s with ready := ready, snk := snk } pause
    else { s with ready := ready, snk := snk }

end Corundum.PcieIf
