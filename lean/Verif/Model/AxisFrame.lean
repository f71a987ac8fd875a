/-
AXI stream frame packing and the source/sink bus models, `fpga/lib/eth/tb/axis_ep.py`:

* `AXIStreamFrame.build` lines 76-137 (single `tdata` signal, `B == 0`, default `keep`) -> `beat`, `buildLoop`, `build`
* `AXIStreamFrame.parse` lines 139-175 -> `parse`
* `AXIStreamSource.create_logic` lines 281-374 -> the source half of `clk`
* `AXIStreamSink.create_logic` lines 415-536 -> the sink half of `clk`

A word is a `Nat`; `WL` = bits per lane, `M` = number of lanes.  tid/tdest/tuser, the multiple-`tdata` mode and user supplied
`keep` lists are omitted.
-/
namespace Corundum.AxisFrame

/-- inner `for j in range(self.M)` of `build` (lines 93-97), from lane `j` with `n` lanes left -/
def beat (WL : Nat) (j : Nat) : Nat → List Nat → Nat → Nat → Nat × Nat × List Nat
  | 0, f, data, keep => (data, keep, f)
  | _ + 1, [], data, keep => (data, keep, [])
  | n + 1, x :: f, data, keep => beat WL (j + 1) n f (data ||| (x <<< (j * WL))) (keep ||| (1 <<< j))

/-- outer `while len(f) > 0`; `none` = out of fuel.  A beat is (tdata, tkeep). -/
def buildLoop (M WL : Nat) : Nat → List Nat → Option (List (Nat × Nat))
  | _, [] => some []
  | 0, _ :: _ => none
  | fuel + 1, f@(_ :: _) =>
    let (d, k, f) := beat WL 0 M f 0 0
    (buildLoop M WL fuel f).map ((d, k) :: ·)

def build (M WL : Nat) (f : List Nat) : Option (List (Nat × Nat)) := buildLoop M WL f.length f

/-- `parse` (lines 148-163): `for j in range(M): if tkeep & (1 << j): data.append((tdata >> (j*WL)) & mask)` -/
def parse (M WL : Nat) (beats : List (Nat × Nat)) : List Nat :=
  beats.flatMap (fun b => (List.range M).filterMap (fun j =>
    if b.2 &&& (1 <<< j) ≠ 0 then some ((b.1 >>> (j * WL)) &&& (2 ^ WL - 1)) else none))

/-- Source and sink connected back to back. -/
structure Sys where
  /- source -/
  queue : List (List Nat)
  active : Bool
  data : List (Nat × Nat)       -- beats still to be loaded
  tvalid : Bool
  cur : Nat × Nat               -- tdata, tkeep
  tlast : Bool
  /- sink -/
  rdy : Bool                    -- tready_int
  first : Bool
  got : List (Nat × Nat)
  out : List (List Nat)
  /-- an `assert` failed, or `pop(0)` on an empty list was attempted -/
  error : Bool

def init : Sys :=
  { queue := [], active := false, data := [], tvalid := false, cur := (0, 0), tlast := false,
    rdy := false, first := true, got := [], out := [], error := false }

/-- `while b & 1 == 0: b >>= 1` / `while b & 1 == 1: b >>= 1`, on a value below `2^n` -/
def stripLow (v : Nat) : Nat → Nat → Nat
  | 0, b => b
  | n + 1, b => if b % 2 = v then stripLow v n (b / 2) else b

/-- the sink's assertions on tkeep (lines 484-501) -/
def keepOk (M : Nat) (first tlast : Bool) (keep : Nat) : Bool :=
  keep != 0 && stripLow 1 M (stripLow 0 M keep) == 0
  && (first || keep &&& 1 != 0) && (tlast || keep &&& (1 <<< (M - 1)) != 0)

/-- source: lines 335-371.  `ready`/`tvalid` are sampled before the edge. -/
def srcClk (M WL : Nat) (s : Sys) (ready ps : Bool) : Sys :=
  let tv := s.active && (s.tvalid || !ps)
  let s' :=
    if ready && s.tvalid then
      match s.data with
      | b :: d => { s with data := d, cur := b, tvalid := !ps, tlast := d.isEmpty }
      | [] => { s with tvalid := false, tlast := false, active := false }
    else { s with tvalid := tv }
  if !s'.active then
    match s'.queue with
    | [] => s'
    | f :: q =>
      match build M WL f with
      | some (b :: d) => { s' with queue := q, data := d, cur := b, tvalid := !ps, tlast := d.isEmpty, active := true }
      | _ => { s' with queue := q, error := true }
  else s'

/-- sink: lines 472-531.  Bus signals are those before the edge (`s`); `t` is the state being updated. -/
def snkClk (M WL : Nat) (s t : Sys) (pk : Bool) : Sys :=
  if s.tvalid && !pk then
    let t := if keepOk M s.first s.tlast s.cur.2 then t else { t with error := true }
    let got := s.got ++ [s.cur]
    if s.tlast then { t with rdy := true, got := [], first := true, out := s.out ++ [parse M WL got] }
    else { t with rdy := true, got := got, first := false }
  else { t with rdy := true }

inductive Op where
  /-- `source.send(frame)` -/
  | send (f : List Nat)
  /-- a rising clock edge with the given pause inputs of source and sink -/
  | clk (ps pk : Bool)

def step (M WL : Nat) (s : Sys) : Op → Sys
  | .send f => { s with queue := s.queue ++ [f] }
  | .clk ps pk => snkClk M WL s (srcClk M WL s (s.rdy && !pk) ps) pk

def run (M WL : Nat) (s : Sys) (ops : List Op) : Sys := ops.foldl (step M WL) s

end Corundum.AxisFrame
