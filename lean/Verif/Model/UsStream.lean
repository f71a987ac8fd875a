import Verif.Model.UsTlp
import Verif.Model.AxisFrame

/-!
The stream sources and sinks of /repo/fpga/lib/pcie/tb/pcie_us.py: `CQSource` (:646-768), `CQSink` (:771-919), `CCSource` (:922-1043),
`CCSink` (:1046-1172), `RQSource` (:1175-1312), `RQSink` (:1315-1456), `RCSource` (:1459-1594), `RCSink` (:1597-1728).
The eight classes have the same logic; they differ in where the fields lie in `tuser`, which is given by a `Layout` per stream and width.

Simplifications: reset after the start, `name`, `recv` and `wait` are left out; `if c: u |= v << o` is written `u |= (v if c else 0) << o`;
the three accumulations of the lane loop (data, byte enables, parity) are written as three loops; the RC source does not mask
`last_lane` to four bits (:1563, :1584), which is the same up to 16 lanes.
-/
namespace Corundum.UsStream
open Corundum.Pcie

/-- Positions in `tuser`. -/
structure Layout where
  /-- `first_be`, `last_be` -/
  be : Option (Nat × Nat)
  /-- byte enables, four bits per lane -/
  byteEn : Option Nat
  /-- parity, four bits per lane -/
  par : Nat
  disc : Nat
  /-- parts of `seq_num`: shift, width, position -/
  seq : List (Nat × Nat × Nat)
  /-- start of packet -/
  sop : Option Nat
  /-- end of packet, and its lane -/
  eop : Option (Nat × Nat)

/-- pcie_us.py:720-743, :876-892 -/
def cq512 : Layout := ⟨some (0, 8), some 16, 119, 96, [], some 80, some (86, 88)⟩
/-- pcie_us.py:745-760, :894-908 -/
def cq256 : Layout := ⟨some (0, 4), some 8, 53, 41, [], some 40, none⟩
/-- pcie_us.py:1001-1022, :1143-1153 -/
def cc512 : Layout := ⟨none, none, 17, 16, [], some 0, some (6, 8)⟩
/-- pcie_us.py:1024-1033, :1155-1161 -/
def cc256 : Layout := ⟨none, none, 1, 0, [], none, none⟩
/-- pcie_us.py:1254-1279, :1412-1428 -/
def rq512 : Layout := ⟨some (0, 8), none, 73, 36, [(0, 6, 61)], some 20, some (26, 28)⟩
/-- pcie_us.py:1281-1299, :1430-1445, `len(tuser) == 62` -/
def rq256 : Layout := ⟨some (0, 4), none, 28, 11, [(0, 4, 24), (4, 2, 60)], none, none⟩
/-- the same with `len(tuser) == 60` -/
def rq256s : Layout := ⟨some (0, 4), none, 28, 11, [(0, 4, 24)], none, none⟩
/-- pcie_us.py:1541-1563, :1695-1705 -/
def rc512 : Layout := ⟨none, some 0, 97, 96, [], some 64, some (76, 80)⟩
/-- pcie_us.py:1565-1584, :1707-1717 -/
def rc256 : Layout := ⟨none, some 0, 43, 42, [], some 32, some (34, 35)⟩

/-- `for i in range(n): v |= x[i] << i*w` -/
def packLanes (w : Nat) (i : Nat) : List Nat → Nat
  | [] => 0
  | x :: xs => (x <<< (i * w)) ||| packLanes w (i + 1) xs

/-- `u |= v << o` for a list of fields -/
def orAll : List (Nat × Nat) → Nat
  | [] => 0
  | (v, o) :: fs => (v <<< o) ||| orAll fs

/-- the value of `tuser` for one beat of `c` of `n` lanes -/
def tuser (L : Layout) (n : Nat) (first last : Bool) (f : Frame) (c : Nat) (be par : List Nat) : Nat :=
  orAll (
    (match L.be with
      | some (a, b) => [(if first then f.firstBe &&& 0xf else 0, a), (if first then f.lastBe &&& 0xf else 0, b)]
      | none => []) ++
    (match L.sop with | some a => [(first.toNat, a)] | none => []) ++
    [(f.discontinue.toNat, L.disc)] ++
    L.seq.map (fun q => ((f.seqNum >>> q.1) &&& (2 ^ q.2.1 - 1), q.2.2)) ++
    (match L.byteEn with | some o => [(packLanes 4 0 be, o)] | none => []) ++
    [(packLanes 4 0 (par ++ List.replicate (n - c) 0xf), L.par)] ++
    (match L.eop with | some (a, b) => [(last.toNat, a), (if last then (c - 1) &&& 0xf else 0, b)] | none => []))

/-- Source and sink connected back to back. -/
structure Sys where
  /- source -/
  queue : List Frame
  frame : Frame
  data : List Nat
  byteEn : List Nat
  par : List Nat
  active : Bool
  first : Bool
  /- bus -/
  tvalid : Bool
  tdata : Nat
  tkeep : Nat
  tuser : Nat
  tlast : Bool
  /- sink -/
  rdy : Bool
  rframe : Frame
  rfirst : Bool
  out : List Frame
  /-- an assertion failed or `pop(0)` on an empty list -/
  error : Bool

def init : Sys :=
  { queue := [], frame := {}, data := [], byteEn := [], par := [], active := false, first := true, tvalid := false, tdata := 0, tkeep := 0
    tuser := 0, tlast := false, rdy := false, rframe := {}, rfirst := true, out := [], error := false }

/-- `if not data and self.queue` (pcie_us.py:705-712) -/
def load (s : Sys) : Sys :=
  match s.data, s.queue with
  | [], f :: q => { s with queue := q, frame := f, data := f.data, byteEn := f.byteEn, par := f.parity, first := true }
  | _, _ => s

/-- `if data and not self.active` (pcie_us.py:713-767) -/
def emit (L : Layout) (n : Nat) (ps : Bool) (s : Sys) : Sys :=
  if s.data ≠ [] ∧ s.active = false then
    let c := min n s.data.length
    let rest := s.data.drop n
    if (L.byteEn.isSome ∧ s.byteEn.length < c) ∨ s.par.length < c then { s with error := true }
    else { s with
      tdata := packLanes 32 0 (s.data.take n)
      tkeep := packLanes 1 0 (List.replicate c 1)
      tuser := UsStream.tuser L n s.first rest.isEmpty s.frame c (s.byteEn.take c) (s.par.take c)
      data := rest, byteEn := if L.byteEn.isSome then s.byteEn.drop c else s.byteEn, par := s.par.drop c
      tvalid := !ps, tlast := rest.isEmpty, active := true, first := false }
  else s

/-- the source at a clock edge (pcie_us.py:700-767) -/
def srcClk (L : Layout) (n : Nat) (s : Sys) (ready ps : Bool) : Sys :=
  let s1 := if ready && s.tvalid then { s with tvalid := false, active := false } else { s with tvalid := s.active && (s.tvalid || !ps) }
  emit L n ps (load s1)

/-- lanes read by the sink: `for i in range(len(tkeep)): if tkeep & (1 << i): append((v >> (i*w+o)) & mask)` -/
def readLanes (n w o keep v : Nat) : List Nat :=
  (List.range n).filterMap fun i => if keep &&& (1 <<< i) ≠ 0 then some ((v >>> (i * w + o)) &&& (2 ^ w - 1)) else none

/-- what the sink adds to its frame for one beat (pcie_us.py:876-908) -/
def rxBeat (L : Layout) (n : Nat) (first : Bool) (f : Frame) (d k u : Nat) : Frame :=
  { data := f.data ++ readLanes n 32 0 k d
    byteEn := match L.byteEn with | some o => f.byteEn ++ readLanes n 4 o k u | none => f.byteEn
    parity := f.parity ++ readLanes n 4 L.par k u
    firstBe := match L.be with | some (a, _) => if first then (u >>> a) &&& 0xf else f.firstBe | none => f.firstBe
    lastBe := match L.be with | some (_, b) => if first then (u >>> b) &&& 0xf else f.lastBe | none => f.lastBe
    discontinue := f.discontinue || (u &&& (1 <<< L.disc) != 0)
    seqNum := match L.seq with
      | [] => f.seqNum
      | l => l.foldl (fun a q => a ||| (((u >>> q.2.2) &&& (2 ^ q.2.1 - 1)) <<< q.1)) 0 }

/-- the sink at a clock edge (pcie_us.py:836-917); the bus signals are those before the edge (`s`) -/
def snkClk (L : Layout) (n : Nat) (s t : Sys) (pk : Bool) : Sys :=
  if s.tvalid && !pk then
    let t := if AxisFrame.keepOk n s.rfirst s.tlast s.tkeep then t else { t with error := true }
    let f := rxBeat L n s.rfirst s.rframe s.tdata s.tkeep s.tuser
    if s.tlast then { t with rdy := true, rframe := {}, rfirst := true, out := s.out ++ [f] }
    else { t with rdy := true, rframe := f, rfirst := false }
  else { t with rdy := true }

inductive Op where
  /-- `source.send(frame)` -/
  | send (f : Frame)
  /-- a rising clock edge with the given pause inputs of source and sink -/
  | clk (ps pk : Bool)

def step (L : Layout) (n : Nat) (s : Sys) : Op → Sys
  | .send f => { s with queue := s.queue ++ [f] }
  | .clk ps pk => snkClk L n s (srcClk L n s (s.rdy && !pk) ps) pk

def run (L : Layout) (n : Nat) (s : Sys) (ops : List Op) : Sys := ops.foldl (step L n) s

end Corundum.UsStream
