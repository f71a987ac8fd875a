import Verif.Model.BaseR
import Verif.Model.Scrambler
import Verif.Model.Xgmii
/-!
10GBASE-R endpoints of the test bench, /repo/fpga/lib/eth/tb/baser_serdes_ep.py: `BaseRSerdesSource` and `BaseRSerdesSink` with their clock by clock logic, and a source connected to a sink.

Frames and characters are those of `Model/Xgmii`, blocks and the decoder those of `Model/BaseR` (the decoder of baser_serdes_ep.py:433-637 is the same as that of baser.py), the scrambler that of `Model/Scrambler`.
Not modelled: `ifg`, `enable_dic`, `force_offset_start` changing in operation, printing.
-/
namespace Corundum.BaseRSerdes
open Corundum.BaseR (Word Block cat dF kF anyC isOs osCode SYNC_CTRL SYNC_DATA pyDec)
open Corundum.Scrambler (pyScr pyDescr)
open Corundum.Xgmii (Ch IDLE START TERM PRE Frame Rx wrap parse)

/-- `di` and `ci`, baser_serdes_ep.py:188-189 -/
def wordOf (l : List Ch) : Word := ⟨fun i => (l.getD i (false, 0)).1, fun i => (l.getD i (false, 0)).2⟩

/-- coding of a word, baser_serdes_ep.py:191-323.  Unlike baser.py, lanes without control flag count as errors in `ctrl` -/
def sEnc (w : Word) : Block :=
  let ctl (fields : List (Nat × Nat)) : Block := ⟨SYNC_CTRL, cat fields⟩
  if !anyC w 0 8 then ⟨SYNC_DATA, cat (dF w 0 8)⟩
  else if w.c 0 && w.d 0 = 0xfb && !anyC w 1 8 then ctl ([(8, 0x78)] ++ dF w 1 7)
  else if w.c 4 && w.d 4 = 0xfb && !anyC w 5 8 then
    if w.c 0 && isOs (w.d 0) && !anyC w 1 4 then
      ctl ([(8, 0x66)] ++ dF w 1 3 ++ [(4, osCode (w.d 0)), (4, 0)] ++ dF w 5 3)
    else ctl ([(8, 0x33)] ++ kF w 0 4 ++ [(4, 0)] ++ dF w 5 3)
  else if w.c 0 && isOs (w.d 0) && !anyC w 1 4 then
    if w.c 4 && isOs (w.d 4) && !anyC w 5 8 then
      ctl ([(8, 0x55)] ++ dF w 1 3 ++ [(4, osCode (w.d 0)), (4, osCode (w.d 4))] ++ dF w 5 3)
    else ctl ([(8, 0x4b)] ++ dF w 1 3 ++ [(4, osCode (w.d 0)), (4, 0)] ++ [(28, cat (kF w 0 4))])
  else if w.c 4 && isOs (w.d 4) && !anyC w 5 8 then
    ctl ([(8, 0x2d)] ++ kF w 0 4 ++ [(4, osCode (w.d 4))] ++ dF w 5 3)
  else if w.c 0 && w.d 0 = 0xfd then ctl ([(8, 0x87), (7, 0)] ++ kF w 1 7)
  else if w.c 1 && w.d 1 = 0xfd && !w.c 0 then ctl ([(8, 0x99)] ++ dF w 0 1 ++ [(6, 0)] ++ kF w 2 6)
  else if w.c 2 && w.d 2 = 0xfd && !anyC w 0 2 then ctl ([(8, 0xaa)] ++ dF w 0 2 ++ [(5, 0)] ++ kF w 3 5)
  else if w.c 3 && w.d 3 = 0xfd && !anyC w 0 3 then ctl ([(8, 0xb4)] ++ dF w 0 3 ++ [(4, 0)] ++ kF w 4 4)
  else if w.c 4 && w.d 4 = 0xfd && !anyC w 0 4 then ctl ([(8, 0xcc)] ++ dF w 0 4 ++ [(3, 0)] ++ kF w 5 3)
  else if w.c 5 && w.d 5 = 0xfd && !anyC w 0 5 then ctl ([(8, 0xd2)] ++ dF w 0 5 ++ [(2, 0)] ++ kF w 6 2)
  else if w.c 6 && w.d 6 = 0xfd && !anyC w 0 6 then ctl ([(8, 0xe1)] ++ dF w 0 6 ++ [(1, 0)] ++ kF w 7 1)
  else if w.c 7 && w.d 7 = 0xfd && !anyC w 0 7 then ctl ([(8, 0xff)] ++ dF w 0 7)
  else ctl ([(8, 0x1e)] ++ kF w 0 8)

/-- `block_type_term_lane`, baser_serdes_ep.py:78-96 -/
def termLane (bt : Nat) : Option Nat :=
  if bt = 0x87 then some 0
  else if bt = 0x99 then some 1
  else if bt = 0xaa then some 2
  else if bt = 0xb4 then some 3
  else if bt = 0xcc then some 4
  else if bt = 0xd2 then some 5
  else if bt = 0xe1 then some 6
  else if bt = 0xff then some 7
  else none

/-- parameters: baser_serdes_ep.py:99-104 and 115-123 -/
structure Cfg where
  ifg : Nat
  dic : Bool
  offset : Bool
  scramble : Bool
  reverse : Bool

/-- source: frames to send, blocks left of the frame being sent, `ifg_cnt`, `deficit_idle_cnt`, baser_serdes_ep.py:136-140 -/
structure Src where
  queue : List Frame
  ccl : List Block
  ifg : Int
  deficit : Int

/-- padding, baser_serdes_ep.py:180-184 -/
def pad (dl : List Ch) : List Ch := if dl.length % 8 ≠ 0 then dl ++ List.replicate (8 - dl.length % 8) IDLE else dl

/-- the blocks of a frame, baser_serdes_ep.py:186-325 -/
def blocks (dl : List Ch) : List Block := (List.range ((pad dl).length / 8)).map fun k => sEnc (wordOf (((pad dl).drop (8 * k)).take 8))

/-- taking the next block, baser_serdes_ep.py:152-158 and 327-333 -/
def pop (c : Cfg) (deficit ifg : Int) : List Block → Option (Block × List Block × Int)
  | [] => none
  | [b] => some (b, [], match termLane (b.data % 256) with
      | some l => c.ifg - (8 - l) + deficit
      | none => c.ifg + deficit)
  | b :: ccl => some (b, ccl, ifg)

/-- an idle block, baser_serdes_ep.py:146-147 -/
def idleBlock : Block := ⟨1, 0x1e⟩

/-- one clock of the source up to the scrambler, baser_serdes_ep.py:146-336 -/
def Src.step (c : Cfg) (s : Src) : Option (Src × Block) :=
  if s.ifg > 8 - 1 ∨ (c.dic = false ∧ s.ifg > 0) then some ({ s with ifg := max (s.ifg - 8) 0 }, idleBlock)
  else if s.ccl ≠ [] then (pop c s.deficit s.ifg s.ccl).map fun r => ({ s with ccl := r.2.1, ifg := r.2.2 }, r.1)
  else
    match s.queue with
    | f :: q =>
      (f.build.bind wrap).bind fun dl =>
        let off := s.ifg ≥ 4 ∨ c.offset
        let ifg := if off then max (s.ifg - 4) 0 else s.ifg
        let dl := if off then List.replicate 4 IDLE ++ dl else dl
        let deficit := max ifg 0
        (pop c deficit 0 (blocks dl)).map fun r => (⟨q, r.2.1, r.2.2, deficit⟩, r.1)
    | [] => some ({ s with ifg := 0, deficit := 0 }, idleBlock)

/-- bit reversal, baser_serdes_ep.py:349-352 and 419-422 -/
def rev (n x : Nat) : Nat := ((List.range n).map fun i => if (x >>> i) &&& 1 = 1 then 1 <<< (n - 1 - i) else 0).sum

/-- scrambler and bit reversal, baser_serdes_ep.py:338-355; returns `scrambler_state` and what is driven -/
def line (c : Cfg) (scr : Nat) (b : Block) : Nat × Block :=
  let r := if c.scramble then pyScr scr b.data 64 else (scr, b.data)
  (r.1, if c.reverse then ⟨rev 2 b.hdr, rev 64 r.2⟩ else ⟨b.hdr, r.2⟩)

/-- bit reversal and descrambler, baser_serdes_ep.py:416-431 -/
def unline (c : Cfg) (scr : Nat) (w : Block) : Nat × Block :=
  let x := if c.reverse then rev 64 w.data else w.data
  let r := if c.scramble then pyDescr scr x 64 else (scr, x)
  (r.1, ⟨if c.reverse then rev 2 w.hdr else w.hdr, r.2⟩)

/-- sink: frames received, the characters of the frame being received, `scrambler_state`, baser_serdes_ep.py:406-410 -/
structure Snk where
  queue : List Rx
  cur : Option (List Ch)
  scr : Nat

/-- the loop over lanes, baser_serdes_ep.py:656-675 -/
def take : List Ch → List Ch → List Rx → List Rx × Option (List Ch)
  | [], acc, q => (q, some acc)
  | x :: l, acc, q => if x.1 then (q ++ [parse (if x.2 ≠ TERM.2 then acc ++ [x] else acc)], none) else take l (acc ++ [x]) q

/-- the characters of a block, baser_serdes_ep.py:639-675 -/
def chars (s : Snk) (l : List Ch) : List Rx × Option (List Ch) :=
  match s.cur with
  | none =>
    if l[0]? = some START then (s.queue, some ((false, PRE) :: l.drop 1))
    else if l[4]? = some START then (s.queue, some ((false, PRE) :: l.drop 5))
    else (s.queue, none)
  | some acc => take l acc s.queue

/-- one clock of the sink, baser_serdes_ep.py:413-675 -/
def Snk.step (c : Cfg) (s : Snk) (w : Block) : Snk :=
  let r := unline c s.scr w
  let k := chars s (pyDec r.2)
  ⟨k.1, k.2, r.1⟩

/-- a source connected to a sink; `scr` is the `scrambler_state` of the source, `wire` the value of the signals -/
structure Sys where
  src : Src
  scr : Nat
  wire : Block
  snk : Snk

inductive Ev where
  /-- `send`, baser_serdes_ep.py:106-107 -/
  | send (f : Frame)
  /-- a clock edge, with `enable` of both sides -/
  | clk (enable : Bool)

def Sys.step (c : Cfg) (s : Sys) : Ev → Option Sys
  | .send f => some { s with src := { s.src with queue := s.src.queue ++ [f] } }
  | .clk false => some s
  | .clk true => (s.src.step c).map fun r => ⟨r.1, (line c s.scr r.2).1, (line c s.scr r.2).2, s.snk.step c s.wire⟩

def run (c : Cfg) (s : Sys) (evs : List Ev) : Option Sys := evs.foldlM (Sys.step c) s

/-- the beginning: data signals are 0, the header signals have the value `h` -/
def init (h : Nat) : Sys := ⟨⟨[], [], 0, 0⟩, 0, ⟨h, 0⟩, ⟨[], none, 0⟩⟩

end Corundum.BaseRSerdes
