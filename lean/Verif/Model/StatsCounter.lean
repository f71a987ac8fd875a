import Verif.Model.CplWrite
import Verif.Model.RxHash

/-!
Statistics counters: /repo/fpga/common/rtl/stats_counter.v, one step per clock edge.

A memory of counters behind a pipeline of `PIPELINE` stages: an increment is read, added and written back; an AXI lite read goes through the same pipeline.  After
reset the memory is cleared.

Simplifications: the write channels (writes are acknowledged and discarded, stats_counter.v:222-227) are not modelled; reset is the initial state only, with any contents
of the memory.  `mem_read_data_reg` is the data of stage 0 and `mem_read_data_pipeline_reg[j]` the data of stage `j`.
-/
namespace Corundum.StatsCounter
open Corundum.CplWrite (upd)

structure Params where
  /-- `STAT_ID_WIDTH` -/
  iw : Nat
  /-- `STAT_COUNT_WIDTH` -/
  cw : Nat
  /-- `AXIL_DATA_WIDTH` -/
  dw : Nat
  /-- `PIPELINE` -/
  pl : Nat

/-- `ID_SHIFT` (stats_counter.v:86) -/
def Params.idShift (P : Params) : Nat := RxHash.clog2 (((if P.dw > P.cw then P.dw else P.cw) + 7) / 8)

/-- `WORD_SELECT_SHIFT` (stats_counter.v:87) -/
def Params.wordShift (P : Params) : Nat := RxHash.clog2 (P.dw / 8)

/-- `WORD_SELECT_WIDTH` (stats_counter.v:88) -/
def Params.wordWidth (P : Params) : Nat := if P.cw > P.dw then RxHash.clog2 ((P.cw + 7) / 8) - RxHash.clog2 (P.dw / 8) else 0

/-- `s_axil_araddr_id` (stats_counter.v:154) -/
def Params.idOf (P : Params) (a : Nat) : Nat := a >>> P.idShift % 2 ^ P.iw

/-- `s_axil_araddr_shift` (stats_counter.v:155) -/
def Params.wordOf (P : Params) (a : Nat) : Nat := a >>> P.wordShift % 2 ^ P.wordWidth

/-- the word of a counter put on the bus (stats_counter.v:274-278) -/
def Params.word (P : Params) (v w : Nat) : Nat := if P.cw > P.dw then v >>> (w * P.dw) % 2 ^ P.dw else v % 2 ^ P.dw

/-- a stage of the pipeline (stats_counter.v:118-124, 143-144) -/
structure Stage where
  rd : Bool := false
  acc : Bool := false
  addr : Nat := 0
  word : Nat := 0
  inc : Nat := 0
  data : Nat := 0

/-- the inputs during one cycle -/
structure In where
  /-- `s_axis_stat`: counter and increment -/
  stat : Option (Nat × Nat) := none
  /-- `s_axil_araddr` when valid -/
  ar : Option Nat := none
  /-- `s_axil_rready` -/
  rready : Bool := false
deriving DecidableEq

structure S where
  init : Bool := true
  ptr : Nat := 0
  pipe : Nat → Stage := fun _ => {}
  tready : Bool := false
  arready : Bool := false
  rdata : Nat := 0
  rvalid : Bool := false
  mem : Nat → Nat

/-- `op_axil_read_pipe_reg` is not zero -/
def reading (P : Params) (s : S) : Bool := (List.range P.pl).any fun j => (s.pipe j).rd

/-- `op_acc_pipe_hazard` (stats_counter.v:217-220) -/
def hazard (P : Params) (s : S) (id : Nat) : Bool := (List.range P.pl).any fun j => ((s.pipe j).rd || (s.pipe j).acc) && (s.pipe j).addr == id

/-- a read is accepted (stats_counter.v:241) -/
def goRead (P : Params) (s : S) (i : In) : Option Nat :=
  if !s.init && (!s.rvalid || i.rready) && !reading P s then i.ar else none

/-- an increment is accepted (stats_counter.v:250) -/
def goAcc (P : Params) (s : S) (i : In) : Option (Nat × Nat) :=
  if !s.init && (goRead P s i).isNone && !s.tready then i.stat.filter fun x => !hazard P s x.1 else none

/-- what enters the pipeline (stats_counter.v:230-259, 306) -/
def enter (P : Params) (s : S) (i : In) : Stage :=
  match goRead P s i with
  | some a => { rd := true, addr := P.idOf a, word := P.wordOf a, data := s.mem (P.idOf a) }
  | none => match goAcc P s i with
    | some (id, x) => { acc := true, addr := id, inc := x, data := s.mem id }
    | none => { data := s.mem 0 }

/-- the write to the memory (stats_counter.v:234-236, 262-266) -/
def write (P : Params) (s : S) : Option (Nat × Nat) :=
  let t := s.pipe (P.pl - 1)
  if t.acc then some (t.addr, (t.data + t.inc) % 2 ^ P.cw) else if s.init then some (s.ptr, 0) else none

/-- the answer to a read leaves the pipeline (stats_counter.v:267-279) -/
def answer (P : Params) (s : S) : Option Nat :=
  let t := s.pipe (P.pl - 1)
  if !t.acc && t.rd then some (P.word t.data t.word) else none

/-- one clock edge (stats_counter.v:170-317) -/
def next (P : Params) (s : S) (i : In) : S where
  init := s.init && decide (s.ptr ≠ 2 ^ P.iw - 1)
  ptr := if s.init then (s.ptr + 1) % 2 ^ P.iw else s.ptr
  pipe := fun j => match j with | 0 => enter P s i | j + 1 => s.pipe j
  tready := (goAcc P s i).isSome
  arready := (goRead P s i).isSome
  rdata := match answer P s with | some v => v | none => s.rdata
  rvalid := match answer P s with | some _ => true | none => s.rvalid && !i.rready
  mem := match write P s with | some (k, v) => upd s.mem k v | none => s.mem

/-- what an observer sees -/
structure G where
  /-- the increment accepted in each cycle, newest first -/
  hist : List (Option (Nat × Nat)) := []
  /-- reads accepted: the address, and the increments accepted before -/
  asks : List (Nat × List (Option (Nat × Nat))) := []
  /-- answers taken -/
  answers : List Nat := []
  /-- increments handed over: `tvalid && tready` -/
  handed : List (Nat × Nat) := []
  /-- addresses handed over: `arvalid && arready` -/
  addrs : List Nat := []

structure Sys where
  s : S
  g : G := {}

def watch (P : Params) (s : S) (g : G) (i : In) : G where
  hist := goAcc P s i :: g.hist
  asks := g.asks ++ ((goRead P s i).map fun a => (a, g.hist)).toList
  answers := g.answers ++ (if s.rvalid && i.rready then [s.rdata] else [])
  handed := g.handed ++ (if s.tready then i.stat.toList else [])
  addrs := g.addrs ++ (if s.arready then i.ar.toList else [])

def step (P : Params) (x : Sys) (i : In) : Sys := ⟨next P x.s i, watch P x.s x.g i⟩

def run (P : Params) (x : Sys) (is : List In) : Sys := is.foldl (step P) x

end Corundum.StatsCounter
