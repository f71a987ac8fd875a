import Verif.Model.CplWrite
import Verif.Model.RxHash

/-!
Statistics collector: /repo/fpga/common/rtl/stats_collect.v, one step per clock edge.

Increments for `COUNT` counters arrive in parallel and are summed in short accumulators.  The accumulators are visited in turn, two cycles each, and
added to a memory.  When a counter is due for an update and the output is free, its sum is sent out instead and the memory is cleared.

Simplification: vectors with one entry per counter are functions of the counter; reset is the initial state only.
-/
namespace Corundum.StatsCollect
open Corundum.CplWrite (upd)

structure Params where
  /-- `COUNT` -/
  n : Nat
  /-- `INC_WIDTH` -/
  iw : Nat
  /-- `STAT_INC_WIDTH` -/
  sw : Nat
  /-- `UPDATE_PERIOD` -/
  period : Nat

/-- `ACC_WIDTH` (stats_collect.v:73) -/
def Params.aw (P : Params) : Nat := P.iw + RxHash.clog2 P.n + 1

/-- `PERIOD_COUNT_WIDTH` (stats_collect.v:72) -/
def Params.pw (P : Params) : Nat := RxHash.clog2 (P.period - 1)

/-- the inputs during one cycle -/
structure In where
  /-- `stat_inc` where `stat_valid` -/
  inc : Nat → Option Nat := fun _ => none
  /-- `m_axis_stat_tready` -/
  ready : Bool := false
  /-- `update` -/
  update : Bool := false

/-- the registers (stats_collect.v:79-103), with their initial values; `mem` is not initialised: `init` has arbitrary values -/
structure S where
  /-- `state_reg == STATE_WRITE` -/
  wr : Bool := false
  data : Nat := 0
  id : Nat := 0
  valid : Bool := false
  count : Nat := 0
  timer : Nat
  zero : Nat → Bool := fun _ => true
  due : Nat → Bool := fun _ => false
  acc : Nat → Nat := fun _ => 0
  mem : Nat → Nat
  rd : Nat := 0

/-- after reset, whatever the memory holds -/
def init (P : Params) (mem : Nat → Nat) : S := { timer := (P.period - 1) % 2 ^ P.pw, mem := mem }

/-- the sum for the counter visited (stats_collect.v:166-185) -/
def sum (s : S) : Nat := if s.zero s.count then s.acc s.count else s.rd + s.acc s.count

/-- the sum is sent out (stats_collect.v:164) -/
def emit (s : S) : Bool := s.wr && !s.valid && s.due s.count

/-- an accumulator (stats_collect.v:118-136) -/
def accNext (P : Params) (clear : Bool) (a : Nat) (i : Option Nat) : Nat :=
  if clear then (match i with | some x => x | none => 0)
  else (match i with | some x => (a + x) % 2 ^ P.aw | none => a)

/-- one clock edge (stats_collect.v:140-233) -/
def next (P : Params) (s : S) (i : In) : S where
  wr := !s.wr
  data := if emit s then sum s % 2 ^ P.sw else s.data
  id := if emit s then s.count else s.id
  valid := if emit s then decide (sum s ≠ 0) else s.valid && !i.ready
  count := if s.wr then (if s.count = P.n - 1 then 0 else s.count + 1) else s.count
  timer := if s.timer = 0 then (P.period - 1) % 2 ^ P.pw else s.timer - 1
  zero := if s.wr then upd s.zero s.count false else s.zero
  due := if i.update || s.timer == 0 then fun _ => true else if emit s then upd s.due s.count false else s.due
  acc := fun j => accNext P (s.wr && j == s.count) (s.acc j) (i.inc j)
  mem := if s.wr then upd s.mem s.count (if emit s then 0 else sum s % 2 ^ P.sw) else s.mem
  rd := if s.wr then s.rd else s.mem s.count

/-- what an observer of the interfaces sees -/
structure G where
  /-- sum of the increments of a counter -/
  total : Nat → Nat := fun _ => 0
  /-- updates taken: counter, increment -/
  outs : List (Nat × Nat) := []

structure Sys where
  s : S
  g : G := {}

def watch (s : S) (g : G) (i : In) : G where
  total := fun j => g.total j + (i.inc j).getD 0
  outs := g.outs ++ (if s.valid && i.ready then [(s.id, s.data)] else [])

def step (P : Params) (x : Sys) (i : In) : Sys := ⟨next P x.s i, watch x.s x.g i⟩

def run (P : Params) (x : Sys) (is : List In) : Sys := is.foldl (step P) x

end Corundum.StatsCollect
