/-!
Interrupts of the simulation driver, fpga/common/tb/mqnic.py:1584-1611 (`Interrupt`) and 1761-1769
(`Driver._run_edge_interrupts`).

The coroutines run between events: a change of the signal, or the coroutine `Interrupt._run` of one line taking an
element of its queue.  `interrupt` does not wait, so a change is worked off before the next one.
-/
namespace Corundum.IrqEdge

/-- an event: the signal changes to a value, or a line's `_run` takes an element (if there is one) and runs the handler -/
inductive Ev where
  | change (val : Nat)
  | serve (line : Nat)
deriving DecidableEq, Repr

/-- `last_val` (:1762), the lengths of the queues (:1587), ghost: the handler runs, by line, the latest first -/
structure St where
  last : Nat
  queue : Nat → Nat
  runs : List Nat

def init : St := ⟨0, fun _ => 0, []⟩

/-- Interrupt.interrupt, :1599-1600 -/
def put (q : Nat → Nat) (x : Nat) : Nat → Nat := fun y => if y = x then q y + 1 else q y

/-- `edge = val & ~last_val`, :1767; the bits of a signal with `count` lines -/
def edge (count val last : Nat) : List Nat := (List.range count).filter fun x => val.testBit x && !last.testBit x

/-- _run_edge_interrupts, :1761-1769 (`last_val` is not assigned in the loop), and _run, :1602-1606 -/
def step (count : Nat) (s : St) : Ev → St
  | .change val => { s with queue := (edge count val s.last).foldl put s.queue }
  | .serve x => if s.queue x = 0 then s else { s with queue := fun y => if y = x then s.queue y - 1 else s.queue y, runs := x :: s.runs }

def run (count : Nat) (es : List Ev) : St := es.foldl (step count) init

/-- `Interrupt.from_edge` and `_run_edge`, :1593-1597, :1608-1611: `self.interrupt()` makes a coroutine and does not run
it, so a rising edge puts nothing into the queue -/
def stepFromEdge (s : St) : Ev → St
  | .change _ => s
  | .serve x => if s.queue x = 0 then s else { s with queue := fun y => if y = x then s.queue y - 1 else s.queue y, runs := x :: s.runs }

end Corundum.IrqEdge
