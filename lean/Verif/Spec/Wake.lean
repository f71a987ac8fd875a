import Verif.Model.Wake

namespace Corundum.Wake

/-- nothing is going on: the interrupt handler waits, no interrupt is pending, no register write, event or interrupt is on
its way, and everything written to host memory has been committed -/
structure Quiet (s : S) : Prop where
  pc : s.pc = .idle
  irq : s.irq = 0
  wq : s.wq = []
  fifo : s.fifo = []
  cq : ∀ q, (s.cq q).prod = (s.cq q).vis
  eq : ∀ e, (s.eq e).prod = (s.eq e).log.length

/-- how many events of event queue `e` the interrupt handler is done with -/
def pos (s : S) (e : Nat) : Nat :=
  match s.pc with
  | .loop e' p | .cons e' p _ _ | .wrCons e' p _ | .arm e' p _ => if e' = e then p else (s.eq e).drv
  | _ => (s.eq e).drv

/-- actions that do not create new work: no completion is written -/
def Act.internal : Act → Bool
  | .write _ | .openCq _ | .setUp => false
  | _ => true

end Corundum.Wake
