import Verif.Model.WakeLinux

namespace Corundum.WakeLinux

/-- nothing is going on: no poll, handler, interrupt, register write or event is pending and everything written to host
memory has been committed -/
structure Quiet (s : S) : Prop where
  fifo : s.fifo = []
  cq : ∀ q, (s.cq q).prod = (s.cq q).vis ∧ (s.cq q).napi = .idle ∧ (s.cq q).fin = 0 ∧ (s.cq q).wq = []
  eq : ∀ e, (s.eq e).prod = (s.eq e).log.length ∧ (s.eq e).pc = .idle ∧ (s.eq e).irq = false ∧ (s.eq e).wq = []

/-- how many events the interrupt handler of an event queue is done with -/
def Eq.pos (x : Eq) : Nat :=
  match x.pc with
  | .loop p => p
  | _ => x.drv

/-- the arm command about to reach the card, if any, does not overtake the consumer pointer update for the queue's last event -/
def armOk (P : Params) (s : S) (q : Nat) : Prop :=
  (s.cq q).wq.head? = some .arm →
    q ∉ ((s.eq (P.eqOf q)).log.take (s.eq (P.eqOf q)).pos).drop (s.eq (P.eqOf q)).cons

end Corundum.WakeLinux
