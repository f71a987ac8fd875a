/-!
Completion and event delivery with the Linux driver: interrupt handlers, NAPI polling and the card, all concurrent.

* `/repo/modules/mqnic/mqnic_eq.c:8-16` (`mqnic_eq_int`), 202-262 (`mqnic_process_eq`), `mqnic_rx.c:293-440` and
  `mqnic_tx.c:221-327` (`mqnic_process_*_cq`, `mqnic_*_irq`, `mqnic_poll_*_cq`), `mqnic_cq.c:129-141`,
  `mqnic_netdev.c:36-52` (a completion queue is opened, then armed);
* the card as in `Model/Wake`.

NAPI as in the kernel: `napi_schedule` marks an idle instance as scheduled and a scheduled one as missed;
`napi_complete` makes the instance idle, or schedules it again if it was missed; a poll that used up its budget stays
scheduled.  An instance is polled by one CPU at a time; different instances, and the interrupt handlers of different event
queues, run concurrently.  An interrupt arriving while its handler runs is remembered (once).  Register writes are posted
and reach the card in order, separately for every queue.  A handler may also run without an interrupt for its queue (event
queues can share an interrupt).
-/

namespace Corundum.WakeLinux

inductive Napi where
  | idle
  | sched
  | poll (c n : Nat)      -- in mqnic_process_*_cq: next completion to read, completions done
  | wrote (n : Nat)       -- consumer pointer written, about to return
deriving DecidableEq

/-- a register write on its way to the card -/
inductive Wr where
  | cons (v : Nat)
  | arm
deriving DecidableEq

/-- a completion queue: card (armed, committed, consumer register), host memory (entries visible), driver (consumer
pointer, NAPI state, polls that have called `napi_complete` and not yet armed the queue) -/
structure Cq where
  opn : Bool := false
  armed : Bool := false
  prod : Nat := 0
  vis : Nat := 0
  cons : Nat := 0
  drv : Nat := 0
  napi : Napi := .idle
  missed : Bool := false
  fin : Nat := 0
  wq : List Wr := []

inductive Pc where
  | idle
  | loop (p : Nat)        -- mqnic_process_eq, about to read event `p`
  | armEq
deriving DecidableEq

structure Eq where
  armed : Bool := true
  log : List Nat := []
  prod : Nat := 0
  cons : Nat := 0
  drv : Nat := 0
  irq : Bool := false
  pc : Pc := .idle
  wq : List Wr := []

structure S where
  cq : Nat → Cq
  eq : Nat → Eq
  fifo : List Nat
  lost : List Nat
  up : Bool

structure Params where
  cqSize : Nat
  eqSize : Nat
  budget : Nat
  eqOf : Nat → Nat

def upd {α : Type} (f : Nat → α) (k : Nat) (v : α) : Nat → α := fun j => if j = k then v else f j

def init : S := { cq := fun _ => {}, eq := fun _ => {}, fifo := [], lost := [], up := false }

/-- `napi_schedule` -/
def Cq.schedule (c : Cq) : Cq :=
  if c.napi = .idle then { c with napi := .sched } else { c with missed := true }

/-- `napi_complete`, after which the poll function arms the queue whatever it returned (mqnic_rx.c:436-438) -/
def Cq.complete (c : Cq) : Cq :=
  if c.missed then { c with napi := .sched, missed := false, fin := c.fin + 1 }
  else { c with napi := .idle, fin := c.fin + 1 }

/-- one step of the poll function -/
def Cq.poll (P : Params) (up : Bool) (c : Cq) : Option Cq :=
  match c.napi with
  | .idle => none
  | .sched => if up then some { c with napi := .poll c.drv 0 } else some c.complete
  | .poll k n =>
    if n < P.budget ∧ k < c.vis then some { c with napi := .poll (k + 1) (n + 1) }
    else some { c with drv := k, wq := c.wq ++ [.cons k], napi := .wrote n }
  | .wrote n => if n = P.budget then some { c with napi := .sched } else some c.complete

inductive Act where
  | openCq (q : Nat)
  | setUp
  | write (q : Nat)
  | commit (q : Nat)
  | evWrite
  | evCommit (e : Nat)
  | regC (q : Nat)       -- the oldest register write of a completion queue reaches the card
  | regE (e : Nat)       -- the oldest register write of an event queue reaches the card
  | shared (e : Nat)     -- the handler of an event queue is entered for another queue's interrupt
  | irq (e : Nat)        -- the interrupt handler of an event queue takes a step
  | poll (q : Nat)       -- the poll function of a completion queue takes a step
  | arm (q : Nat)        -- a poll that has completed arms the queue
deriving DecidableEq

def step (P : Params) (s : S) : Act → Option S
  | .openCq q =>
    if (s.cq q).opn then none
    else some { s with cq := upd s.cq q { s.cq q with opn := true, wq := (s.cq q).wq ++ [.arm] } }
  | .setUp => some { s with up := true }
  | .write q =>
    if (s.cq q).opn ∧ (s.cq q).vis - (s.cq q).cons < P.cqSize then
      some { s with cq := upd s.cq q { s.cq q with vis := (s.cq q).vis + 1 } }
    else none
  | .commit q =>
    if (s.cq q).prod < (s.cq q).vis then
      if (s.cq q).armed then
        some { s with cq := upd s.cq q { s.cq q with prod := (s.cq q).prod + 1, armed := false }, fifo := s.fifo ++ [q] }
      else some { s with cq := upd s.cq q { s.cq q with prod := (s.cq q).prod + 1 } }
    else none
  | .evWrite =>
    match s.fifo with
    | [] => none
    | q :: f =>
      let e := P.eqOf q
      if (s.eq e).log.length - (s.eq e).cons < P.eqSize then
        some { s with fifo := f, eq := upd s.eq e { s.eq e with log := (s.eq e).log ++ [q] } }
      else some { s with fifo := f, lost := s.lost ++ [q] }
  | .evCommit e =>
    if (s.eq e).prod < (s.eq e).log.length then
      if (s.eq e).armed then
        some { s with eq := upd s.eq e { s.eq e with prod := (s.eq e).prod + 1, armed := false, irq := true } }
      else some { s with eq := upd s.eq e { s.eq e with prod := (s.eq e).prod + 1 } }
    else none
  | .regC q =>
    match (s.cq q).wq with
    | [] => none
    | .cons v :: ws => some { s with cq := upd s.cq q { s.cq q with wq := ws, cons := v } }
    | .arm :: ws =>
      if (s.cq q).prod = (s.cq q).cons then some { s with cq := upd s.cq q { s.cq q with wq := ws, armed := true } }
      else some { s with cq := upd s.cq q { s.cq q with wq := ws, armed := false }, fifo := s.fifo ++ [q] }
  | .regE e =>
    match (s.eq e).wq with
    | [] => none
    | .cons v :: ws => some { s with eq := upd s.eq e { s.eq e with wq := ws, cons := v } }
    | .arm :: ws =>
      if (s.eq e).prod = (s.eq e).cons then some { s with eq := upd s.eq e { s.eq e with wq := ws, armed := true } }
      else some { s with eq := upd s.eq e { s.eq e with wq := ws, armed := false, irq := true } }
  | .shared e =>
    match (s.eq e).pc with
    | .idle => some { s with eq := upd s.eq e { s.eq e with pc := .loop (s.eq e).drv } }
    | _ => none
  | .irq e =>
    match (s.eq e).pc with
    | .idle =>
      if (s.eq e).irq then some { s with eq := upd s.eq e { s.eq e with irq := false, pc := .loop (s.eq e).drv } } else none
    | .loop p =>
      match (s.eq e).log[p]? with
      | some q => some { s with eq := upd s.eq e { s.eq e with pc := .loop (p + 1) }, cq := upd s.cq q (s.cq q).schedule }
      | none => some { s with eq := upd s.eq e { s.eq e with drv := p, wq := (s.eq e).wq ++ [.cons p], pc := .armEq } }
    | .armEq => some { s with eq := upd s.eq e { s.eq e with wq := (s.eq e).wq ++ [.arm], pc := .idle } }
  | .poll q => ((s.cq q).poll P s.up).map fun c => { s with cq := upd s.cq q c }
  | .arm q =>
    if 0 < (s.cq q).fin then
      some { s with cq := upd s.cq q { s.cq q with fin := (s.cq q).fin - 1, wq := (s.cq q).wq ++ [.arm] } }
    else none

def run (P : Params) : S → List Act → Option S
  | s, [] => some s
  | s, a :: as => (step P s a).bind fun s' => run P s' as

end Corundum.WakeLinux
