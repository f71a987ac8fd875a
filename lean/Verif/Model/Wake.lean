/-!
Completion and event delivery, end to end: the completion queues and event queues of the card, and the interrupt
handler of the driver, running concurrently.

* the driver: `/repo/fpga/common/tb/mqnic.py:1771-1778` (`Driver.interrupt_handler`), 552-580 (`Eq.process_eq`),
  813-860 and 1021-1084 (`process_tx_cq`, `process_rx_cq`), 543-550 and 674-679 (`arm`), 1424-1449 (`Interface.open`),
  1584-1607 (`Interrupt`: a queue of interrupts, handled one after another);
* the card, one transaction at a time: `/repo/fpga/common/rtl/cpl_write.v:297-387` (a completion or event is written to host
  memory, and committed when the write is done; it is dropped when the queue is full), `cpl_queue_manager.v:452-472`
  (a commit on an armed queue produces an event and disarms it), 556-570 (an arm command on a non-empty queue
  produces the event at once), `mqnic_interface.v:1557-1600` (completion queue events go through a FIFO to the event
  queue writer), 930-960 (event queue events become interrupts).

The card and the driver take steps in any order.  Register writes of the driver are posted: they reach the card later,
in order.  The pieces are modelled in detail elsewhere (`Model/CplQueue` for the queue manager, `Model/CplRing` for the
phase bit); here a ring is the number of entries written so far, all pointers are unbounded counts, and reading the
entry at `c` finds it valid exactly if `c` entries or more have been written before it (`C07`).

Simplifications: all event queues of the interface share one interrupt (as `Interface.init`, 1415-1420, sets them up); the
completion ring processing and refill that follow a completion read do not touch any of this state and are left out;
`Interface.close` is not modelled.
-/

namespace Corundum.Wake

/-- a completion queue: open in the driver, the armed flag of the card, entries committed (the card's producer pointer),
entries visible in host memory, the consumer pointer register of the card, and the driver's consumer pointer -/
structure Cq where
  opn : Bool := false
  armed : Bool := false
  prod : Nat := 0
  vis : Nat := 0
  cons : Nat := 0
  drv : Nat := 0

/-- an event queue: the armed flag, the events in host memory (each the number of a completion queue), the entries
committed, the card's consumer pointer and the driver's -/
structure Eq where
  armed : Bool := true
  log : List Nat := []
  prod : Nat := 0
  cons : Nat := 0
  drv : Nat := 0

/-- a register write on its way to the card -/
inductive Wr where
  | cqCons (q v : Nat)
  | cqArm (q : Nat)
  | eqCons (e v : Nat)
  | eqArm (e : Nat)
deriving DecidableEq

/-- where the interrupt handler is -/
inductive Pc where
  | idle
  | start (e : Nat)            -- the loop over event queues, 1773-1775
  | loop (e p : Nat)           -- process_eq about to read event `p`, 562-570
  | cons (e p q c : Nat)       -- the completion handler of `q`, about to read completion `c`, 829-846
  | wrCons (e p q : Nat)       -- 848-849
  | arm (e p q : Nat)          -- 575
  | wrEq (e : Nat)             -- 580
  | armEq (e : Nat)            -- 1777
deriving DecidableEq

structure S where
  cq : Nat → Cq
  eq : Nat → Eq
  fifo : List Nat              -- events on their way to the event queue writer
  wq : List Wr                 -- register writes on their way to the card
  irq : Nat                    -- interrupts raised and not yet handled
  up : Bool                    -- interface.port_up
  pc : Pc
  lost : List Nat              -- events dropped because the event queue was full (ghost)

structure Params where
  nEq : Nat                    -- number of event queues
  cqSize : Nat
  eqSize : Nat
  eqOf : Nat → Nat             -- event queue of each completion queue

def upd {α : Type} (f : Nat → α) (k : Nat) (v : α) : Nat → α := fun j => if j = k then v else f j

/-- mqnic.py:1415-1420: the event queues are open, empty and armed, no completion queue is open -/
def init : S := { cq := fun _ => {}, eq := fun _ => {}, fifo := [], wq := [], irq := 0, up := false, pc := .idle, lost := [] }

/-- a register write takes effect (cpl_queue_manager.v:520-570).  An arm command finding the queue non-empty produces the
event at once and leaves the queue disarmed. -/
def apply (s : S) : Wr → S
  | .cqCons q v => { s with cq := upd s.cq q { s.cq q with cons := v } }
  | .cqArm q =>
    if (s.cq q).prod = (s.cq q).cons then { s with cq := upd s.cq q { s.cq q with armed := true } }
    else { s with cq := upd s.cq q { s.cq q with armed := false }, fifo := s.fifo ++ [q] }
  | .eqCons e v => { s with eq := upd s.eq e { s.eq e with cons := v } }
  | .eqArm e =>
    if (s.eq e).prod = (s.eq e).cons then { s with eq := upd s.eq e { s.eq e with armed := true } }
    else { s with eq := upd s.eq e { s.eq e with armed := false }, irq := s.irq + 1 }

/-- one step of the interrupt handler; `none` if it is waiting for an interrupt -/
def drv (P : Params) (s : S) : Option S :=
  match s.pc with
  | .idle => if 0 < s.irq then some { s with irq := s.irq - 1, pc := .start 0 } else none
  | .start e =>
    if e < P.nEq then
      if s.up then some { s with pc := .loop e (s.eq e).drv } else some { s with pc := .armEq e }
    else some { s with pc := .idle }
  | .loop e p =>
    match (s.eq e).log[p]? with
    | some q => if s.up then some { s with pc := .cons e p q (s.cq q).drv } else some { s with pc := .arm e p q }
    | none => some { s with eq := upd s.eq e { s.eq e with drv := p }, pc := .wrEq e }
  | .cons e p q c =>
    if c < (s.cq q).vis then some { s with pc := .cons e p q (c + 1) }
    else some { s with cq := upd s.cq q { s.cq q with drv := c }, pc := .wrCons e p q }
  | .wrCons e p q => some { s with wq := s.wq ++ [.cqCons q (s.cq q).drv], pc := .arm e p q }
  | .arm e p q => some { s with wq := s.wq ++ [.cqArm q], pc := .loop e (p + 1) }
  | .wrEq e => some { s with wq := s.wq ++ [.eqCons e (s.eq e).drv], pc := .armEq e }
  | .armEq e => some { s with wq := s.wq ++ [.eqArm e], pc := .start (e + 1) }

inductive Act where
  | openCq (q : Nat)   -- Interface.open: cq.open, cq.arm (1425-1428)
  | setUp              -- Interface.open: port_up = True (1449)
  | write (q : Nat)    -- a completion reaches host memory
  | commit (q : Nat)   -- the oldest uncommitted completion of the queue is committed
  | evWrite            -- the oldest event in the FIFO reaches host memory, or is dropped (cpl_write.v:340-350)
  | evCommit (e : Nat) -- the oldest uncommitted event of the queue is committed
  | reg                -- the oldest register write reaches the card
  | drv                -- the interrupt handler takes a step
deriving DecidableEq

def step (P : Params) (s : S) : Act → Option S
  | .openCq q =>
    if (s.cq q).opn then none
    else some { s with cq := upd s.cq q { s.cq q with opn := true }, wq := s.wq ++ [.cqArm q] }
  | .setUp => some { s with up := true }
  | .write q =>
    if (s.cq q).opn ∧ (s.cq q).vis - (s.cq q).cons < P.cqSize then
      some { s with cq := upd s.cq q { s.cq q with vis := (s.cq q).vis + 1 } }
    else none
  | .commit q =>
    if (s.cq q).prod < (s.cq q).vis then
      if (s.cq q).armed then
        some { s with cq := upd s.cq q { s.cq q with prod := (s.cq q).prod + 1, armed := false }, fifo := s.fifo ++ [q] }
      else some { s with cq := upd s.cq q { s.cq q with prod := (s.cq q).prod + 1 } }
    else none
  | .evWrite =>
    match s.fifo with
    | [] => none
    | q :: f =>
      let e := P.eqOf q
      if (s.eq e).log.length - (s.eq e).cons < P.eqSize then
        some { s with fifo := f, eq := upd s.eq e { s.eq e with log := (s.eq e).log ++ [q] } }
      else some { s with fifo := f, lost := s.lost ++ [q] }
  | .evCommit e =>
    if (s.eq e).prod < (s.eq e).log.length then
      if (s.eq e).armed then
        some { s with eq := upd s.eq e { s.eq e with prod := (s.eq e).prod + 1, armed := false }, irq := s.irq + 1 }
      else some { s with eq := upd s.eq e { s.eq e with prod := (s.eq e).prod + 1 } }
    else none
  | .reg =>
    match s.wq with
    | [] => none
    | w :: ws => some (apply { s with wq := ws } w)
  | .drv => drv P s

/-- the run of a list of actions; `none` if one of them is not possible when its turn comes -/
def run (P : Params) : S → List Act → Option S
  | s, [] => some s
  | s, a :: as => (step P s a).bind fun s' => run P s' as

end Corundum.Wake
