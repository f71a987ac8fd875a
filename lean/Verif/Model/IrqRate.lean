/-!
Interrupt rate limiter: /repo/fpga/lib/pcie/rtl/irq_rate_limit.v.

One step is one clock cycle.  The state starts after reset, with arbitrary memory content.
-/
namespace Corundum.IrqRate

/-- a word of `mem_reg`: pending bit, timer running, deadline of 17 bits (irq_rate_limit.v:80, 83) -/
structure Ent where
  pend : Bool
  run : Bool
  dl : Nat
deriving DecidableEq, Repr

/-- `state_reg` (irq_rate_limit.v:64-68) -/
inductive Ph
  | init
  | idle
  | irqIn
  | irqOut
deriving DecidableEq, Repr

/-- the registers: `state_reg`, `cur_index_reg`, `irq_index_reg`, `mem_reg`, `mem_rd_data_reg`, `mem_rd_data_valid_reg`, `in_irq_ready_reg`, `out_irq_index_reg`, `out_irq_valid_reg`,
`prescale_count_reg`, `time_count_reg` (irq_rate_limit.v:70-91, 103-104); `ticks` (ghost): steps of the time counter, without wrapping -/
structure St where
  ph : Ph
  cur : Nat
  idx : Nat
  mem : Nat → Ent
  rd : Ent
  rdv : Bool
  rdy : Bool
  oidx : Nat
  ov : Bool
  pre : Nat
  time : Nat
  ticks : Nat

/-- the inputs of a cycle: `in_irq_valid`, `in_irq_index`, `out_irq_ready`, `prescale`, `min_interval` -/
structure In where
  iv : Bool
  ii : Nat
  ordy : Bool
  pre : Nat
  min : Nat

def upd (f : Nat → Ent) (a : Nat) (x : Ent) : Nat → Ent := fun b => if b = a then x else f b

/-- the timer has expired (irq_rate_limit.v:163).  The difference is compared with an integer constant, so it is formed with 32 bits -/
def expired (dl time : Nat) : Bool := (dl + 2 ^ 32 - time) % 2 ^ 32 / 2 ^ 16 != 0

/-- the interrupt put into the output register in this cycle (irq_rate_limit.v:190-203, 210-224) -/
def load (s : St) (i : In) : Option Nat :=
  match s.ph with
  | .irqIn => if !s.rd.run && (!s.ov || i.ordy) then some s.idx else none
  | .irqOut => if s.rd.pend && (!s.ov || i.ordy) then some s.idx else none
  | _ => none

/-- the word written when an interrupt is put out (irq_rate_limit.v:193-195, 214-216) -/
def started (s : St) (i : In) : Ent := ⟨false, i.min != 0, (s.time + i.min) % 2 ^ 17⟩

/-- the state machine without the output register and the time (irq_rate_limit.v:120-242, 244-261) -/
def fsm (w : Nat) (s : St) (i : In) : St :=
  match s.ph with
  | .init =>
    let cur := (s.cur + 1) % 2 ^ w
    { s with mem := upd s.mem s.cur ⟨false, false, 0⟩, cur := cur, ph := if cur = 0 then .idle else .init, rdy := false }
  | .idle =>
    if i.iv && s.rdy then { s with idx := i.ii, rd := s.mem i.ii, rdv := true, rdy := false, ph := .irqIn }
    else if s.rdv && s.rd.run && expired s.rd.dl s.time then { s with rdy := false, ph := .irqOut }
    else { s with idx := s.cur, rd := s.mem s.cur, rdv := true, cur := (s.cur + 1) % 2 ^ w, rdy := true }
  | .irqIn =>
    if s.rd.run then { s with mem := upd s.mem s.idx ⟨true, true, s.rd.dl⟩, rdv := false, rdy := true, ph := .idle }
    else if (load s i).isSome then { s with mem := upd s.mem s.idx (started s i), rdv := false, rdy := true, ph := .idle }
    else { s with rdy := false }
  | .irqOut =>
    if s.rd.pend then
      if (load s i).isSome then { s with mem := upd s.mem s.idx (started s i), rdv := false, rdy := true, ph := .idle }
      else { s with rdy := false }
    else { s with mem := upd s.mem s.idx ⟨false, false, 0⟩, rdv := false, rdy := true, ph := .idle }

/-- a clock cycle (irq_rate_limit.v:106-118, 244-270) -/
def step (w : Nat) (s : St) (i : In) : St :=
  { fsm w s i with
    ov := (load s i).isSome || (s.ov && !i.ordy)
    oidx := (load s i).getD s.oidx
    pre := if s.pre = 0 then i.pre else s.pre - 1
    time := if s.pre = 0 then (s.time + 1) % 2 ^ 17 else s.time
    ticks := if s.pre = 0 then s.ticks + 1 else s.ticks }

/-- after reset (irq_rate_limit.v:114-117, 263-269) -/
def init (mem : Nat → Ent) : St :=
  { ph := .init, cur := 0, idx := 0, mem := mem, rd := ⟨false, false, 0⟩, rdv := false, rdy := false, oidx := 0, ov := false, pre := 0, time := 0, ticks := 0 }

end Corundum.IrqRate
