/-! `tdma_scheduler.v` (fpga/common/rtl): from the PTP time it derives when time slots begin and end.  One step per clock edge. -/
namespace Corundum.TdmaSched

/-- `state_reg` (tdma_scheduler.v:98-107) -/
inductive Fsm where
  | idle | sched1 | sched2 | slot1 | slot2 | slot3 | wait
deriving DecidableEq, Repr

/-- a time: seconds, 48 bits, and nanoseconds, 31 bits -/
structure Tm where
  s : Nat
  x : Nat
deriving DecidableEq, Repr

/-- fields of a 96 bit time stamp; the fraction is left out (tdma_scheduler.v:296-297) -/
def ofTs (ts : Nat) : Tm := ⟨ts / 2 ^ 48 % 2 ^ 48, ts / 2 ^ 16 % 2 ^ 30⟩

/-- fields of an 80 bit setting (tdma_scheduler.v:299-317) -/
def ofSet (v : Nat) : Tm := ⟨v / 2 ^ 32 % 2 ^ 48, v % 2 ^ 31⟩

/-- parameters (tdma_scheduler.v:18-34) -/
structure Cfg where
  iw : Nat
  start : Tm
  period : Tm
  slot : Tm
  active : Tm

/-- inputs at an edge (tdma_scheduler.v:37-57); `none`: the valid signal is low -/
structure In where
  rst : Bool := false
  ts : Nat
  step : Bool := false
  enable : Bool := true
  start : Option Nat := none
  period : Option Nat := none
  slot : Option Nat := none
  active : Option Nat := none
deriving DecidableEq, Repr

/-- registers (tdma_scheduler.v:107-145) -/
structure Reg where
  fsm : Fsm := .idle
  time : Tm := ⟨0, 0⟩
  first : Tm := ⟨0, 0⟩
  next : Tm := ⟨0, 0⟩
  aend : Tm := ⟨0, 0⟩
  start : Tm
  period : Tm
  slot : Tm
  active : Tm
  inc : Nat := 0
  ovf : Nat := 0
  locked : Bool := false
  lockedInt : Bool := false
  error : Bool := false
  running : Bool := false
  schedStart : Bool := false
  index : Nat := 0
  slotStart : Bool := false
  slotEnd : Bool := false
  slotActive : Bool := false
deriving DecidableEq, Repr

/-- `a > b` as the code compares times (tdma_scheduler.v:261, 272, 279) -/
def after (a b : Tm) : Bool := decide (a.s > b.s) || (a.s == b.s && decide (a.x > b.x))

/-- `ts_ns_inc`, 30 bits (tdma_scheduler.v:209, 229, 244) -/
def incOf (a b : Nat) : Nat := (a + b) % 2 ^ 30

/-- `ts_ns_ovf`, 31 bits (tdma_scheduler.v:210, 230, 245) -/
def ovfOf (a b : Nat) : Nat := (a + b + 2 ^ 31 - 1000000000) % 2 ^ 31

/-- the sum of two times from the look ahead registers (tdma_scheduler.v:214-222, 234-242, 249-257) -/
def sum (a b : Nat) (inc ovf : Nat) : Tm :=
  if ovf / 2 ^ 30 % 2 = 0 then ⟨(a + b + 1) % 2 ^ 48, ovf⟩ else ⟨(a + b) % 2 ^ 48, inc⟩

/-- `STATE_WAIT` (tdma_scheduler.v:260-288) -/
def Reg.onWait (c : Cfg) (k : Reg) (i : In) : Reg :=
  if after k.time k.first then
    let on := i.enable && k.lockedInt
    { k with
      schedStart := on, index := 0, slotStart := on, slotEnd := k.slotActive, slotActive := on, running := true
      locked := k.lockedInt, error := k.error && !k.lockedInt, fsm := .sched1 }
  else if after k.time k.next then
    let on := i.enable && k.locked
    { k with
      schedStart := false, index := (k.index + 1) % 2 ^ c.iw, slotStart := on, slotEnd := k.slotActive, slotActive := on, fsm := .slot1 }
  else if k.slotActive && after k.time k.aend then
    { k with schedStart := false, slotStart := false, slotEnd := true, slotActive := false, fsm := .wait }
  else { k with schedStart := false, slotStart := false, slotEnd := false, lockedInt := k.running, fsm := .wait }

/-- next state and outputs (tdma_scheduler.v:156-291) -/
def Reg.next' (c : Cfg) (k : Reg) (i : In) : Reg :=
  let z := { k with schedStart := false, slotStart := false, slotEnd := false }
  if i.start.isSome || i.period.isSome || i.step then
    { z with index := 0, slotEnd := k.slotActive, slotActive := false, error := i.step, fsm := .idle }
  else match k.fsm with
    | .idle =>
      { z with
        first := k.start, next := k.start, index := 0, slotEnd := k.slotActive, slotActive := false, locked := false, lockedInt := false
        running := false, fsm := .wait }
    | .sched1 => { z with inc := incOf k.first.x k.period.x, ovf := ovfOf k.first.x k.period.x, fsm := .sched2 }
    | .sched2 => { z with first := sum k.first.s k.period.s k.inc k.ovf, next := k.first, fsm := .slot1 }
    | .slot1 => { z with inc := incOf k.next.x k.active.x, ovf := ovfOf k.next.x k.active.x, fsm := .slot2 }
    | .slot2 =>
      { z with
        aend := sum k.next.s k.active.s k.inc k.ovf, inc := incOf k.next.x k.slot.x, ovf := ovfOf k.next.x k.slot.x, fsm := .slot3 }
    | .slot3 => { z with next := sum k.next.s k.slot.s k.inc k.ovf, fsm := .wait }
    | .wait => k.onWait c i

/-- one clock edge (tdma_scheduler.v:293-371) -/
def Reg.tick (c : Cfg) (k : Reg) (i : In) : Reg :=
  let n := { k.next' c i with
    time := ofTs i.ts
    start := match i.start with | some t => ofSet t | none => k.start
    period := match i.period with | some t => ofSet t | none => k.period
    slot := match i.slot with | some t => ofSet t | none => k.slot
    active := match i.active with | some t => ofSet t | none => k.active }
  if i.rst then
    { n with
      fsm := .idle, time := ⟨0, 0⟩, start := c.start, period := c.period, slot := c.slot, active := c.active, locked := false, lockedInt := false
      error := false, running := false, schedStart := false, index := 0, slotStart := false, slotEnd := false, slotActive := false }
  else n

/-- registers at power up (tdma_scheduler.v:107-145) -/
def Cfg.init (c : Cfg) : Reg := { start := c.start, period := c.period, slot := c.slot, active := c.active }

/-- registers after each of a list of edges -/
def trace (c : Cfg) (k : Reg) : List In → List Reg
  | [] => []
  | i :: is => k.tick c i :: trace c (k.tick c i) is

end Corundum.TdmaSched
