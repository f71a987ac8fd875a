/-! Periodic output: `ptp_perout.v` (fpga/lib/eth/rtl) with `FNS_ENABLE = 1`, one function per clock edge.  A nanoseconds register and the
register with its fraction of 16 bits are one number. -/
namespace Corundum.Perout

/-- states (fpga/lib/eth/rtl/ptp_perout.v:80-86) -/
inductive Fsm where
  | idle | rise1 | rise2 | fall1 | fall2 | wait
deriving DecidableEq, Repr

/-- a time: seconds, 48 bits, and nanoseconds with fraction -/
structure Tm where
  s : Nat
  x : Nat
deriving DecidableEq, Repr

/-- fields of a 96 bit time stamp (fpga/lib/eth/rtl/ptp_perout.v:234-238) -/
def ofTs (ts : Nat) : Tm := ⟨ts / 2 ^ 48 % 2 ^ 48, ts % 2 ^ 46⟩

/-- registers (fpga/lib/eth/rtl/ptp_perout.v:88-122) -/
structure Reg where
  fsm : Fsm := .idle
  time : Tm := ⟨0, 0⟩
  rise : Tm := ⟨0, 0⟩
  fall : Tm := ⟨0, 0⟩
  start : Tm
  period : Tm
  width : Tm
  inc : Nat := 0
  ovf : Nat := 0
  locked : Bool := false
  error : Bool := false
  level : Bool := false
  out : Bool := false
deriving DecidableEq, Repr

/-- parameters (fpga/lib/eth/rtl/ptp_perout.v:37-45) -/
structure Cfg where
  start : Tm
  period : Tm
  width : Tm

/-- inputs of a cycle (fpga/lib/eth/rtl/ptp_perout.v:49-66); `none`: the valid signal is low -/
structure In where
  rst : Bool := false
  ts : Nat
  step : Bool := false
  enable : Bool := true
  start : Option Nat := none
  period : Option Nat := none
  width : Option Nat := none
deriving DecidableEq, Repr

/-- `a > b` as the code compares times (fpga/lib/eth/rtl/ptp_perout.v:211, :216) -/
def after (a b : Tm) : Bool := decide (a.s > b.s) || (a.s == b.s && decide (a.x > b.x))

/-- `ts_96_ns_inc`, 30 bits and fraction (fpga/lib/eth/rtl/ptp_perout.v:172, :192) -/
def incOf (a b : Nat) : Nat := (a + b) % 2 ^ 46

/-- `ts_96_ns_ovf`, 31 bits and fraction (fpga/lib/eth/rtl/ptp_perout.v:173, :193) -/
def ovfOf (a b : Nat) : Nat := (a + b + 2 ^ 47 - 1000000000 * 2 ^ 16) % 2 ^ 47

/-- the sum of two times from the look ahead registers (fpga/lib/eth/rtl/ptp_perout.v:177-187, :197-207) -/
def sum (a b : Nat) (inc ovf : Nat) : Tm :=
  if ovf / 2 ^ 46 % 2 = 0 then ⟨(a + b + 1) % 2 ^ 48, ovf⟩ else ⟨(a + b) % 2 ^ 48, inc⟩

/-- next state and outputs (fpga/lib/eth/rtl/ptp_perout.v:128-229) -/
def Reg.next (k : Reg) (i : In) : Reg :=
  if i.start.isSome || i.period.isSome || i.step then
    { k with locked := false, level := false, out := false, error := i.step, fsm := .idle }
  else match k.fsm with
    | .idle => { k with rise := k.start, locked := false, level := false, out := false, fsm := .fall1 }
    | .rise1 => { k with inc := incOf k.rise.x k.period.x, ovf := ovfOf k.rise.x k.period.x, fsm := .rise2 }
    | .rise2 => { k with rise := sum k.rise.s k.period.s k.inc k.ovf, fsm := .wait }
    | .fall1 => { k with inc := incOf k.rise.x k.width.x, ovf := ovfOf k.rise.x k.width.x, fsm := .fall2 }
    | .fall2 => { k with fall := sum k.rise.s k.width.s k.inc k.ovf, fsm := .wait }
    | .wait =>
      if after k.time k.rise then { k with level := true, out := i.enable && k.locked, fsm := .rise1 }
      else if after k.time k.fall then { k with level := false, out := false, fsm := .fall1 }
      else { k with locked := k.locked || k.level, error := k.error && !(k.locked || k.level), fsm := .wait }

/-- one clock edge (fpga/lib/eth/rtl/ptp_perout.v:231-311) -/
def Reg.tick (c : Cfg) (k : Reg) (i : In) : Reg :=
  let n := { k.next i with
    time := ofTs i.ts
    start := match i.start with | some t => ofTs t | none => k.start
    period := match i.period with | some t => ofTs t | none => k.period
    width := match i.width with | some t => ofTs t | none => k.width }
  if i.rst then { n with fsm := .idle, start := c.start, period := c.period, width := c.width, locked := false, error := false, out := false }
  else n

end Corundum.Perout
