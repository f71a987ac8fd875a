/-! PTP clocks: the bus functional model `PtpClock` (fpga/lib/eth/tb/ptp.py) and `ptp_clock.v` (fpga/lib/eth/rtl), one function per
clock edge.  A nanoseconds register and the register with its fraction are one number: `{ns, fns} = ns * 2 ^ F + fns`. -/
namespace Corundum.PtpClock

/-! ### tb/ptp.py -/

/-- local variables of `logic` (fpga/lib/eth/tb/ptp.py:55-62), fraction of 16 bits; `l96`, `l64` are the lists of pending sets (:35-36) -/
structure Bfm where
  s : Nat := 0
  t96 : Nat := 0
  t64 : Nat := 0
  cnt : Nat := 0
  l96 : List Nat := []
  l64 : List Nat := []
deriving DecidableEq, Repr

/-- parameters `(period_ns << 16) + period_fns`, `(drift_ns << 16) + drift_fns`, `drift_rate` (fpga/lib/eth/tb/ptp.py:28-33) -/
structure BCfg where
  period : Nat
  drift : Nat
  rate : Nat
deriving DecidableEq, Repr

/-- one clock edge without reset (fpga/lib/eth/tb/ptp.py:77-125); with reset the counters are 0 again (:67-75) -/
def Bfm.step (c : BCfg) (b : Bfm) : Bfm :=
  let d := if b.cnt > 0 then c.drift else 0
  let t := b.t96 + c.period + d
  let s := if t > 1000000000 <<< 16 then b.s + 1 else b.s
  let t := if t > 1000000000 <<< 16 then t - 1000000000 <<< 16 else t
  { s := match b.l96 with | [] => s | ts :: _ => ts >>> 48
    t96 := match b.l96 with | [] => t | ts :: _ => ((ts >>> 16) &&& 0x3fffffff) <<< 16 + (ts &&& 0xffff)
    t64 := match b.l64 with | [] => b.t64 + c.period + d | ts :: _ => ts
    cnt := if b.cnt > 0 then b.cnt - 1 else c.rate - 1
    l96 := b.l96.tail
    l64 := b.l64.tail }

/-- output `ts_96` (fpga/lib/eth/tb/ptp.py:101) -/
def Bfm.out96 (b : Bfm) : Nat := (b.s <<< 48) ||| b.t96

/-! ### ptp_clock.v -/

/-- parameters (fpga/lib/eth/rtl/ptp_clock.v:36-46); `period`, `drift` with their fractions -/
structure Cfg where
  pw : Nat := 4
  ow : Nat := 4
  dw : Nat := 4
  F : Nat := 16
  period : Nat
  driftEn : Bool := true
  drift : Nat
  rate : Nat
deriving DecidableEq, Repr

/-- `$clog2` -/
def clog2 (n : Nat) : Nat := if n ≤ 1 then 0 else Nat.log2 (n - 1) + 1

/-- `INC_NS_WIDTH` (fpga/lib/eth/rtl/ptp_clock.v:97) -/
def Cfg.iw (c : Cfg) : Nat := clog2 (2 ^ c.pw + 2 ^ c.ow + 2 ^ c.dw)

/-- one second: `{NS_PER_S, {FNS_WIDTH{1'b0}}}` (fpga/lib/eth/rtl/ptp_clock.v:99, :258) -/
def Cfg.sec (c : Cfg) : Nat := 1000000000 * 2 ^ c.F

/-- `$signed` of a register of `w` bits -/
def signed (w x : Nat) : Int := if x < 2 ^ (w - 1) then x else (x : Int) - 2 ^ w

/-- inputs of a cycle (fpga/lib/eth/rtl/ptp_clock.v:49-82); `none`: the valid signal is low -/
structure In where
  rst : Bool := false
  ts96 : Option Nat := none
  ts64 : Option Nat := none
  period : Option Nat := none
  adj : Option (Nat × Nat) := none
  drift : Option (Nat × Nat) := none
deriving DecidableEq, Repr

/-- registers (fpga/lib/eth/rtl/ptp_clock.v:101-137) -/
structure Clock where
  period : Nat
  adj : Nat := 0
  adjCount : Nat := 0
  adjActive : Bool := false
  drift : Nat
  driftRate : Nat
  inc : Nat := 0
  incDelay : Nat := 0
  incOvf : Nat := 0
  s : Nat := 0
  ns : Nat := 0
  nsInc : Nat := 0
  nsOvf : Nat
  t64 : Nat := 0
  step : Bool := false
  driftCnt : Nat := 0
  pps : Bool := false
deriving DecidableEq, Repr

/-- power up values (fpga/lib/eth/rtl/ptp_clock.v:101-137) -/
def Cfg.init (c : Cfg) : Clock :=
  { period := c.period, drift := c.drift, driftRate := c.rate, nsOvf := 0x7fffffff * 2 ^ c.F + 0xffff % 2 ^ c.F }

/-- the borrow bit `ts_96_ns_ovf_reg[30]` -/
def borrow (c : Cfg) (x : Nat) : Bool := x / 2 ^ (30 + c.F) % 2 == 1

/-- setting the borrow bit only -/
def force (c : Cfg) (x : Nat) : Nat := 2 ^ (30 + c.F) + x % 2 ^ (30 + c.F)

/-- the fraction of a loaded time stamp, 16 bits, in `FNS_WIDTH` bits (fpga/lib/eth/rtl/ptp_clock.v:279-280) -/
def loadFns (c : Cfg) (f : Nat) : Nat := if c.F > 16 then f * 2 ^ (c.F - 16) else f / 2 ^ (16 - c.F)

/-- nanoseconds with fraction of a loaded time stamp -/
def load96 (c : Cfg) (ts : Nat) : Nat := ts / 2 ^ 16 % 2 ^ 30 * 2 ^ c.F + loadFns c (ts % 2 ^ 16)

/-- the net increment for this cycle (fpga/lib/eth/rtl/ptp_clock.v:236-238) -/
def Clock.net (c : Cfg) (k : Clock) : Int :=
  k.period + (if k.adjActive then signed (c.ow + c.F) k.adj else 0) +
    (if c.driftEn && k.driftCnt == 0 then signed (c.dw + c.F) k.drift else 0)

/-- one clock edge (fpga/lib/eth/rtl/ptp_clock.v:214-317); later assignments to the same register win -/
def Clock.tick (c : Cfg) (k : Clock) (i : In) : Clock :=
  let bo := borrow c k.nsOvf
  let n : Clock :=
    { period := i.period.getD k.period
      adj := match i.adj with | some (a, _) => a | none => k.adj
      adjCount := if k.adjCount > 0 then k.adjCount - 1 else match i.adj with | some (_, m) => m | none => k.adjCount
      adjActive := k.adjCount > 0
      drift := match i.drift with | some (d, _) => if c.driftEn then d else k.drift | none => k.drift
      driftRate := match i.drift with | some (_, r) => if c.driftEn then r else k.driftRate | none => k.driftRate
      inc := (k.net c % 2 ^ (c.iw + c.F)).toNat
      incDelay := k.inc
      incOvf := (c.sec + 2 ^ (31 + c.F) - k.inc) % 2 ^ (31 + c.F)
      s := match i.ts96 with | some ts => ts / 2 ^ 48 % 2 ^ 48 | none => if bo then k.s else (k.s + 1) % 2 ^ 48
      ns := match i.ts96 with | some ts => load96 c ts | none => if bo then k.nsInc else k.nsOvf % 2 ^ (30 + c.F)
      nsInc := match i.ts96 with
        | some ts => load96 c ts
        | none => ((if bo then k.nsInc else k.nsOvf) + k.incDelay) % 2 ^ (30 + c.F)
      nsOvf :=
        let o := (k.nsInc + 2 ^ (31 + c.F) - k.incOvf) % 2 ^ (31 + c.F)
        if i.ts96.isSome || !bo then force c o else o
      t64 := match i.ts64 with
        | some ts => ts % 2 ^ (48 + c.F)
        | none => (k.t64 + k.inc) % 2 ^ (48 + c.F)
      step := i.ts96.isSome || i.ts64.isSome || decide (k.adjCount > 0)
      driftCnt := if k.driftCnt = 0 then (k.driftRate + (2 ^ 16 - 1)) % 2 ^ 16 else k.driftCnt - 1
      pps := !bo }
  if i.rst then
    { n with
      period := c.period, adj := 0, adjCount := 0, adjActive := false, drift := c.drift, driftRate := c.rate
      s := 0, ns := 0, nsInc := 0, nsOvf := force c n.nsOvf, t64 := 0, step := false, driftCnt := 0, pps := false }
  else n

/-- output `output_ts_96` without output pipeline (fpga/lib/eth/rtl/ptp_clock.v:200-203) -/
def Clock.out96 (c : Cfg) (k : Clock) : Nat :=
  k.s * 2 ^ 48 + k.ns / 2 ^ c.F * 2 ^ 16 + k.ns % 2 ^ c.F * 2 ^ 16 / 2 ^ c.F

/-- output `output_ts_64` (fpga/lib/eth/rtl/ptp_clock.v:204-205) -/
def Clock.out64 (c : Cfg) (k : Clock) : Nat := k.t64 / 2 ^ c.F * 2 ^ 16 + k.t64 % 2 ^ c.F * 2 ^ 16 / 2 ^ c.F

end Corundum.PtpClock
