import Verif.Model.PtpClock

/-! What a PTP clock is for. -/
namespace Corundum.PtpClock

/-- the bus functional model after `n` clock edges -/
def Bfm.after (c : BCfg) (b : Bfm) : Nat → Bfm
  | 0 => b
  | n + 1 => (Bfm.after c b n).step c

/-- time of day in units of 2^-16 ns -/
def Bfm.time (b : Bfm) : Nat := b.s * (1000000000 * 2 ^ 16) + b.t96

/-- the clock after these inputs -/
def run (c : Cfg) (k : Clock) (is : List In) : Clock := is.foldl (Clock.tick c) k

/-- time of day in units of 2^-`F` ns -/
def Clock.time (c : Cfg) (k : Clock) : Nat := k.s * (1000000000 * 2 ^ c.F) + k.ns

/-- the time of day wraps after 2^48 seconds -/
def wrap (c : Cfg) : Nat := 2 ^ 48 * (1000000000 * 2 ^ c.F)

/-- period, drift and rate fit their registers, and an increment is short -/
structure Cfg.Ok (c : Cfg) : Prop where
  pw : c.pw ≤ 26
  ow : c.ow ≤ 26
  dw : c.dw ≤ 26
  dw0 : 0 < c.dw + c.F
  ow0 : 0 < c.ow + c.F
  period : c.period < 2 ^ (c.pw + c.F)
  drift : c.drift < 2 ^ (c.dw + c.F)
  rate : 0 < c.rate ∧ c.rate < 2 ^ 16

/-- the drift correction meant by the register contents `d`, a two's complement number -/
def Cfg.corr (c : Cfg) (d : Nat) : Int :=
  if c.driftEn then (if d < 2 ^ (c.dw + c.F - 1) then (d : Int) else d - 2 ^ (c.dw + c.F)) else 0

/-- neither reset nor load nor adjustment; the period may be set -/
def Plain (i : In) : Prop := i.rst = false ∧ i.ts96 = none ∧ i.ts64 = none ∧ i.adj = none ∧ i.drift = none

instance (i : In) : Decidable (Plain i) := inferInstanceAs (Decidable (_ ∧ _))

/-- the periods in force in the cycles of these inputs, the period before being `p` -/
def periods (p : Nat) : List In → List Nat
  | [] => []
  | i :: is => p :: periods (i.period.getD p) is

end Corundum.PtpClock
