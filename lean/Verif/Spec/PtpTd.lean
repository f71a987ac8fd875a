import Verif.Model.PtpTd

/-! C118 to C120: time distribution. -/
namespace Corundum.PtpTd

/-- values the setters are meant for -/
def Op.Ok : Op → Prop
  | .period ns _ => ns < 256
  | .drift num denom => num < 65536 ∧ denom < 65536
  | .tod _ ns fns => ns < 1000000000 ∧ fns < 2 ^ 32
  | .rel ns fns => ns < 2 ^ 48 ∧ fns < 2 ^ 32

/-- registers in range -/
structure Clk.Ok (c : Clk) : Prop where
  pNs : c.pNs < 256
  pFns : c.pFns < 2 ^ 32
  num : c.num < 65536
  denom : c.denom < 65536
  cnt : c.cnt < 65536
  fns : c.fns < 2 ^ 32
  rel : c.rel < 2 ^ 48
  ns : c.ns < 1000000000

/-- the source after `n` edges; before edge `n` the setters `ins n` are called -/
def srcRun (td : Nat) (ins : Nat → List Op) (x : Src) : Nat → Src
  | 0 => x
  | n + 1 => Src.edge td ((ins n).foldl Src.op (srcRun td ins x n))

/-- the sink on the same clock, connected to it; `none` once it has ended with an exception -/
def snkRun (td : Nat) (ins : Nat → List Op) (x : Src) (k : Snk) : Nat → Option Snk
  | 0 => some k
  | n + 1 => (snkRun td ins x k n).bind fun k => k.edge td (srcRun td ins x n).data

/-- nothing is being sent -/
def Src.Idle (x : Src) : Prop := x.msg = [] ∧ x.word = none ∧ x.data = 1 ∧ x.idx < 3

/-- nothing has been received -/
def Snk.Idle (k : Snk) : Prop := k.msg = none ∧ k.delay = 0 ∧ k.cur = [] ∧ k.word = none

/-- what the getters of the sink show (tb/ptp_td.py:411-428) -/
def Snk.get (k : Snk) : Stamp := (k.clk.s, k.clk.ns, k.clk.rel, k.clk.fns)

/-- time of day in units of 2^-32 ns -/
def Clk.todTime (c : Clk) : Nat := (c.s * 1000000000 + c.ns) * 2 ^ 32 + c.fns

/-- relative time in units of 2^-32 ns, modulo 2^80 -/
def Clk.relTime (c : Clk) : Nat := c.rel * 2 ^ 32 + c.fns

end Corundum.PtpTd
