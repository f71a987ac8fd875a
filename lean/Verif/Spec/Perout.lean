import Verif.Model.Perout

/-! What a periodic output is for. -/
namespace Corundum.Perout

/-- a time in units of 2^-16 ns -/
def Tm.tot (t : Tm) : Nat := t.s * (1000000000 * 2 ^ 16) + t.x

/-- a proper time -/
def Tm.Ok (t : Tm) : Prop := t.s < 2 ^ 48 ∧ t.x < 1000000000 * 2 ^ 16

/-- the output after these inputs over time -/
def at' (c : Cfg) (k : Reg) (ins : Nat → In) : Nat → Reg
  | 0 => k
  | n + 1 => (at' c k ins n).tick c (ins n)

/-- the wanted output at time `t`: high for `W` from every `S + j * P` on -/
def Pulse (S P W t : Nat) : Prop := ∃ j, S + j * P < t ∧ t ≤ S + j * P + W

/-- time in input `i` -/
def In.time (i : In) : Nat := i.ts / 2 ^ 48 % 2 ^ 48 * (1000000000 * 2 ^ 16) + i.ts % 2 ^ 46

/-- the parameters stay, the clock runs: without steps, by at most `d` a cycle, which is short compared with the pulses and the gaps -/
structure Running (S P W d : Nat) (ins : Nat → In) : Prop where
  quiet : ∀ n, (ins n).rst = false ∧ (ins n).step = false ∧ (ins n).start = none ∧ (ins n).period = none ∧ (ins n).width = none
  on : ∀ n, (ins n).enable = true
  proper : ∀ n, (ins n).ts % 2 ^ 46 < 1000000000 * 2 ^ 16
  up : ∀ n, (ins n).time ≤ (ins (n + 1)).time ∧ (ins (n + 1)).time ≤ (ins n).time + d
  pulse : 4 * d ≤ W
  gap : W + 4 * d ≤ P
  pos : 0 < W
  room : ∀ n, max S (ins n).time + P + W < 2 ^ 48 * (1000000000 * 2 ^ 16)

end Corundum.Perout
