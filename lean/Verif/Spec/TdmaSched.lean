import Verif.Model.TdmaSched
/-! What is expected of the time slots of a TDMA schedule. -/
namespace Corundum.TdmaSched

/-- a time in nanoseconds -/
def Tm.tot (t : Tm) : Nat := t.s * 1000000000 + t.x

/-- a proper time -/
def Tm.Ok (t : Tm) : Prop := t.s < 2 ^ 48 ∧ t.x < 1000000000

/-- registers after `n` edges -/
def at' (c : Cfg) (k : Reg) (ins : Nat → In) : Nat → Reg
  | 0 => k
  | n + 1 => (at' c k ins n).tick c (ins n)

/-- time in input `i` -/
def In.time (i : In) : Nat := i.ts / 2 ^ 48 % 2 ^ 48 * 1000000000 + i.ts / 2 ^ 16 % 2 ^ 30

/-- number of the slot, counted from the start `S`, in which time `t` lies; slots have length `T` -/
def slotNo (S T t : Nat) : Nat := (t - S - 1) / T

/-- `t` lies in the active part, of length `L`, of a slot -/
def isActive (S T L t : Nat) : Bool := decide ((t - S - 1) % T < L)

/-- no reset and no new setting; the clock runs without steps by at most `d` a cycle; the period is `n` slots, and a slot and its active part are long
compared with a cycle -/
structure Running (S T L n d iw : Nat) (ins : Nat → In) : Prop where
  quiet : ∀ m, (ins m).rst = false ∧ (ins m).step = false ∧ (ins m).start = none ∧ (ins m).period = none ∧ (ins m).slot = none ∧ (ins m).active = none
  on : ∀ m, (ins m).enable = true
  proper : ∀ m, (ins m).ts / 2 ^ 16 % 2 ^ 30 < 1000000000
  up : ∀ m, (ins m).time ≤ (ins (m + 1)).time ∧ (ins (m + 1)).time ≤ (ins m).time + d
  pos : 0 < n
  fit : n ≤ 2 ^ iw
  slot : 7 * d < T
  act : 6 * d ≤ L
  room : ∀ m, max S (ins m).time + n * T + T + L < 2 ^ 48 * 1000000000

/-- the registers hold these settings and the machine is about to begin anew -/
structure Ready (S P T L : Nat) (k : Reg) : Prop where
  fsm : k.fsm = .idle
  off : k.slotActive = false
  start : k.start.Ok ∧ k.start.tot = S
  period : k.period.Ok ∧ k.period.tot = P
  slot : k.slot.Ok ∧ k.slot.tot = T
  active : k.active.Ok ∧ k.active.tot = L

end Corundum.TdmaSched
