import Verif.Model.PauseCtrl
/-! What is expected of pause frames and priority flow control. -/
namespace Corundum.PauseCtrl

/-- at an edge: a pause frame for the whole link with time `q`, in units of 512 bit times -/
def RxIn.Pause (x : RxIn) (q : Nat) : Prop :=
  x.valid = true ∧ x.opcode = x.cfgLfcOpcode ∧ x.cfgLfcEn = true ∧ q = 256 * (x.params 0 % 256) + x.params 1 % 256

/-- at an edge: a frame for priorities that gives priority `k` the time `q` -/
def RxIn.Prio (x : RxIn) (k q : Nat) : Prop :=
  x.valid = true ∧ ¬(x.opcode = x.cfgLfcOpcode ∧ x.cfgLfcEn = true) ∧ x.opcode = x.cfgPfcOpcode ∧ x.cfgPfcEn = true ∧
    (x.params 1).testBit k = true ∧ q = 256 * (x.params (2 + 2 * k) % 256) + x.params (3 + 2 * k) % 256

/-- sum of `f` over `m, ..., m + n - 1` -/
def total (f : Nat → Nat) (m : Nat) : Nat → Nat
  | 0 => 0
  | n + 1 => total f m n + f (m + n)

/-- time, in units of 2 bit times, that the receiver counts at an edge for the whole link: while the request is acknowledged -/
def RxIn.time (x : RxIn) : Nat := if x.clkEn = true ∧ x.lfcAck = true then x.step else 0

/-- the same for a priority -/
def RxIn.timeOf (x : RxIn) (k : Nat) : Nat := if x.clkEn = true ∧ x.pfcAck k = true then x.step else 0

/-- times of the pause frames among those handed over -/
def pauses (fs : List Frame) : List Nat := fs.filterMap fun | .pause q => some q | .prio _ _ => none

/-- times given to priority `k` in the frames handed over that name it -/
def prios (k : Nat) (fs : List Frame) : List Nat :=
  fs.filterMap fun | .pause _ => none | .prio e q => if e.testBit k then some (q k) else none

/-- an edge at which pause frames are enabled and taken, and priorities are not -/
def TxIn.Plain (p : Bool) (x : TxIn) : Prop :=
  x.ready = true ∧ x.cfgLfcEn = true ∧ (p && x.cfgPfcEn) = false ∧ x.lfcResend = false ∧ x.lfcQuanta ≠ 0

/-- the request never comes while the end of the pause waits to be sent -/
def Calm (p : Bool) (s : Tx) : List TxIn → Prop
  | [] => True
  | x :: xs => ¬ (s.lfcSend = true ∧ s.lfcReq = false ∧ x.lfcReq = true) ∧ Calm p (s.edge p x) xs

/-- no priority asks for a pause while a frame for priorities waits to be sent -/
def CalmK (p : Bool) (k : Nat) (s : Tx) : List TxIn → Prop
  | [] => True
  | x :: xs => ¬ (s.pfcSend = true ∧ s.pfcReq.testBit k = false ∧ x.pfcReq.testBit k = true) ∧ CalmK p k (s.edge p x) xs

/-- time counted over a list of edges -/
def spent (xs : List TxIn) : Nat := (xs.map fun x => if x.clkEn then x.step else 0).sum

end Corundum.PauseCtrl
