import Verif.Model.PhyRx

/-! What the supervision of the receiver is for. -/
namespace Corundum.PhyRx

/-- number of bad sync headers -/
def bads (hs : List Nat) : Nat := hs.countP fun h => !(h = 1 ∨ h = 2)

/-- the frame sync after these headers -/
def Sync.run (hi lo : Nat) (s : Sync) (hs : List Nat) : Sync := hs.foldl (Sync.step hi lo) s

/-- frame sync and transceiver: the number of bit slips asked for, and the cycles since the last one -/
structure Loop where
  s : Sync
  slips : Nat
  age : Nat

/-- one cycle: a rising edge of the slip signal moves the alignment by one bit -/
def Loop.step (hi lo : Nat) (l : Loop) (h : Nat) : Loop :=
  let s' := l.s.step hi lo h
  if !l.s.slip && s'.slip then ⟨s', l.slips + 1, 0⟩ else ⟨s', l.slips, l.age + 1⟩

/-- states of the loop over time, `h n` being the header seen in cycle `n`; the time without a slip before the start is `age` -/
def Loop.at (hi lo age : Nat) (h : Nat → Nat) : Nat → Loop
  | 0 => ⟨{}, 0, age⟩
  | n + 1 => (Loop.at hi lo age h n).step hi lo (h n)

/-- cycles until the effect of a slip is looked at -/
def settle (hi lo : Nat) : Nat := max hi 1 + max lo 1 - 1

/-- a signal of 66 bit blocks: with the right number of slips (modulo 66) every header is good once the slip has settled; with another
number 64 headers in a row are never all good -/
structure Signal (hi lo age a : Nat) (h : Nat → Nat) : Prop where
  right : ∀ n, (Loop.at hi lo age h n).slips % 66 = a → settle hi lo ≤ (Loop.at hi lo age h n).age → h n = 1 ∨ h n = 2
  wrong : ∀ n, (Loop.at hi lo age h n).slips % 66 ≠ a → ∃ j < 64, (h (n + j) ≠ 1 ∧ h (n + j) ≠ 2) ∨
    (Loop.at hi lo age h (n + j)).slips ≠ (Loop.at hi lo age h n).slips

/-- the error rate monitor after these headers -/
def Ber.run (count : Nat) (s : Ber) (hs : List Nat) : Ber := hs.foldl (Ber.step count) s

/-- the watchdog after these inputs -/
def Dog.run (count : Nat) (s : Dog) (is : List WIn) : Dog := is.foldl (Dog.step count) s

/-- a time interval in which no control block was seen or too many blocks had errors; the last cycle of an interval does not count -/
def Failed (is : List WIn) : Prop :=
  (∀ i ∈ is.dropLast, ¬ (i.lock = true ∧ i.hdr = 1)) ∨ 1023 ≤ is.dropLast.countP fun i => i.lock && (i.badBlock || i.seqErr)

instance (is : List WIn) : Decidable (Failed is) := inferInstanceAs (Decidable (_ ∨ _))

end Corundum.PhyRx
