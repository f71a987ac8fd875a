/-! The bit-serial shift register that lfsr.v describes (the figures in its header), one bit per clock. -/
namespace Corundum.Lfsr.Spec

/-- XOR of the Fibonacci taps: register `j - 1` for every term `x^j`, `1 ≤ j ≤ n` -/
def fibTaps (poly : Nat) (s : Nat → Bool) : Nat → Bool
  | 0 => false
  | n + 1 => fibTaps poly s n ^^ (poly.testBit (n + 1) && s n)

/-- Fibonacci: the feedback is the XOR of the last register, the tapped registers and the input; it is shifted into
register 0 (or the plain input, for feed-forward) and is the output bit -/
def fib (W poly : Nat) (ff : Bool) (s : Nat → Bool) (x : Bool) : (Nat → Bool) × Bool :=
  let v := x ^^ s (W - 1) ^^ fibTaps poly s (W - 1)
  (fun j => if j = 0 then (if ff then x else v) else s (j - 1), v)

/-- Galois: the XOR of the last register and the input is the output; it (or the plain input) enters register 0 and every
tapped register -/
def gal (W poly : Nat) (ff : Bool) (s : Nat → Bool) (x : Bool) : (Nat → Bool) × Bool :=
  let v := x ^^ s (W - 1)
  let w := if ff then x else v
  (fun j => if j = 0 then w else s (j - 1) ^^ (poly.testBit j && w), v)

/-- shift a list of bits through a serial machine -/
def shiftAll {σ : Type} (f : σ → Bool → σ × Bool) : σ → List Bool → σ × List Bool
  | s, [] => (s, [])
  | s, x :: xs => ((shiftAll f (f s x).1 xs).1, (f s x).2 :: (shiftAll f (f s x).1 xs).2)

end Corundum.Lfsr.Spec
