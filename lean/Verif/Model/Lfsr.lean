/-!
Model of the parallel LFSR/CRC generator, fpga/lib/eth/rtl/lfsr.v, for every width, polynomial, configuration
(Galois / Fibonacci), feed-forward setting, bit reversal and data width.

Simplifications
* Bit vectors are functions `Nat → Bool` (bit number to bit); memories of masks are functions from index to mask.
* The in-place loops that shift the mask memories (lines 251-258, 279-286: index counted down) are one simultaneous
  shift; the loop that adds the tap masks (298-303) touches each index once and is written per index.
-/
namespace Corundum.Lfsr

structure Cfg where
  W : Nat             -- LFSR_WIDTH
  poly : Nat          -- LFSR_POLY
  fib : Bool          -- LFSR_CONFIG == "FIBONACCI"
  ff : Bool           -- LFSR_FEED_FORWARD
  rev : Bool          -- REVERSE
  D : Nat             -- DATA_WIDTH

/-- a mask over the state bits and the data bits -/
structure Mask where
  st : Nat → Bool
  da : Nat → Bool

def Mask.xor (a b : Mask) : Mask := ⟨fun i => a.st i ^^ b.st i, fun i => a.da i ^^ b.da i⟩
def Mask.zero : Mask := ⟨fun _ => false, fun _ => false⟩
def Mask.state (j : Nat) : Mask := ⟨fun i => i == j, fun _ => false⟩
def Mask.data (b : Nat) : Mask := ⟨fun _ => false, fun i => i == b⟩

structure Mem where
  lf : Nat → Mask     -- lfsr_mask_state / lfsr_mask_data
  out : Nat → Mask    -- output_mask_state / output_mask_data

/-- init bit masks (lines 218-230) -/
def init (c : Cfg) : Mem := ⟨Mask.state, fun i => if i < c.W then Mask.state i else Mask.zero⟩

/-- tap loop of the Fibonacci configuration (243-248): j = 1 .. n -/
def taps (poly : Nat) (lf : Nat → Mask) (v : Mask) : Nat → Mask
  | 0 => v
  | n + 1 => if poly.testBit (n + 1) then (lf n).xor (taps poly lf v n) else taps poly lf v n

/-- one iteration of the `data_mask` loop (Fibonacci: 233-268, Galois: 269-305); `b` is the bit number of `data_mask` -/
def shift (c : Cfg) (m : Mem) (b : Nat) : Mem :=
  let v0 := (m.lf (c.W - 1)).xor (Mask.data b)
  let v := if c.fib then taps c.poly m.lf v0 (c.W - 1) else v0
  let w := if c.ff then Mask.data b else v
  ⟨fun j => if j = 0 then w
            else if !c.fib && c.poly.testBit j then (m.lf (j - 1)).xor w else m.lf (j - 1),
   fun j => if j = 0 then v else m.out (j - 1)⟩

/-- the `data_mask` loop: bit D-1 first; `k` iterations done -/
def masks (c : Cfg) : Nat → Mem
  | 0 => init c
  | k + 1 => shift c (masks c k) (c.D - 1 - k)

/-- `lfsr_mask(index)` (lines 310-343) -/
def lfsrMask (c : Cfg) (index : Nat) : Mask :=
  let m := masks c c.D
  if c.rev then
    let x := if index < c.W then m.lf (c.W - index - 1) else m.out (c.D - (index - c.W) - 1)
    ⟨fun i => x.st (c.W - i - 1), fun i => x.da (c.D - i - 1)⟩
  else if index < c.W then m.lf index else m.out (index - c.W)

/-- reduction XOR of bits 0 .. n-1 -/
def xsum : Nat → (Nat → Bool) → Bool
  | 0, _ => false
  | n + 1, f => xsum n f ^^ f n

/-- `^({data_in, state_in} & mask)` (lines 370-377, equal to the loops 387-432) -/
def select (c : Cfg) (m : Mask) (state data : Nat → Bool) : Bool :=
  xsum c.W (fun i => m.st i && state i) ^^ xsum c.D (fun i => m.da i && data i)

def stateOut (c : Cfg) (state data : Nat → Bool) (n : Nat) : Bool := select c (lfsrMask c n) state data
def dataOut (c : Cfg) (state data : Nat → Bool) (n : Nat) : Bool := select c (lfsrMask c (n + c.W)) state data

end Corundum.Lfsr
