import Verif.Model.RxHash
/-!
Receive checksum offload: /repo/fpga/common/rtl/rx_checksum.v.

The bus has `K = 4 * 2^d` byte lanes, so `LEVELS = d + 2` and the adder tree has `d + 1` register stages. Simplifications: `tdata`, `tkeep` and
`mask_reg` are functions of the lane; a stage of the tree is an optional list of partial sums (the data of a stage whose valid flag is clear is
dropped: it is never read); `rst` is the initial state. All additions are truncated to the widths in the code.
-/
namespace Corundum.RxCsum
open Corundum.RxHash (clog2)

/-- one word on the bus, rx_checksum.v:31-34 -/
structure Beat where
  lane : Nat → Nat
  keep : Nat → Bool
  last : Bool

/-- parameters: tree depth and START_OFFSET -/
structure Cfg where
  d : Nat
  start : Nat

namespace Cfg
variable (c : Cfg)
/-- KEEP_WIDTH -/
def K : Nat := 4 * 2 ^ c.d
/-- LEVELS, rx_checksum.v:43 -/
def levels : Nat := c.d + 2
/-- OFFSET_WIDTH, rx_checksum.v:44 -/
def offW : Nat := if c.start / c.K > 1 then clog2 (c.start / c.K) else 1
/-- START_OFFSET/KEEP_WIDTH stored in offset_reg, rx_checksum.v:54 -/
def off0 : Nat := (c.start / c.K) % 2 ^ c.offW
/-- `{KEEP_WIDTH{1'b1}} << START_OFFSET`, rx_checksum.v:55 -/
def mask0 : Nat → Bool := fun j => decide (c.start ≤ j)
end Cfg

/-- masking registers, rx_checksum.v:54-55 -/
structure Mask where
  off : Nat
  mask : Nat → Bool

/-- rx_checksum.v:92-105 -/
def Mask.step (c : Cfg) (m : Mask) (b : Beat) : Mask :=
  if b.last then ⟨c.off0, c.mask0⟩
  else if c.start < c.K ∨ m.off = 0 then { m with mask := fun _ => true }
  else ⟨(m.off + 2 ^ c.offW - 1) % 2 ^ c.offW, if m.off = 1 then fun j => decide (c.start % c.K ≤ j) else fun _ => false⟩

/-- s_axis_tdata_masked, rx_checksum.v:74-78 -/
def masked (m : Mask) (b : Beat) (j : Nat) : Nat := if b.keep j && m.mask j then b.lane j else 0

/-- first level of the tree, rx_checksum.v:86-88 -/
def level0 (c : Cfg) (g : Nat → Nat) : List Nat :=
  (List.range (c.K / 4)).map (fun i => ((g (4 * i) * 256 + g (4 * i + 1)) + (g (4 * i + 2) * 256 + g (4 * i + 3))) % 2 ^ 17)

/-- level `l ≥ 1`, rx_checksum.v:124-126 -/
def pairUp (w cnt : Nat) (xs : List Nat) : List Nat := (List.range cnt).map (fun i => (xs.getD (2 * i) 0 + xs.getD (2 * i + 1) 0) % 2 ^ w)
def levelN (c : Cfg) (l : Nat) (xs : List Nat) : List Nat := pairUp (17 + l) (c.K / 4 / 2 ^ l) xs

/-- accumulator, rx_checksum.v:144-146 -/
def accumulate (c : Cfg) (acc : Nat) (xs : List Nat) : Nat :=
  let t0 := (xs.getD 0 0 % 2 ^ (16 + c.levels - 1) + acc) % 2 ^ (16 + c.levels)
  let t1 := (t0 % 2 ^ 16 + t0 >>> 16) % 2 ^ (16 + c.levels)
  (t1 % 2 ^ 16 + (t1.testBit 16).toNat) % 2 ^ (16 + c.levels)

/-- module state; `pipe l` is stage `l` of the tree with its last flag -/
structure St where
  m : Mask
  pipe : Nat → Option (List Nat × Bool)
  acc : Nat
  csum : Nat
  valid : Bool

/-- accumulator and output registers, rx_checksum.v:140-163 -/
def St.stepAcc (c : Cfg) (s : St) : Nat × Nat × Bool :=
  match s.pipe (c.levels - 2) with
  | none => (s.acc, s.csum, false)
  | some (xs, last) =>
    let t := accumulate c s.acc xs
    if last then (0, t % 2 ^ 16, true) else (t % 2 ^ 16, s.csum, false)

/-- one clock -/
def St.step (c : Cfg) (s : St) (i : Option Beat) : St :=
  { m := match i with | none => s.m | some b => s.m.step c b
    pipe := fun l => if l = 0 then i.map (fun b => (level0 c (masked s.m b), b.last)) else (s.pipe (l - 1)).map (fun x => (levelN c l x.1, x.2))
    acc := (s.stepAcc c).1
    csum := (s.stepAcc c).2.1
    valid := (s.stepAcc c).2.2 }

/-- checksums reported over a sequence of clock cycles -/
def outs (c : Cfg) : St → List (Option Beat) → List Nat
  | _, [] => []
  | s, i :: is => (if (s.step c i).valid then [(s.step c i).csum] else []) ++ outs c (s.step c i) is

/-- state after reset -/
def init (c : Cfg) : St := ⟨⟨c.off0, c.mask0⟩, fun _ => none, 0, 0, false⟩

end Corundum.RxCsum
