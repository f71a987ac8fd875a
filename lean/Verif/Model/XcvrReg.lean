/-!
Fields of transceiver registers: utils/xcvr_gt.c:17-130. The registers behind the register interface hold what was last written. Each
access of the interface may fail; a write that fails may or may not have been done (C153). Null pointers are not modelled.
-/
namespace Corundum.XcvrReg

/-- outcome of an access of the register interface -/
inductive Res | ok | failed | failedDone
deriving DecidableEq, Repr

/-- registers, and outcomes of the accesses to come (`ok` after the last) -/
structure Bus where
  mem : BitVec 32 → BitVec 32
  res : List Res

/-- the outcome of the next access -/
def Bus.head (b : Bus) : Res := b.res.headD .ok

/-- `mqnic_reg_if_read32` -/
def Bus.read (b : Bus) (a : BitVec 32) : Bus × Option (BitVec 32) :=
  ({ b with res := b.res.tail }, if b.head = .ok then some (b.mem a) else none)

/-- `mqnic_reg_if_write32` -/
def Bus.write (b : Bus) (a v : BitVec 32) : Bus × Bool :=
  ({ mem := if b.head = .failed then b.mem else fun x => if x = a then v else b.mem x, res := b.res.tail }, decide (b.head = .ok))

/-- a channel of a quad, or one of its PLLs -/
inductive Unit'
  | ch (index : BitVec 32)
  | pll

/-- address of a register of a unit, lines 22, 43, 79, 100 -/
def addrOf : Unit' → BitVec 32 → BitVec 32
  | .ch i, a => a ||| (i <<< 17)
  | .pll, a => a ||| ((1 : BitVec 32) <<< 19)

/-- `gt_pll_reg_read_masked`, `gt_ch_reg_read_masked`, lines 25-36, 82-93 -/
def readMasked (u : Unit') (b : Bus) (a mask : BitVec 32) (shift : Nat) : Bus × Option (BitVec 32) :=
  let r := b.read (addrOf u a)
  (r.1, r.2.map fun v => (v &&& mask) >>> shift)

/-- `gt_pll_reg_write_masked`, `gt_ch_reg_write_masked`, lines 46-56, 103-113 -/
def writeMasked (u : Unit') (b : Bus) (a val mask : BitVec 32) (shift : Nat) : Bus × Bool :=
  let r := b.read (addrOf u a)
  match r.2 with
  | none => (r.1, false)
  | some old => r.1.write (addrOf u a) (((val <<< shift) &&& mask) ||| (old &&& ~~~mask))

/-- `struct gt_reg_val`, xcvr_gt.h:39-44 -/
structure RegVal where
  addr : BitVec 16
  mask : BitVec 16
  shift : BitVec 16
  value : BitVec 16

/-- `gt_pll_reg_write_multiple`, `gt_ch_reg_write_multiple`, lines 58-72, 115-129 -/
def writeMultiple (u : Unit') : Bus → List RegVal → Bus × Bool
  | b, [] => (b, true)
  | b, v :: vs =>
    if v.mask = 0 then (b, true)
    else
      let r := writeMasked u b (v.addr.setWidth 32) (v.value.setWidth 32) (v.mask.setWidth 32) v.shift.toNat
      if r.2 then writeMultiple u r.1 vs else (r.1, false)

end Corundum.XcvrReg
