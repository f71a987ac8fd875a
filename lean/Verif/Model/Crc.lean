import Verif.Model.Lfsr
/-!
Ethernet frame check sequence generator fpga/lib/eth/rtl/axis_eth_fcs.v, on top of the lfsr.v model.
One step is one clock edge.
-/
namespace Corundum.Crc

/-- number with the given low `n` bits -/
def ofBits : Nat → (Nat → Bool) → Nat
  | 0, _ => 0
  | n + 1, f => ofBits n f + (if f n then 2 ^ n else 0)

/-- the `lfsr` instance (lines 89-103): `n` data bits, LSB first -/
def crcCfg (n : Nat) : Lfsr.Cfg := ⟨32, 0x4c11db7, false, false, true, n⟩

/-- `crc_next[n]` (lines 83-107): CRC over the low `n + 1` bytes of `s_axis_tdata` -/
def crcNext (state data n : Nat) : Nat :=
  ofBits 32 (Lfsr.stateOut (crcCfg (8 * (n + 1))) (fun i => state.testBit i) (fun i => data.testBit i))

structure In where
  rst : Bool
  data : Nat
  keep : Nat → Bool
  valid : Bool
  last : Bool

structure St where
  crc : Nat           -- crc_state
  fcs : Nat           -- fcs_reg
  fcsValid : Bool     -- fcs_valid_reg
  deriving DecidableEq, Repr

/-- initial register values (lines 73-75) -/
def init : St := ⟨0xFFFFFFFF, 0, false⟩

/-- 32-bit complement -/
def inv32 (x : Nat) : Nat := 0xFFFFFFFF - x

/-- the `for` loop over the keep bits (lines 120-125): the last assignment wins, default lane 0 -/
def lastLane (keep : Nat → Bool) : Nat → Nat
  | 0 => 0
  | n + 1 => if keep n then n else lastLane keep n

/-- the clocked process (lines 111-137); `KW` = KEEP_WIDTH, `ke` = KEEP_ENABLE -/
def step (KW : Nat) (ke : Bool) (s : St) (i : In) : St :=
  let s1 : St := { s with fcsValid := false }
  let s2 : St :=
    if i.valid then
      if i.last then
        { crc := 0xFFFFFFFF,
          fcs := inv32 (crcNext s.crc i.data (if ke then lastLane i.keep KW else KW - 1)),
          fcsValid := true }
      else { s1 with crc := crcNext s.crc i.data (KW - 1) }
    else s1
  if i.rst then { s2 with crc := 0xFFFFFFFF, fcsValid := false } else s2

end Corundum.Crc
