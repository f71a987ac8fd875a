import Verif.Model.Lfsr
/-!
Self-synchronising scramblers: fpga/lib/eth/rtl/eth_phy_10g_tx_if.v, eth_phy_10g_rx_if.v (10GBASE-R scrambler, PRBS31
generator and checker) and the Python endpoints in fpga/lib/eth/tb/baser.py.

Simplifications: SERDES_PIPELINE = 0 (a pure delay); the 2-bit sync header bypasses the scrambler; a word is a function from
bit number to bit, one step is one clock edge.
-/
namespace Corundum.Scrambler
open Lfsr

/-- `scrambler_inst` (tx_if.v:135-149, `ff = false`) and `descrambler_inst` (rx_if.v:157-171, `ff = true`); `D` = DATA_WIDTH -/
def scrCfg (D : Nat) (ff : Bool) : Cfg := ⟨58, 0x8000000001, true, ff, true, D⟩

/-- `prbs31_gen_inst` (tx_if.v:151-165), `prbs31_check_inst` (rx_if.v:173-187) -/
def prbsCfg (D : Nat) (ff : Bool) : Cfg := ⟨31, 0x10000001, true, ff, true, D⟩

/-- BIT_REVERSE (tx_if.v:96-107, rx_if.v:97-108) -/
def brev (on : Bool) (D : Nat) (w : Nat → Bool) : Nat → Bool := if on then fun n => w (D - n - 1) else w

/-- transmit clock edge (tx_if.v:167-179) with PRBS off: next scrambler state, line word -/
def txStep (D : Nat) (rev : Bool) (s : Nat → Bool) (w : Nat → Bool) : (Nat → Bool) × (Nat → Bool) :=
  (stateOut (scrCfg D false) s w, brev rev D (dataOut (scrCfg D false) s w))

/-- receive clock edge (rx_if.v:203-217): next descrambler state, word -/
def rxStep (D : Nat) (rev : Bool) (s : Nat → Bool) (w : Nat → Bool) : (Nat → Bool) × (Nat → Bool) :=
  (stateOut (scrCfg D true) s (brev rev D w), dataOut (scrCfg D true) s (brev rev D w))

/-- transmit clock edge with PRBS31 on: `N` = DATA_WIDTH + HDR_WIDTH bits {data, hdr}, complemented -/
def prbsTx (N : Nat) (s : Nat → Bool) : (Nat → Bool) × (Nat → Bool) :=
  (stateOut (prbsCfg N false) s (fun _ => false), fun n => !dataOut (prbsCfg N false) s (fun _ => false) n)

/-- receive clock edge with PRBS31 on: the checker output has a one for every bit in error -/
def prbsRx (N : Nat) (s : Nat → Bool) (w : Nat → Bool) : (Nat → Bool) × (Nat → Bool) :=
  (stateOut (prbsCfg N true) s (fun n => !w n), dataOut (prbsCfg N true) s (fun n => !w n))

/-- run a word-level machine over a list of words -/
def words {σ : Type} (f : σ → (Nat → Bool) → σ × (Nat → Bool)) : σ → List (Nat → Bool) → List (Nat → Bool)
  | _, [] => []
  | s, w :: ws => (f s w).2 :: words f (f s w).1 ws

/-- `bool(state & (1 << 38)) ^ bool(state & (1 << 57)) ^ bool(data & (1 << i))` -/
def pyBit (state data i : Nat) : Bool :=
  ((state &&& (1 <<< 38)) != 0) ^^ ((state &&& (1 <<< 57)) != 0) ^^ ((data &&& (1 <<< i)) != 0)

/-- BaseRSerdesSource scrambler loop (baser.py:330-339): (scrambler_state, b) after `i` iterations -/
def pyScr (state data : Nat) : Nat → Nat × Nat
  | 0 => (state, 0)
  | i + 1 =>
    let r := pyScr state data i
    if pyBit r.1 data i then (((r.1 &&& 0x1ffffffffffffff) <<< 1) ||| 1, r.2 ||| (1 <<< i))
    else ((r.1 &&& 0x1ffffffffffffff) <<< 1, r.2)

/-- BaseRSerdesSink descrambler loop (baser.py:461-468) -/
def pyDescr (state data : Nat) : Nat → Nat × Nat
  | 0 => (state, 0)
  | i + 1 =>
    let r := pyDescr state data i
    (((r.1 &&& 0x1ffffffffffffff) <<< 1) ||| ((data &&& (1 <<< i)) != 0).toNat,
      if pyBit r.1 data i then r.2 ||| (1 <<< i) else r.2)

end Corundum.Scrambler
