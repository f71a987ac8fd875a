/-!
Extension of completion timestamps: /repo/modules/mqnic/mqnic_ptp.c:9-27 `mqnic_read_cpl_ts`.

64-bit unsigned values are naturals below 2^64. The two 32-bit register reads of the current time (lines 18-19) are one atomic read
(the hardware latches the upper half when the lower half is read).
-/
namespace Corundum.CplTs

/-- `ring->ts_valid`, `ring->ts_s` -/
structure Ring where
  valid : Bool
  s : Nat

/-- lines 9-27: `now` is the current seconds value of the PTP clock if the clock register block exists; returns new ring and the seconds -/
def readCplTs (now : Option Nat) (r : Ring) (cplS : Nat) : Ring × Nat :=
  let r' := if !r.valid || ((r.s ^^^ cplS) &&& 0xff00) != 0 then
      match now with
      | some n => ⟨true, n⟩
      | none => r
    else r
  (r', cplS ||| (r'.s &&& 0xffffffffffffff00))

end Corundum.CplTs
