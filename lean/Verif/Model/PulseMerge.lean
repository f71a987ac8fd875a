/-!
Merging of pulses: fpga/lib/pcie/rtl/pulse_merge.v, as used by mqnic_core_pcie.v for the error indications of the PCIe core.
One step per clock edge without reset.
-/
namespace Corundum.PulseMerge

/-- registers, lines 48-49 -/
structure St where
  count : Nat
  pulse : Bool
deriving DecidableEq, Repr

/-- initial values -/
def St.init : St := ⟨0, false⟩

/-- lines 56-77; `w` is COUNT_WIDTH -/
def St.step (w : Nat) (s : St) (ins : List Bool) : St :=
  { count := ins.foldl (fun n b => (n + b.toNat) % 2 ^ w) (if s.count > 0 then s.count - 1 else s.count)
    pulse := decide (s.count > 0) }

end Corundum.PulseMerge
