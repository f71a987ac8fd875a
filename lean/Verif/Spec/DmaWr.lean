import Verif.Model.DmaWr
import Verif.Spec.DmaWrReq

/-! Use of the DMA write engine as intended, and its states. -/
namespace Corundum.DmaWr

section
variable {Byte : Type} (c : Par)

/-- the RAMs as seen by a descriptor -/
def Same (d : Desc Byte) (f g : Nat → Nat → Byte) : Prop := d.imm = none → ∀ i, i < d.len → f d.sel ((d.ram + i) % 2 ^ c.ram.aw) = g d.sel ((d.ram + i) % 2 ^ c.ram.aw)

/-- what the surroundings may do: give descriptors that fit, and change the RAMs except for the bytes of descriptors without status -/
def Legal (s : St Byte) : Ev Byte → Prop
  | .accept d => d.Given c.toCfg
  | .poke f => ∀ x ∈ s.hist.drop s.stat.length, Same c x.1 f s.mem
  | _ => True

inductive Reach (mem : Nat → Nat → Byte) : St Byte → Prop
  | init : Reach mem (init mem)
  | step {s t : St Byte} {e : Ev Byte} : Reach mem s → Legal c s e → step c s e = some t → Reach mem t

/-- an event of the module or of those who answer it -/
def Inner : Ev Byte → Prop
  | .accept _ => False
  | .poke _ => False
  | _ => True

/-- several events, one after the other -/
def run : St Byte → List (Ev Byte) → Option (St Byte)
  | s, [] => some s
  | s, e :: es => match step c s e with | some t => run t es | none => none

end

end Corundum.DmaWr
