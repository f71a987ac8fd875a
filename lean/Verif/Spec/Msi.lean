import Verif.Model.Msi
import Verif.Spec.CfgSpace
/-! What is expected of message signalled interrupts. -/
namespace Corundum.Msi
open Corundum.CfgSpace

/-- device `d` was configured -/
def Configured {H : Type} (ops : List (Op H)) (d : Nat) : Prop := Op.configure d ∈ ops

/-- the handlers registered for message `n` of device `d` after it was configured, in order; `on`: it has been -/
def handlers {H : Type} (d n : Nat) : (on : Bool) → List (Op H) → List H
  | _, [] => []
  | on, .configure e :: l => handlers d n (on || decide (e = d)) l
  | on, .register e k h :: l => if on = true ∧ e = d ∧ k = n then h :: handlers d n on l else handlers d n on l

/-- number of calls of `configure_msi` -/
def confs {H : Type} (ops : List (Op H)) : Nat := ops.countP fun op => match op with
  | .configure _ => true
  | .register .. => false

/-- the devices before anything is configured: each has an MSI capability with a next pointer; addresses have 64 bits unless the region is below 4 GB, where the upper half of the address is still 0; at most 32 messages -/
structure Ready {H : Type} (s : Sys H) : Prop where
  limit : s.limit = 0
  table : ∀ t, s.table t = none
  addr : s.addr % 4 = 0
  addr64 : s.addr < 2 ^ 64
  devs : ∀ d, (s.devs d).data = none ∧ Layout (s.devs d).fn ∧ (∃ c ∈ (s.devs d).fn.caps, c.kind = .msi ∧ c.next ≠ none) ∧
    ((s.devs d).fn.obj .msi_64bit_address_capable ≠ 0 ∨ (s.addr < 2 ^ 32 ∧ (s.devs d).fn.obj .msi_message_address < 2 ^ 32)) ∧
    (s.devs d).fn.obj .msi_multiple_message_capable ≤ 5

/-- handlers are registered for the first 32 messages of a device only -/
def Sane {H : Type} (ops : List (Op H)) : Prop := ∀ op ∈ ops, match op with
  | .register _ n _ => n < 32
  | .configure _ => True

end Corundum.Msi
