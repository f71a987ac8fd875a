import Verif.Model.CfgSpace
/-!
Message signalled interrupts of the PCIe model: `configure_msi` of the root complex, registration of handlers, interrupts of devices, /repo/fpga/lib/pcie/tb/pcie.py.

Handlers stand for signals and callbacks alike (the code keeps a list of each per message).  The signal each message has from the start is left out.  Accesses to the capability are aligned double words, that is one
register with all byte enables.  Devices are found by a number that stands for their PCIe ID.
-/
namespace Corundum.Msi
open Corundum.CfgSpace

/-- a device: its function, and the first message number the root complex has given it (`msi_data` of the tree item, pcie.py:3145) -/
structure Dev where
  fn : Fn
  data : Option Nat

/-- the root complex, pcie.py:3266-3269: address of the MSI region, number of messages handed out, handlers by message number; and the devices -/
structure Sys (H : Type) where
  addr : Nat
  limit : Nat
  table : Nat → Option (List H)
  devs : Nat → Dev

/-- `get_capability_offset`, pcie.py:3158-3162, in registers -/
def capOff (f : Fn) : Option Nat := (f.caps.find? fun c => decide (c.kind = .msi)).map Cap.off

/-- upper address and data, pcie.py:4150-4160 -/
def setupData (f : Fn) (b64 : Bool) (off addr limit : Nat) : Option Fn :=
  if b64 then (f.write (off + 2) ((addr >>> 32) &&& 0xffffffff) 15).bind fun f => f.write (off + 3) limit 15 else f.write (off + 2) limit 15

/-- the register accesses of `configure_msi`, pcie.py:4142-4163 -/
def setup (f : Fn) (off addr limit : Nat) : Option Fn := do
  let ctrl ← f.read off
  let mmcap := (ctrl >>> 17) &&& 7
  let f ← f.write (off + 1) (addr &&& 0xfffffffc) 15
  let f ← setupData f ((ctrl >>> 23) &&& 1 != 0) off addr limit
  f.write off (andNot ctrl (7 <<< 20) ||| (1 <<< 16) ||| (mmcap <<< 20)) 15

/-- `configure_msi`, pcie.py:4125-4173; the address is there already -/
def configure {H : Type} (s : Sys H) (d : Nat) : Option (Sys H) :=
  match capOff (s.devs d).fn, (s.devs d).data with
  | none, _ => some s
  | _, some _ => some s
  | some off, none => (setup (s.devs d).fn off s.addr s.limit).map fun f =>
    { s with
      limit := s.limit + 32
      table := fun t => if s.limit ≤ t ∧ t < s.limit + 32 then some [] else s.table t
      devs := fun e => if e = d then ⟨f, some s.limit⟩ else s.devs e }

/-- `msi_register_signal`, `msi_register_callback`, pcie.py:4187-4209 -/
def register {H : Type} (s : Sys H) (d number : Nat) (h : H) : Sys H :=
  match (s.devs d).data with
  | none => s
  | some m =>
    match s.table (m + number) with
    | none => s
    | some l => { s with table := fun t => if t = m + number then some (l ++ [h]) else s.table t }

/-- `issue_msi_interrupt`, pcie.py:1464-1474: address and data of the write, if there is one -/
def issue (o : Obj) (number : Nat) : Option (Nat × Nat) :=
  if o .msi_enable = 0 then none
  else if number ≥ 2 ^ o .msi_multiple_message_enable ∨ number ≥ 2 ^ o .msi_multiple_message_capable then none
  else some (o .msi_message_address, andNot (o .msi_message_data) (2 ^ o .msi_multiple_message_enable - 1) ||| number)

/-- `msi_region_write`, pcie.py:4111-4123: the handlers called by a write; `none`: it does not go to the region or the number is unknown -/
def deliver {H : Type} (s : Sys H) (w : Nat × Nat) : Option (List H) := if w.1 = s.addr then s.table w.2 else none

/-- an interrupt of a device: the handlers called -/
def interrupt {H : Type} (s : Sys H) (d number : Nat) : Option (List H) := (issue (s.devs d).fn.obj number).bind (deliver s)

/-- calls -/
inductive Op (H : Type) where
  | configure (d : Nat)
  | register (d number : Nat) (h : H)

def step {H : Type} (s : Sys H) : Op H → Option (Sys H)
  | .configure d => configure s d
  | .register d n h => some (register s d n h)

def run {H : Type} (s : Sys H) (ops : List (Op H)) : Option (Sys H) := ops.foldlM step s

end Corundum.Msi
