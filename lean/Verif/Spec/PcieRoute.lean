import Verif.Model.PcieRoute

/-! What routing is for: the functions of the tree and their IDs. -/
namespace Corundum.PcieRoute
open Corundum.PcieEnum

/-- all functions of a tree: path, number of the bus they are on -/
def fns (bus : Nat) : Nat → Seg → List (List Nat × Nat)
  | _, .nil => []
  | i, .ep _ rest => ([i], bus) :: fns bus (i + 1) rest
  | i, .br _ b child rest => ([i], bus) :: ((fns b.sec 0 child).map (fun x => (i :: x.1, x.2)) ++ fns bus (i + 1) rest)

/-- device and function numbers are proper: no two functions on a bus have the same, and device 0 on bus 0 is not used (it is the root
complex; the devices of switches and root complexes are numbered from 1 on, pcie.py:3076-3103, functions of a device cannot have the
same number, pcie.py:2950-2953) -/
structure Proper (lab : List Nat → Nat × Nat) (o : Seg) : Prop where
  inj : ∀ x ∈ fns 0 0 o, ∀ y ∈ fns 0 0 o, x.1.dropLast = y.1.dropLast → lab x.1 = lab y.1 → x.1 = y.1
  dev0 : ∀ x ∈ fns 0 0 o, x.1.length = 1 → (lab x.1).1 ≠ 0

/-- wired as in practice: a bridge at the end of a link is alone and has no BARs, every port has something at the other end of its link -/
def Wired : Bool → Seg → Prop
  | _, .nil => True
  | link, .ep _ rest => Wired link rest
  | link, .br f _ c rest => (link = true → rest = .nil ∧ ∀ x ∈ f.slots, x = .unused) ∧ (link = false → c ≠ .nil) ∧ Wired (!link) c ∧
      Wired link rest

/-- wired as the classes do it: no bridge has BARs, buses of switches and root complexes hold nothing but ports, every port has something at
the other end of its link, either a device or the bridge of a switch -/
def Bare : Bool → Seg → Prop
  | _, .nil => True
  | link, .ep _ rest => link = true ∧ (rest = .nil ∨ ∃ f r, rest = .ep f r) ∧ Bare link rest
  | link, .br f _ c rest => (∀ x ∈ f.slots, x = .unused) ∧ (link = true → rest = .nil) ∧ (link = false → c ≠ .nil) ∧ Bare (!link) c ∧
      Bare link rest

/-- the ID of the function with this path and bus number -/
def ident (lab : List Nat → Nat × Nat) (x : List Nat × Nat) : Id := (x.2, lab x.1)

end Corundum.PcieRoute
