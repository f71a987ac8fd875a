import Verif.Model.PcieEnum

/-! What enumeration and routing are for: the regions the functions decode, read off their BAR registers and their sizes. -/
namespace Corundum.PcieEnum

/-- address spaces: IO, (32-bit) memory, prefetchable memory -/
inductive Sp
  | io
  | mem
  | pf
deriving DecidableEq, Repr

def Lim.get (l : Lim) : Sp → Nat
  | .io => l.io
  | .mem => l.mem
  | .pf => l.pf

/-- a region assigned to a BAR -/
structure Rgn where
  bar : Nat
  sp : Sp
  base : Nat
  size : Nat
deriving DecidableEq, Repr

/-- the registers `configure_bar` sets up for a slot -/
def Slot.regs : Slot → List Reg
  | .unused => [⟨0, 0⟩]
  | .io k => [⟨1, 2 ^ 32 - 2 ^ k⟩]
  | .m32 k pf => [⟨if pf then 8 else 0, 2 ^ 32 - 2 ^ k⟩]
  | .m64 k pf => [⟨if pf then 12 else 4, 2 ^ 32 - 2 ^ k⟩, ⟨0, 2 ^ 32 - 1⟩]

/-- sizes the registers can express and `match_bar` can decode -/
def Slot.ok : Slot → Prop
  | .unused => True
  | .io k => 2 ≤ k ∧ k ≤ 31
  | .m32 k _ => 4 ≤ k ∧ k ≤ 31
  | .m64 k _ => 4 ≤ k ∧ k ≤ 31

/-- the BARs of a function from number `i` on: base address from the registers, size from the set-up -/
def regions : Nat → List Slot → List Reg → List Rgn
  | i, .unused :: s, _ :: rs => regions (i + 1) s rs
  | i, .io k :: s, r :: rs => ⟨i, .io, r.val - r.val % 4, 2 ^ k⟩ :: regions (i + 1) s rs
  | i, .m32 k _ :: s, r :: rs => ⟨i, .mem, r.val - r.val % 16, 2 ^ k⟩ :: regions (i + 1) s rs
  | i, .m64 k pf :: s, r :: r2 :: rs =>
    ⟨i, if pf then .pf else .mem, r2.val * 2 ^ 32 + (r.val - r.val % 16), 2 ^ k⟩ :: regions (i + 2) s rs
  | _, _, _ => []

/-- all regions below a bus with the path to the function -/
def Seg.regions : Nat → Seg → List (List Nat × Rgn)
  | _, .nil => []
  | i, .ep f rest => (PcieEnum.regions 0 f.slots f.regs).map (fun r => ([i], r)) ++ Seg.regions (i + 1) rest
  | i, .br f _ child rest => (PcieEnum.regions 0 f.slots f.regs).map (fun r => ([i], r)) ++
      ((Seg.regions 0 child).map (fun x => (i :: x.1, x.2)) ++ Seg.regions (i + 1) rest)

/-- a request of this kind at this address is for this region -/
def Rgn.holds (r : Rgn) (addr : Nat) (io : Bool) : Prop := (r.sp = .io ↔ io = true) ∧ r.base ≤ addr ∧ addr < r.base + r.size

instance (r : Rgn) (addr : Nat) (io : Bool) : Decidable (r.holds addr io) := inferInstanceAs (Decidable (_ ∧ _ ∧ _))

/-- freshly configured functions: registers as left by `configure_bar`, bridge registers as left by the constructor -/
def Seg.fresh : Seg → Prop
  | .nil => True
  | .ep f rest => (∀ s ∈ f.slots, s.ok) ∧ f.regs = f.slots.flatMap Slot.regs ∧ rest.fresh
  | .br f b child rest => (∀ s ∈ f.slots, s.ok) ∧ f.regs = f.slots.flatMap Slot.regs ∧ b = {} ∧ child.fresh ∧ rest.fresh

end Corundum.PcieEnum

namespace Corundum.PcieEnum

/-- the buses below a bus: path of bridges, bus number -/
def Seg.buses : Nat → Seg → List (List Nat × Nat)
  | _, .nil => []
  | i, .ep _ rest => Seg.buses (i + 1) rest
  | i, .br _ b child rest => ([i], b.sec) :: ((Seg.buses 0 child).map (fun x => (i :: x.1, x.2)) ++ Seg.buses (i + 1) rest)

/-- every bridge has the number of its bus as primary bus number, windows hold the regions below it, and its bus range the buses below -/
def Seg.nested (bus : Nat) : Seg → Prop
  | .nil => True
  | .ep _ rest => rest.nested bus
  | .br _ b child rest => b.pri = bus ∧
      (∀ x ∈ Seg.regions 0 child, ∀ a io, x.2.holds a io → b.window a io = true) ∧
      (∀ x ∈ Seg.buses 0 child, b.sec < x.2 ∧ x.2 ≤ b.sub) ∧ child.nested b.sec ∧ rest.nested bus

end Corundum.PcieEnum

namespace Corundum.PcieEnum

/-- the address ranges fit: 32-bit IO and memory space, 64-bit prefetchable space above it -/
structure Fits (base lim : Lim) : Prop where
  mem0 : 0 < base.mem
  pf0 : 2 ^ 32 ≤ base.pf
  io : lim.io ≤ 2 ^ 32
  mem : lim.mem < 2 ^ 32
  pf : lim.pf ≤ 2 ^ 64

instance (b l : Lim) : Decidable (Fits b l) :=
  decidable_of_iff (0 < b.mem ∧ 2 ^ 32 ≤ b.pf ∧ l.io ≤ 2 ^ 32 ∧ l.mem < 2 ^ 32 ∧ l.pf ≤ 2 ^ 64)
    ⟨fun ⟨a, b, c, d, e⟩ => ⟨a, b, c, d, e⟩, fun ⟨a, b, c, d, e⟩ => ⟨a, b, c, d, e⟩⟩

/-- functions that have been configured, and enumerated any number of times (with any bases) -/
inductive Ready : Seg → Prop
  | fresh {t : Seg} : t.fresh → Ready t
  | again {t : Seg} {base : Lim} {o : Seg} {b lim : Lim} : Ready t → enumerate base t = some (o, b, lim) → Fits base lim → Ready o

end Corundum.PcieEnum
