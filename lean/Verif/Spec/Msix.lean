import Verif.Model.Msix

/-!
What the user of the MSI-X module sees.
-/
namespace Corundum.Msix

/-- the state before cycle `n` -/
def st (c : Cfg) (ins : Nat → In) : Nat → St
  | 0 => init
  | n + 1 => step c (st c ins n) (ins n)

/-- the inputs fit their ports -/
def Legal (c : Cfg) (ins : Nat → In) : Prop := ∀ n, (ins n).ii < 2 ^ c.w ∧ ∀ a, (ins n).tbl a < 2 ^ 64

/-- interrupt `i` is taken in cycle `n` -/
def Taken (c : Cfg) (ins : Nat → In) (n i : Nat) : Prop := (ins n).iv = true ∧ (st c ins n).rdy = true ∧ (ins n).ii = i

/-- in cycle `n` a message appears at the output: it is offered in the next cycle, and the output was free before or becomes free -/
def Appears (c : Cfg) (ins : Nat → In) (n : Nat) : Prop := (st c ins (n + 1)).ov = true ∧ ((st c ins n).ov = false ∨ (ins n).trdy = true)

/-- the message belongs to vector `i` -/
def Sent (c : Cfg) (ins : Nat → In) (n i : Nat) : Prop := Appears c ins n ∧ (st c ins n).idx = i

instance : Decidable (Taken c ins n i) := inferInstanceAs (Decidable (_ ∧ _))
instance : Decidable (Appears c ins n) := inferInstanceAs (Decidable (_ ∧ _))
instance : Decidable (Sent c ins n i) := inferInstanceAs (Decidable (_ ∧ _))

def takes (c : Cfg) (ins : Nat → In) (n i : Nat) : Nat := (List.range n).countP fun k => decide (Taken c ins k i)
def sends (c : Cfg) (ins : Nat → In) (n i : Nat) : Nat := (List.range n).countP fun k => decide (Sent c ins k i)

/-- the address of a memory write: the 3DW format has 32 bits, the 4DW format 64 (PCI Express Base Specification 2.2.4.1) -/
def Tlp.addr (t : Tlp) : Nat := if t.long then t.dwAddr % 2 ^ 62 * 4 else t.dwAddr % 2 ^ 30 * 4

/-- 4DW is for addresses that need it -/
def Tlp.FmtOk (t : Tlp) (force : Bool) : Prop := t.long = true ↔ force = true ∨ 2 ^ 32 ≤ t.addr

end Corundum.Msix
