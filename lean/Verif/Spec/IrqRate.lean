import Verif.Model.IrqRate

/-!
What the user of the interrupt rate limiter sees.
-/
namespace Corundum.IrqRate

/-- the state before cycle `n` -/
def st (w : Nat) (m : Nat → Ent) (ins : Nat → In) : Nat → St
  | 0 => init m
  | n + 1 => step w (st w m ins n) (ins n)

/-- the inputs fit their ports -/
def Legal (w : Nat) (ins : Nat → In) : Prop := ∀ n, (ins n).ii < 2 ^ w ∧ (ins n).pre < 2 ^ 16 ∧ (ins n).min < 2 ^ 16

/-- interrupt `i` is taken at the input in cycle `n` -/
def Taken (w : Nat) (m : Nat → Ent) (ins : Nat → In) (n i : Nat) : Prop := (ins n).iv = true ∧ (st w m ins n).rdy = true ∧ (ins n).ii = i

/-- interrupt `i` is handed on at the output in cycle `n` -/
def Given (w : Nat) (m : Nat → Ent) (ins : Nat → In) (n i : Nat) : Prop := (st w m ins n).ov = true ∧ (ins n).ordy = true ∧ (st w m ins n).oidx = i

/-- in cycle `n` interrupt `i` appears at the output: it is offered in the next cycle, and the output was free before or becomes free -/
def Shown (w : Nat) (m : Nat → Ent) (ins : Nat → In) (n i : Nat) : Prop :=
  (st w m ins (n + 1)).ov = true ∧ (st w m ins (n + 1)).oidx = i ∧ ((st w m ins n).ov = false ∨ (ins n).ordy = true)

instance : Decidable (Taken w m ins n i) := inferInstanceAs (Decidable (_ ∧ _))
instance : Decidable (Given w m ins n i) := inferInstanceAs (Decidable (_ ∧ _))

/-- how often interrupt `i` was taken, and handed on, before cycle `n` -/
def takes (w : Nat) (m : Nat → Ent) (ins : Nat → In) (n i : Nat) : Nat := (List.range n).countP fun k => decide (Taken w m ins k i)
def gives (w : Nat) (m : Nat → Ent) (ins : Nat → In) (n i : Nat) : Nat := (List.range n).countP fun k => decide (Given w m ins k i)

/-- the time in periods of the prescaler -/
def ticks (w : Nat) (m : Nat → Ent) (ins : Nat → In) (n : Nat) : Nat := (st w m ins n).ticks

end Corundum.IrqRate
