import Verif.Model.ArbMux

/-!
What the users of the multiplexer see: what goes in at each input, and what comes out.
-/
namespace Corundum.ArbMux

variable {α : Type}

/-- the state before cycle `n` -/
def st (c : Cfg) (ins : Nat → In α) : Nat → St α
  | 0 => init
  | n + 1 => step c (st c ins n) (ins n)

/-- the beats taken at input `p` before cycle `n` -/
def accepted (c : Cfg) (ins : Nat → In α) (p : Nat) : Nat → List (Beat α)
  | 0 => []
  | n + 1 => accepted c ins p n ++ if sready (st c ins n) p then ((ins n).offer p).toList else []

/-- the beats taken from the output before cycle `n`, with the number of the input they come from -/
def delivered (c : Cfg) (ins : Nat → In α) : Nat → List (Nat × Beat α)
  | 0 => []
  | n + 1 => delivered c ins n ++ if (ins n).mready then (st c ins n).out.m.toList else []

/-- those that come from input `p` -/
def ofPort (p : Nat) (l : List (Nat × Beat α)) : List (Beat α) := l.filterMap fun x => if x.1 = p then some x.2 else none

/-- frames are not mixed: a beat that does not end a frame is followed by one from the same input -/
def Whole : List (Nat × Beat α) → Prop
  | a :: b :: l => (a.2.last = false → b.1 = a.1) ∧ Whole (b :: l)
  | _ => True

/-- ends of frames from inputs other than `p`; every beat is one if there are no frames -/
def ends (c : Cfg) (p : Nat) (l : List (Nat × Beat α)) : Nat := l.countP fun x => decide (x.1 ≠ p) && (!c.frames || x.2.last)

end Corundum.ArbMux
