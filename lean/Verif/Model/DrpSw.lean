import Verif.Model.RbDrp
/-!
Transceiver register access by the utilities: utils/drp.c. The hardware is `Model/RbDrp`; between the register accesses of
the software any number of edges of both clocks may pass.
-/
namespace Corundum.DrpSw
open RbDrp

/-- what passes before a register write: edges, and what the DRP clock does at the edge of the write -/
structure Gap where
  before : List Ev
  drp : Option (Option Nat)

/-- a register write after some time -/
def Gap.write (g : Gap) (w : Wr) : List Ev := g.before ++ [⟨some w, g.drp⟩]

/-- time that passes during a call: before each write, until the control register is checked (with the read that only flushes the
writes, lines 13, 25), and until the data is read -/
structure Time where
  addr : Gap
  di : Gap
  ctrl : Gap
  check : List Ev
  data : List Ev

/-- up to the check, lines 11-14 -/
def readEvents (a : Nat) (t : Time) : List Ev := t.addr.write (.addr a) ++ t.ctrl.write (.ctrl true false) ++ t.check

/-- up to the check, lines 22-26 -/
def writeEvents (a v : Nat) (t : Time) : List Ev :=
  t.addr.write (.addr a) ++ t.di.write (.di v) ++ t.ctrl.write (.ctrl true true) ++ t.check

/-- bits 0 and 8 of the control register, rb_drp.v:241-243 -/
def busy (s : St) : Bool := s.rb.en || decide (s.rb.st ≠ .idle)

/-- `drp_rb_reg_read`, lines 9-18; `none` is -1 -/
def read (s : St) (a : Nat) (t : Time) : St × Option Nat :=
  let c := (readEvents a t).foldl St.step s
  if busy c then (c, none) else (t.data.foldl St.step c, some (t.data.foldl St.step c).rb.rdata)

/-- `drp_rb_reg_write`, lines 20-29; `false` is -1 -/
def write (s : St) (a v : Nat) (t : Time) : St × Bool :=
  let c := (writeEvents a v t).foldl St.step s
  (c, !busy c)

end Corundum.DrpSw
