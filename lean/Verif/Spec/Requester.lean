import Verif.Model.Requester

/-!
What the completer has to do, and when a coroutine or the completer can make a step.
-/

namespace Corundum.Requester
open Corundum.Pcie

/-- the tag a coroutine holds -/
def Phase.tag? : Phase → Option Nat
  | .sending t => some t
  | .waitCpl t _ => some t
  | .wokenCpl t _ => some t
  | _ => none

def Op.tag? (o : Op) : Option Nat := o.phase.tag?

def tagAt (s : St) (i : Nat) : Option Nat := (s.ops[i]?).bind Op.tag?

/-- nothing more comes after this completion: it reports an error, or the request is not a memory read, or it has no data, or the bytes that are left are all in it -/
def Ends (req c : Tlp) : Prop :=
  c.status ≠ 0 ∨ ¬ (req.typ = 0 ∧ (req.fmt = 0 ∨ req.fmt = 1)) ∨ c.fmt = 0 ∨ c.byteCount + c.lowerAddress % 4 ≤ 4 * c.length

/-- the last completion, and only that, ends the request -/
def Complete (req : Tlp) (a : List Tlp) : Prop := ∃ l c, a = l ++ [c] ∧ (∀ x ∈ l, ¬ Ends req x) ∧ Ends req c

/-- whatever tag the request gets, it is answered completely, with this tag -/
def Answered (count : Nat) (answer : Tlp → List Tlp) (req : Tlp) : Prop :=
  ∀ t < count, Complete req (answer (withTag req t)) ∧ ∀ c ∈ answer (withTag req t), c.tag = t

/-- all requests made are answered completely -/
def AllAnswered (count : Nat) (answer : Tlp → List Tlp) (es : List Ev) : Prop := ∀ req timed, .spawn req timed ∈ es → Answered count answer req

/-- no request has a timeout -/
def Untimed (es : List Ev) : Prop := ∀ req timed, .spawn req timed ∈ es → timed = false

/-- the step can be made: the coroutine can run, the timer can expire, there is a completion on its way -/
def Enabled (s : St) : Ev → Prop
  | .spawn _ _ => False
  | .run i => ∃ o, s.ops[i]? = some o ∧ match o.phase with
    | .alloc => True
    | .sending _ => True
    | .wokenCpl _ _ => True
    | _ => False
  | .timeout i => ∃ o, s.ops[i]? = some o ∧ o.timed = true ∧ ∃ t got, o.phase = .waitCpl t got
  | .arrive t => s.pend t ≠ []

/-- a sequence of steps each of which can be made -/
def Steps (count : Nat) (answer : Tlp → List Tlp) : St → List Ev → Prop
  | _, [] => True
  | s, e :: es => Enabled s e ∧ Steps count answer (step count answer s e) es

def Op.isDone (o : Op) : Prop := ∃ t got, o.phase = .done t got

/-- the completer: memory `mem` at `base`, with completions as pcie.py:3528-3574 makes them -/
def memory (mps : Nat) (completer : Id) (base : Nat) (mem : List Nat) (t : Tlp) : List Tlp := (rcRead mps completer base mem t).getD []

/-- every operation has returned, and with these completions -/
def Joined (s : St) : List (Nat × Tlp) → List (Nat × List Tlp) → Prop
  | [], [] => True
  | (n, t) :: rs, (m, got) :: ps => m = n ∧ (∃ (i tag : Nat), s.ops[i]? = some ⟨t, false, .done tag got⟩) ∧ Joined s rs ps
  | _, _ => False

/-- the requests `dma_mem_read(addr, length)` makes -/
def readRequests (mrrs : Nat) (req : Id) (addr length : Nat) : List (Nat × Tlp) := dmaReads mrrs req (length = 0) (max length 1) addr (max length 1)

/-- a read of bytes in the memory within a page -/
def InMemory (base size : Nat) (t : Tlp) : Prop :=
  isRead t = true ∧ t.address % 4 = 0 ∧ 1 ≤ t.length ∧ base ≤ t.address ∧ t.address + 4 * t.length ≤ base + size ∧ t.address % 4096 + 4 * t.length ≤ 4096

end Corundum.Requester
