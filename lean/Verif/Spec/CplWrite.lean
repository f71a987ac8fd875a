import Verif.Model.CplWrite

/-! What the queue managers and the DMA engine promise to the completion write engine. -/
namespace Corundum.CplWrite

/-- The surroundings behave during a cycle: requests name an existing port; a port answers only requests it has taken, once, with their
tag, and holds its answer until it is taken; the DMA engine reports only writes it has taken, once. -/
structure Legal (P : Params) (g : G) (i : In) : Prop where
  req : ∀ q, i.req = some q → q.sel < P.ports
  resp : ∀ p, p < P.ports → ∀ r, i.resp p = some r →
    ∃ k q, g.own r.tag = some k ∧ g.reqs[k]? = some q ∧ q.sel = p ∧ g.taken k = true ∧ g.answered k = false
  hold : ∀ p, p < P.ports → ∀ r, g.held p = some r → i.resp p = some r
  status : ∀ t, i.status = some t → ∃ k, g.own t = some k ∧ g.dtaken k = true ∧ g.wrote k = false

/-- the surroundings behave during a run -/
def LegalRun (P : Params) : Sys → List In → Prop
  | _, [] => True
  | x, i :: is => Legal P x.g i ∧ LegalRun P (step P x i) is

/-- the completion as it must appear in host memory: the data with its top bit replaced by the phase -/
def word (P : Params) (phase : Bool) (data : Nat) : Nat :=
  phase.toNat * 2 ^ (8 * P.cplSize - 1) + data % 2 ^ (8 * P.cplSize - 1)

/-- the commit request `k` calls for, if an entry was granted -/
def due (g : G) (k : Nat) : Option (Nat × Nat) :=
  match g.reqs[k]?, g.resp k with
  | some q, some r => if r.ok then some (q.sel, r.opTag) else none
  | _, _ => none

/-- the status of request `k` -/
def report (g : G) (k : Nat) : Option (Nat × Bool × Bool) :=
  match g.reqs[k]?, g.resp k with
  | some q, some r => some (q.tag, r.full, r.error)
  | _, _ => none

/-- a commit offered and not taken -/
def offered (P : Params) (s : S) : List (Nat × Nat) :=
  (List.range P.ports).filterMap fun p => if s.coValid p then some (p, s.coTag) else none

/-- a status pulse being shown -/
def pulse (s : S) : List (Nat × Bool × Bool) := if s.stValid then [(s.stTag, s.stFull, s.stError)] else []

end Corundum.CplWrite
