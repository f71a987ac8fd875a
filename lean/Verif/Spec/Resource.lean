import Verif.Model.Resource
/-
C01 specification, phrased on the observable history only: the list of calls and what each
`alloc` returned.  `held` replays that history.
-/
namespace Corundum.Resource

/-! ### Specification -/

/-- Indices held by the callers after a history of (call, returned value) pairs. -/
def held : List (Op × Option (Except PyErr Nat)) → List Nat → List Nat
  | [], h => h
  | (.alloc, some (.ok i)) :: t, h => held t (i :: h)
  | (.alloc, _) :: t, h => held t h
  | (.free i, _) :: t, h => held t (h.erase i)

/-- Run a list of calls, recording what each returned. -/
def Res.run (r : Res) : List Op → Res × List (Op × Option (Except PyErr Nat))
  | [] => (r, [])
  | op :: ops =>
    let (r', o) := r.step op
    let (r'', t) := Res.run r' ops
    (r'', (op, o) :: t)

/-- Callers only free indices they hold at that point. -/
def Disciplined : List (Op × Option (Except PyErr Nat)) → List Nat → Prop
  | [], _ => True
  | (.alloc, some (.ok i)) :: t, h => Disciplined t (i :: h)
  | (.alloc, _) :: t, h => Disciplined t h
  | (.free i, _) :: t, h => i ∈ h ∧ Disciplined t (h.erase i)

/-! ### Linux bitmap allocator -/

/-- Indices held after a history of the Linux allocator: `alloc` returning an index adds it; a
`free` drops it (no effect if absent). -/
def heldC : List (COp × Option (Option Nat)) → List Nat → List Nat
  | [], h => h
  | (.alloc, some (some i)) :: t, h => heldC t (i :: h)
  | (.alloc, _) :: t, h => heldC t h
  | (.free i, _) :: t, h => heldC t (h.filter (fun (j : Nat) => (j : Int) != i))

def Bmap.run (b : Bmap) : List COp → Bmap × List (COp × Option (Option Nat))
  | [] => (b, [])
  | op :: ops =>
    let (b', o) := b.step op
    let (b'', t) := Bmap.run b' ops
    (b'', (op, o) :: t)

end Corundum.Resource
