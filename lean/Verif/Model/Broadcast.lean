/-!
AXI stream broadcaster: fpga/lib/axis/rtl/axis_broadcast.v. A beat (data, keep, last, id, dest, user) is one value. Runs start from the state after
reset and have no reset in them.
-/
namespace Corundum.Broadcast

/-- registers, lines 91-107 -/
structure St (m : Nat) (α : Type) where
  ready : Bool
  valid : Fin m → Bool
  data : α
  tvalid : Bool
  tdata : α

/-- after reset, lines 186-190 -/
def St.init (m : Nat) {α : Type} (x : α) : St m α := ⟨false, fun _ => false, x, false, x⟩

/-- inputs in a cycle -/
structure In (m : Nat) (α : Type) where
  valid : Bool
  data : α
  ready : Fin m → Bool

/-- `(m_axis_tready & m_axis_tvalid) == m_axis_tvalid` -/
def taken {m : Nat} {α : Type} (s : St m α) (i : In m α) : Bool := decide (∀ k, (i.ready k && s.valid k) = s.valid k)

/-- `!m_axis_tvalid` -/
def empty {m : Nat} {α : Type} (s : St m α) : Bool := decide (∀ k, s.valid k = false)

/-- one clock edge, lines 125-184 -/
def step {m : Nat} {α : Type} (s : St m α) (i : In m α) : St m α :=
  let early := taken s i || (!s.tvalid && (empty s || !i.valid))
  if s.ready then
    if taken s i || empty s then { s with ready := early, valid := fun _ => i.valid, data := i.data }
    else { s with ready := early, valid := fun k => s.valid k && !i.ready k, tvalid := i.valid, tdata := i.data }
  else if taken s i then { s with ready := early, valid := fun _ => s.tvalid, tvalid := false, data := s.tdata }
  else { s with ready := early, valid := fun k => s.valid k && !i.ready k }

/-- the state after a run of inputs -/
def run {m : Nat} {α : Type} (s : St m α) (is : List (In m α)) : St m α := is.foldl step s

/-- beats taken from the input in a run: `s_axis_tvalid` and `s_axis_tready` -/
def accepted {m : Nat} {α : Type} : St m α → List (In m α) → List α
  | _, [] => []
  | s, i :: is => (if i.valid && s.ready then [i.data] else []) ++ accepted (step s i) is

/-- beats given to an output in a run: `m_axis_tvalid` and `m_axis_tready` -/
def given {m : Nat} {α : Type} (k : Fin m) : St m α → List (In m α) → List α
  | _, [] => []
  | s, i :: is => (if s.valid k && i.ready k then [s.data] else []) ++ given k (step s i) is

end Corundum.Broadcast
