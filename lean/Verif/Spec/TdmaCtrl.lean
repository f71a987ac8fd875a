import Verif.Model.TdmaCtrl
/-! What is expected of the control of queues by time slots. -/
namespace Corundum.TdmaCtrl

/-- the queues that are on in slot `i`, according to the queue RAM, in order -/
def members (c : Cfg) (ram : Nat → Nat) (i : Nat) : List Nat := (List.range (2 ^ c.qw)).filter fun q => (ram q).testBit i

/-- commands for a slot: its queues are switched on, then off -/
def slotCmds (c : Cfg) (d : Nat × (Nat → Nat)) : List (Nat × Bool) :=
  (members c d.2 d.1).map (fun q => (q, true)) ++ (members c d.2 d.1).map (fun q => (q, false))

/-- indices of the slots that began -/
def starts (xs : List In) : List Nat := (xs.filter (·.start)).map (·.index)

/-- the command that is offered -/
def St.pend (s : St) : List (Nat × Bool) := if s.valid then [(s.queue, s.enable)] else []

end Corundum.TdmaCtrl
