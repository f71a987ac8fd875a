import Verif.Model.PcieLink

/-! C121 to C123: links of the PCIe model. -/
namespace Corundum.PcieLink

/-- the calls of `send` in a run, with the time of each; time is what the run shows -/
def sends (c : Cfg) : List Ev → St → List (Nat × Pkt)
  | [], _ => []
  | e :: es, s =>
    (match e with
      | .send p => [(s.now, p)]
      | _ => []) ++ sends c es (s.step c e)

/-- calls of `send` in the run from the beginning -/
def sent (c : Cfg) (es : List Ev) : List (Nat × Pkt) := sends c es {}

/-- a wire that carries one packet at a time, in order, as early as it can: it is free again at the time `f` -/
def wire (ser : Pkt → Nat) (link : Nat) : Nat → List (Nat × Pkt) → List (Nat × Pkt)
  | _, [] => []
  | f, (t, p) :: r => (max t f + ser p + link, p) :: wire ser link (max t f + ser p) r

/-- the time from which the wire is free -/
def free (ser : Pkt → Nat) : Nat → List (Nat × Pkt) → Nat
  | f, [] => f
  | f, (t, p) :: r => free ser (max t f + ser p) r

/-- a call of `send` is between its test of `tx_scheduled` and its assignment -/
def St.Sending (s : St) : Prop := ∃ t, (t, Job.flag) ∈ s.jobs

/-- no call of `send` begins while another is in progress -/
def OneAtATime (c : Cfg) (es : List Ev) : Prop := ∀ pre p post, es = pre ++ Ev.send p :: post → ¬ (run c pre).Sending

/-- an event that is not a new call and that can take place in `s` -/
def St.Can (s : St) : Ev → Prop
  | .send _ => False
  | .run i => ∃ j, s.jobs[i]? = some (s.now, j)
  | .tick => ∀ x ∈ s.jobs, x.1 ≠ s.now

/-- all events of the list take place, one after the other -/
def Takes (c : Cfg) : St → List Ev → Prop
  | _, [] => True
  | s, e :: es => s.Can e ∧ Takes c (s.step c e) es

end Corundum.PcieLink
