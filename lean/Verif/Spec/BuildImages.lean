import Verif.Model.BuildImages

/-! C124 to C126: building all designs. -/
namespace Corundum.BuildImages

/-- states a run of the script with `n` designs can get to -/
def Reach (n parallel synthParallel : Nat) (s : St) : Prop := ∃ es, (St.init n parallel synthParallel).run es = some s

/-- the tool of the job is running, perhaps left behind by a task that has ended with an exception -/
def Job.Alive (j : Job) : Bool := j.pc = .running ∨ j.pc = .raised

/-- the tool runs and has not got past synthesis -/
def Job.Synth (j : Job) : Bool := j.Alive ∧ j.synthSem

/-- number of jobs of a kind -/
def St.count (s : St) (f : Job → Bool) : Nat := s.jobs.countP f

/-- an event by which a job gets on, other than an exception -/
def Ev.Proceeds : Ev → Prop
  | .go _ => True
  | .finish _ _ => True
  | .copied _ => True
  | _ => False

instance : DecidablePred Ev.Proceeds := fun e => by cases e <;> unfold Ev.Proceeds <;> infer_instance

/-- the job whose `run` begins with this event -/
def St.begins (s : St) : Ev → List Nat
  | .go i => if (s.jobs[i]?).map Job.pc = some .new then [i] else []
  | _ => []

/-- jobs in the order in which their `run` begins -/
def St.firsts (s : St) : List Ev → List Nat
  | [] => []
  | e :: es =>
    s.begins e ++
    match s.step e with
    | some t => t.firsts es
    | none => []

/-- job `i` has been given a permit to build -/
def St.Got (s : St) (i : Nat) : Prop := (∃ j, s.jobs[i]? = some j ∧ j.pc ≠ .new) ∧ (i, false) ∉ s.build.waiters

end Corundum.BuildImages
