/-! Building all designs (fpga/build_images.py): jobs that share two semaphores, and the names of the files they write.

A job is a task of `asyncio`; between two points where it waits it runs alone.  Which task that can go on does so, and what the tools do, is left open.
Semaphores are those of `asyncio` in Python 3.11.  Not modelled: what the tools print beyond the line that ends synthesis, time, status display. -/
namespace Corundum.BuildImages

/-! ### semaphores -/

/-- `asyncio.Semaphore`: `_value` and `_waiters`, by job; `true` for a future that is done -/
structure Sem where
  value : Nat
  waiters : List (Nat × Bool) := []
deriving DecidableEq, Repr

/-- set the result of the first future that has none -/
def wakeFirst : List (Nat × Bool) → Option (List (Nat × Bool))
  | [] => none
  | (i, false) :: r => some ((i, true) :: r)
  | (i, true) :: r => (wakeFirst r).map ((i, true) :: ·)

/-- `_wake_up_next` -/
def Sem.wake (s : Sem) : Sem :=
  match wakeFirst s.waiters with
  | some ws => ⟨s.value - 1, ws⟩
  | none => s

/-- `release` -/
def Sem.release (s : Sem) : Sem := Sem.wake { s with value := s.value + 1 }

/-- `acquire` up to where it waits; `true` if it does not wait -/
def Sem.acquire (s : Sem) (i : Nat) : Bool × Sem :=
  if s.value = 0 ∨ s.waiters ≠ [] then (false, { s with waiters := s.waiters ++ [(i, false)] })
  else (true, { s with value := s.value - 1 })

/-- `acquire` after it has waited -/
def Sem.resume (s : Sem) (i : Nat) : Sem :=
  let s := { s with waiters := s.waiters.eraseP (fun w => w.1 == i) }
  if s.value > 0 then s.wake else s

/-! ### jobs -/

/-- where `Build.run` is (build_images.py:120-164) -/
inductive Pc where
  /-- task created (:120) -/
  | new
  /-- waits for `build_sem` (:126) -/
  | waitBuild
  /-- waits for `synth_sem` (:130) -/
  | waitSynth
  /-- the tool runs (:141-150) -/
  | running
  /-- copies and zips the output file (:155-160) -/
  | post
  /-- done or failed (:164) -/
  | done
  /-- ended with an exception while the tool ran, as from `decode` or `readline` (:141-150) -/
  | raised
deriving DecidableEq, Repr

/-- a `Build`: its place, and whether `build_sem` and `synth_sem` are still set -/
structure Job where
  pc : Pc := .new
  buildSem : Bool := false
  synthSem : Bool := false
deriving DecidableEq, Repr

/-- all jobs and both semaphores (build_images.py:385-394) -/
structure St where
  jobs : List Job
  build : Sem
  synth : Sem
deriving DecidableEq, Repr

/-- the beginning of `main`'s last part: `n` jobs -/
def St.init (n parallel synthParallel : Nat) : St := ⟨List.replicate n {}, ⟨parallel, []⟩, ⟨synthParallel, []⟩⟩

/-- `synth_sem.acquire()` and on to the start of the tool (build_images.py:128-145) -/
def St.toSynth (s : St) (i : Nat) (j : Job) : St :=
  match s.synth.acquire i with
  | (true, m) => { s with synth := m, jobs := s.jobs.set i { j with pc := .running } }
  | (false, m) => { s with synth := m, jobs := s.jobs.set i { j with pc := .waitSynth } }

/-- `run` from its beginning (build_images.py:121-130) -/
def St.start (s : St) (i : Nat) (j : Job) : St :=
  let j := { j with buildSem := true, synthSem := true }
  match s.build.acquire i with
  | (true, m) => { s with build := m }.toSynth i j
  | (false, m) => { s with build := m, jobs := s.jobs.set i { j with pc := .waitBuild } }

/-- `synth_done` (build_images.py:110-113) -/
def St.synthDone (s : St) (i : Nat) (j : Job) : St :=
  if j.synthSem then { s with synth := s.synth.release, jobs := s.jobs.set i { j with synthSem := false } } else s

/-- `build_done` (build_images.py:115-118) -/
def St.buildDone (s : St) (i : Nat) (j : Job) : St :=
  if j.buildSem then { s with build := s.build.release, jobs := s.jobs.set i { j with buildSem := false } } else s

/-- what happens -/
inductive Ev where
  /-- job `i` goes on, from its beginning or with a semaphore it has been given -/
  | go (i : Nat)
  /-- the tool of job `i` prints the line that ends synthesis, such as that of `run_impl.tcl` (:198-199) -/
  | impl (i : Nat)
  /-- the tool of job `i` ends; `ok` if the output file is there -/
  | finish (i : Nat) (ok : Bool)
  /-- the output file is copied -/
  | copied (i : Nat)
  /-- an exception while the tool runs -/
  | fail (i : Nat)
deriving DecidableEq, Repr

/-- one event; `none` if it cannot take place -/
def St.step (s : St) : Ev → Option St
  | .go i =>
    match s.jobs[i]? with
    | some j =>
      match j.pc with
      | .new => some (s.start i j)
      | .waitBuild => if (i, true) ∈ s.build.waiters then some ({ s with build := s.build.resume i }.toSynth i j) else none
      | .waitSynth =>
        if (i, true) ∈ s.synth.waiters then some { s with synth := s.synth.resume i, jobs := s.jobs.set i { j with pc := .running } } else none
      | _ => none
    | none => none
  | .impl i =>
    match s.jobs[i]? with
    | some j => if j.pc = .running then some (s.synthDone i j) else none
    | none => none
  | .finish i ok =>
    match s.jobs[i]? with
    | some j =>
      if j.pc = .running then
        let s := s.synthDone i j
        let j := { j with synthSem := false }
        let s := s.buildDone i j
        let j := { j with buildSem := false }
        some { s with jobs := s.jobs.set i { j with pc := if ok then .post else .done } }
      else none
    | none => none
  | .copied i =>
    match s.jobs[i]? with
    | some j => if j.pc = .post then some { s with jobs := s.jobs.set i { j with pc := .done } } else none
    | none => none
  | .fail i =>
    match s.jobs[i]? with
    | some j => if j.pc = .running then some { s with jobs := s.jobs.set i { j with pc := .raised } } else none
    | none => none

/-- all events take place, one after the other -/
def St.run (s : St) : List Ev → Option St
  | [] => some s
  | e :: es => (s.step e).bind fun s => s.run es

/-! ### names -/

/-- `s.startswith('fpga')` and `s[4:]` (build_images.py:352-353) -/
def dropFpga (s : List Char) : List Char := if "fpga".toList.isPrefixOf s then s.drop 4 else s

/-- `s.strip('_')` (build_images.py:354) -/
def strip (s : List Char) : List Char := ((s.dropWhile (· == '_')).reverse.dropWhile (· == '_')).reverse

/-- the name of a design from the parts of its path (build_images.py:350-358) -/
def design (path : List (List Char)) : List (List Char) := (path.map fun s => strip (dropFpga s)).filter (· ≠ [])

/-- `'-'.join` -/
def join : List (List Char) → List Char
  | [] => []
  | [s] => s
  | s :: r => s ++ '-' :: join r

/-- `outname` (build_images.py:82-84) -/
def outname (pre : List Char) (d : List (List Char)) : List Char := if pre = [] then join d else pre ++ '-' :: join d

end Corundum.BuildImages
