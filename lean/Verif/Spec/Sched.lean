import Verif.Model.Sched
/-!
Environment of the transmit scheduler, in terms of its ports only: which transmit requests are in flight, and which
completions a client may return.
-/
namespace Corundum.Sched

/-- an accepted transmit request without completion; `ov`: a request issued later for the same queue has already
completed -/
structure Fl where
  q : Nat
  tag : Nat
  ov : Bool
  deriving DecidableEq

/-- transfer on the transmit request port in this cycle -/
def accepted (s : State) (i : In) : List Fl := if s.reqV && i.reqReady then [⟨s.reqQ, s.reqTag, false⟩] else []

def queueOf (E : List Fl) (t : Nat) : Option Nat := (E.find? (fun x => x.tag == t)).map Fl.q

/-- remove the request completed with tag `t`; older requests of the same queue have been overtaken -/
def settle (t : Nat) : List Fl → List Fl
  | [] => []
  | x :: xs => if x.tag = t then xs else (if queueOf xs t = some x.q then { x with ov := true } else x) :: settle t xs

def envNext (s : State) (E : List Fl) (i : In) : List Fl := (if i.stValid then settle i.stTag E else E) ++ accepted s i

/-- The client completes only requests in flight, and reports "nothing sent" (length 0) only for a request that has not
been overtaken.  Completions may otherwise come in any order and at any time. -/
def EnvOK (p : Params) (s : State) (E : List Fl) : List In → Prop
  | [] => True
  | i :: is => (i.stValid = true → ∃ x ∈ E, x.tag = i.stTag ∧ (i.stLen = 0 → x.ov = false)) ∧
      EnvOK p (step p s i).1 (envNext s E i) is

/-- requests issued to queue `q` / completions processed for it -/
def issues (q : Nat) : List Ev → Nat
  | [] => 0
  | .issue q' _ :: es => (if q' = q then 1 else 0) + issues q es
  | _ :: es => issues q es
def dones (q : Nat) : List Ev → Nat
  | [] => 0
  | .done q' _ _ :: es => (if q' = q then 1 else 0) + dones q es
  | _ :: es => dones q es

/-- enable bit of `q` according to the register writes (all with byte 0 enabled) -/
def enOf (q : Nat) (init : Bool) : List Ev → Bool
  | [] => init
  | .wr q' d0 _ _ :: es => enOf q (if q' = q then d0 else init) es
  | .init q' :: es => enOf q (if q' = q then false else init) es
  | _ :: es => enOf q init es

end Corundum.Sched
