import Verif.Model.CplQueue
/-!
Reference semantics of a completion queue manager: an atomic machine without pipeline, op table or hazards, as an
acceptor of event traces.  `accept` answers `none` when the event is not allowed.  It uses only the event type (and the
byte-enable primitive `mergeStrb`) of the model.
-/
namespace Corundum.CplQueue.Spec
open Corundum.CplQueue

/-- host-visible registers of one queue -/
structure Queue where
  prod : Nat
  cons : Nat
  evn : Nat
  logSize : Nat
  armed : Bool
  en : Bool
  baseLo : Nat
  baseHi : Nat
  deriving DecidableEq

/-- an operation handed to the client and not yet retired: `ptr` = producer pointer after it -/
structure AOp where
  q : Nat
  ptr : Nat
  tag : Nat
  done : Bool
  deriving DecidableEq

structure A where
  qs : Nat → Queue
  /-- outstanding operations, oldest first -/
  ops : List AOp
  started : Nat

def A.init : A := ⟨fun _ => ⟨0, 0, 0, 0, false, false, 0, 0⟩, [], 0⟩

def opsOf (a : A) (q : Nat) : List AOp := a.ops.filter (fun o => o.q == q)

/-- next pointer to hand out: behind the newest outstanding operation, else the producer pointer -/
def next (a : A) (q : Nat) : Nat :=
  match (opsOf a q).getLast? with
  | some o => o.ptr
  | none => (a.qs q).prod

/-- effect of a register write on the queue it addresses -/
def write (c : Queue) (reg data strb : Nat) : Queue :=
  if reg = 0 then if c.en then c else { c with baseLo := mergeStrb ((strb <<< 1) &&& 0xE) c.baseLo (data / 4096 * 4096 + c.baseLo % 4096) }
  else if reg = 1 then if c.en then c else { c with baseHi := mergeStrb strb c.baseHi data }
  else if 2 ≤ reg ∧ reg ≤ 3 then
    if data / 2 ^ 16 = 0x8002 then if c.en then c else { c with logSize := data % 16 }
    else if data / 2 ^ 24 = 0xC0 then if c.en then c else { c with evn := data % 2 ^ 16 }
    else if data / 2 ^ 16 = 0x8080 then if c.en then c else { c with prod := data % 2 ^ 16 }
    else if data / 2 ^ 16 = 0x8090 then { c with cons := data % 2 ^ 16 }
    else if data / 2 ^ 16 = 0x8091 then
      -- consumer pointer and arm: stays armed unless there is something to report now
      { c with cons := data % 2 ^ 16, armed := !c.en || c.prod == data % 2 ^ 16 }
    else if data / 2 ^ 8 = 0x400001 then { c with en := data % 2 == 1 }
    else if data / 2 ^ 8 = 0x400002 then { c with armed := data % 2 == 1 && (!c.en || c.prod == c.cons) }
    else c
  else c

/-- an arm command, alone or with a consumer pointer update -/
def isArm (reg data : Nat) : Prop := 2 ≤ reg ∧ reg ≤ 3 ∧ (data / 2 ^ 16 = 0x8091 ∨ data / 2 ^ 8 = 0x400002 ∧ data % 2 = 1)
instance (reg data : Nat) : Decidable (isArm reg data) := by unfold isArm; infer_instance

/-- the event that a register write must produce: an arm command to an enabled queue with unread entries -/
def wrEvent (p : Params) (c : Queue) (q reg data strb : Nat) : Option Event :=
  if isArm reg data ∧ c.en = true ∧ c.prod ≠ (write c reg data strb).cons then some ⟨c.evn % 2 ^ p.evW, q⟩ else none

/-- the event that a producer pointer update must produce -/
def retEvent (p : Params) (c : Queue) (q : Nat) : Option Event := if c.armed then some ⟨c.evn % 2 ^ p.evW, q⟩ else none

def read (p : Params) (a : A) (q reg : Nat) : Nat :=
  let c := a.qs q
  if reg = 0 then c.baseLo
  else if reg = 1 then c.baseHi
  else if reg = 2 then c.evn % 2 ^ p.evW + (if c.en then 2 ^ 16 else 0) + (if c.armed then 2 ^ 17 else 0) +
    (if opsOf a q = [] then 0 else 2 ^ 19) + c.logSize * 2 ^ 28
  else if reg = 3 then c.prod + c.cons * 2 ^ 16
  else 0

/-- the response that an enqueue request must get: `full` when the distance from the consumer pointer to the pointer
that would be granted has reached the ring size -/
def resp (p : Params) (a : A) (q tag : Nat) : Resp :=
  let c := a.qs q
  let n := next a q
  { q := q, ptr := n, phase := n / 2 ^ c.logSize % 2 == 0,
    addr := (c.baseLo + 2 ^ 32 * c.baseHi + n % 2 ^ c.logSize * 2 ^ p.cplLog) % 2 ^ p.addrW,
    evn := c.evn % 2 ^ p.evW, tag := tag, opTag := a.started % 2 ^ p.cl,
    full := c.en && decide (2 ^ c.logSize ≤ (n + 2 ^ 16 - c.cons) % 2 ^ 16), err := !c.en }

def setQ (a : A) (q : Nat) (c : Queue) : A := { a with qs := fun j => if j = q then c else a.qs j }

def accept (p : Params) (a : A) : Ev → Option A
  | .wr q reg data strb ev =>
    if ev = wrEvent p (a.qs q) q reg data strb then some (setQ a q (write (a.qs q) reg data strb))
    else none
  | .rd q reg val => if val = read p a q reg then some a else none
  | .req q tag r =>
    if r = resp p a q tag then
      if r.err || r.full then some a
      else if a.ops.all (fun o => o.done || o.tag != r.opTag) then
        some { a with ops := a.ops ++ [⟨q, (r.ptr + 1) % 2 ^ 16, r.opTag, false⟩], started := a.started + 1 }
      else none      -- tag of an unfinished operation reused
    else none
  | .commit tag => some { a with ops := a.ops.map (fun o => if o.tag = tag then { o with done := true } else o) }
  | .retire q ev =>
    match a.ops with
    | o :: rest =>
      if o.q = q ∧ o.done = true ∧ ev = retEvent p (a.qs q) q then
        -- one-shot: the event disarms
        some { setQ a q { a.qs q with prod := o.ptr, armed := false } with ops := rest }
      else none
    | [] => none

def runA (p : Params) (a : A) : List Ev → Option A
  | [] => some a
  | e :: es => (accept p a e).bind (fun a' => runA p a' es)

end Corundum.CplQueue.Spec
