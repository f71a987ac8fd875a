import Verif.Model.QueueManager
/-!
Reference semantics of a descriptor queue manager: an atomic machine without pipeline, op table or hazards, as an
acceptor of event traces.  `accept` answers `none` when the event is not allowed.  It uses only the event type (and the
byte-enable primitive `mergeStrb`) of the model.
-/
namespace Corundum.QueueManager.Spec
open Corundum.QueueManager

/-- host-visible registers of one queue -/
structure Queue where
  prod : Nat
  cons : Nat
  cplq : Nat
  logSize : Nat
  logBlock : Nat
  en : Bool
  baseLo : Nat
  baseHi : Nat
  deriving DecidableEq

/-- an operation handed to the client and not yet retired: `ptr` = consumer pointer after it -/
structure AOp where
  q : Nat
  ptr : Nat
  tag : Nat
  done : Bool
  deriving DecidableEq

structure A where
  qs : Nat → Queue
  /-- outstanding operations, oldest first -/
  ops : List AOp
  started : Nat

def A.init : A := ⟨fun _ => ⟨0, 0, 0, 0, 0, false, 0, 0⟩, [], 0⟩

def opsOf (a : A) (q : Nat) : List AOp := a.ops.filter (fun o => o.q == q)

/-- next pointer to hand out: behind the newest outstanding operation, else the consumer pointer -/
def next (a : A) (q : Nat) : Nat :=
  match (opsOf a q).getLast? with
  | some o => o.ptr
  | none => (a.qs q).cons

/-- effect of a register write on the queue it addresses -/
def write (c : Queue) (reg data strb : Nat) : Queue :=
  if reg = 0 then if c.en then c else { c with baseLo := mergeStrb (strb &&& 0xE) c.baseLo (data / 4096 * 4096 + c.baseLo % 4096) }
  else if reg = 1 then if c.en then c else { c with baseHi := mergeStrb strb c.baseHi data }
  else if 2 ≤ reg ∧ reg ≤ 4 then
    if data / 2 ^ 16 = 0x8002 then if c.en then c else { c with logSize := data % 16, logBlock := data / 256 % 4 }
    else if data / 2 ^ 24 = 0xC0 then if c.en then c else { c with cplq := data % 2 ^ 16 }
    else if data / 2 ^ 16 = 0x8080 then { c with prod := data % 2 ^ 16 }
    else if data / 2 ^ 16 = 0x8090 then if c.en then c else { c with cons := data % 2 ^ 16 }
    else if data / 2 ^ 8 = 0x400001 then { c with en := data % 2 == 1 }
    else c
  else c

/-- a producer pointer update -/
def isProd (reg data : Nat) : Prop := 2 ≤ reg ∧ reg ≤ 4 ∧ data / 2 ^ 16 = 0x8080
instance (reg data : Nat) : Decidable (isProd reg data) := by unfold isProd; infer_instance

def read (p : Params) (a : A) (q reg : Nat) : Nat :=
  let c := a.qs q
  if reg = 0 then c.baseLo
  else if reg = 1 then c.baseHi
  else if reg = 2 then (if c.en then 1 else 0) + (if opsOf a q = [] then 0 else 8)
  else if reg = 3 then c.cplq % 2 ^ p.cplW + c.logSize * 2 ^ 24 + c.logBlock * 2 ^ 28
  else if reg = 4 then c.prod + c.cons * 2 ^ 16
  else 0

/-- the response that a dequeue request must get -/
def resp (p : Params) (a : A) (q tag : Nat) : Resp :=
  let c := a.qs q
  let n := next a q
  { q := q, ptr := n, phase := n / 2 ^ c.logSize % 2 == 0,
    addr := (c.baseLo + 2 ^ 32 * c.baseHi + n % 2 ^ c.logSize * 2 ^ (p.descLog + c.logBlock)) % 2 ^ p.addrW,
    blk := c.logBlock, cpl := c.cplq % 2 ^ p.cplW, tag := tag, opTag := a.started % 2 ^ p.cl,
    empty := c.en && n == c.prod, err := !c.en }

def setQ (a : A) (q : Nat) (c : Queue) : A := { a with qs := fun j => if j = q then c else a.qs j }

def accept (p : Params) (a : A) : Ev → Option A
  | .wr q reg data strb db =>
    if db = (if isProd reg data ∧ (a.qs q).en = true then some q else none) then some (setQ a q (write (a.qs q) reg data strb))
    else none
  | .rd q reg val => if val = read p a q reg then some a else none
  | .req q tag r =>
    if r = resp p a q tag then
      if r.err || r.empty then some a
      else if a.ops.all (fun o => o.done || o.tag != r.opTag) then
        some { a with ops := a.ops ++ [⟨q, (r.ptr + 1) % 2 ^ 16, r.opTag, false⟩], started := a.started + 1 }
      else none      -- tag of an unfinished operation reused
    else none
  | .commit tag => some { a with ops := a.ops.map (fun o => if o.tag = tag then { o with done := true } else o) }
  | .retire q =>
    match a.ops with
    | o :: rest =>
      if o.q = q ∧ o.done = true then
        some { setQ a q { a.qs q with cons := o.ptr } with ops := rest }
      else none
    | [] => none

def runA (p : Params) (a : A) : List Ev → Option A
  | [] => some a
  | e :: es => (accept p a e).bind (fun a' => runA p a' es)

end Corundum.QueueManager.Spec
