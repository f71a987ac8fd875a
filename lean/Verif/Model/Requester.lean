import Verif.Model.Tlp

/-!
Requests of `PcieIfTestDevice`, /repo/fpga/lib/pcie/tb/pcie_if.py:1468-1544, 1657-1721: any number of `perform_nonposted_operation`
coroutines at once, sharing the tags and the queues of completions.

A coroutine runs from one suspension to the next without interruption; which of those that can run does so next is left
open.  Each `Event` is cleared right before it is waited for, so only its waiters are modelled, not its flag.
`source.send` is one suspension, after which the request is on its way.  The class `Tlp` comes from outside the repository;
it is taken to be the one of pcie.py.  The completer and the way to it and back are `St.pend`: completions of one tag arrive in
order, those of different tags in any order.
-/

namespace Corundum.Requester
open Corundum.Pcie Corundum.Struct

/-- where a coroutine is -/
inductive Phase where
  /-- can run, in the loop of `alloc_tag` -/
  | alloc
  /-- waits for `tag_release`, pcie_if.py:1498-1499 -/
  | waitTag
  /-- in `source.send`, pcie_if.py:1514 -/
  | sending (tag : Nat)
  /-- waits for `rx_cpl_sync[tag]` with the completions so far, pcie_if.py:1475-1479 -/
  | waitCpl (tag : Nat) (got : List Tlp)
  /-- can run: woken by the event or the timer -/
  | wokenCpl (tag : Nat) (got : List Tlp)
  /-- has returned the completions; `tag` is the one it had -/
  | done (tag : Nat) (got : List Tlp)
deriving DecidableEq

/-- `timed`: the `timeout` is not 0 -/
structure Op where
  req : Tlp
  timed : Bool
  phase : Phase
deriving DecidableEq

/-- `tag_active`, `current_tag`, `rx_cpl_queues`; the coroutines; completions on their way; an `assert` has failed -/
structure St where
  active : Nat → Bool
  cur : Nat
  queues : Nat → List Tlp
  ops : List Op
  pend : Nat → List Tlp
  bad : Bool

/-- pcie_if.py:1357-1364 -/
def St.init : St := ⟨fun _ => false, 0, fun _ => [], [], fun _ => [], false⟩

def upd {α : Type} (f : Nat → α) (i : Nat) (v : α) : Nat → α := fun j => if j = i then v else f j

/-- the loop over the tags, pcie_if.py:1491-1496: `k` turns from `tag` -/
def scan (count : Nat) (active : Nat → Bool) : (k tag : Nat) → Option Nat
  | 0, _ => none
  | k + 1, tag => if active ((tag + 1) % count) then scan count active k ((tag + 1) % count) else some ((tag + 1) % count)

/-- the request is a memory read, pcie_if.py:1527 -/
def isRead (t : Tlp) : Bool := (t.fmt, t.typ) == (0, 0) || (t.fmt, t.typ) == (1, 0)

/-- the loop ends with this completion, pcie_if.py:1524-1540 -/
def stop (req c : Tlp) : Bool :=
  c.status != 0 || (if isRead req then decide (c.byteCount + (c.lowerAddress &&& 3) ≤ c.length * 4) || c.fmt == 0 else true)

/-- completions are taken from the queue until the loop ends (`true`) or the queue is empty; the completions so far and what is left, pcie_if.py:1516-1540, 1472-1473 -/
def take (req : Tlp) : (q got : List Tlp) → Bool × List Tlp × List Tlp
  | [], got => (false, got, [])
  | c :: q, got => if stop req c then (true, got ++ [c], q) else take req q (got ++ [c])

def Op.wake (o : Op) : Op := match o.phase with
  | .waitTag => { o with phase := .alloc }
  | _ => o

/-- `release_tag` and the return, pcie_if.py:1501-1504, 1542-1544 -/
def finish (s : St) (i : Nat) (o : Op) (tag : Nat) (got : List Tlp) : St :=
  { s with active := upd s.active tag false, bad := s.bad || !s.active tag, ops := (s.ops.set i { o with phase := .done tag got }).map Op.wake }

/-- `recv_cpl` again and again, pcie_if.py:1516-1544 -/
def receive (s : St) (i : Nat) (o : Op) (tag : Nat) (got : List Tlp) : St :=
  let r := take o.req (s.queues tag) got
  let s := { s with queues := upd s.queues tag r.2.2 }
  if r.1 then finish s i o tag r.2.1 else { s with ops := s.ops.set i { o with phase := .waitCpl tag r.2.1 } }

/-- `req.tag = await self.alloc_tag()`, pcie_if.py:1512 -/
def withTag (req : Tlp) (t : Nat) : Tlp := { req with tag := t }

/-- coroutine `i` runs up to its next suspension; `answer` are the completions a request will get -/
def runOp (count : Nat) (answer : Tlp → List Tlp) (s : St) (i : Nat) (o : Op) : St :=
  match o.phase with
  | .alloc => match scan count s.active count s.cur with
    | some t => { s with active := upd s.active t true, cur := t, ops := s.ops.set i { o with phase := .sending t } }
    | none => { s with ops := s.ops.set i { o with phase := .waitTag } }
  | .sending t => receive { s with pend := upd s.pend t (s.pend t ++ answer (withTag o.req t)) } i o t []
  | .wokenCpl t got => if s.queues t = [] then finish s i o t got else receive s i o t got
  | _ => s

inductive Ev where
  /-- `cocotb.start_soon(self.perform_nonposted_operation(source, req, timeout))` -/
  | spawn (req : Tlp) (timed : Bool)
  | run (i : Nat)
  /-- the timer of coroutine `i` -/
  | timeout (i : Nat)
  /-- the next completion of the request with this tag is received, pcie_if.py:1752-1763, 1924-1935 -/
  | arrive (tag : Nat)

/-- the waiter for the queue of `tag` is woken -/
def Op.cpl (tag : Nat) (o : Op) : Op := match o.phase with
  | .waitCpl t got => if t = tag then { o with phase := .wokenCpl t got } else o
  | _ => o

def step (count : Nat) (answer : Tlp → List Tlp) (s : St) : Ev → St
  | .spawn req timed => { s with ops := s.ops ++ [⟨req, timed, .alloc⟩] }
  | .run i => match s.ops[i]? with
    | some o => runOp count answer s i o
    | none => s
  | .timeout i => match s.ops[i]? with
    | some o => match o.phase with
      | .waitCpl t got => if o.timed then { s with ops := s.ops.set i { o with phase := .wokenCpl t got } } else s
      | _ => s
    | none => s
  | .arrive tag => match s.pend tag with
    | [] => s
    | c :: cs => { s with pend := upd s.pend tag cs, queues := upd s.queues c.tag (s.queues c.tag ++ [c]), ops := s.ops.map (Op.cpl c.tag) }

def run (count : Nat) (answer : Tlp → List Tlp) (s : St) (es : List Ev) : St := es.foldl (step count answer) s

/-! ### reads -/

/-- `byte_length` of `dma_mem_read`, pcie_if.py:1675-1683 -/
def dmaReadLen (mrrs addr n : Nat) : Nat :=
  min (if n > (128 <<< mrrs) - firstPad addr then min n ((128 <<< mrrs) - (addr &&& 0x7f)) else n) (0x1000 - (addr &&& 0xfff))

/-- the requests of `dma_mem_read`, pcie_if.py:1661-1692: `byte_length` and the request; `zero` is `zero_len` -/
def dmaReads (mrrs : Nat) (req : Id) (zero : Bool) : (fuel addr n : Nat) → List (Nat × Tlp)
  | 0, _, _ => []
  | fuel + 1, addr, n =>
    if n = 0 then [] else
      let k := dmaReadLen mrrs addr n
      let t := setBe { fmt := if addr > 0xffffffff then 1 else 0, requester := req } addr k
      (k, if zero then { t with firstBe := 0 } else t) :: dmaReads mrrs req zero fuel (addr + k) (n - k)

/-- what one operation gives, pcie_if.py:1697-1716; `none` is an exception -/
def collect (byteLength : Nat) : (m : Nat) → (cpls : List Tlp) → Option (List Nat)
  | m, cpls =>
    if m < byteLength then
      match cpls with
      | [] => none
      | c :: cs => do
        guard (c.status = 0)
        guard (c.length * 4 ≤ c.byteCount + 3 + (c.lowerAddress &&& 3))
        guard (c.byteCount = max (byteLength - m) 1)
        let d ← toBytes c.data
        let off := c.lowerAddress &&& 3
        let rest ← collect byteLength (m + (d.length - off)) cs
        return slice d off (off + c.byteCount) ++ rest
    else some []

/-- all operations of a read joined, pcie_if.py:1694-1716 -/
def collectAll : List (Nat × List Tlp) → Option (List Nat)
  | [] => some []
  | (k, cs) :: rest => do return (← collect k 0 cs) ++ (← collectAll rest)

/-- the result of `dma_mem_read(addr, length)` given the completions of each operation, pcie_if.py:1661-1663, 1718-1721 -/
def dmaResult (length : Nat) (parts : List (Nat × List Tlp)) : Option (List Nat) := do
  let data ← collectAll parts
  return if length = 0 then [] else data.take length

end Corundum.Requester
