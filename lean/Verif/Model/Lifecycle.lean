import Verif.Model.Resource
import Verif.Model.QueueManager
import Verif.Model.CplQueue
/-!
Opening and closing of queues by the driver, /repo/fpga/common/tb/mqnic.py: `Eq`, `Cq`, `Txq`, `Rxq` (open, close, enable, disable, arm) and `Interface` (the end of `init`, `open`, `close`), together with the queue
managers they program (register writes of `Model/QueueManager` and `Model/CplQueue`).

A call is one step: nothing else of the driver runs while it waits for its register writes.  Each write is complete before the next; the hardware may change pointers of any queue at any time (`hwRing`, `hwCpl`, `hwEvent`).
Python objects are numbers.  The result of a call is the new state and whether it raised an exception; what was done before the exception stays done.  Not modelled: the contents of the rings and buffers, the address of a
queue's registers (`get_window`), completion processing.
-/
namespace Corundum.Lifecycle
open Corundum.Resource (Res)

/-- commands, mqnic.py:300-305, 318-325, 338-345: the same for all kinds of queues; `SET_IDX` is `SET_CQN`, `SET_EQN`, `SET_IRQN` -/
def SET_SIZE : Nat := 0x80020000
def SET_IDX : Nat := 0xC0000000
def SET_PROD_PTR : Nat := 0x80800000
def SET_CONS_PTR : Nat := 0x80900000
def SET_ENABLE : Nat := 0x40000100
def SET_ARM : Nat := 0x40000200

/-- registers, mqnic.py:289-290, 307-308, 327-328 -/
def BASE : Nat := 0x00
def CTRL : Nat := 0x08

inductive Dir where
  | tx | rx
deriving DecidableEq

abbrev QW := Corundum.QueueManager.Word
abbrev CW := Corundum.CplQueue.Word

/-- `write_dword` to a queue: register and value -/
def wrQ (w : QW) (x : Nat × Nat) : QW := (Corundum.QueueManager.writeReg w ⟨.wr, 0, x.1 / 4, x.2, 0xf, 0, w⟩).1
def wrC (p : Corundum.CplQueue.Params) (w : CW) (x : Nat × Nat) : CW := (Corundum.CplQueue.writeReg p w ⟨.wr, 0, x.1 / 4, x.2, 0xf, 0, w⟩).1

/-- a sequence of writes -/
def progQ (w : QW) (l : List (Nat × Nat)) : QW := l.foldl wrQ w
def progC (p : Corundum.CplQueue.Params) (w : CW) (l : List (Nat × Nat)) : CW := l.foldl (wrC p) w

/-- `Eq`, mqnic.py:451-474: `eqn` and `hw_regs`, `buf_dma`, `log_size`, `irq`, `cq_table`, `enabled` -/
structure EqObj where
  hw : Option Nat
  base : Nat
  log : Nat
  irq : Option Nat
  table : Nat → Option Nat
  enabled : Bool

/-- `Cq`, mqnic.py:584-608: `cqn` and `hw_regs`, `buf_dma`, `log_size`, `eq`, `src_ring` (with its `handler`), `enabled` -/
structure CqObj where
  hw : Option Nat
  base : Nat
  log : Nat
  eq : Option Nat
  ring : Option (Dir × Nat)
  enabled : Bool

/-- `Txq` and `Rxq`, mqnic.py:682-711, 864-891: `index` and `hw_regs`, `buf_dma`, `log_queue_size`, `log_desc_block_size`, `cq`, `enabled`, `prod_ptr`, `cons_ptr` -/
structure Ring where
  hw : Option Nat
  base : Nat
  log : Nat
  blk : Nat
  cq : Option Nat
  enabled : Bool
  prod : Nat
  cons : Nat

structure Sys where
  eqRes : Res
  cqRes : Res
  qRes : Dir → Res
  he : Nat → CW
  hc : Nat → CW
  hq : Dir → Nat → QW
  eqs : Nat → EqObj
  cqs : Nat → CqObj
  rings : Dir → Nat → Ring

def upd {α : Type} (f : Nat → α) (i : Nat) (v : α) : Nat → α := fun j => if j = i then v else f j
def upd2 {α : Type} (f : Dir → Nat → α) (d : Dir) (i : Nat) (v : α) : Dir → Nat → α := fun e j => if e = d ∧ j = i then v else f e j
def updD {α : Type} (f : Dir → α) (d : Dir) (v : α) : Dir → α := fun e => if e = d then v else f e

/-- `Eq.open` and `Cq.open` up to the size, mqnic.py:505-508, 638-641 -/
def progC4 (base log : Nat) : List (Nat × Nat) := [(CTRL, SET_ENABLE ||| 0), (BASE, base &&& 0xfffff000), (BASE + 4, base >>> 32), (CTRL, SET_SIZE ||| log)]
/-- the rest, mqnic.py:509-512, 642-645; the pointers are 0 -/
def progC8 (base log idx : Nat) : List (Nat × Nat) :=
  progC4 base log ++ [(CTRL, SET_IDX ||| idx), (CTRL, SET_PROD_PTR ||| (0 &&& 0xffff)), (CTRL, SET_CONS_PTR ||| (0 &&& 0xffff)), (CTRL, SET_ENABLE ||| 1)]

/-- `Txq.open` and `Rxq.open` up to the size, mqnic.py:745-748, 925-928 -/
def progQ4 (base log blk : Nat) : List (Nat × Nat) := [(CTRL, SET_ENABLE ||| 0), (BASE, base &&& 0xfffff000), (BASE + 4, base >>> 32), (CTRL, SET_SIZE ||| blk <<< 8 ||| log)]
/-- the rest, mqnic.py:749-751, 929-931 -/
def progQ7 (base log blk idx : Nat) : List (Nat × Nat) :=
  progQ4 base log blk ++ [(CTRL, SET_IDX ||| idx), (CTRL, SET_PROD_PTR ||| (0 &&& 0xffff)), (CTRL, SET_CONS_PTR ||| (0 &&& 0xffff))]

/-- `Eq.open`, mqnic.py:476-514 -/
def eqOpen (p : Corundum.CplQueue.Params) (s : Sys) (e irq size base : Nat) : Sys × Bool :=
  match (s.eqs e).hw, s.eqRes.alloc with
  | some _, _ => (s, true)
  | none, .error _ => (s, true)
  | none, .ok (n, r) =>
    ({ s with
        eqRes := r
        eqs := upd s.eqs e ⟨some n, base, Nat.log2 size, some irq, fun _ => none, true⟩
        he := upd s.he n (progC p (s.he n) (progC8 base (Nat.log2 size) irq)) }, false)

/-- `Eq.close`, mqnic.py:516-531 -/
def eqClose (p : Corundum.CplQueue.Params) (s : Sys) (e : Nat) : Sys × Bool :=
  match (s.eqs e).hw with
  | none => (s, false)
  | some n =>
    ({ s with
        eqRes := s.eqRes.release n
        eqs := upd s.eqs e { s.eqs e with hw := none, irq := none, enabled := false }
        he := upd s.he n (wrC p (s.he n) (CTRL, SET_ENABLE ||| 0)) }, false)

/-- `Cq.open`, mqnic.py:610-647, 533-534; `SET_EQN | None` is an exception if the event queue is not open -/
def cqOpen (p : Corundum.CplQueue.Params) (s : Sys) (c e size base : Nat) : Sys × Bool :=
  match (s.cqs c).hw, s.cqRes.alloc with
  | some _, _ => (s, true)
  | none, .error _ => (s, true)
  | none, .ok (n, r) =>
    match (s.eqs e).hw with
    | none =>
      ({ s with
          cqRes := r
          eqs := upd s.eqs e { s.eqs e with table := upd (s.eqs e).table n (some c) }
          cqs := upd s.cqs c { s.cqs c with hw := some n, base := base, log := Nat.log2 size, eq := some e }
          hc := upd s.hc n (progC p (s.hc n) (progC4 base (Nat.log2 size))) }, true)
    | some m =>
      ({ s with
          cqRes := r
          eqs := upd s.eqs e { s.eqs e with table := upd (s.eqs e).table n (some c) }
          cqs := upd s.cqs c { s.cqs c with hw := some n, base := base, log := Nat.log2 size, eq := some e, enabled := true }
          hc := upd s.hc n (progC p (s.hc n) (progC8 base (Nat.log2 size) m)) }, false)

/-- `Cq.close`, mqnic.py:649-665, 536-537; `del self.cq_table[cq.cqn]` is an exception if it is not there -/
def cqClose (p : Corundum.CplQueue.Params) (s : Sys) (c : Nat) : Sys × Bool :=
  match (s.cqs c).hw with
  | none => (s, false)
  | some n =>
    let hc := upd s.hc n (wrC p (s.hc n) (CTRL, SET_ENABLE ||| 0))
    match (s.cqs c).eq with
    | none => ({ s with hc := hc }, true)
    | some e =>
      match (s.eqs e).table n with
      | none => ({ s with hc := hc }, true)
      | some _ =>
        ({ s with
            cqRes := s.cqRes.release n
            eqs := upd s.eqs e { s.eqs e with table := upd (s.eqs e).table n none }
            cqs := upd s.cqs c { s.cqs c with hw := none, eq := none, enabled := false }
            hc := hc }, false)

/-- `refill_buffers` of a ring just opened, mqnic.py:933, 1008-1018 -/
def refill (d : Dir) (log : Nat) : Nat := if d = .rx ∧ 8 ≤ 2 ^ log then 2 ^ log else 0

/-- `Txq.open`, `Rxq.open`, mqnic.py:713-751, 893-933; `SET_CQN | None` is an exception if the completion queue is not open -/
def ringOpen (s : Sys) (d : Dir) (r c size blk base : Nat) : Sys × Bool :=
  match (s.rings d r).hw, (s.qRes d).alloc with
  | some _, _ => (s, true)
  | none, .error _ => (s, true)
  | none, .ok (n, res) =>
    match (s.cqs c).hw with
    | none =>
      ({ s with
          qRes := updD s.qRes d res
          cqs := upd s.cqs c { s.cqs c with ring := some (d, r) }
          rings := upd2 s.rings d r ⟨some n, base, Nat.log2 size, Nat.log2 blk, some c, (s.rings d r).enabled, 0, 0⟩
          hq := upd2 s.hq d n (progQ (s.hq d n) (progQ4 base (Nat.log2 size) (Nat.log2 blk))) }, true)
    | some m =>
      let k := refill d (Nat.log2 size)
      ({ s with
          qRes := updD s.qRes d res
          cqs := upd s.cqs c { s.cqs c with ring := some (d, r) }
          rings := upd2 s.rings d r ⟨some n, base, Nat.log2 size, Nat.log2 blk, some c, (s.rings d r).enabled, k, 0⟩
          hq := upd2 s.hq d n (progQ (s.hq d n) (progQ7 base (Nat.log2 size) (Nat.log2 blk) m ++ if k = 0 then [] else [(CTRL, SET_PROD_PTR ||| (k &&& 0xffff))])) }, false)

/-- `Txq.close`, `Rxq.close`, mqnic.py:753-770, 935-952 -/
def ringClose (s : Sys) (d : Dir) (r : Nat) : Sys × Bool :=
  match (s.rings d r).hw with
  | none => (s, false)
  | some n =>
    ({ s with
        qRes := updD s.qRes d ((s.qRes d).release n)
        cqs := match (s.rings d r).cq with
          | some c => upd s.cqs c { s.cqs c with ring := none }
          | none => s.cqs
        rings := upd2 s.rings d r { s.rings d r with hw := none, cq := none, enabled := false }
        hq := upd2 s.hq d n (wrQ (s.hq d n) (CTRL, SET_ENABLE ||| 0)) }, false)

/-- `Txq.enable`, `Rxq.enable`, mqnic.py:772-778, 954-960 -/
def ringEnable (s : Sys) (d : Dir) (r : Nat) : Sys × Bool :=
  match (s.rings d r).hw with
  | none => (s, true)
  | some n => ({ s with rings := upd2 s.rings d r { s.rings d r with enabled := true }, hq := upd2 s.hq d n (wrQ (s.hq d n) (CTRL, SET_ENABLE ||| 1)) }, false)

/-- `Txq.disable`, `Rxq.disable`, mqnic.py:780-786, 962-968 -/
def ringDisable (s : Sys) (d : Dir) (r : Nat) : Sys × Bool :=
  match (s.rings d r).hw with
  | none => (s, false)
  | some n => ({ s with rings := upd2 s.rings d r { s.rings d r with enabled := false }, hq := upd2 s.hq d n (wrQ (s.hq d n) (CTRL, SET_ENABLE ||| 0)) }, false)

/-- `k` descriptors are written and the producer pointer is moved: `start_xmit`, `refill_buffers`, mqnic.py:798-799, 980-981, 1012-1018, 1537-1539; an exception if the queue is not open -/
def ringPost (s : Sys) (d : Dir) (r k : Nat) : Sys × Bool :=
  match (s.rings d r).hw with
  | none => ({ s with rings := upd2 s.rings d r { s.rings d r with prod := (s.rings d r).prod + k } }, true)
  | some n => ({ s with
      rings := upd2 s.rings d r { s.rings d r with prod := (s.rings d r).prod + k }
      hq := upd2 s.hq d n (wrQ (s.hq d n) (CTRL, SET_PROD_PTR ||| (((s.rings d r).prod + k) &&& 0xffff))) }, false)

inductive Op where
  | eqOpen (e irq size base : Nat)
  | eqClose (e : Nat)
  | cqOpen (c e size base : Nat)
  | cqClose (c : Nat)
  | ringOpen (d : Dir) (r c size blk base : Nat)
  | ringClose (d : Dir) (r : Nat)
  | ringEnable (d : Dir) (r : Nat)
  | ringDisable (d : Dir) (r : Nat)
  | ringPost (d : Dir) (r k : Nat)
  /-- `Eq.arm`, `Cq.arm`, mqnic.py:546-550, 674-678 -/
  | eqArm (e : Nat)
  | cqArm (c : Nat)
  /-- the hardware moves the consumer pointer of a queue, queue_manager.v:417-460 -/
  | hwRing (d : Dir) (n cons opIdx : Nat)
  /-- the hardware moves the producer pointer of a completion or event queue, cpl_queue_manager.v:430-472 -/
  | hwCpl (n prod opIdx : Nat) (armed : Bool)
  | hwEvent (n prod opIdx : Nat) (armed : Bool)

def step (p : Corundum.CplQueue.Params) (s : Sys) : Op → Sys × Bool
  | .eqOpen e irq size base => eqOpen p s e irq size base
  | .eqClose e => eqClose p s e
  | .cqOpen c e size base => cqOpen p s c e size base
  | .cqClose c => cqClose p s c
  | .ringOpen d r c size blk base => ringOpen s d r c size blk base
  | .ringClose d r => ringClose s d r
  | .ringEnable d r => ringEnable s d r
  | .ringDisable d r => ringDisable s d r
  | .ringPost d r k => ringPost s d r k
  | .eqArm e => match (s.eqs e).hw with
    | none => (s, false)
    | some n => ({ s with he := upd s.he n (wrC p (s.he n) (CTRL, SET_ARM ||| 1)) }, false)
  | .cqArm c => match (s.cqs c).hw with
    | none => (s, false)
    | some n => ({ s with hc := upd s.hc n (wrC p (s.hc n) (CTRL, SET_ARM ||| 1)) }, false)
  | .hwRing d n cons opIdx => ({ s with hq := upd2 s.hq d n { s.hq d n with cons := cons, opIdx := opIdx } }, false)
  | .hwCpl n prod opIdx armed => ({ s with hc := upd s.hc n { s.hc n with prod := prod, opIdx := opIdx, armed := armed } }, false)
  | .hwEvent n prod opIdx armed => ({ s with he := upd s.he n { s.he n with prod := prod, opIdx := opIdx, armed := armed } }, false)

def run (p : Corundum.CplQueue.Params) (s : Sys) (ops : List Op) : Sys := ops.foldl (fun s o => (step p s o).1) s

/-- an object as constructed, mqnic.py:451-474, 584-608, 682-710, 864-890 -/
def EqObj.new : EqObj := ⟨none, 0, 0, none, fun _ => none, false⟩
def CqObj.new : CqObj := ⟨none, 0, 0, none, none, false⟩
def Ring.new : Ring := ⟨none, 0, 0, 0, none, false, 0, 0⟩

/-- `Interface.init`, mqnic.py:1310-1388: the resources, all queues disabled; the queue managers may hold anything before -/
def init (p : Corundum.CplQueue.Params) (neq ncq : Nat) (nq : Dir → Nat) (he hc : Nat → CW) (hq : Dir → Nat → QW) : Sys :=
  { eqRes := Res.init neq
    cqRes := Res.init ncq
    qRes := fun d => Res.init (nq d)
    he := fun n => if n < neq then wrC p (he n) (CTRL, SET_ENABLE ||| 0) else he n
    hc := fun n => if n < ncq then wrC p (hc n) (CTRL, SET_ENABLE ||| 0) else hc n
    hq := fun d n => if n < nq d then wrQ (hq d n) (CTRL, SET_ENABLE ||| 0) else hq d n
    eqs := fun _ => .new
    cqs := fun _ => .new
    rings := fun _ _ => .new }

/-! ### the interface -/

/-- `Interface`: event queues, TX and RX rings (object numbers), `port_up`, TX and RX enables of port 0; `next` is the number of the next object, `dma k` the address of the buffer given to object `k` -/
structure Iface where
  sys : Sys
  eq : List Nat
  txq : List Nat
  rxq : List Nat
  portUp : Bool
  txCtrl : Bool
  rxCtrl : Bool
  next : Nat

/-- the event queues are created, mqnic.py:1410-1416: `n` turns from `k`, on interrupt `irq` with buffers at `dma k` -/
def initEqs (p : Corundum.CplQueue.Params) (irq : Nat) (dma : Nat → Nat) : (n k : Nat) → Iface → Iface × Bool
  | 0, _, i => (i, false)
  | n + 1, k, i =>
    let r := eqOpen p i.sys k irq 1024 (dma k)
    if r.2 then ({ i with sys := r.1 }, true)
    else initEqs p irq dma n (k + 1) { i with sys := (step p r.1 (.eqArm k)).1, eq := i.eq ++ [k] }

/-- the interface after `Interface.init` -/
def ifInit (p : Corundum.CplQueue.Params) (irq : Nat) (dma : Nat → Nat) (s : Sys) : Iface × Bool := initEqs p irq dma s.eqRes.count 0 ⟨s, [], [], [], false, false, false, 0⟩

/-- one turn of the loops of `Interface.open`, mqnic.py:1425-1432, 1434-1441: new objects with number `next`; `k % len(self.eq)` is an exception without event queues -/
def openOne (p : Corundum.CplQueue.Params) (dma : Nat → Nat × Nat) (i : Iface) (d : Dir) (k : Nat) : Iface × Bool :=
  if i.eq.length = 0 then (i, true) else
  let o := i.next
  let r1 := cqOpen p { i.sys with cqs := upd i.sys.cqs o .new, rings := upd2 i.sys.rings d o .new } o (i.eq.getD (k % i.eq.length) 0) 1024 (dma o).1
  if r1.2 then ({ i with sys := r1.1, next := o + 1 }, true)
  else
    let s2 := (step p r1.1 (.cqArm o)).1
    let r3 := ringOpen s2 d o o 1024 4 (dma o).2
    if r3.2 then ({ i with sys := r3.1, next := o + 1 }, true)
    else
      let s4 := (ringEnable r3.1 d o).1
      ({ i with sys := s4, next := o + 1, txq := if d = .tx then i.txq ++ [o] else i.txq, rxq := if d = .rx then i.rxq ++ [o] else i.rxq }, false)

/-- a loop of `Interface.open`: `n` turns from `k` -/
def openLoop (p : Corundum.CplQueue.Params) (dma : Nat → Nat × Nat) (d : Dir) : (n k : Nat) → Iface → Iface × Bool
  | 0, _, i => (i, false)
  | n + 1, k, i =>
    let r := openOne p dma i d k
    if r.2 then r else openLoop p dma d n (k + 1) r.1

/-- `Interface.open`, mqnic.py:1424-1449 -/
def ifOpen (p : Corundum.CplQueue.Params) (dma : Nat → Nat × Nat) (i : Iface) : Iface × Bool :=
  let r := openLoop p dma .rx (i.sys.qRes .rx).count 0 i
  if r.2 then r
  else
    let t := openLoop p dma .tx (r.1.sys.qRes .tx).count 0 r.1
    if t.2 then t else ({ t.1 with txCtrl := true, rxCtrl := true, portUp := true }, false)

/-- `free_buf`, mqnic.py:806-810, 988-992: the buffers of all descriptors go back to the pool -/
def freeBuf (s : Sys) (d : Dir) (r : Nat) : Sys := { s with rings := upd2 s.rings d r { s.rings d r with cons := (s.rings d r).prod } }

/-- `Interface.close`, mqnic.py:1451-1482.  `q.disable()` without `await` does nothing; `await q.free_buf()` frees the buffers and raises an exception, as `free_buf` is an ordinary function -/
def ifClose (i : Iface) : Iface × Bool :=
  let i := { i with portUp := false, rxCtrl := false }
  match i.txq, i.rxq with
  | r :: _, _ => ({ i with sys := freeBuf i.sys .tx r }, true)
  | [], r :: _ => ({ i with sys := freeBuf i.sys .rx r }, true)
  | [], [] => ({ i with txCtrl := false }, false)

end Corundum.Lifecycle
