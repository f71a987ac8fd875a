import Verif.Model.Lifecycle
/-! The rules of use of the driver's queues, and what the hardware works with. -/
namespace Corundum.Lifecycle

/-- the address at which the hardware finds the ring: queue_manager.v:424, cpl_queue_manager.v:438 -/
def hwBase (w : QW) : Nat := w.baseHi * 2 ^ 32 + w.baseLo
def hwBaseC (w : CW) : Nat := w.baseHi * 2 ^ 32 + w.baseLo

/-- The order in which the queues must be opened and closed: a completion queue on an open event queue, a TX or RX queue on an open completion queue of its own; a completion queue is closed after its TX or RX queue, an event
queue after its completion queues.  Anything may be tried twice, or without a free queue.  Addresses have 64 bits, and sizes have a logarithm of 8 bits. -/
def Op.Ok (s : Sys) : Op → Prop
  | .eqOpen _ irq size base => irq < 2 ^ 16 ∧ base < 2 ^ 64 ∧ Nat.log2 size < 256
  | .eqClose e => ∀ n, (s.eqs e).table n = none
  | .cqOpen _ e size base => (s.eqs e).hw ≠ none ∧ base < 2 ^ 64 ∧ Nat.log2 size < 256
  | .cqClose c => (s.cqs c).ring = none
  | .ringOpen _ _ c size blk base => (s.cqs c).hw ≠ none ∧ (s.cqs c).ring = none ∧ base < 2 ^ 64 ∧ Nat.log2 size < 256 ∧ Nat.log2 blk < 256
  | .ringPost d r _ => (s.rings d r).hw ≠ none
  | _ => True

def Valid (p : Corundum.CplQueue.Params) (s : Sys) : List Op → Prop
  | [] => True
  | o :: os => o.Ok s ∧ Valid p (step p s o).1 os

/-- A state at the end of `Interface.init` before the event queues are created: at most 65536 event and completion queues, queue managers in any state with base addresses as they can be set (12 low bits zero). -/
def Boot (p : Corundum.CplQueue.Params) (s : Sys) : Prop :=
  ∃ neq ncq nq he hc hq, neq ≤ 2 ^ 16 ∧ ncq ≤ 2 ^ 16 ∧ (∀ n, (he n).baseLo % 4096 = 0) ∧ (∀ n, (hc n).baseLo % 4096 = 0) ∧ (∀ d n, (hq d n).baseLo % 4096 = 0) ∧ s = init p neq ncq nq he hc hq

/-- The way of a completion of hardware queue `n`: it goes to the completion queue in its word, the event of that to the event queue in its word; the driver finds the `Cq` in the table of the `Eq` that has this number, and that
hands the completion to `r`.  The completion and the event queue are enabled. -/
def Route (s : Sys) (d : Dir) (r n : Nat) : Prop :=
  (s.hc (s.hq d n).cplq).en = true ∧ (s.he (s.hc (s.hq d n).cplq).evn).en = true ∧
  ∃ e c, (s.eqs e).hw = some (s.hc (s.hq d n).cplq).evn ∧ (s.eqs e).table (s.hq d n).cplq = some c ∧ (s.cqs c).hw = some (s.hq d n).cplq ∧ (s.cqs c).ring = some (d, r)

/-- why a call may fail: already open, or no free queue; `enable` if not open -/
def Op.Why (t : Sys) : Op → Prop
  | .eqOpen e .. => (t.eqs e).hw ≠ none ∨ ∀ n < t.eqRes.count, ∃ x, (t.eqs x).hw = some n
  | .cqOpen c .. => (t.cqs c).hw ≠ none ∨ ∀ n < t.cqRes.count, ∃ x, (t.cqs x).hw = some n
  | .ringOpen d r .. => (t.rings d r).hw ≠ none ∨ ∀ n < (t.qRes d).count, ∃ x, (t.rings d x).hw = some n
  | .ringEnable d r => (t.rings d r).hw = none
  | _ => False

/-- operation of open queues: nothing is opened or closed -/
def Op.Data : Op → Prop
  | .ringEnable .. | .ringDisable .. | .ringPost .. | .eqArm _ | .cqArm _ | .hwRing .. | .hwCpl .. | .hwEvent .. => True
  | _ => False

/-- the queues of the list and their completion queues are closed one after the other, as `Interface.close` is meant to do (mqnic.py:1465-1475) -/
def byHand (p : Corundum.CplQueue.Params) (s : Sys) : List (Dir × Nat) → Sys × Bool
  | [] => (s, false)
  | (d, r) :: l => match (s.rings d r).cq with
    | none => (s, true)
    | some c =>
      let a := ringClose s d r
      let b := cqClose p a.1 c
      if a.2 || b.2 then (b.1, true) else byHand p b.1 l

def Iface.queues (i : Iface) : Dir → List Nat
  | .tx => i.txq
  | .rx => i.rxq

def Iface.all (i : Iface) : List (Dir × Nat) := i.txq.map (Prod.mk .tx) ++ i.rxq.map (Prod.mk .rx)

end Corundum.Lifecycle
