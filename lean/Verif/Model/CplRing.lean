/-
Completion / event rings with a phase bit, seen from the host.

* Python: `fpga/common/tb/mqnic.py` `Eq.process_eq` 552-579 (has awaits inside the loop, so the device may write
  between iterations), `Txq.process_tx_cq` 825-848, `Rxq.process_rx_cq` 1034-1068
* Linux: `modules/mqnic/mqnic_eq.c:206-249`, `mqnic_tx.c:245-279`, `mqnic_rx.c:315-396` (device writes at any time;
  at most `budget` records per pass)
* Device side: records are written at `prod & size_mask` with the phase bit `~prod[log_size]`
  (`fpga/common/rtl/cpl_queue_manager.v`, response `phase`; `fpga/common/rtl/cpl_write.v`), and a record is only
  granted while the ring is not full with respect to the consumer pointer last written by the host.

Simplification: a record is written atomically (the payload is visible whenever its phase bit is; on the
Linux side this is what `dma_rmb()` is for).  Payload type is arbitrary.
-/
namespace Corundum.CplRing

/-- Host view of one ring of `2^k` records. `cons` is the loop variable `cq_cons_ptr`/`eq_cons_ptr`; `told` the
consumer pointer last written to the device. -/
structure Ring (α : Type) where
  k : Nat
  buf : Nat → α × Bool
  cons : Nat
  told : Nat

/-- One loop iteration (mqnic.py:561-576): read the record at `cons & size_mask`; if its phase bit equals
`bool(cons & size)` the ring is empty, else consume it and advance. -/
def poll {α : Type} (g : Ring α) : Option α × Ring α :=
  let r := g.buf (g.cons &&& (2 ^ g.k - 1))
  if r.2 = ((g.cons &&& 2 ^ g.k) != 0) then (none, g)
  else (some r.1, { g with cons := g.cons + 1 })

/-- A pass of the Linux loop `while (done < budget)` without device activity (mqnic_tx.c:248-275); with
`budget` large enough also the Python `while True` loop. Returns the records consumed, in order. -/
def pass {α : Type} : Nat → Ring α → List α × Ring α
  | 0, g => ([], g)
  | budget + 1, g =>
    match poll g with
    | (none, g) => ([], g)
    | (some a, g) => let (l, g') := pass budget g; (a :: l, g')

/-- The whole system: host ring, everything the device has written (`log`), everything the host consumed (`out`). -/
structure Sys (α : Type) where
  ring : Ring α
  log : List α
  out : List α

inductive Op (α : Type) where
  | hw (a : α)      -- the device wants to write a record
  | poll            -- the host executes one loop iteration
  | publish         -- the host writes its consumer pointer to the device

def step {α : Type} (s : Sys α) : Op α → Sys α
  | .hw a =>
    if s.log.length < s.ring.told + 2 ^ s.ring.k then
      { s with
        ring := { s.ring with buf := fun i =>
          if i = s.log.length % 2 ^ s.ring.k then (a, !((s.log.length &&& 2 ^ s.ring.k) != 0)) else s.ring.buf i }
        log := s.log ++ [a] }
    else s
  | .poll =>
    match poll s.ring with
    | (none, g) => { s with ring := g }
    | (some a, g) => { s with ring := g, out := s.out ++ [a] }
  | .publish => { s with ring := { s.ring with told := s.ring.cons } }

/-- `Cq.open`/`Eq.open`: buffer zeroed, pointers 0 (mqnic.py:620-625). `a0` is whatever a zero record decodes to. -/
def init {α : Type} (k : Nat) (a0 : α) : Sys α :=
  { ring := { k, buf := fun _ => (a0, false), cons := 0, told := 0 }, log := [], out := [] }

def run {α : Type} (s : Sys α) (ops : List (Op α)) : Sys α := ops.foldl step s

end Corundum.CplRing
