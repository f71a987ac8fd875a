/-
Transmit ring of the Linux driver, `modules/mqnic/mqnic_tx.c`, as two concurrent threads:

* X = `mqnic_start_xmit` lines 399-530 (serialised per queue by the kernel's TX lock, called only while
  the queue is not stopped),
* P = `mqnic_process_tx_cq` lines 221-306 (serialised by NAPI),

interleaved at the granularity of one shared-memory access per step.  Shared: `tx_info[i].skb`, `prod_ptr`,
`cons_ptr`, the stack's queue-stopped flag.  Memory is sequentially consistent (the code's barriers are not
modelled).  u32 pointers are only used through differences and masks and are `Nat` here.
`mqnic_is_tx_ring_full` lines 169-172 -> `full`; `full_size = size >> 1` line 54 (of `mqnic_open_tx_ring`).
DMA mapping, checksum and timestamp fields are omitted; a drop (`tx_drop`, `tx_drop_count`) is a
parameter of the call.  Fields `sent`, `done`, `freed` are ghosts.
-/
namespace Corundum.LinuxTx

/-- Program counter of X.  `more` = `netdev_xmit_more()`, `sq` = `stop_queue`. -/
inductive XPc where
  | idle
  | mapped (more : Bool)          -- skb stored in tx_info, prod_ptr not yet advanced
  | check (more : Bool)           -- line 491: stop_queue = full
  | stop (more : Bool)            -- line 495
  | bell (more sq : Bool)         -- line 503
  | recheck                       -- line 518
  | wake                          -- line 519
  deriving DecidableEq

/-- Program counter of P. -/
inductive PPc where
  | idle
  | cpl                           -- completion loop
  | scan (c : Nat)                -- ring scan, local ring_cons_ptr = c
  | write (c : Nat)               -- WRITE_ONCE(cons_ptr)
  | stopped?                      -- netif_tx_queue_stopped
  | full?                         -- mqnic_is_tx_ring_full
  | wake                          -- netif_tx_wake_queue
  deriving DecidableEq

structure St where
  k : Nat
  skb : Nat → Option Nat
  prod : Nat
  cons : Nat
  hw : Nat                        -- producer pointer last written to the device
  stopped : Bool
  x : XPc
  p : PPc
  sent : List Nat                 -- skb of position 0, 1, ...
  done : List Nat                 -- positions completed by the device
  freed : List (Nat × Option Nat) -- for each completion: position, skb released

def St.size (s : St) : Nat := 2 ^ s.k
def St.mask (s : St) : Nat := s.size - 1
def St.fullSize (s : St) : Nat := s.size >>> 1
def St.full (s : St) : Bool := decide (s.fullSize ≤ s.prod - s.cons)

def init (k : Nat) : St :=
  { k, skb := fun _ => none, prod := 0, cons := 0, hw := 0, stopped := false, x := .idle, p := .idle,
    sent := [], done := [], freed := [] }

inductive Op where
  /-- the stack calls start_xmit; `drop` = leaves through tx_drop/tx_drop_count -/
  | xmit (skb : Nat) (more drop : Bool)
  /-- X executes its next access -/
  | x
  /-- NAPI poll starts -/
  | poll
  /-- P handles a completion record for ring position `pos` -/
  | cpl (pos : Nat)
  /-- P leaves the completion loop (no record / budget) or executes its next access -/
  | p

/-- Device and kernel guarantees: start_xmit is only called when idle and not stopped; the device completes only
positions it has been told about, each once.  Anything else is a no-op. -/
def step (s : St) : Op → St
  | .xmit b more drop =>
    if s.x = .idle ∧ s.stopped = false then
      if drop then s
      else { s with skb := fun j => if j = s.prod &&& s.mask then some b else s.skb j,
                    sent := s.sent ++ [b], x := .mapped more }
    else s
  | .x => match s.x with
    | .idle => s
    | .mapped more => { s with prod := s.prod + 1, x := .check more }
    | .check more => if s.full then { s with x := .stop more } else { s with x := .bell more false }
    | .stop more => { s with stopped := true, x := .bell more true }
    | .bell more sq =>
      { s with hw := if !more || sq then s.prod else s.hw, x := if sq then .recheck else .idle }
    | .recheck => if s.full then { s with x := .idle } else { s with x := .wake }
    | .wake => { s with stopped := false, x := .idle }
  | .poll => if s.p = .idle then { s with p := .cpl } else s
  | .cpl pos =>
    if s.p = .cpl ∧ pos < s.hw ∧ pos ∉ s.done then
      { s with skb := fun j => if j = pos &&& s.mask then none else s.skb j,
               done := s.done ++ [pos], freed := s.freed ++ [(pos, s.skb (pos &&& s.mask))] }
    else s
  | .p => match s.p with
    | .idle => s
    | .cpl => { s with p := .scan s.cons }
    | .scan c => if c = s.prod then { s with p := .write c }
      else if (s.skb (c &&& s.mask)).isSome then { s with p := .write c } else { s with p := .scan (c + 1) }
    | .write c => { s with cons := c, p := .stopped? }
    | .stopped? => if s.stopped then { s with p := .full? } else { s with p := .idle }
    | .full? => if s.full then { s with p := .idle } else { s with p := .wake }
    | .wake => { s with stopped := false, p := .idle }

def run (s : St) (ops : List Op) : St := ops.foldl step s

end Corundum.LinuxTx
