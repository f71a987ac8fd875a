/-!
DMA client, stream to RAM: command FIFOs, status FIFO and completion of writes,
fpga/lib/pcie/rtl/dma_client_axis_sink.v:202-226, 468-525, 553-627.

One step per clock edge. A transfer accepted in STATE_WRITE (lines 349-444) is an input: its mask of segments, their
commands, and the status entry. Simplified: the FIFOs are lists, not pointers into memories; the status FIFO has no
test for full in the code, here an overflow is `none`; the count of active descriptors (lines 517-525), which only holds
back descriptors, is left out; reset is the initial state.
-/
namespace Corundum.DmaSinkDone

/-- one segment: output FIFO and register, lines 561-580, ghost: commands put in, commands taken by the RAM, writes done -/
structure Seg (α : Type) where
  fifo : List α
  out : Option α
  half : Bool
  doneCount : Nat
  done : Bool
  pushed : List α
  taken : List α
  dones : Nat

/-- an entry of the status FIFO, lines 205-211 -/
structure Entry (β : Type) where
  mask : Nat → Bool
  last : Bool
  info : β

/-- `status_fifo_*`, `s_axis_write_data_tready_reg` in STATE_WRITE, ghost: entries put in, number taken out, status reported -/
structure St (α β : Type) where
  segs : Nat → Seg α
  status : List (Entry β)
  half : Bool
  ready : Bool
  entered : List (Entry β)
  popped : Nat
  reports : List β

/-- the inputs of a cycle: a valid transfer in STATE_WRITE, whether the next state is STATE_WRITE, `ram_wr_cmd_ready`,
`ram_wr_done` -/
structure In (α β : Type) where
  offer : Option (Entry β × (Nat → α))
  more : Bool
  ramReady : Nat → Bool
  ramDone : Nat → Bool

variable {α β : Type}

def Seg.init : Seg α := ⟨[], none, false, 0, false, [], [], 0⟩

def init : St α β := ⟨fun _ => Seg.init, [], false, false, [], 0, []⟩

/-- OUTPUT_FIFO_ADDR_WIDTH and STATUS_FIFO_ADDR_WIDTH are 5, lines 142-143 -/
def depth : Nat := 2 ^ 5

/-- one segment, lines 592-625 -/
def Seg.step (s : Seg α) (push : Option α) (ready done ack : Bool) : Seg α :=
  let push := if s.fifo.length = depth then none else push
  let load := !s.fifo.isEmpty && (s.out.isNone || ready)
  let count := if s.doneCount < depth && done && !ack then (s.doneCount + 1, true)
    else if decide (s.doneCount > 0) && !done && ack then (s.doneCount - 1, decide (s.doneCount > 1))
    else (s.doneCount, s.done)
  { fifo := (if load then s.fifo.tail else s.fifo) ++ push.toList
    out := if load then s.fifo.head? else if ready then none else s.out
    half := decide (s.fifo.length ≥ depth / 2)
    doneCount := count.1
    done := count.2
    pushed := s.pushed ++ push.toList
    taken := if ready then s.taken ++ s.out.toList else s.taken
    dones := s.dones + if done then 1 else 0 }

/-- the transfer accepted, line 349 -/
def St.accepted (s : St α β) (i : In α β) : Option (Entry β × (Nat → α)) := if s.ready then i.offer else none

/-- the entry taken out of the status FIFO, lines 474-479 -/
def St.pop (n : Nat) (s : St α β) : Option (Entry β) :=
  match s.status with
  | [] => none
  | e :: _ => if (List.range n).all fun k => !e.mask k || (s.segs k).done then some e else none

/-- `out_done_ack`, lines 312, 480 -/
def ack (p : Option (Entry β)) (k : Nat) : Bool :=
  match p with
  | some e => e.mask k
  | none => false

/-- a cycle with `n` segments -/
def step (n : Nat) (s : St α β) (i : In α β) : Option (St α β) :=
  let acc := s.accepted i
  let p := s.pop n
  let status := (if p.isSome then s.status.tail else s.status) ++ (acc.map Prod.fst).toList
  if status.length > depth then none
  else some
    { segs := fun k => (s.segs k).step (acc.bind fun a => if a.1.mask k then some (a.2 k) else none)
        (i.ramReady k) (i.ramDone k) (ack p k)
      status := status
      half := decide (s.status.length ≥ depth / 2)
      ready := i.more && (List.range n).all (fun k => !(s.segs k).half) && !s.half
      entered := s.entered ++ (acc.map Prod.fst).toList
      popped := s.popped + if p.isSome then 1 else 0
      reports := match p with
        | some e => if e.last then s.reports ++ [e.info] else s.reports
        | none => s.reports }

def run (n : Nat) (s : St α β) : List (In α β) → Option (St α β)
  | [] => some s
  | i :: is => match step n s i with
    | none => none
    | some s => run n s is

end Corundum.DmaSinkDone
