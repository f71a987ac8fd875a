import Verif.Model.BufRing
import Verif.Model.CplWrite

/-!
Transmit engine: /repo/fpga/common/rtl/tx_engine.v, one step per clock edge.

A transmit request gets a slot of the descriptor table and a descriptor fetch is asked for; the descriptors arrive as a frame and DMA
reads into the packet buffer are started; when all have finished, the packet is handed to the transmit path with a checksum command;
after it has been sent, a completion is handed to the completion write engine; finally the request status is returned.

Simplifications: `DESC_TABLE_SIZE` is a power of two and the buffer offset is zero; the arrays of the table are one array of rows;
reset is the initial state only; the output register of the DMA read descriptors (:984-1070) is left out: its ready signal is the input
`early`, and a read is issued when it enters the register; `early_tx_req_status_*_reg` is never set (:807-813 clears it in the same
cycle) and `desc_table_data_fetched` is never used, so both are left out.
-/
namespace Corundum.TxEngine
open Corundum.CplWrite (upd upd?)

structure Params where
  /-- `CL_DESC_TABLE_SIZE` -/
  cl : Nat
  /-- the packet buffer -/
  buf : BufRing.Params
  /-- `MAX_DESC_REQ` -/
  maxReq : Nat
  /-- `DESC_TABLE_DMA_OP_COUNT_WIDTH` -/
  cw : Nat
  /-- `TX_CHECKSUM_ENABLE` -/
  csum : Bool
  /-- `PTP_TS_ENABLE` -/
  ptp : Bool

/-- `DESC_TABLE_SIZE` -/
def Params.n (P : Params) : Nat := 2 ^ P.cl

/-- `x & DESC_PTR_MASK` (tx_engine.v:206-207) -/
def Params.mask (P : Params) (x : Nat) : Nat := x &&& (2 ^ P.cl - 1)

/-- `s_axis_tx_req_*` (tx_engine.v:93-100) -/
structure Req where
  queue : Nat
  tag : Nat
  dest : Nat
deriving DecidableEq, Repr

/-- `s_axis_desc_req_status_*` -/
structure DStat where
  ptr : Nat
  cpl : Nat
  tag : Nat
  empty : Bool
  error : Bool
deriving DecidableEq, Repr

/-- a descriptor was dequeued (used in the statements only) -/
def DStat.ok (d : DStat) : Bool := !(d.error || d.empty)

/-- a descriptor on `s_axis_desc`; the length field is the length of the host memory it points to, whose bytes are kept instead of its address -/
structure Desc where
  tid : Nat
  data : List Nat
  csStart : Nat
  csOff : Nat
  csEn : Bool
  last : Bool
deriving DecidableEq, Repr

/-- `m_axis_tx_desc_*` -/
structure TxDesc where
  addr : Nat := 0
  len : Nat := 0
  tag : Nat := 0
  id : Nat := 0
  dest : Nat := 0
deriving DecidableEq, Repr

/-- `m_axis_tx_csum_cmd_*` -/
structure Csum where
  en : Bool := false
  start : Nat := 0
  off : Nat := 0
deriving DecidableEq, Repr

/-- `m_axis_cpl_req_*` -/
structure Cpl where
  queue : Nat := 0
  tag : Nat := 0
  data : Nat := 0
deriving DecidableEq, Repr

/-- the inputs during one cycle -/
structure In where
  enable : Bool := true
  /-- `s_axis_tx_req` -/
  req : Option Req := none
  /-- `m_axis_desc_req_ready` -/
  drReady : Bool := false
  /-- `s_axis_desc_req_status` -/
  dstat : Option DStat := none
  /-- `m_axis_dma_read_desc_ready_int_early` -/
  early : Bool := true
  /-- `s_axis_desc` -/
  desc : Option Desc := none
  /-- `s_axis_dma_read_desc_status_tag` -/
  rstat : Option Nat := none
  /-- `m_axis_tx_desc_ready` -/
  txReady : Bool := false
  /-- `m_axis_tx_csum_cmd_ready` -/
  csReady : Bool := false
  /-- `s_axis_tx_desc_status_tag` -/
  txStat : Option Nat := none
  /-- `s_axis_tx_cpl`: the top bit of the tag, the other bits, the time stamp -/
  txCpl : Option (Bool × Nat × Nat) := none
  /-- `m_axis_cpl_req_ready` -/
  cqReady : Bool := false
  /-- `s_axis_cpl_req_status_tag` -/
  cstat : Option Nat := none
  /-- bytes the DMA engine writes to the packet buffer -/
  pokes : List (Nat × Nat) := []

/-- a row of the descriptor table (tx_engine.v:300-336) -/
structure Row where
  active : Bool := false
  invalid : Bool := false
  descFetched : Bool := false
  doneA : Bool := false
  doneB : Bool := false
  cplDone : Bool := false
  tag : Nat := 0
  queue : Nat := 0
  qptr : Nat := 0
  cplQueue : Nat := 0
  dest : Nat := 0
  csStart : Nat := 0
  csOff : Nat := 0
  csEn : Bool := false
  len : Nat := 0
  bufPtr : Nat := 0
  ts : Nat := 0
  commit : Bool := false
  cntS : Nat := 0
  cntF : Nat := 0

/-- the registers (tx_engine.v:248-299), with their initial values -/
structure S where
  reqReady : Bool := false
  stLen : Nat := 0
  stTag : Nat := 0
  stValid : Bool := false
  drQueue : Nat := 0
  drTag : Nat := 0
  drValid : Bool := false
  descReady : Bool := false
  cq : Cpl := {}
  cqValid : Bool := false
  tx : TxDesc := {}
  txValid : Bool := false
  cs : Csum := {}
  csValid : Bool := false
  wr : Nat := 0
  rd : Nat := 0
  dStart : Bool := true
  dLen : Nat := 0
  fLen : Nat := 0
  fTag : Nat := 0
  fValid : Bool := false
  count : Nat := 0
  row : Nat → Row := fun _ => {}
  start : Nat := 0
  txp : Nat := 0
  cpp : Nat := 0
  fin : Nat := 0

/-- the row a pointer names -/
def at_ (P : Params) (s : S) (p : Nat) : Row := s.row (P.mask p)

/-- `s_axis_tx_req_ready && s_axis_tx_req_valid` (tx_engine.v:580) -/
def accept (s : S) (i : In) : Option Req := if s.reqReady then i.req else none

/-- `s_axis_tx_req_ready_next` (tx_engine.v:579-581) -/
def readyNext (P : Params) (s : S) (i : In) : Bool :=
  match accept s i with
  | some _ => false
  | none => i.enable && decide (s.count < P.maxReq) && !(at_ P s s.start).active &&
      decide ((s.start + 2 ^ (P.cl + 1) - s.fin) % 2 ^ (P.cl + 1) < P.n) && (!s.drValid || i.drReady)

/-- a response that there is no descriptor (tx_engine.v:608-617) -/
def early (P : Params) (s : S) (i : In) : Option Nat :=
  match i.dstat with
  | some d => if !(d.error || d.empty) then none else some (at_ P s d.tag).tag
  | none => none

/-- the descriptor processed (tx_engine.v:629-630) -/
def beat (P : Params) (s : S) (i : In) : Option Desc :=
  match (if s.descReady then i.desc else none) with
  | some d => if (at_ P s d.tid).active then some d else none
  | none => none

/-- `desc_len_next` before the last descriptor clears it (tx_engine.v:632-636) -/
def lenNext (P : Params) (s : S) (n : Nat) : Nat := if s.dLen + n > P.buf.max then P.buf.max else s.dLen + n

/-- the read issued (tx_engine.v:650-663): RAM address and bytes -/
def readOp (P : Params) (s : S) (d : Desc) : BufRing.Op := ⟨P.buf.off s.wr + s.dLen, d.data⟩

inductive Act where
  | wait
  | skip
  | go
deriving DecidableEq, Repr

/-- transmit start (tx_engine.v:703-709) -/
def txAct (P : Params) (s : S) : Act :=
  let r := at_ P s s.txp
  if r.active && decide (s.txp ≠ s.start) then
    if r.invalid then .skip
    else if r.descFetched && r.commit && (r.cntS == r.cntF) && !s.txValid && (!s.csValid || !P.csum) then .go
    else .wait
  else .wait

/-- completion start (tx_engine.v:759-763) -/
def cpAct (P : Params) (s : S) (i : In) : Act :=
  let r := at_ P s s.cpp
  if r.active && decide (s.cpp ≠ s.start) && decide (s.cpp ≠ s.txp) then
    if r.invalid then .skip
    else if (r.doneA != r.doneB) && !(s.cqValid && !i.cqReady) then .go
    else .wait
  else .wait

/-- operation complete (tx_engine.v:792-800) -/
def fiAct (P : Params) (s : S) : Act :=
  let r := at_ P s s.fin
  if r.active && decide (s.fin ≠ s.start) && decide (s.fin ≠ s.cpp) && !s.fValid then
    if r.invalid then .skip
    else if r.cplDone then .go
    else .wait
  else .wait

def inc (P : Params) (p : Nat) : Nat := (p + 1) % 2 ^ (P.cl + 1)

/-- the packet handed to the transmit path (tx_engine.v:713-722) -/
def txOut (P : Params) (s : S) : TxDesc :=
  let r := at_ P s s.txp
  ⟨P.buf.off r.bufPtr, r.len, P.mask s.txp, r.queue, r.dest⟩

/-- the checksum command (tx_engine.v:724-730): the offset register has 8 bits -/
def csOut (P : Params) (s : S) : Csum :=
  let r := at_ P s s.txp
  ⟨r.csEn, r.csStart, (r.csStart + r.csOff) % 256⟩

/-- the completion (tx_engine.v:767-779) -/
def cqOut (P : Params) (s : S) : Cpl :=
  let r := at_ P s s.cpp
  ⟨r.cplQueue, P.mask s.cpp,
   r.queue % 2 ^ 16 + 2 ^ 16 * (r.qptr % 2 ^ 16) + 2 ^ 32 * (r.len % 2 ^ 16) + (if P.ptp then 2 ^ 64 * (r.ts / 2 ^ 16 % 2 ^ 48) else 0) +
     2 ^ 168 * (r.dest % 2 ^ 9)⟩

/-- `s_axis_tx_cpl_valid && s_axis_tx_cpl_tag[TX_TAG_WIDTH-1]` (tx_engine.v:752) -/
def sentEv (i : In) : Option (Nat × Nat) := match i.txCpl with | some (true, t, ts) => some (t, ts) | _ => none

/-- what a clock edge does to one row -/
structure Hit where
  /-- a request gets the row -/
  acc : Option Req
  deq : Option DStat
  beat : Option Desc
  sent : Option (Nat × Nat)
  cpl : Bool
  free : Bool
  done : Bool

/-- the operations on row `j` -/
def hit (P : Params) (s : S) (i : In) (j : Nat) : Hit where
  acc := (accept s i).filter fun _ => P.mask s.start == j
  deq := i.dstat.filter fun d => P.mask d.tag == j
  beat := (beat P s i).filter fun d => P.mask d.tid == j
  sent := (sentEv i).filter fun x => P.mask x.1 == j
  cpl := i.cstat.any fun t => P.mask t == j
  free := decide (fiAct P s ≠ .wait) && P.mask s.fin == j
  done := i.rstat.any fun t => P.mask t == j

/-- the read counter of row `r` when a descriptor arrives (tx_engine.v:932-944) -/
def cntNext (P : Params) (s : S) (r : Row) (d : Desc) : Nat :=
  if d.data.length ≠ 0 then ((if s.dStart then r.cntF else r.cntS) + 1) % 2 ^ P.cw
  else if s.dStart then r.cntF else r.cntS

/-- the row after the clock edge: start :870-881, dequeue :883-889, first descriptor :891-896, last descriptor :898-901, sent :912-917,
completion written :923-925, finish :927-930, read started :932-944, read finished :946-948; later assignments override earlier ones -/
def rowNext (P : Params) (s : S) (r : Row) (h : Hit) : Row where
  active := if h.free then false else if h.acc.isSome then true else r.active
  invalid := if h.deq.any fun d => d.error || d.empty then true else if h.acc.isSome then false else r.invalid
  descFetched := if h.beat.any (·.last) then true else if h.acc.isSome then false else r.descFetched
  doneA := if h.acc.isSome then r.doneB else r.doneA
  doneB := if h.sent.isSome then !r.doneA else r.doneB
  cplDone := if h.cpl then true else if h.acc.isSome then false else r.cplDone
  tag := match h.acc with | some q => q.tag | none => r.tag
  queue := match h.acc with | some q => q.queue | none => r.queue
  qptr := match h.deq with | some d => d.ptr | none => r.qptr
  cplQueue := match h.deq with | some d => d.cpl | none => r.cplQueue
  dest := match h.acc with | some q => q.dest | none => r.dest
  csStart := match h.beat with | some d => if s.dStart then (if P.csum then d.csStart % 128 else 0) else r.csStart | none => r.csStart
  csOff := match h.beat with | some d => if s.dStart then (if P.csum then d.csOff % 128 else 0) else r.csOff | none => r.csOff
  csEn := match h.beat with | some d => if s.dStart then P.csum && d.csEn else r.csEn | none => r.csEn
  len := match h.beat with | some d => if d.last then lenNext P s d.data.length else r.len | none => r.len
  bufPtr := match h.beat with | some _ => if s.dStart then s.wr else r.bufPtr | none => r.bufPtr
  ts := match h.sent with | some x => if P.ptp then x.2 else r.ts | none => r.ts
  commit := match h.beat with | some d => if d.data.length ≠ 0 || d.last || s.dStart then d.last else r.commit | none => r.commit
  cntS := match h.beat with | some d => cntNext P s r d | none => r.cntS
  cntF := if h.done then (r.cntF + 1) % 2 ^ P.cw else r.cntF

/-- one clock edge (tx_engine.v:478-948) -/
def next (P : Params) (s : S) (i : In) : S where
  reqReady := readyNext P s i
  stLen := match early P s i with
    | some _ => 0
    | none => if s.fValid then s.fLen else if fiAct P s = .go then (at_ P s s.fin).len else s.stLen
  stTag := match early P s i with
    | some t => t
    | none => if s.fValid then s.fTag else if fiAct P s = .go then (at_ P s s.fin).tag else s.stTag
  stValid := (early P s i).isSome || s.fValid || decide (fiAct P s = .go)
  drQueue := match accept s i with | some q => q.queue | none => s.drQueue
  drTag := match accept s i with | some _ => P.mask s.start | none => s.drTag
  drValid := match accept s i with | some _ => true | none => s.drValid && !i.drReady
  descReady := i.early && BufRing.room P.buf s.wr s.rd
  cq := if cpAct P s i = .go then cqOut P s else s.cq
  cqValid := if cpAct P s i = .go then true else s.cqValid && !i.cqReady
  tx := if txAct P s = .go then txOut P s else s.tx
  txValid := if txAct P s = .go then true else s.txValid && !i.txReady
  cs := if txAct P s = .go && P.csum then csOut P s else s.cs
  csValid := if txAct P s = .go && P.csum then true else s.csValid && !i.csReady
  wr := match beat P s i with
    | some d => if d.last then BufRing.nextPtr P.buf s.wr (lenNext P s d.data.length) else s.wr
    | none => s.wr
  rd := match i.txStat with | some t => BufRing.nextPtr P.buf (at_ P s t).bufPtr (at_ P s t).len | none => s.rd
  dStart := match beat P s i with | some d => d.last | none => s.dStart
  dLen := match beat P s i with | some d => if d.last then 0 else lenNext P s d.data.length | none => s.dLen
  fLen := if fiAct P s = .go then (at_ P s s.fin).len else s.fLen
  fTag := if fiAct P s = .go then (at_ P s s.fin).tag else s.fTag
  fValid := (s.fValid || decide (fiAct P s = .go)) && (early P s i).isSome
  count := s.count + (accept s i).isSome.toNat - (early P s i).isSome.toNat - ((beat P s i).any (·.last)).toNat
  row := fun j => rowNext P s (s.row j) (hit P s i j)
  start := if (accept s i).isSome then inc P s.start else s.start
  txp := if txAct P s = .wait then s.txp else inc P s.txp
  cpp := if cpAct P s i = .wait then s.cpp else inc P s.cpp
  fin := if fiAct P s = .wait then s.fin else inc P s.fin

/-! ### What an observer of the interfaces sees -/

/-- a monitor of the interfaces; requests are numbered in the order they are accepted -/
structure G where
  /-- accepted requests -/
  reqs : List Req := []
  /-- the last request given a tag -/
  own : Nat → Option Nat := fun _ => none
  /-- descriptor fetches asked for: queue and tag -/
  fetches : List (Nat × Nat) := []
  /-- the answer to the descriptor fetch -/
  resp : Nat → Option DStat := fun _ => none
  /-- the descriptors received -/
  descs : Nat → List Desc := fun _ => []
  /-- the buffer pointer when the first descriptor was received -/
  place : Nat → Nat := fun _ => 0
  /-- the reads of the packet -/
  ops : Nat → List BufRing.Op := fun _ => []
  /-- reads reported finished -/
  rep : Nat → Nat := fun _ => 0
  /-- packets read and not reported sent, oldest first -/
  out : List Nat := []
  /-- the packet buffer -/
  b : BufRing.Tx.S := {}
  /-- packets taken by the transmit path -/
  sent : List TxDesc := []
  /-- the transmit path has taken the packet -/
  took : Nat → Bool := fun _ => false
  /-- checksum commands taken -/
  csums : List Csum := []
  /-- the transmit path has read the packet from the buffer -/
  txs : Nat → Bool := fun _ => false
  /-- the time stamp of the packet -/
  ts : Nat → Option Nat := fun _ => none
  /-- completions taken by the completion write engine -/
  cpls : List Cpl := []
  /-- the completion write engine has taken the completion -/
  cqTook : Nat → Bool := fun _ => false
  /-- the completion write engine has reported -/
  cst : Nat → Bool := fun _ => false
  /-- request status pulses: length and tag -/
  pulses : List (Nat × Nat) := []
  /-- the requests whose status has been put on the output, in order -/
  stat : List Nat := []
  /-- the request whose status waits -/
  pend : Option Nat := none
  /-- requests past the transmit, completion and finish stages -/
  txn : Nat := 0
  cpn : Nat := 0
  fin : Nat := 0

structure Sys where
  s : S := {}
  g : G := {}

/-- the packet a tag names -/
def G.pkt (g : G) (k : Nat) : BufRing.Pkt := ⟨g.place k, ((g.descs k).map (·.data.length)).sum, g.ops k⟩

/-- the inputs of the packet buffer -/
def ringIn (i : In) (d : Option Desc) : BufRing.Tx.In :=
  { early := i.early, beat := d.map fun d => (d.data, d.last), pokes := i.pokes, done := i.txStat.isSome }

/-- an answer carries the tag of request `k` -/
def eFor (g : G) (o : Option Nat) (k : Nat) : Bool := o.any fun t => g.own t == some k

def eDeq (g : G) (i : In) (k : Nat) : Option DStat := i.dstat.filter fun d => g.own d.tag == some k

def eBeat (P : Params) (s : S) (g : G) (i : In) (k : Nat) : Option Desc := (beat P s i).filter fun d => g.own d.tid == some k

def eSent (g : G) (i : In) (k : Nat) : Option Nat := ((sentEv i).filter fun x => g.own x.1 == some k).map (·.2)

/-- the request whose status is shown next -/
def statNext (P : Params) (s : S) (g : G) (i : In) : Option Nat :=
  match early P s i with
  | some _ => i.dstat.bind fun d => g.own d.tag
  | none => if s.fValid then g.pend else if fiAct P s = .go then some g.fin else none

/-- the monitor at a clock edge -/
def watch (P : Params) (s : S) (g : G) (i : In) : G where
  reqs := g.reqs ++ (accept s i).toList
  own := upd? g.own ((accept s i).map fun _ => (P.mask s.start, some g.reqs.length))
  fetches := if s.drValid && i.drReady then g.fetches ++ [(s.drQueue, s.drTag)] else g.fetches
  resp := fun k => match eDeq g i k with | some d => some d | none => g.resp k
  descs := fun k => g.descs k ++ (eBeat P s g i k).toList
  place := fun k => if (eBeat P s g i k).isSome && (g.descs k).isEmpty then s.wr else g.place k
  ops := fun k => g.ops k ++ ((eBeat P s g i k).map (readOp P s)).toList
  rep := fun k => g.rep k + (eFor g i.rstat k).toNat
  out := (if i.txStat.isSome then g.out.tail else g.out) ++
    (match beat P s i with | some d => if d.last then (g.own d.tid).toList else [] | none => [])
  b := BufRing.Tx.step P.buf g.b (ringIn i i.desc)
  sent := if s.txValid && i.txReady then g.sent ++ [s.tx] else g.sent
  took := fun k => g.took k || (s.txValid && i.txReady && g.own s.tx.tag == some k)
  csums := if s.csValid && i.csReady then g.csums ++ [s.cs] else g.csums
  txs := fun k => g.txs k || eFor g i.txStat k
  ts := fun k => match eSent g i k with | some t => some t | none => g.ts k
  cpls := if s.cqValid && i.cqReady then g.cpls ++ [s.cq] else g.cpls
  cqTook := fun k => g.cqTook k || (s.cqValid && i.cqReady && g.own s.cq.tag == some k)
  cst := fun k => g.cst k || eFor g i.cstat k
  pulses := if s.stValid then g.pulses ++ [(s.stLen, s.stTag)] else g.pulses
  stat := g.stat ++ (statNext P s g i).toList
  pend := if (early P s i).isSome then (if s.fValid then g.pend else if fiAct P s = .go then some g.fin else none) else none
  txn := if txAct P s = .wait then g.txn else g.txn + 1
  cpn := if cpAct P s i = .wait then g.cpn else g.cpn + 1
  fin := if fiAct P s = .wait then g.fin else g.fin + 1

def step (P : Params) (x : Sys) (i : In) : Sys := ⟨next P x.s i, watch P x.s x.g i⟩

def run (P : Params) (x : Sys) (is : List In) : Sys := is.foldl (step P) x

end Corundum.TxEngine
