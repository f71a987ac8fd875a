import Verif.Model.TxEngine

/-!
Receive engine: /repo/fpga/common/rtl/rx_engine.v, one step per clock edge.

A receive request gets a slot of the descriptor table and a buffer, and the receive path is told to put the next packet there.  When the packet has arrived and
its queue is known, a descriptor fetch is asked for; the descriptors arrive as a frame and DMA writes from the packet buffer to the host are started; after a write
has finished, the buffer is given back and a completion is handed to the completion write engine; finally the request status is returned.

Simplifications: `DESC_TABLE_SIZE` is a power of two and the buffer offset is zero; `DMA_LEN_WIDTH` is `DMA_CLIENT_LEN_WIDTH`; the arrays of the table are one
array of rows; reset is the initial state only, `mtu_reg` having been loaded (it is not reset, :950); the queue map (:492-567) is outside, its response is an input;
the output register of the DMA write descriptors (:1077-1160) is left out: its ready signal is the input `early`, and a write is issued when it enters the
register.  `desc_table_desc_fetched`, `desc_table_desc_len`, `desc_table_read_commit`, `desc_table_write_count_start` and `desc_table_write_count_finish` are
written and never read, `desc_start_reg` only serves them; they are left out.
-/
namespace Corundum.RxEngine
open Corundum.CplWrite (upd upd?)
open Corundum.TxEngine (DStat Act Cpl)

structure Params where
  /-- `CL_DESC_TABLE_SIZE` -/
  cl : Nat
  /-- the packet buffer -/
  buf : BufRing.Params
  /-- `MAX_DESC_REQ` -/
  maxReq : Nat
  /-- `DMA_CLIENT_LEN_WIDTH` -/
  lw : Nat
  /-- `RX_CHECKSUM_ENABLE` -/
  csum : Bool
  /-- `PTP_TS_ENABLE` -/
  ptp : Bool
  /-- `PTP_TS_WIDTH` -/
  tw : Nat
  /-- `RX_HASH_ENABLE` -/
  hash : Bool

/-- `DESC_TABLE_SIZE` -/
def Params.n (P : Params) : Nat := 2 ^ P.cl

/-- `x & DESC_PTR_MASK` (rx_engine.v:254-255) -/
def Params.mask (P : Params) (x : Nat) : Nat := x &&& (2 ^ P.cl - 1)

/-- `TUSER_HASH_OFFSET` (rx_engine.v:269) -/
def Params.hashOff (P : Params) : Nat := 1 + (if P.ptp then P.tw else 0)

/-- `TUSER_HASH_TYPE_OFFSET` (rx_engine.v:270) -/
def Params.typeOff (P : Params) : Nat := P.hashOff + (if P.hash then 32 else 0)

/-- `s_axis_rx_desc_status_*` -/
structure RStat where
  tag : Nat
  len : Nat
  id : Nat
  user : Nat
deriving DecidableEq, Repr

/-- a descriptor on `s_axis_desc`: `tdata[127:64]` and `tdata[63:32]` -/
structure Desc where
  tid : Nat
  addr : Nat
  len : Nat
  last : Bool
deriving DecidableEq, Repr

/-- `m_axis_rx_desc_*` -/
structure RxDesc where
  addr : Nat := 0
  len : Nat := 0
  tag : Nat := 0
deriving DecidableEq, Repr

/-- a DMA write: address in the host, address in the packet buffer, length -/
structure W where
  host : Nat
  ram : Nat
  len : Nat
deriving DecidableEq, Repr

/-- the inputs during one cycle -/
structure In where
  enable : Bool := true
  mtu : Nat
  /-- `s_axis_rx_req_tag` -/
  req : Option Nat := none
  /-- `m_axis_rx_desc_ready` -/
  rxReady : Bool := false
  /-- `s_axis_rx_desc_status` -/
  rxStat : Option RStat := none
  /-- `queue_map_resp_tag`, `queue_map_resp_queue` -/
  qmap : Option (Nat × Nat) := none
  /-- `m_axis_desc_req_ready` -/
  drReady : Bool := false
  /-- `s_axis_desc_req_status` -/
  dstat : Option DStat := none
  /-- `m_axis_dma_write_desc_ready_int_early` -/
  early : Bool := true
  /-- `s_axis_desc` -/
  desc : Option Desc := none
  /-- `s_axis_dma_write_desc_status_tag` -/
  wstat : Option Nat := none
  /-- `s_axis_rx_csum` -/
  csum : Option Nat := none
  /-- `m_axis_cpl_req_ready` -/
  cqReady : Bool := false
  /-- `s_axis_cpl_req_status_tag` -/
  cstat : Option Nat := none
  /-- bytes the receive path writes to the packet buffer -/
  pokes : List (Nat × Nat) := []

/-- a row of the descriptor table (rx_engine.v:341-376) -/
structure Row where
  active : Bool := false
  rxDone : Bool := false
  invalid : Bool := false
  written : Bool := false
  cplDone : Bool := false
  tag : Nat := 0
  queue : Nat := 0
  qptr : Nat := 0
  cplQueue : Nat := 0
  len : Nat := 0
  id : Nat := 0
  bufPtr : Nat := 0
  ts : Nat := 0
  hash : Nat := 0
  htype : Nat := 0
  csum : Nat := 0

/-- the registers (rx_engine.v:301-340, 378-411), with their values after reset -/
structure S where
  reqReady : Bool := false
  stLen : Nat := 0
  stTag : Nat := 0
  stValid : Bool := false
  drQueue : Nat := 0
  drTag : Nat := 0
  drValid : Bool := false
  descReady : Bool := false
  cq : Cpl := {}
  cqValid : Bool := false
  rx : RxDesc := {}
  rxValid : Bool := false
  csReady : Bool := false
  mtu : Nat
  wr : Nat := 0
  rd : Nat := 0
  dDone : Bool := false
  dLen : Nat := 0
  count : Nat := 0
  row : Nat → Row := fun _ => {}
  start : Nat := 0
  dqp : Nat := 0
  csp : Nat := 0
  cpp : Nat := 0
  fin : Nat := 0

/-- the row a pointer names -/
def at_ (P : Params) (s : S) (p : Nat) : Row := s.row (P.mask p)

/-- `s_axis_rx_req_ready && s_axis_rx_req_valid` (rx_engine.v:681) -/
def accept (s : S) (i : In) : Option Nat := if s.reqReady then i.req else none

/-- the conditions for accepting a request besides room in the buffer (rx_engine.v:680) -/
def readyIn (P : Params) (s : S) (i : In) : Bool :=
  i.enable && !(at_ P s s.start).active && decide ((s.start + 2 ^ (P.cl + 1) - s.fin) % 2 ^ (P.cl + 1) < P.n) && (!s.rxValid || i.rxReady)

/-- `mtu > MAX_RX_SIZE ? MAX_RX_SIZE : mtu` (rx_engine.v:950) -/
def mtuNext (P : Params) (mtu : Nat) : Nat := if mtu > P.buf.max then P.buf.max else mtu

/-- a descriptor fetch is started for the row at `desc_table_dequeue_start_ptr` (rx_engine.v:724-725) -/
def dqGo (P : Params) (s : S) : Bool :=
  (at_ P s s.dqp).active && decide (s.dqp ≠ s.start) && (at_ P s s.dqp).rxDone && !s.drValid && decide (s.count < P.maxReq)

/-- the descriptor processed (rx_engine.v:767-768) -/
def beat (P : Params) (s : S) (i : In) : Option Desc :=
  match (if s.descReady then i.desc else none) with
  | some d => if (at_ P s d.tid).active then some d else none
  | none => none

/-- `desc_table_dma_len[...] - desc_len_reg` in the 32 bits of the comparison (rx_engine.v:777) -/
def left (P : Params) (s : S) (d : Desc) : Nat := ((at_ P s d.tid).len + 2 ^ 32 - s.dLen) % 2 ^ 32

/-- `m_axis_dma_write_desc_len_int` (rx_engine.v:777-784) -/
def wrLen (P : Params) (s : S) (d : Desc) : Nat := (if d.len < left P s d then d.len else left P s d) % 2 ^ P.lw

/-- `desc_done_next` before the last descriptor clears it (rx_engine.v:777-784) -/
def doneNext (P : Params) (s : S) (d : Desc) : Bool := if d.len < left P s d then s.dDone else true

/-- the write issued (rx_engine.v:775-790) -/
def writeOp (P : Params) (s : S) (d : Desc) : Option W :=
  if wrLen P s d ≠ 0 && !s.dDone then some ⟨d.addr, P.buf.off (at_ P s d.tid).bufPtr + s.dLen, wrLen P s d⟩ else none

/-- checksum store (rx_engine.v:827-841) -/
def csAct (P : Params) (s : S) (i : In) : Act :=
  let r := at_ P s s.csp
  if r.active && decide (s.csp ≠ s.start) && P.csum then
    if r.invalid then .skip
    else if s.csReady && i.csum.isSome then .go
    else .wait
  else .wait

/-- completion start (rx_engine.v:844-859) -/
def cpAct (P : Params) (s : S) (i : In) : Act :=
  let r := at_ P s s.cpp
  if r.active && decide (s.cpp ≠ s.start) && decide (s.cpp ≠ s.dqp) && (decide (s.cpp ≠ s.csp) || !P.csum) then
    if r.invalid then .skip
    else if r.written && !(s.cqValid && !i.cqReady) then .go
    else .wait
  else .wait

/-- operation complete (rx_engine.v:902-911) -/
def fiAct (P : Params) (s : S) : Act :=
  let r := at_ P s s.fin
  if r.active && decide (s.fin ≠ s.start) && decide (s.fin ≠ s.cpp) then
    if r.invalid then .skip
    else if r.cplDone then .go
    else .wait
  else .wait

def inc (P : Params) (p : Nat) : Nat := (p + 1) % 2 ^ (P.cl + 1)

/-- the order to receive a packet (rx_engine.v:690-693) -/
def rxOut (P : Params) (s : S) : RxDesc := ⟨P.buf.off s.wr, s.mtu, P.mask s.start⟩

/-- the completion (rx_engine.v:871-888) -/
def cqOut (P : Params) (s : S) : Cpl :=
  let r := at_ P s s.cpp
  ⟨r.cplQueue, P.mask s.cpp,
   r.queue % 2 ^ 16 + 2 ^ 16 * (r.qptr % 2 ^ 16) + 2 ^ 32 * (r.len % 2 ^ 16) + (if P.ptp then 2 ^ 64 * (r.ts / 2 ^ 16 % 2 ^ 48) else 0) +
     (if P.csum then 2 ^ 112 * (r.csum % 2 ^ 16) else 0) + (if P.hash then 2 ^ 128 * (r.hash % 2 ^ 32) + 2 ^ 160 * (r.htype % 2 ^ 8) else 0) +
     2 ^ 168 * (r.id % 2 ^ 9)⟩

/-- what a clock edge does to one row -/
structure Hit where
  /-- a request gets the row -/
  acc : Option Nat
  rx : Option RStat
  map : Option Nat
  deq : Option DStat
  wr : Bool
  sum : Option Nat
  cpl : Bool
  free : Bool

/-- the operations on row `j` -/
def hit (P : Params) (s : S) (i : In) (j : Nat) : Hit where
  acc := (accept s i).filter fun _ => P.mask s.start == j
  rx := i.rxStat.filter fun r => P.mask r.tag == j
  map := (i.qmap.filter fun x => P.mask x.1 == j).map (·.2)
  deq := i.dstat.filter fun d => P.mask d.tag == j
  wr := i.wstat.any fun t => P.mask t == j
  sum := if csAct P s i ≠ .wait && P.mask s.csp == j then i.csum else none
  cpl := i.cstat.any fun t => P.mask t == j
  free := decide (fiAct P s ≠ .wait) && P.mask s.fin == j

/-- the row after the clock edge: start :962-972, receive status :974-980 (the fields of `tuser` :710-712), queue :982-985, dequeue :991-997, write finished
:1004-1006, checksum :1008-1011, completion written :1017-1019, finish :1021-1024; later assignments override earlier ones; when an invalid row is skipped without
a checksum on the input, the value stored is not used -/
def rowNext (P : Params) (s : S) (r : Row) (h : Hit) : Row where
  active := if h.free then false else if h.acc.isSome then true else r.active
  rxDone := if h.map.isSome then true else if h.acc.isSome then false else r.rxDone
  invalid := if h.deq.any fun d => d.error || d.empty then true else if h.acc.isSome then false else r.invalid
  written := if h.wr then true else if h.acc.isSome then false else r.written
  cplDone := if h.cpl then true else if h.acc.isSome then false else r.cplDone
  tag := match h.acc with | some t => t | none => r.tag
  queue := match h.map with | some q => q | none => r.queue
  qptr := match h.deq with | some d => d.ptr | none => r.qptr
  cplQueue := match h.deq with | some d => d.cpl | none => r.cplQueue
  len := match h.rx with | some x => x.len | none => r.len
  id := match h.rx with | some x => x.id | none => r.id
  bufPtr := if h.acc.isSome then s.wr else r.bufPtr
  ts := match h.rx with | some x => x.user / 2 % 2 ^ P.tw | none => r.ts
  hash := match h.rx with | some x => x.user / 2 ^ P.hashOff % 2 ^ 32 | none => r.hash
  htype := match h.rx with | some x => x.user / 2 ^ P.typeOff % 2 ^ 4 | none => r.htype
  csum := match h.sum with | some c => c | none => r.csum

/-- one clock edge (rx_engine.v:591-1042) -/
def next (P : Params) (s : S) (i : In) : S where
  reqReady := match accept s i with | some _ => false | none => readyIn P s i && BufRing.room P.buf s.wr s.rd
  stLen := match fiAct P s with | .wait => s.stLen | .skip => 0 | .go => (at_ P s s.fin).len
  stTag := if fiAct P s = .wait then s.stTag else (at_ P s s.fin).tag
  stValid := decide (fiAct P s ≠ .wait)
  drQueue := if dqGo P s then (at_ P s s.dqp).queue else s.drQueue
  drTag := if dqGo P s then P.mask s.dqp else s.drTag
  drValid := if dqGo P s then true else s.drValid && !i.drReady
  descReady := i.early
  cq := if cpAct P s i = .go then cqOut P s else s.cq
  cqValid := if cpAct P s i = .go then true else s.cqValid && !i.cqReady
  rx := match accept s i with | some _ => rxOut P s | none => s.rx
  rxValid := match accept s i with | some _ => true | none => s.rxValid && !i.rxReady
  csReady := (at_ P s s.csp).active && decide (s.csp ≠ s.start) && P.csum && decide (csAct P s i = .wait)
  mtu := mtuNext P i.mtu
  wr := match accept s i with | some _ => BufRing.nextPtr P.buf s.wr s.mtu | none => s.wr
  rd := if cpAct P s i = .wait then s.rd else BufRing.nextPtr P.buf (at_ P s s.cpp).bufPtr s.mtu
  dDone := match beat P s i with | some d => if d.last then false else doneNext P s d | none => s.dDone
  dLen := match beat P s i with | some d => if d.last then 0 else (s.dLen + d.len) % 2 ^ P.lw | none => s.dLen
  count := s.count + (dqGo P s).toNat - (i.dstat.any fun d => d.error || d.empty).toNat - ((beat P s i).any (·.last)).toNat
  row := fun j => rowNext P s (s.row j) (hit P s i j)
  start := if (accept s i).isSome then inc P s.start else s.start
  dqp := if dqGo P s then inc P s.dqp else s.dqp
  csp := if csAct P s i = .wait then s.csp else inc P s.csp
  cpp := if cpAct P s i = .wait then s.cpp else inc P s.cpp
  fin := if fiAct P s = .wait then s.fin else inc P s.fin

/-! ### What an observer of the interfaces sees -/

/-- a monitor of the interfaces; requests are numbered in the order they are accepted -/
structure G where
  /-- the tags of the accepted requests -/
  reqs : List Nat := []
  /-- the last request given a tag -/
  own : Nat → Option Nat := fun _ => none
  /-- the buffer pointer when the request was accepted -/
  place : Nat → Nat := fun _ => 0
  /-- orders taken by the receive path -/
  rxs : List RxDesc := []
  /-- the report of the receive path -/
  rx : Nat → Option RStat := fun _ => none
  /-- the bytes in the buffer when the packet was reported -/
  data : Nat → List Nat := fun _ => []
  /-- the answer of the queue map -/
  map : Nat → Option Nat := fun _ => none
  /-- descriptor fetches asked for: queue and tag -/
  fetches : List (Nat × Nat) := []
  /-- the answer to the descriptor fetch -/
  resp : Nat → Option DStat := fun _ => none
  /-- the descriptors received -/
  descs : Nat → List Desc := fun _ => []
  /-- the writes of the packet -/
  ops : Nat → List W := fun _ => []
  /-- writes reported finished -/
  rep : Nat → Nat := fun _ => 0
  /-- checksums taken -/
  sums : List Nat := []
  /-- the checksum taken for the request -/
  csum : Nat → Option Nat := fun _ => none
  /-- completions taken by the completion write engine -/
  cpls : List Cpl := []
  /-- the completion write engine has taken the completion -/
  cqTook : Nat → Bool := fun _ => false
  /-- the completion write engine has reported -/
  cst : Nat → Bool := fun _ => false
  /-- request status pulses: length and tag -/
  pulses : List (Nat × Nat) := []
  /-- the packet buffer -/
  b : BufRing.Rx.S := {}
  ram : Nat → Nat := fun _ => 0
  /-- requests past the fetch, checksum, completion and finish stages -/
  dqn : Nat := 0
  csn : Nat := 0
  cpn : Nat := 0
  fin : Nat := 0

structure Sys where
  s : S
  g : G := {}

/-- after reset, with the maximum packet size `m` configured -/
def init (P : Params) (m : Nat) : Sys := { s := { mtu := mtuNext P m } }

/-- the inputs of the packet buffer -/
def ringIn (P : Params) (s : S) (i : In) : BufRing.Rx.In :=
  { early := readyIn P s i, req := i.req.isSome, mtu := s.mtu, done := decide (cpAct P s i ≠ .wait) }

/-- an answer carries the tag of request `k` -/
def eFor (g : G) (o : Option Nat) (k : Nat) : Bool := o.any fun t => g.own t == some k

def eRx (g : G) (i : In) (k : Nat) : Option RStat := i.rxStat.filter fun r => g.own r.tag == some k

def eMap (g : G) (i : In) (k : Nat) : Option Nat := (i.qmap.filter fun x => g.own x.1 == some k).map (·.2)

def eDeq (g : G) (i : In) (k : Nat) : Option DStat := i.dstat.filter fun d => g.own d.tag == some k

def eBeat (P : Params) (s : S) (g : G) (i : In) (k : Nat) : Option Desc := (beat P s i).filter fun d => g.own d.tid == some k

/-- the checksum taken, for the request next in line -/
def eSum (s : S) (g : G) (i : In) (k : Nat) : Option Nat := if s.csReady && k == g.csn then i.csum else none

/-- the monitor at a clock edge -/
def watch (P : Params) (s : S) (g : G) (i : In) : G where
  reqs := g.reqs ++ (accept s i).toList
  own := upd? g.own ((accept s i).map fun _ => (P.mask s.start, some g.reqs.length))
  place := fun k => if (accept s i).isSome && k == g.reqs.length then s.wr else g.place k
  rxs := if s.rxValid && i.rxReady then g.rxs ++ [s.rx] else g.rxs
  rx := fun k => match eRx g i k with | some r => some r | none => g.rx k
  data := fun k => match eRx g i k with | some r => BufRing.read (BufRing.fill g.ram i.pokes) (P.buf.off (g.place k)) r.len | none => g.data k
  map := fun k => match eMap g i k with | some q => some q | none => g.map k
  fetches := if s.drValid && i.drReady then g.fetches ++ [(s.drQueue, s.drTag)] else g.fetches
  resp := fun k => match eDeq g i k with | some d => some d | none => g.resp k
  descs := fun k => g.descs k ++ (eBeat P s g i k).toList
  ops := fun k => g.ops k ++ ((eBeat P s g i k).bind (writeOp P s)).toList
  rep := fun k => g.rep k + (eFor g i.wstat k).toNat
  sums := if s.csReady then g.sums ++ i.csum.toList else g.sums
  csum := fun k => match eSum s g i k with | some c => some c | none => g.csum k
  cpls := if s.cqValid && i.cqReady then g.cpls ++ [s.cq] else g.cpls
  cqTook := fun k => g.cqTook k || (s.cqValid && i.cqReady && g.own s.cq.tag == some k)
  cst := fun k => g.cst k || eFor g i.cstat k
  pulses := if s.stValid then g.pulses ++ [(s.stLen, s.stTag)] else g.pulses
  b := BufRing.Rx.step P.buf g.b (ringIn P s i)
  ram := BufRing.fill g.ram i.pokes
  dqn := if dqGo P s then g.dqn + 1 else g.dqn
  csn := if csAct P s i = .wait then g.csn else g.csn + 1
  cpn := if cpAct P s i = .wait then g.cpn else g.cpn + 1
  fin := if fiAct P s = .wait then g.fin else g.fin + 1

def step (P : Params) (x : Sys) (i : In) : Sys := ⟨next P x.s i, watch P x.s x.g i⟩

def run (P : Params) (x : Sys) (is : List In) : Sys := is.foldl (step P) x

end Corundum.RxEngine
