/-!
Model of the round-robin transmit scheduler, fpga/common/rtl/tx_scheduler_rr.v (cycle level, parametric in the queue
index width, the op table size, the pipeline depth and SCHED_CTRL_ENABLE).

Simplifications
* The two `axis_fifo` instances (doorbell_fifo lines 259-298, rr_fifo lines 308-347) are FIFO lists; that a word has
  reached the FIFO output register is an input (`dbVis`, `rrVis`), so every latency is covered.  A push into a full
  FIFO is dropped (`in_ready` is not looked at by the code); DEPTH is 256 and 2^QUEUE_INDEX_WIDTH.
* The finish FIFO (lines 216-222, 738-752, 866-869) is a list; it has no overflow check in the code.
* A 16-bit queue RAM word is the structure `Word`; bits 3-5 are never used.
* Reset (lines 755-784) is the initial state; queue RAM and op table contents other than `op_table_active` are
  arbitrary there.
-/
namespace Corundum.Sched

structure Params where
  qw : Nat          -- QUEUE_INDEX_WIDTH
  n : Nat           -- OP_TABLE_SIZE
  cl : Nat          -- CL_OP_TABLE_SIZE
  ctrl : Bool       -- SCHED_CTRL_ENABLE

/-- queue RAM word, lines 177-182: bit 0, 1, 2, 6, 7, [15:8] -/
structure Word where
  en : Bool
  gen : Bool
  sen : Bool
  active : Bool
  sched : Bool
  tail : Nat
  deriving DecidableEq

inductive Op | idle | init | wr | rd | db | req | done | ctrl
  deriving DecidableEq, Repr

/-- one pipeline stage (lines 150-155): operation, queue, write data bits 0 and 1, strobe bit 0, op index, RAM word read -/
structure Slot where
  op : Op
  q : Nat
  d0 : Bool
  d1 : Bool
  strb : Bool
  idx : Nat
  w : Word
  deriving DecidableEq

def Slot.none : Slot := ⟨.idle, 0, false, false, false, 0, ⟨false, false, false, false, false, 0⟩⟩

/-- what the final stage does, in order -/
inductive Ev
  | init (q : Nat)
  | wr (q : Nat) (d0 d1 strb : Bool)
  | rd (q val : Nat)
  | db (q : Nat)
  /-- transmit request issued with this tag -/
  | issue (q idx : Nat)
  /-- queue taken from the rr FIFO but not requested: descheduled -/
  | skip (q idx : Nat)
  /-- completion processed; `v`: the queue is (still) considered active -/
  | done (q idx : Nat) (v : Bool)
  | ctrl (q : Nat) (en : Bool)
  deriving DecidableEq

structure In where
  awvalid : Bool
  awaddr : Nat
  wvalid : Bool
  wdata : Nat
  wstrb : Nat
  bready : Bool
  arvalid : Bool
  araddr : Nat
  rready : Bool
  reqReady : Bool
  stValid : Bool
  stTag : Nat
  stLen : Nat
  dbValid : Bool
  dbQueue : Nat
  ctrlValid : Bool
  ctrlQueue : Nat
  ctrlEn : Bool
  enable : Bool
  rrVis : Bool
  dbVis : Bool

structure State where
  pipe : List Slot
  ram : Nat → Word
  tact : Nat → Bool       -- op_table_active
  tq : Nat → Nat          -- op_table_queue
  tdb : Nat → Bool        -- op_table_doorbell
  thead : Nat → Bool      -- op_table_is_head
  tnext : Nat → Nat       -- op_table_next_index
  tprev : Nat → Nat       -- op_table_prev_index
  rr : List Nat           -- rr_fifo
  dbf : List Nat          -- doorbell_fifo
  fin : List (Nat × Bool) -- finish_fifo
  finReg : Option (Nat × Bool)  -- finish_ptr/status/valid_reg
  initDone : Bool         -- init_reg
  initIdx : Nat           -- init_index_reg
  count : Nat             -- active_queue_count_reg
  reqV : Bool             -- m_axis_tx_req_*
  reqQ : Nat
  reqTag : Nat
  bvalid : Bool
  rvalid : Bool
  rdata : Nat
  awready : Bool
  arready : Bool
  ctrlReady : Bool

/-- state after reset (755-784); memories are not reset -/
structure IsReset (P : Nat) (s : State) : Prop where
  pipe : s.pipe = List.replicate P Slot.none
  tact : ∀ k, s.tact k = false
  rr : s.rr = []
  dbf : s.dbf = []
  fin : s.fin = []
  finReg : s.finReg = none
  initDone : s.initDone = false
  initIdx : s.initIdx = 0
  count : s.count = 0
  reqV : s.reqV = false
  bvalid : s.bvalid = false
  rvalid : s.rvalid = false

def upd {α} (f : Nat → α) (i : Nat) (v : α) : Nat → α := fun j => if j = i then v else f j

/-- `queue_tail_active`, line 253 -/
def tailActive (s : State) (sl : Slot) : Bool := s.tact sl.w.tail && s.tq sl.w.tail == sl.q

/-- the enable condition used by doorbell and request (586, 620) -/
def ok (c : Bool) (w : Word) : Bool := w.en && (!c || w.gen || w.sen)

/-- does the final stage push the queue into the rr FIFO: 585-593 (doorbell), 620-629 (request), 672-683 (completion),
695-703 (control), 715-723 (register write) -/
def push (c : Bool) (sl : Slot) : Bool :=
  match sl.op with
  | .db => ok c sl.w && !sl.w.sched
  | .req => ok c sl.w && sl.w.active && sl.w.sched
  | .done => sl.d0 && (!c || sl.d1 || sl.w.sen) && !sl.w.sched
  | .ctrl => sl.w.en && sl.w.active && (sl.w.gen || sl.d0) && !sl.w.sched
  | .wr => sl.d0 && sl.w.active && (!c || sl.d1 || sl.w.sen) && !sl.w.sched
  | _ => false

/-- the RAM word after the final stage; `r` is the stored word, `sl.w` the word read at stage 0; byte 1 (tail) is
written only when a request is issued (562-575, 579-594, 607-644, 652-686, 689-703, 706-723) -/
def wnext (c : Bool) (r : Word) (sl : Slot) : Word :=
  let d := { sl.w with tail := r.tail }
  let d := if push c sl then { d with sched := true } else d
  match sl.op with
  | .init => { d with en := false, gen := if c then false else d.gen, sen := if c then false else d.sen, active := false, sched := false }
  | .db => { d with active := true }
  | .req => if push c sl then { d with tail := sl.idx % 256 } else { d with sched := false }
  | .done => { d with active := sl.d0 }
  | .ctrl => { d with sen := sl.d0 }
  | .wr => if sl.strb then { d with en := sl.d0, gen := sl.d1 } else r
  | _ => r

/-- active_queue_count_next (592, 645-647, 682, 702, 722) -/
def cnext (p : Params) (n : Nat) (sl : Slot) : Nat :=
  match sl.op with
  | .req => if !push p.ctrl sl && sl.w.sched then (n + 2 ^ (p.qw + 1) - 1) % 2 ^ (p.qw + 1) else n
  | _ => if push p.ctrl sl then (n + 1) % 2 ^ (p.qw + 1) else n

/-- op table updates of the final stage (595-599, 611-618, 632-640, 657-670, 814-820, 851-865), reading table `o` and
writing to `s` -/
def table (c : Bool) (o s : State) (sl : Slot) : State :=
  let t := sl.w.tail
  let k := sl.idx
  match sl.op with
  | .db => if tailActive o sl then { s with tdb := upd s.tdb t true } else s
  | .req =>
    let linked := tailActive o sl && k != t
    if push c sl then
      { s with tnext := if linked then upd s.tnext t k else s.tnext,
               tprev := upd s.tprev k t, thead := upd s.thead k (!linked) }
    else { s with tact := upd s.tact k false }
  | .done =>
    { s with tnext := if !o.thead k then upd s.tnext (o.tprev k) (o.tnext k) else s.tnext,
             tprev := if k != t then upd s.tprev (o.tnext k) (o.tprev k) else s.tprev,
             thead := if k != t then upd s.thead (o.tnext k) (o.thead k) else s.thead,
             tdb := if !o.thead k && o.tdb k then upd s.tdb (o.tprev k) true else s.tdb,
             tact := upd s.tact k false }
  | _ => s

/-- outputs of the final stage and their defaults (408-424, 603-605, 624, 707, 725-736) -/
def outs (c : Bool) (s : State) (i : In) (sl : Slot) : State :=
  let s := { s with reqV := s.reqV && !i.reqReady, bvalid := s.bvalid && !i.bready, rvalid := s.rvalid && !i.rready }
  match sl.op with
  | .req => { s with reqQ := sl.q, reqTag := sl.idx, reqV := s.reqV || push c sl }
  | .wr => { s with bvalid := true }
  | .rd => { s with rvalid := true, rdata := (if sl.w.en then 1 else 0) + (if c && sl.w.gen then 2 else 0) + (if c && sl.w.sen then 4 else 0) +
      (if sl.w.active then 2 ^ 16 else 0) + (if sl.w.sched then 2 ^ 24 else 0) }
  | _ => s

def evOf (c : Bool) (sl : Slot) : List Ev :=
  match sl.op with
  | .idle => []
  | .init => [.init sl.q]
  | .wr => [.wr sl.q sl.d0 sl.d1 sl.strb]
  | .rd => [.rd sl.q ((if sl.w.en then 1 else 0) + (if c && sl.w.gen then 2 else 0) + (if c && sl.w.sen then 4 else 0) +
      (if sl.w.active then 2 ^ 16 else 0) + (if sl.w.sched then 2 ^ 24 else 0))]
  | .db => [.db sl.q]
  | .req => if push c sl then [.issue sl.q sl.idx] else [.skip sl.q sl.idx]
  | .done => [.done sl.q sl.idx sl.d0]
  | .ctrl => [.ctrl sl.q sl.d0]

/-- final stage (561-736), reading `o` (state before the edge) and writing to `s` -/
def final (p : Params) (o s : State) (i : In) (sl : Slot) : State :=
  let s := outs p.ctrl (table p.ctrl o s sl) i sl
  { s with
    ram := upd s.ram sl.q (wnext p.ctrl (o.ram sl.q) sl)
    rr := if push p.ctrl sl && decide (o.rr.length < 2 ^ p.qw) then s.rr ++ [sl.q] else s.rr
    count := cnext p o.count sl }

/-- hazard loop (462-482) -/
def hazard (s : State) (q : Nat) : Bool := s.pipe.any (fun sl => sl.op != .idle && sl.q == q)
def inPipe (s : State) (o : Op) : Bool := s.pipe.any (fun sl => sl.op == o)
def stage1 (s : State) (o : Op) : Bool := match s.pipe.head? with | some sl => sl.op == o | none => false

/-- op_table_start_ptr: lowest free entry (349-357) -/
def freeOp (p : Params) (s : State) : Option Nat := (List.range p.n).find? (fun k => !s.tact k)

/-- stage 0 (484-559): what enters the pipeline -/
def stage0 (p : Params) (s : State) (i : In) : Slot :=
  let awq := (i.awaddr >>> 2) % 2 ^ p.qw
  let arq := (i.araddr >>> 2) % 2 ^ p.qw
  let cq := i.ctrlQueue % 2 ^ p.qw
  if !s.initDone && !hazard s s.initIdx then ⟨.init, s.initIdx, false, false, false, 0, s.ram s.initIdx⟩
  else if i.awvalid && i.wvalid && (!s.bvalid || i.bready) && !inPipe s .wr && !hazard s awq then
    ⟨.wr, awq, i.wdata.testBit 0, i.wdata.testBit 1, i.wstrb.testBit 0, 0, s.ram awq⟩
  else if i.arvalid && (!s.rvalid || i.rready) && !inPipe s .rd && !hazard s arq then
    ⟨.rd, arq, false, false, false, 0, s.ram arq⟩
  else match s.dbf with
  | dq :: _ => if i.dbVis && !hazard s dq then ⟨.db, dq, false, false, false, 0, s.ram dq⟩ else stage0b cq
  | [] => stage0b cq
where
  stage0b (cq : Nat) : Slot :=
    match s.finReg with
    | some (k, st) =>
      if !stage1 s .done && !hazard s (s.tq k) then ⟨.done, s.tq k, st || s.tdb k, false, false, k, s.ram (s.tq k)⟩ else stage0c cq
    | none => stage0c cq
  stage0c (cq : Nat) : Slot :=
    if p.ctrl && i.ctrlValid && !stage1 s .ctrl && !hazard s cq then ⟨.ctrl, cq, i.ctrlEn, false, false, 0, s.ram cq⟩
    else match freeOp p s, s.rr with
    | some k, q :: _ =>
      if i.enable && i.rrVis && (!s.reqV || i.reqReady) && !inPipe s .req && !hazard s q then
        ⟨.req, q, false, false, false, k, s.ram q⟩
      else Slot.none
    | _, _ => Slot.none

/-- the slot enters the pipeline; side effects of stage 0 (486-497, 507, 516, 520, 530, 540, 547-557, 814-816, 851-854) -/
def admit (p : Params) (s : State) (sl : Slot) : State :=
  let s := { s with pipe := sl :: s.pipe.dropLast, awready := sl.op == .wr, arready := sl.op == .rd, ctrlReady := sl.op == .ctrl }
  match sl.op with
  | .init => { s with initIdx := (s.initIdx + 1) % 2 ^ p.qw, initDone := s.initIdx == 2 ^ p.qw - 1 }
  | .db => { s with dbf := s.dbf.drop 1 }
  | .done => { s with finReg := none }
  | .req => { s with rr := s.rr.drop 1, tact := upd s.tact sl.idx true, tq := upd s.tq sl.idx sl.q, tdb := upd s.tdb sl.idx false }
  | _ => s

/-- doorbell FIFO input and finish FIFO (274-282, 738-752); `o` is the state before the edge -/
def inputs (p : Params) (o s : State) (i : In) : State :=
  let s := { s with dbf := if i.dbValid && decide (o.dbf.length < 256) then s.dbf ++ [i.dbQueue % 2 ^ p.qw] else s.dbf }
  let s := match o.finReg, o.fin with
    | none, x :: rest => { s with finReg := some x, fin := rest }
    | _, _ => s
  if i.stValid then { s with fin := s.fin ++ [(i.stTag % 2 ^ p.cl, i.stLen != 0)] } else s

/-- One clock edge; where the Verilog assigns the same register twice the later assignment wins, as here. -/
def step (p : Params) (s : State) (i : In) : State × List Ev :=
  let sl := s.pipe.getLast?.getD Slot.none
  (inputs p s (final p s (admit p s (stage0 p s i)) i sl) i, evOf p.ctrl sl)

def run (p : Params) (s : State) : List In → State × List Ev
  | [] => (s, [])
  | i :: is => ((run p (step p s i).1 is).1, (step p s i).2 ++ (run p (step p s i).1 is).2)

end Corundum.Sched
