/-
Cycle-level model of `fpga/common/rtl/queue_manager.v` (the descriptor queue manager).

One `step` is one rising clock edge with `rst` low.  The state after configuration of the FPGA (all registers and RAMs
zero, lines 290-310 and the register initialisers 158-247) is `init`.

* The four shift registers `op_*_pipe_reg` and the side-data pipelines (lines 158-168) are one list of `Slot`s, stage 0
  first: at most one of the four bits of a stage is set because stage 0 (374-414) sets at most one, so a stage is one
  `Op`.  `queue_ram_read_data_reg`/`queue_ram_read_data_pipeline_reg` (662-666) travel with the slot: the word is read
  from the RAM at the edge at which the slot enters stage 0.  `PIPELINE` is the length of the list.
* `queue_ram` words are records of the bit fields listed at 216-223; byte enables (654-660) become field updates.
  Bytes 8 and bit 54, never written non-zero, are omitted.
* The op table (225-240) is four functions of the slot index.
* `casez` patterns are tests on the upper bits of the write data.
Simplifications: QUEUE_PTR_WIDTH = 16 (the RAM layout fixes it), OP_TABLE_SIZE = 2^cl, AXI-lite protection bits and
constant response codes omitted; reset after start-up is not modelled.
`step` also returns the events it performs (what the final pipeline stage did, and the commit recorded), which is the
trace the theorems speak about.
-/
namespace Corundum.QueueManager

structure Params where
  /-- QUEUE_INDEX_WIDTH -/
  qw : Nat
  /-- CL_OP_TABLE_SIZE -/
  cl : Nat
  /-- CL_DESC_SIZE -/
  descLog : Nat
  addrW : Nat
  /-- CPL_INDEX_WIDTH -/
  cplW : Nat

/-- a `queue_ram` word, lines 216-223 -/
structure Word where
  prod : Nat
  cons : Nat
  cplq : Nat
  logSize : Nat
  logBlock : Nat
  en : Bool
  opIdx : Nat
  baseLo : Nat      -- bits 95:64 (low 12 bits zero)
  baseHi : Nat      -- bits 127:96
  deriving DecidableEq

def Word.zero : Word := ⟨0, 0, 0, 0, 0, false, 0, 0, 0⟩

inductive Op where
  | idle | wr | rd | req | commit
  deriving DecidableEq

structure Slot where
  op : Op
  q : Nat
  reg : Nat
  wdata : Nat
  wstrb : Nat
  tag : Nat
  data : Word
  deriving DecidableEq

/-- the dequeue response registers, lines 172-181 -/
structure Resp where
  q : Nat
  ptr : Nat
  phase : Bool
  addr : Nat
  blk : Nat
  cpl : Nat
  tag : Nat
  opTag : Nat
  empty : Bool
  err : Bool
  deriving DecidableEq

/-- what happened at a clock edge -/
inductive Ev where
  /-- register write executed; doorbell output -/
  | wr (q reg data strb : Nat) (db : Option Nat)
  /-- register read executed, value returned -/
  | rd (q reg val : Nat)
  /-- dequeue request executed, response issued -/
  | req (q tag : Nat) (r : Resp)
  /-- a commit was accepted from the client -/
  | commit (tag : Nat)
  /-- a consumer pointer was advanced -/
  | retire (q : Nat)

structure In where
  awvalid : Bool
  awaddr : Nat
  wvalid : Bool
  wdata : Nat
  wstrb : Nat
  bready : Bool
  arvalid : Bool
  araddr : Nat
  rready : Bool
  reqValid : Bool
  reqQueue : Nat
  reqTag : Nat
  respReady : Bool
  commitValid : Bool
  commitTag : Nat
  enable : Bool

structure State where
  pipe : List Slot
  ram : Nat → Word
  act : Nat → Bool        -- op_table_active
  cmt : Nat → Bool        -- op_table_commit
  tq : Nat → Nat          -- op_table_queue
  tp : Nat → Nat          -- op_table_queue_ptr
  sp : Nat                -- op_table_start_ptr_reg
  fp : Nat                -- op_table_finish_ptr_reg
  resp : Resp
  respV : Bool
  db : Option Nat
  bvalid : Bool
  rvalid : Bool
  rdata : Nat
  cready : Bool           -- s_axis_dequeue_commit_ready_reg
  awready : Bool
  arready : Bool
  reqReady : Bool

def upd {α : Type} (f : Nat → α) (i : Nat) (v : α) : Nat → α := fun j => if j = i then v else f j

def Slot.none : Slot := ⟨.idle, 0, 0, 0, 0, 0, Word.zero⟩

def init (P : Nat) : State :=
  { pipe := List.replicate P Slot.none, ram := fun _ => Word.zero, act := fun _ => false, cmt := fun _ => false,
    tq := fun _ => 0, tp := fun _ => 0, sp := 0, fp := 0, resp := ⟨0, 0, false, 0, 0, 0, 0, 0, false, false⟩,
    respV := false, db := none, bvalid := false, rvalid := false, rdata := 0, cready := false, awready := false,
    arready := false, reqReady := false }

/-- byte `i` of `new` where the strobe is set, of `old` elsewhere (byte enables, lines 654-660), 32-bit words -/
def mergeStrb (strb old new : Nat) : Nat :=
  let b := fun i => (if strb.testBit i then new / 256 ^ i % 256 else old / 256 ^ i % 256) * 256 ^ i
  b 0 + b 1 + b 2 + b 3

/-- `queue_active` (line 279) for the slot at the final stage -/
def queueActive (p : Params) (s : State) (sl : Slot) : Bool :=
  s.act (sl.data.opIdx % 2 ^ p.cl) && s.tq (sl.data.opIdx % 2 ^ p.cl) == sl.q

/-- `queue_ram_read_active_cons_ptr` (line 283) -/
def activeCons (p : Params) (s : State) (sl : Slot) : Nat :=
  if queueActive p s sl then s.tp (sl.data.opIdx % 2 ^ p.cl) else sl.data.cons

/-- `queue_empty` (280-282) -/
def queueEmpty (p : Params) (s : State) (sl : Slot) : Bool :=
  if queueActive p s sl then sl.data.prod == s.tp (sl.data.opIdx % 2 ^ p.cl) else sl.data.prod == sl.data.cons

/-- the response computed at 417-446 -/
def mkResp (p : Params) (s : State) (sl : Slot) : Resp :=
  let d := sl.data
  let c := activeCons p s sl
  { q := sl.q, ptr := c, phase := !(c.testBit d.logSize),
    addr := ((d.baseLo + 2 ^ 32 * d.baseHi) + ((c &&& (0xffff >>> (16 - d.logSize))) <<< (p.descLog + d.logBlock))) % 2 ^ p.addrW,
    blk := d.logBlock, cpl := d.cplq % 2 ^ p.cplW, tag := sl.tag, opTag := s.sp,
    empty := d.en && queueEmpty p s sl, err := !d.en }

/-- register write, lines 455-531: the new RAM word (`w` = current RAM word, `sl.data` = the word read earlier, from
which write data and the enable test are taken) and the doorbell -/
def writeReg (w : Word) (sl : Slot) : Word × Option Nat :=
  let d := sl.data
  let v := sl.wdata
  match sl.reg with
  | 0 => (if d.en then w else
      { w with baseLo := mergeStrb (sl.wstrb &&& 0xE) w.baseLo (v / 4096 * 4096 + d.baseLo % 4096) }, none)
  | 1 => (if d.en then w else { w with baseHi := mergeStrb sl.wstrb w.baseHi v }, none)
  | 2 | 3 | 4 =>
    if v >>> 16 = 0x8001 then (w, none)
    else if v >>> 16 = 0x8002 then
      (if d.en then w else { w with logSize := v % 256 % 16, logBlock := v / 256 % 256 % 4, en := d.en }, none)
    else if v >>> 24 = 0xC0 then (if d.en then w else { w with cplq := v % 2 ^ 24 % 2 ^ 16 }, none)
    else if v >>> 16 = 0x8080 then ({ w with prod := v % 65536 }, if d.en then some sl.q else none)
    else if v >>> 16 = 0x8090 then (if d.en then w else { w with cons := v % 65536 }, none)
    else if v >>> 8 = 0x400001 then
      ({ w with logSize := d.logSize, logBlock := d.logBlock, en := v.testBit 0 }, none)
    else (w, none)
  | _ => (w, none)

/-- register read, lines 532-578 -/
def readReg (p : Params) (s : State) (sl : Slot) : Nat :=
  let d := sl.data
  match sl.reg with
  | 0 => d.baseLo / 4096 * 4096
  | 1 => d.baseHi
  | 2 => (if d.en then 1 else 0) + (if queueActive p s sl then 8 else 0)
  | 3 => d.cplq % 2 ^ p.cplW + d.logSize * 2 ^ 24 + d.logBlock * 2 ^ 28
  | 4 => d.prod + d.cons * 2 ^ 16
  | _ => 0

/-- register defaults of the output side (330-358) -/
def defaults (s : State) (i : In) : State :=
  { s with respV := s.respV && !i.respReady, db := none, bvalid := s.bvalid && !i.bready, rvalid := s.rvalid && !i.rready }

/-- final stage (416-579) acting on slot `sl`, together with the register defaults -/
def final (p : Params) (s : State) (i : In) (sl : Slot) : State × List Ev :=
  let s := defaults s i
  match sl.op with
  | .req =>
    let r := mkResp p s sl
    let s' := { s with resp := r, respV := true }
    if r.err || r.empty then (s', [.req sl.q sl.tag r])
    else
      -- queue_ram_be[7], op_table_start_en (441-446, 619-622, 669-673)
      ({ s' with ram := upd s.ram sl.q { s.ram sl.q with opIdx := s.sp % 256 },
                 act := upd s.act s.sp true, cmt := upd s.cmt s.sp false, tq := upd s.tq s.sp sl.q,
                 tp := upd s.tp s.sp ((r.ptr + 1) % 65536), sp := (s.sp + 1) % 2 ^ p.cl },
       [.req sl.q sl.tag r])
  | .commit =>
    ({ s with ram := upd s.ram sl.q { s.ram sl.q with cons := sl.wdata % 65536 } }, [.retire sl.q])
  | .wr =>
    let (w, db) := writeReg (s.ram sl.q) sl
    ({ s with ram := upd s.ram sl.q w, db := db, bvalid := true }, [.wr sl.q sl.reg sl.wdata sl.wstrb db])
  | .rd =>
    let v := readReg p s sl
    ({ s with rdata := v, rvalid := true }, [.rd sl.q sl.reg v])
  | .idle => (s, [])

/-- some stage of the pipeline holds an operation on queue `q` (the hazard loop, 366-372) -/
def hazard (s : State) (q : Nat) : Bool := s.pipe.any (fun sl => sl.op != .idle && sl.q == q)

def inPipe (s : State) (o : Op) : Bool := s.pipe.any (fun sl => sl.op == o)

/-- stage 0 (374-414): the slot that enters the pipeline -/
def stage0 (p : Params) (s : State) (i : In) : Slot :=
  let awq := (i.awaddr >>> 5) % 2 ^ p.qw
  let arq := (i.araddr >>> 5) % 2 ^ p.qw
  let rq := i.reqQueue % 2 ^ p.qw
  if i.awvalid && i.wvalid && (!s.bvalid || i.bready) && !inPipe s .wr && !hazard s awq then
    ⟨.wr, awq, (i.awaddr >>> 2) % 8, i.wdata % 2 ^ 32, i.wstrb % 16, 0, s.ram awq⟩
  else if i.arvalid && (!s.rvalid || i.rready) && !inPipe s .rd && !hazard s arq then
    ⟨.rd, arq, (i.araddr >>> 2) % 8, 0, 0, 0, s.ram arq⟩
  else if s.act s.fp && s.cmt s.fp && !((s.pipe.head?.map (·.op)) == some .commit) && !hazard s (s.tq s.fp) then
    ⟨.commit, s.tq s.fp, 0, s.tp s.fp, 0, 0, s.ram (s.tq s.fp)⟩
  else if i.enable && !s.act s.sp && i.reqValid && (!s.respV || i.respReady) && !inPipe s .req && !hazard s rq then
    ⟨.req, rq, 0, 0, 0, i.reqTag, s.ram rq⟩
  else Slot.none

/-- the pipeline advances -/
def shift (s : State) (sl : Slot) : State :=
  { s with pipe := sl :: s.pipe.dropLast, awready := sl.op == .wr, arready := sl.op == .rd, reqReady := sl.op == .req }

/-- the slot enters; `op_table_finish_en` (397, 623-626) and the ready registers -/
def admit (p : Params) (s : State) (sl : Slot) : State :=
  let s := shift s sl
  if sl.op = .commit then { s with fp := (s.fp + 1) % 2 ^ p.cl, act := upd s.act s.fp false } else s

/-- commit recording (581-586, 674-676) -/
def record (p : Params) (s : State) (i : In) : State × List Ev :=
  if s.cready && i.commitValid then
    ({ s with cready := i.enable, cmt := upd s.cmt (i.commitTag % 2 ^ p.cl) true }, [.commit (i.commitTag % 2 ^ p.cl)])
  else ({ s with cready := i.enable }, [])

/-- One clock edge.  All decisions are taken on the state before the edge; the parts that are updated by the three
activities are disjoint (`start` writes the table slot `sp`, `finish` clears `act fp`, commits set `cmt`), and where
the Verilog assigns the same register twice the later assignment wins, as here. -/
def step (p : Params) (s : State) (i : In) : State × List Ev :=
  let sl0 := stage0 p s i
  let (s1, e1) := final p s i (s.pipe.getLast?.getD Slot.none)
  let s2 := admit p s1 sl0
  let (s3, e2) := record p s2 i
  (s3, e1 ++ e2)

/-- execution: final state and the trace of events -/
def run (p : Params) (s : State) : List In → State × List Ev
  | [] => (s, [])
  | i :: is =>
    let (s1, e1) := step p s i
    let (s2, e2) := run p s1 is
    (s2, e1 ++ e2)

end Corundum.QueueManager
