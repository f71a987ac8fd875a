/-
Cycle-level model of `fpga/common/rtl/cpl_queue_manager.v` (completion and event queue manager).

One `step` is one rising clock edge with `rst` low.  The state after configuration of the FPGA (all registers and RAMs
zero, lines 276-296 and the register initialisers 163-236) is `init`.

* The four shift registers `op_*_pipe_reg` and the side-data pipelines (163-172) are one list of `Slot`s, stage 0
  first: at most one of the four bits of a stage is set because stage 0 (371-414) sets at most one, so a stage is one
  `Op`.  `queue_ram_read_data_reg`/`queue_ram_read_data_pipeline_reg` travel with the slot: the word is read
  from the RAM at the edge at which the slot enters stage 0.  `PIPELINE` is the length of the list.
* `queue_ram` words are records of the bit fields listed at 210-218; byte enables become field updates.
* The op table (220-235) is four functions of the slot index.
* `casez` patterns are tests on the upper bits of the write data.
Simplifications: QUEUE_PTR_WIDTH = 16 (the RAM layout fixes it), OP_TABLE_SIZE = 2^cl, EVENT_WIDTH <= 16, AXI-lite
protection bits and constant response codes omitted; reset after start-up is not modelled.
`step` also returns the events it performs (what the final pipeline stage did, and the commit recorded), which is the
trace the theorems speak about.
-/
namespace Corundum.CplQueue

structure Params where
  /-- QUEUE_INDEX_WIDTH -/
  qw : Nat
  /-- CL_OP_TABLE_SIZE -/
  cl : Nat
  /-- CL_CPL_SIZE -/
  cplLog : Nat
  addrW : Nat
  /-- EVENT_WIDTH -/
  evW : Nat

/-- a `queue_ram` word, lines 210-218 -/
structure Word where
  prod : Nat
  cons : Nat
  evn : Nat
  logSize : Nat
  cont : Bool       -- bit 53
  armed : Bool      -- bit 54
  en : Bool         -- bit 55
  opIdx : Nat
  baseLo : Nat      -- bits 95:64 (low 12 bits zero)
  baseHi : Nat      -- bits 127:96
  deriving DecidableEq

def Word.zero : Word := ⟨0, 0, 0, 0, false, false, false, 0, 0, 0⟩

inductive Op where
  | idle | wr | rd | req | commit
  deriving DecidableEq

structure Slot where
  op : Op
  q : Nat
  reg : Nat
  wdata : Nat
  wstrb : Nat
  tag : Nat
  data : Word
  deriving DecidableEq

/-- the enqueue response registers, lines 176-185 -/
structure Resp where
  q : Nat
  ptr : Nat
  phase : Bool
  addr : Nat
  evn : Nat
  tag : Nat
  opTag : Nat
  full : Bool
  err : Bool
  deriving DecidableEq

/-- an event on `m_axis_event`: event queue number and source queue -/
structure Event where
  evn : Nat
  src : Nat
  deriving DecidableEq

/-- what happened at a clock edge -/
inductive Ev where
  /-- register write executed; event output -/
  | wr (q reg data strb : Nat) (ev : Option Event)
  /-- register read executed, value returned -/
  | rd (q reg val : Nat)
  /-- enqueue request executed, response issued -/
  | req (q tag : Nat) (r : Resp)
  /-- a commit was accepted from the client -/
  | commit (tag : Nat)
  /-- a producer pointer was advanced; event output -/
  | retire (q : Nat) (ev : Option Event)

structure In where
  awvalid : Bool
  awaddr : Nat
  wvalid : Bool
  wdata : Nat
  wstrb : Nat
  bready : Bool
  arvalid : Bool
  araddr : Nat
  rready : Bool
  reqValid : Bool
  reqQueue : Nat
  reqTag : Nat
  respReady : Bool
  commitValid : Bool
  commitTag : Nat
  evReady : Bool
  enable : Bool

structure State where
  pipe : List Slot
  ram : Nat → Word
  act : Nat → Bool        -- op_table_active
  cmt : Nat → Bool        -- op_table_commit
  tq : Nat → Nat          -- op_table_queue
  tp : Nat → Nat          -- op_table_queue_ptr
  sp : Nat                -- op_table_start_ptr_reg
  fp : Nat                -- op_table_finish_ptr_reg
  resp : Resp
  respV : Bool
  ev : Event
  evV : Bool              -- m_axis_event_valid_reg
  bvalid : Bool
  rvalid : Bool
  rdata : Nat
  cready : Bool           -- s_axis_enqueue_commit_ready_reg
  awready : Bool
  arready : Bool
  reqReady : Bool

def upd {α : Type} (f : Nat → α) (i : Nat) (v : α) : Nat → α := fun j => if j = i then v else f j

def Slot.none : Slot := ⟨.idle, 0, 0, 0, 0, 0, Word.zero⟩

def init (P : Nat) : State :=
  { pipe := List.replicate P Slot.none, ram := fun _ => Word.zero, act := fun _ => false, cmt := fun _ => false,
    tq := fun _ => 0, tp := fun _ => 0, sp := 0, fp := 0, resp := ⟨0, 0, false, 0, 0, 0, 0, false, false⟩,
    respV := false, ev := ⟨0, 0⟩, evV := false, bvalid := false, rvalid := false, rdata := 0, cready := false,
    awready := false, arready := false, reqReady := false }

/-- byte `i` of `new` where the strobe is set, of `old` elsewhere (byte enables), 32-bit words -/
def mergeStrb (strb old new : Nat) : Nat :=
  let b := fun i => (if strb.testBit i then new / 256 ^ i % 256 else old / 256 ^ i % 256) * 256 ^ i
  b 0 + b 1 + b 2 + b 3

/-- `queue_active` (line 268) for the slot at the final stage -/
def queueActive (p : Params) (s : State) (sl : Slot) : Bool :=
  s.act (sl.data.opIdx % 2 ^ p.cl) && s.tq (sl.data.opIdx % 2 ^ p.cl) == sl.q

/-- `queue_ram_read_active_prod_ptr` (272) -/
def activeProd (p : Params) (s : State) (sl : Slot) : Nat :=
  if queueActive p s sl then s.tp (sl.data.opIdx % 2 ^ p.cl) else sl.data.prod

/-- `queue_full` (269-271): 16-bit difference masked with all-ones shifted left by the log size -/
def queueFull (p : Params) (s : State) (sl : Slot) : Bool :=
  let mask := (0xffff <<< sl.data.logSize) % 65536
  if queueActive p s sl then ((s.tp (sl.data.opIdx % 2 ^ p.cl) + 65536 - sl.data.cons) % 65536 &&& mask) != 0
  else ((sl.data.prod + 65536 - sl.data.cons) % 65536 &&& mask) != 0

/-- the response computed at 417-451 -/
def mkResp (p : Params) (s : State) (sl : Slot) : Resp :=
  let d := sl.data
  let c := activeProd p s sl
  { q := sl.q, ptr := c, phase := !(c.testBit d.logSize),
    addr := ((d.baseLo + 2 ^ 32 * d.baseHi) + (c &&& (0xffff >>> (16 - d.logSize))) * 2 ^ p.cplLog) % 2 ^ p.addrW,
    evn := d.evn % 2 ^ p.evW, tag := sl.tag, opTag := s.sp,
    full := d.en && queueFull p s sl, err := !d.en }

/-- register write, lines 473-577: the new RAM word (`w` = current RAM word, `sl.data` = the word read earlier, from
which write data and the tests are taken) and the event.  Byte enables 11:9 of the base address get strobe bits 2:0
(line 488). -/
def writeReg (p : Params) (w : Word) (sl : Slot) : Word × Option Event :=
  let d := sl.data
  let v := sl.wdata
  let e : Event := ⟨d.evn % 2 ^ p.evW, sl.q⟩
  match sl.reg with
  | 0 => (if d.en then w else
      { w with baseLo := mergeStrb ((sl.wstrb <<< 1) &&& 0xE) w.baseLo (v / 4096 * 4096 + d.baseLo % 4096) }, none)
  | 1 => (if d.en then w else { w with baseHi := mergeStrb sl.wstrb w.baseHi v }, none)
  | 2 | 3 =>
    if v >>> 16 = 0x8001 then (w, none)
    else if v >>> 16 = 0x8002 then
      (if d.en then w else { w with logSize := v % 65536 % 16, cont := d.cont, armed := d.armed, en := d.en }, none)
    else if v >>> 24 = 0xC0 then (if d.en then w else { w with evn := v % 2 ^ 24 % 2 ^ 16 }, none)
    else if v >>> 16 = 0x8080 then (if d.en then w else { w with prod := v % 65536 }, none)
    else if v >>> 16 = 0x8090 then ({ w with cons := v % 65536 }, none)
    else if v >>> 16 = 0x8091 then
      if d.en && d.prod != v % 65536 then
        ({ w with cons := v % 65536, logSize := d.logSize, cont := d.cont, armed := false, en := d.en }, some e)
      else ({ w with cons := v % 65536, logSize := d.logSize, cont := d.cont, armed := true, en := d.en }, none)
    else if v >>> 8 = 0x400001 then
      ({ w with logSize := d.logSize, cont := d.cont, armed := d.armed, en := v.testBit 0 }, none)
    else if v >>> 8 = 0x400002 then
      if d.en && v.testBit 0 && d.prod != d.cons then
        ({ w with logSize := d.logSize, cont := d.cont, armed := false, en := d.en }, some e)
      else ({ w with logSize := d.logSize, cont := d.cont, armed := v.testBit 0, en := d.en }, none)
    else (w, none)
  | _ => (w, none)

/-- register read, lines 578-611 -/
def readReg (p : Params) (s : State) (sl : Slot) : Nat :=
  let d := sl.data
  match sl.reg with
  | 0 => d.baseLo / 4096 * 4096
  | 1 => d.baseHi
  | 2 => d.evn % 2 ^ p.evW + (if d.en then 2 ^ 16 else 0) + (if d.armed then 2 ^ 17 else 0) + (if d.cont then 2 ^ 18 else 0) +
      (if queueActive p s sl then 2 ^ 19 else 0) + d.logSize * 2 ^ 28
  | 3 => d.prod + d.cons * 2 ^ 16
  | _ => 0

/-- register defaults of the output side (316-343) -/
def defaults (s : State) (i : In) : State :=
  { s with respV := s.respV && !i.respReady, evV := s.evV && !i.evReady, bvalid := s.bvalid && !i.bready, rvalid := s.rvalid && !i.rready }

/-- the event registers are loaded (464-466, 542-544, 563-565) -/
def emit (s : State) : Option Event → State
  | some e => { s with ev := e, evV := true }
  | none => s

/-- the word and event of a commit (452-472): the producer pointer is updated; an armed queue produces an event and, if
not continuous, is disarmed -/
def commitReg (p : Params) (w : Word) (sl : Slot) : Word × Option Event :=
  let d := sl.data
  if d.armed then
    (if d.cont then { w with prod := sl.wdata % 65536 }
     else { w with prod := sl.wdata % 65536, logSize := d.logSize, cont := d.cont, armed := false, en := d.en },
     some ⟨d.evn % 2 ^ p.evW, sl.q⟩)
  else ({ w with prod := sl.wdata % 65536 }, none)

/-- final stage (416-612) acting on slot `sl`, together with the register defaults -/
def final (p : Params) (s : State) (i : In) (sl : Slot) : State × List Ev :=
  let s := defaults s i
  match sl.op with
  | .req =>
    let r := mkResp p s sl
    let s' := { s with resp := r, respV := true }
    if r.err || r.full then (s', [.req sl.q sl.tag r])
    else
      -- queue_ram_be[7], op_table_start_en (446-450, 661-664, 706-710)
      ({ s' with ram := upd s.ram sl.q { s.ram sl.q with opIdx := s.sp % 256 },
                 act := upd s.act s.sp true, cmt := upd s.cmt s.sp false, tq := upd s.tq s.sp sl.q,
                 tp := upd s.tp s.sp ((r.ptr + 1) % 65536), sp := (s.sp + 1) % 2 ^ p.cl },
       [.req sl.q sl.tag r])
  | .commit =>
    let (w, e) := commitReg p (s.ram sl.q) sl
    (emit { s with ram := upd s.ram sl.q w } e, [.retire sl.q e])
  | .wr =>
    let (w, e) := writeReg p (s.ram sl.q) sl
    (emit { s with ram := upd s.ram sl.q w, bvalid := true } e, [.wr sl.q sl.reg sl.wdata sl.wstrb e])
  | .rd =>
    let v := readReg p s sl
    ({ s with rdata := v, rvalid := true }, [.rd sl.q sl.reg v])
  | .idle => (s, [])

/-- some stage of the pipeline holds an operation on queue `q` (the hazard loop, 363-369) -/
def hazard (s : State) (q : Nat) : Bool := s.pipe.any (fun sl => sl.op != .idle && sl.q == q)

def inPipe (s : State) (o : Op) : Bool := s.pipe.any (fun sl => sl.op == o)

/-- stage 0 (371-414): the slot that enters the pipeline -/
def stage0 (p : Params) (s : State) (i : In) : Slot :=
  let awq := (i.awaddr >>> 4) % 2 ^ p.qw
  let arq := (i.araddr >>> 4) % 2 ^ p.qw
  let rq := i.reqQueue % 2 ^ p.qw
  if i.awvalid && i.wvalid && (!s.bvalid || i.bready) && !inPipe s .wr && !hazard s awq then
    ⟨.wr, awq, (i.awaddr >>> 2) % 4, i.wdata % 2 ^ 32, i.wstrb % 16, 0, s.ram awq⟩
  else if i.arvalid && (!s.rvalid || i.rready) && !inPipe s .rd && !hazard s arq then
    ⟨.rd, arq, (i.araddr >>> 2) % 4, 0, 0, 0, s.ram arq⟩
  else if s.act s.fp && s.cmt s.fp && (!s.evV || i.evReady) && !inPipe s .commit && !hazard s (s.tq s.fp) then
    ⟨.commit, s.tq s.fp, 0, s.tp s.fp, 0, 0, s.ram (s.tq s.fp)⟩
  else if i.enable && !s.act s.sp && i.reqValid && (!s.respV || i.respReady) && !inPipe s .req && !hazard s rq then
    ⟨.req, rq, 0, 0, 0, i.reqTag, s.ram rq⟩
  else Slot.none

/-- the pipeline advances -/
def shift (s : State) (sl : Slot) : State :=
  { s with pipe := sl :: s.pipe.dropLast, awready := sl.op == .wr, arready := sl.op == .rd, reqReady := sl.op == .req }

/-- the slot enters; `op_table_finish_en` (398, 665-668) and the ready registers -/
def admit (p : Params) (s : State) (sl : Slot) : State :=
  let s := shift s sl
  if sl.op = .commit then { s with fp := (s.fp + 1) % 2 ^ p.cl, act := upd s.act s.fp false } else s

/-- commit recording (614-619, 711-713) -/
def record (p : Params) (s : State) (i : In) : State × List Ev :=
  if s.cready && i.commitValid then
    ({ s with cready := i.enable, cmt := upd s.cmt (i.commitTag % 2 ^ p.cl) true }, [.commit (i.commitTag % 2 ^ p.cl)])
  else ({ s with cready := i.enable }, [])

/-- One clock edge.  All decisions are taken on the state before the edge; the parts that are updated by the three
activities are disjoint (`start` writes the table slot `sp`, `finish` clears `act fp`, commits set `cmt`), and where
the Verilog assigns the same register twice the later assignment wins, as here. -/
def step (p : Params) (s : State) (i : In) : State × List Ev :=
  let sl0 := stage0 p s i
  let (s1, e1) := final p s i (s.pipe.getLast?.getD Slot.none)
  let s2 := admit p s1 sl0
  let (s3, e2) := record p s2 i
  (s3, e1 ++ e2)

/-- execution: final state and the trace of events -/
def run (p : Params) (s : State) : List In → State × List Ev
  | [] => (s, [])
  | i :: is =>
    let (s1, e1) := step p s i
    let (s2, e2) := run p s1 is
    (s2, e1 ++ e2)

end Corundum.CplQueue
