import Verif.Model.AxisRegister
/-!
COBS encoder and decoder: /repo/fpga/lib/eth/lib/axis/rtl/axis_cobs_encode.v, axis_cobs_decode.v, one step per clock cycle.

The output registers of both modules (encode :430-505, decode :253-328) are the skid buffer of axis_register.v (`AxisRegister.Skid`).
The two `axis_fifo` instances of the encoder (:113-197) are queues whose input `ready` and output `valid` are free inputs of every cycle
(output valid only if the queue is not empty), so the proofs hold for any order-preserving FIFO. Reset is not modelled.
-/
namespace Corundum.Cobs
open Corundum.AxisRegister (Skid)

structure Beat where
  data : Nat
  last : Bool := false
  user : Bool := false
  deriving DecidableEq, Repr

/-! ### encoder -/

/-- encode :63-67 -/
inductive IS | idle | segment | finalZero | appendZero
  deriving DecidableEq, Repr

structure EIn where
  st : IS
  count : Nat
  fail : Bool
  deriving DecidableEq, Repr

/-- input byte accepted in IDLE or SEGMENT, encode :218-318: next state, code FIFO writes, data FIFO writes. `az` is APPEND_ZERO. -/
def encByte (az : Bool) (s : EIn) (b : Beat) : EIn × List Beat × List Beat :=
  match s.st with
  | .idle =>
    if b.data = 0 ∨ (b.last = true ∧ b.user = true) then
      if b.last then (⟨.finalZero, s.count, b.user⟩, [⟨1, false, false⟩], []) else (⟨.idle, s.count, false⟩, [⟨1, false, false⟩], [])
    else if b.last then
      if az then (⟨.appendZero, 2, false⟩, [⟨2, false, false⟩], [⟨b.data, false, false⟩])
      else (⟨.idle, 2, false⟩, [⟨2, false, false⟩], [⟨b.data, true, false⟩])
    else (⟨.segment, 2, false⟩, [], [⟨b.data, false, false⟩])
  | .segment =>
    if b.data = 0 ∨ (b.last = true ∧ b.user = true) then
      if b.last then (⟨.finalZero, s.count, b.user⟩, [⟨s.count, false, false⟩], []) else (⟨.idle, s.count, false⟩, [⟨s.count, false, false⟩], [])
    else
      let c := if s.count = 254 then 1 else (s.count + 1) % 256
      let code : List Beat := if s.count = 254 ∨ b.last = true then [⟨(s.count + 1) % 256, false, false⟩] else []
      if b.last then
        if az then (⟨.appendZero, c, false⟩, code, [⟨b.data, false, false⟩]) else (⟨.idle, c, false⟩, code, [⟨b.data, true, false⟩])
      else (⟨.segment, c, false⟩, code, [⟨b.data, false, false⟩])
  | _ => (s, [], [])

/-- FINAL_ZERO and APPEND_ZERO with the code FIFO ready, encode :319-357 -/
def encClose (az : Bool) (s : EIn) : EIn × List Beat :=
  match s.st with
  | .finalZero =>
    let d := if s.fail then 2 else 1
    if az then (⟨.appendZero, s.count, s.fail⟩, [⟨d, false, s.fail⟩]) else (⟨.idle, s.count, false⟩, [⟨d, true, s.fail⟩])
  | .appendZero => (⟨.idle, s.count, false⟩, [⟨0, true, s.fail⟩])
  | _ => (s, [])

/-- encoder registers; `ocount = 0` stands for OUTPUT_STATE_IDLE, `ocount = n+1` for OUTPUT_STATE_SEGMENT with `output_count_reg = n+1` -/
structure Enc where
  i : EIn
  codeQ : List Beat
  dataQ : List Beat
  ocount : Nat
  out : Skid Beat

structure EncInp where
  offer : Option Beat
  codeRdy : Bool
  dataRdy : Bool
  codeVld : Bool
  dataVld : Bool
  mready : Bool

/-- `s_axis_tready`, encode :111 with `s_axis_tready_mask` :219, :265, :321, :345 -/
def Enc.ready (s : Enc) (i : EncInp) : Bool := i.codeRdy && i.dataRdy && (s.i.st == .idle || s.i.st == .segment)

/-- number of data bytes that follow a code, encode :381-389 -/
def follow (c : Beat) : Nat := if c.data = 0 ∨ c.data = 1 ∨ c.user = true then 0 else c.data - 1

/-- code byte on the output, encode :375-377 -/
def codeOut (c : Beat) : Beat := ⟨c.data, c.last, c.user && c.last⟩
/-- data byte on the output, encode :398-399 -/
def dataOut (d : Beat) : Beat := ⟨d.data, d.last, false⟩

/-- output side of one cycle, encode :360-418: output beat, new `ocount`, new queues -/
def encOut (s : Enc) (i : EncInp) : Option Beat × Nat × List Beat × List Beat :=
  if s.ocount = 0 then
    match s.codeQ with
    | c :: cq => if s.out.ready && i.codeVld then (some (codeOut c), follow c, cq, s.dataQ) else (none, s.ocount, s.codeQ, s.dataQ)
    | [] => (none, s.ocount, s.codeQ, s.dataQ)
  else
    match s.dataQ with
    | d :: dq => if s.out.ready && i.dataVld then (some (dataOut d), s.ocount - 1, s.codeQ, dq) else (none, s.ocount, s.codeQ, s.dataQ)
    | [] => (none, s.ocount, s.codeQ, s.dataQ)

/-- input side of one cycle: next state and FIFO writes -/
def encIn (az : Bool) (s : Enc) (i : EncInp) : EIn × List Beat × List Beat :=
  match s.i.st with
  | .idle => if s.ready i then (match i.offer with | some b => encByte az s.i b | none => (⟨.idle, s.i.count, false⟩, [], [])) else (⟨.idle, s.i.count, false⟩, [], [])
  | .segment => if s.ready i then (match i.offer with | some b => encByte az s.i b | none => (⟨.segment, s.i.count, false⟩, [], [])) else (⟨.segment, s.i.count, false⟩, [], [])
  | _ => if i.codeRdy then ((encClose az s.i).1, (encClose az s.i).2, []) else (s.i, [], [])

/-- one clock cycle of the encoder -/
def Enc.step (az : Bool) (s : Enc) (i : EncInp) : Enc :=
  let (o, oc, cq, dq) := encOut s i
  let (ei, cs, ds) := encIn az s i
  { i := ei, codeQ := cq ++ cs, dataQ := dq ++ ds, ocount := oc, out := s.out.step ⟨o, i.mready, false⟩ }

/-- after reset -/
def Enc.init : Enc := ⟨⟨.idle, 0, false⟩, [], [], 0, ⟨false, none, none⟩⟩

/-! ### decoder -/

/-- decode :59-62 -/
inductive DS | idle | segment | next
  deriving DecidableEq, Repr

structure DCtl where
  st : DS
  count : Nat
  supp : Bool
  tdata : Nat
  tvalid : Bool
  deriving DecidableEq, Repr

/-- combinational part, decode :92-229: next control state, `m_axis_*_int`, and whether `s_axis_tready_next` is set regardless of
`m_axis_tready_int_early`. `acc` is the input beat if accepted in this cycle, `rdy` is `m_axis_tready_int_reg`. -/
def decCtl (c : DCtl) (rdy : Bool) (acc : Option Beat) : DCtl × Option Beat × Bool :=
  match c.st with
  | .idle =>
    let o : Option Beat := if c.tvalid then some ⟨c.tdata, true, false⟩ else none
    let tv := c.tvalid && !rdy
    match acc with
    | none => ({ c with tvalid := tv }, o, !c.tvalid)
    | some b =>
      if b.data = 0 then ({ c with tvalid := tv }, o, !c.tvalid)
      else ({ st := if b.data = 1 then .next else .segment, count := b.data - 1, supp := b.data == 255, tdata := c.tdata, tvalid := tv }, o, false)
  | .segment =>
    match acc with
    | none => (c, none, false)
    | some b =>
      let cnt := (c.count + 255) % 256
      let o : Option Beat := if c.tvalid then some ⟨c.tdata, false, false⟩ else none
      if b.data = 0 then (⟨.idle, cnt, c.supp, b.data, false⟩, some ⟨c.tdata, true, true⟩, true)
      else if b.last then
        if c.count = 1 ∧ b.user = false then (⟨.idle, cnt, c.supp, b.data, true⟩, o, false)
        else (⟨.idle, cnt, c.supp, b.data, false⟩, some ⟨c.tdata, true, true⟩, true)
      else (⟨if c.count = 1 then .next else .segment, cnt, c.supp, b.data, true⟩, o, false)
  | .next =>
    match acc with
    | none => (c, none, false)
    | some b =>
      let o : Option Beat := if c.tvalid then some ⟨c.tdata, false, false⟩ else none
      if b.data = 0 then (⟨.idle, c.count, c.supp, 0, false⟩, if c.tvalid then some ⟨c.tdata, true, b.user⟩ else none, true)
      else if b.last then
        if b.data = 1 ∧ b.user = false then (⟨.idle, c.count, c.supp, 0, !c.supp⟩, o, false)
        else (⟨.idle, c.count, c.supp, 0, false⟩, some ⟨c.tdata, true, true⟩, true)
      else (⟨if b.data = 1 then .next else .segment, b.data - 1, b.data == 255, 0, !c.supp⟩, o, false)

structure Dec where
  c : DCtl
  sready : Bool
  out : Skid Beat

structure DecInp where
  offer : Option Beat
  mready : Bool

/-- beat accepted in this cycle -/
def Dec.acc (s : Dec) (i : DecInp) : Option Beat := if s.sready then i.offer else none

/-- one clock cycle of the decoder; `early` is `m_axis_tready_int_early`, decode :277 -/
def Dec.step (s : Dec) (i : DecInp) : Dec :=
  let (c', o, force) := decCtl s.c s.out.ready (s.acc i)
  let out' := s.out.step ⟨o, i.mready, false⟩
  let early := i.mready || (s.out.temp.isNone && (s.out.m.isNone || o.isNone))
  { c := c', sready := early || force, out := out' }

def Dec.init : Dec := ⟨⟨.idle, 0, false, 0, false⟩, false, ⟨false, none, none⟩⟩

end Corundum.Cobs
