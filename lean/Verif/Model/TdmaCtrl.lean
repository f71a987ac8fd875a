/-! `tx_scheduler_ctrl_tdma.v` (fpga/common/rtl): switches queues of the transmit scheduler on and off with the time slots of a TDMA schedule.  One step per
clock edge, without reset.  Of the AXI lite slave only its writes to the queue RAM are kept. -/
namespace Corundum.TdmaCtrl

/-- `QUEUE_INDEX_WIDTH` and `TDMA_INDEX_WIDTH` (tx_scheduler_ctrl_tdma.v:17-28) -/
structure Cfg where
  qw : Nat
  tw : Nat

/-- `QUEUE_COUNT` (tx_scheduler_ctrl_tdma.v:78) -/
def Cfg.count (c : Cfg) : Nat := 2 ^ c.qw

/-- `state_reg` (tx_scheduler_ctrl_tdma.v:102-111) -/
inductive Phase where
  | idle
  | fill
  | waitStart
  | start0
  | startN
  | waitStop
  | stop
deriving DecidableEq, Repr

/-- inputs at an edge (tx_scheduler_ctrl_tdma.v:37-72): a write to the queue RAM gives a row and its new contents -/
structure In where
  ready : Bool := true
  start : Bool := false
  index : Nat := 0
  stop : Bool := false
  write : Option (Nat × Nat) := none

/-- registers (tx_scheduler_ctrl_tdma.v:111-167): `m0`, `mn`, `ms` are the RAMs `start_queue_ts_0_ram`, `start_queue_ts_n_ram`, `stop_queue_ram` -/
structure St where
  phase : Phase := .idle
  inconsistent : Bool := false
  queue : Nat := 0
  enable : Bool := false
  valid : Bool := false
  ram : Nat → Nat := fun _ => 0
  ptr : Nat := 0
  m0 : Nat → Nat := fun _ => 0
  w0 : Nat := 0
  r0 : Nat := 0
  mn : Nat → Nat := fun _ => 0
  wn : Nat := 0
  rn : Nat := 0
  ms : Nat → Nat := fun _ => 0
  ws : Nat := 0
  rs : Nat := 0
  gotStart : Bool := false
  startIndex : Nat := 0
  curIndex : Nat := 0
  gotStop : Bool := false

/-- write to a RAM -/
def upd (f : Nat → Nat) (i v : Nat) : Nat → Nat := fun j => if j = i then v else f j

/-- `+1` of the pointers, which have one bit more than the number of a queue (tx_scheduler_ctrl_tdma.v:145-160) -/
def Cfg.next (c : Cfg) (p : Nat) : Nat := (p + 1) % 2 ^ (c.qw + 1)

/-- pointers cleared for a new fill (tx_scheduler_ctrl_tdma.v:232-238, 285-291, 351-358, 375-382) -/
def St.refill (t : St) : St := { t with r0 := 0, w0 := 0, rn := 0, wn := 0, ptr := 0, phase := .fill }

/-- `STATE_FILL_START` (tx_scheduler_ctrl_tdma.v:240-261) -/
def St.onFill (c : Cfg) (s t : St) : St :=
  let t := if (s.ram s.ptr).testBit 0 then { t with m0 := upd s.m0 s.w0 s.ptr, w0 := c.next s.w0 } else t
  let t := if (s.ram s.ptr).testBit s.curIndex then { t with mn := upd s.mn s.wn s.ptr, wn := c.next s.wn } else t
  { t with ptr := (s.ptr + 1) % c.count, phase := if s.ptr + 1 = c.count then .waitStart else .fill }

/-- `STATE_WAIT_START`; the flag is `clear_inconsistent` (tx_scheduler_ctrl_tdma.v:262-297) -/
def St.onWaitStart (c : Cfg) (s t : St) : St × Bool :=
  let t := { t with rs := 0, ws := 0 }
  if s.gotStart then
    let t := { t with curIndex := (s.startIndex + 1) % 2 ^ c.tw }
    if !s.inconsistent && s.startIndex == 0 then
      if s.w0 = 0 then ({ t with gotStart := false, phase := .waitStop }, false) else ({ t with phase := .start0 }, false)
    else if !s.inconsistent && s.startIndex == s.curIndex then
      if s.wn = 0 then ({ t with gotStart := false, phase := .waitStop }, false) else ({ t with phase := .startN }, false)
    else ({ t.refill with curIndex := s.startIndex }, true)
  else (t, false)

/-- `STATE_START_0` (tx_scheduler_ctrl_tdma.v:298-321) -/
def St.onStart0 (c : Cfg) (s t : St) (x : In) : St :=
  if !s.valid || x.ready then
    let t := { t with
      queue := s.m0 s.r0, enable := true, valid := true, r0 := c.next s.r0
      ms := upd s.ms s.ws (s.m0 s.r0), ws := c.next s.ws }
    if s.r0 + 1 = s.w0 then { t with rs := 0, gotStart := false, phase := .waitStop } else t
  else t

/-- `STATE_START_N` (tx_scheduler_ctrl_tdma.v:322-345) -/
def St.onStartN (c : Cfg) (s t : St) (x : In) : St :=
  if !s.valid || x.ready then
    let t := { t with
      queue := s.mn s.rn, enable := true, valid := true, rn := c.next s.rn
      ms := upd s.ms s.ws (s.mn s.rn), ws := c.next s.ws }
    if s.rn + 1 = s.wn then { t with rs := 0, gotStart := false, phase := .waitStop } else t
  else t

/-- `STATE_WAIT_STOP` (tx_scheduler_ctrl_tdma.v:346-365) -/
def St.onWaitStop (s t : St) : St × Bool :=
  if s.gotStop then
    if s.ws = 0 then ({ t.refill with gotStop := false }, true) else ({ t with phase := .stop }, false)
  else (t, false)

/-- `STATE_STOP` (tx_scheduler_ctrl_tdma.v:366-389) -/
def St.onStop (c : Cfg) (s t : St) (x : In) : St × Bool :=
  if !s.valid || x.ready then
    let t := { t with queue := s.ms s.rs, enable := false, valid := true, rs := c.next s.rs }
    if s.rs + 1 = s.ws then ({ t.refill with gotStop := false }, true) else (t, false)
  else (t, false)

/-- the case statement (tx_scheduler_ctrl_tdma.v:201-390) -/
def St.body (c : Cfg) (s : St) (x : In) : St × Bool :=
  let t := { s with valid := s.valid && !x.ready }
  match s.phase with
  | .idle => (t.refill, true)
  | .fill => (s.onFill c t, false)
  | .waitStart => s.onWaitStart c t
  | .start0 => (s.onStart0 c t x, false)
  | .startN => (s.onStartN c t x, false)
  | .waitStop => s.onWaitStop t
  | .stop => s.onStop c t x

/-- one edge (tx_scheduler_ctrl_tdma.v:201-433, writes to the RAM 529-535) -/
def St.edge (c : Cfg) (s : St) (x : In) : St :=
  let b := s.body c x
  let t := b.1
  { t with
    gotStart := t.gotStart || (!s.gotStart && x.start)
    startIndex := if !s.gotStart && x.start then x.index else t.startIndex
    gotStop := t.gotStop || (!s.gotStop && x.stop)
    inconsistent := (s.inconsistent && !b.2) || x.write.isSome
    ram := match x.write with
      | some (i, v) => upd s.ram i v
      | none => s.ram }

/-- the command handed over at an edge: queue, and whether it is switched on -/
def St.taken (s : St) (x : In) : List (Nat × Bool) := if s.valid && x.ready then [(s.queue, s.enable)] else []

/-- state after a list of edges, and the commands handed over -/
def run (c : Cfg) (s : St) : List In → St × List (Nat × Bool)
  | [] => (s, [])
  | x :: xs => ((run c (s.edge c x) xs).1, s.taken x ++ (run c (s.edge c x) xs).2)

end Corundum.TdmaCtrl
