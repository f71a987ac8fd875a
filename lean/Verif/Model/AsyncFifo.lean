import Verif.Model.AxisFifo
/-!
AXI stream FIFO between two clocks: /repo/fpga/lib/axis/rtl/axis_async_fifo.v (the copy under lib/eth/lib/axis is the same), all operating modes.

The clocks are unrelated: an edge of either can come at any time, in any order, any number of times.  A register of one side that is read by the other is seen
through a wire (`Wires`), each bit of which takes the new value at some time after the edge that changed it and before the next edge of the same clock (the
`set_max_delay` constraints of syn/vivado/axis_async_fifo.tcl).  So the other side can see any mixture of old and new bits.  For `wr_ptr_sync_commit_reg` it is
assumed in addition that its bits arrive at most one read clock after `wr_ptr_update_reg` has been sampled (the parameter `fast` of `mEdge`, see `mEdge`).

`tdata`, `tkeep`, `tid` and `tdest` are bundled in `data`; LAST_ENABLE and USER_ENABLE are set.  Not modelled: reset while in use (`init` is the state after reset), the
depth outputs, and the status pulses on the read side.  `m_pause_req || s_pause_req_sync3_reg` is one input.  Common definitions are those of axis_fifo.v
(`Model/AxisFifo`), where the code is the same.
-/
namespace Corundum.AsyncFifo
open AxisFifo (Beat Cfg Flags Status Act tready wrFrame sAxis upd inc adv)

/-- `bin2gray`, axis_async_fifo.v:194-196 -/
def gray (b : Nat) : Nat := b ^^^ (b >>> 1)

/-- registers on `s_clk` -/
structure Wr where
  mem : Nat → Beat
  /-- `wr_ptr_reg` -/
  wr : Nat
  /-- `wr_ptr_commit_reg` -/
  commit : Nat
  /-- `wr_ptr_gray_reg` -/
  gray : Nat
  /-- `wr_ptr_sync_commit_reg` -/
  syncCommit : Nat
  /-- `wr_ptr_update_valid_reg` -/
  updValid : Bool
  /-- `wr_ptr_update_reg` -/
  upd : Bool
  f : Flags
  status : Status
  /-- `rd_ptr_gray_sync1_reg`, `rd_ptr_gray_sync2_reg` -/
  rdG1 : Nat
  rdG2 : Nat
  /-- `wr_ptr_update_ack_sync1_reg`, `wr_ptr_update_ack_sync2_reg` -/
  ack1 : Bool
  ack2 : Bool

/-- registers on `m_clk` -/
structure Rd where
  /-- `rd_ptr_reg` -/
  rd : Nat
  /-- `rd_ptr_gray_reg` -/
  gray : Nat
  /-- `m_axis_pipe_reg` with valid bits, output stage first -/
  pipe : List (Option Beat)
  /-- output FIFO :746-822 -/
  omem : Nat → Beat
  owr : Nat
  ord : Nat
  half : Bool
  oreg : Option Beat
  pause : Bool
  pauseFrame : Bool
  /-- `wr_ptr_gray_sync1_reg`, `wr_ptr_gray_sync2_reg` -/
  wrG1 : Nat
  wrG2 : Nat
  /-- `wr_ptr_commit_sync_reg` -/
  commitSync : Nat
  /-- `wr_ptr_update_sync1_reg` … `wr_ptr_update_sync3_reg` -/
  upd1 : Bool
  upd2 : Bool
  upd3 : Bool

/-- registers of one side as seen at the flip-flops of the other -/
structure Wires where
  /-- `wr_ptr_gray_reg` at `wr_ptr_gray_sync1_reg` -/
  wrGray : Nat
  /-- `wr_ptr_sync_commit_reg` at `wr_ptr_commit_sync_reg` -/
  commit : Nat
  /-- `wr_ptr_update_reg` at `wr_ptr_update_sync1_reg` -/
  upd : Bool
  /-- `rd_ptr_gray_reg` at `rd_ptr_gray_sync1_reg` -/
  rdGray : Nat
  /-- `wr_ptr_update_sync3_reg` at `wr_ptr_update_ack_sync1_reg` -/
  ack : Bool

structure S where
  w : Wr
  r : Rd
  x : Wires

/-- `full` :262-264 -/
def Wr.full (c : Cfg) (w : Wr) : Bool := w.gray == (w.rdG2 ^^^ 3 <<< (c.aw - 1))
/-- `full_wr` :268 -/
def Wr.fullWr (c : Cfg) (w : Wr) : Bool := w.wr == (w.commit ^^^ 2 ^ c.aw)
/-- `empty` :266 -/
def Rd.empty (c : Cfg) (r : Rd) : Bool := if c.frameFifo then r.rd == r.commitSync else r.gray == r.wrG2
/-- `s_axis_tready` :306, after reset -/
def Wr.ready (c : Cfg) (w : Wr) : Bool := tready c (w.full c) (w.fullWr c)

/-- write logic, normal FIFO mode :483-529 -/
def wrNormal (c : Cfg) (full fullWr : Bool) (f : Flags) (v : Bool) (b : Beat) : Flags × Status × Act :=
  if tready c full fullWr && v then
    if f.drop then
      if b.last then
        if !full && f.mark && c.markWhenFull then ({ f with mark := false, drop := false }, { overflow := true }, .storeCommit)
        else ({ f with drop := false }, { overflow := true }, .nop)
      else (f, {}, .nop)
    else if (full || f.mark) && c.markWhenFull then
      ({ f with drop := !b.last, mark := f.mark || f.sframe }, { overflow := b.last }, .nop)
    else (f, {}, .storeCommit)
  else if (!full && !f.drop && f.mark) && c.markWhenFull then ({ f with mark := false }, {}, .storeCommit)
  else (f, {}, .nop)

/-- write logic :383-529: flags, status pulses, action; the frame FIFO mode :413-482 is that of axis_fifo.v. `s_frame_reg` :398-401. -/
def wrLogic (c : Cfg) (full fullWr : Bool) (f : Flags) (v : Bool) (b : Beat) : Flags × Status × Act :=
  let r := if c.frameFifo then wrFrame c full fullWr f v b else wrNormal c full fullWr f v b
  ({ r.1 with sframe := if tready c full fullWr && v then !b.last else f.sframe }, r.2)

/-- `mem[wr_ptr_reg] <= s_axis` :430, :496, :513, :523 -/
def actMem (c : Cfg) (w : Wr) (a : Act) (b : Beat) : Nat → Beat :=
  match a with
  | .store | .storeCommit | .storeReset => upd w.mem (w.wr % 2 ^ c.aw) b
  | _ => w.mem

/-- `wr_ptr_reg` -/
def actWr (c : Cfg) (w : Wr) (a : Act) : Nat :=
  match a with
  | .store | .storeCommit => inc c.aw w.wr
  | .storeReset | .reset => w.commit
  | _ => w.wr

/-- `wr_ptr_commit_reg` -/
def actCommit (c : Cfg) (w : Wr) (a : Act) : Nat :=
  match a with
  | .storeCommit => inc c.aw w.wr
  | .commit => w.wr
  | _ => w.commit

/-- the action gives a new commit pointer :443-462, :464-481 -/
def commits : Act → Bool
  | .storeCommit | .commit => true
  | _ => false

/-- the commit pointer to the other side :388-396, :450-458, :472-480: `wr_ptr_update_valid_reg`, `wr_ptr_sync_commit_reg`, `wr_ptr_update_reg` -/
def hand (c : Cfg) (w : Wr) (a : Act) : Bool × Nat × Bool :=
  if c.frameFifo && commits a then
    if w.upd == w.ack2 then (false, actCommit c w a, !w.ack2) else (true, w.syncCommit, w.upd)
  else if c.frameFifo && w.updValid && w.upd == w.ack2 then (false, w.commit, !w.ack2)
  else (w.updValid, w.syncCommit, w.upd)

/-- write-side action of an edge -/
def Wr.act (c : Cfg) (w : Wr) (v : Bool) (b : Beat) : Act := (wrLogic c (w.full c) (w.fullWr c) w.f v b).2.2

/-- an edge of `s_clk` :383-529, :569-574; what this side changed at its last edge has arrived at the other by now -/
def sEdge (c : Cfg) (s : S) (v : Bool) (b : Beat) : S :=
  let w := s.w
  let l := wrLogic c (w.full c) (w.fullWr c) w.f v b
  let h := hand c w l.2.2
  { w :=
      { mem := actMem c w l.2.2 (sAxis c w.f b)
        wr := actWr c w l.2.2
        commit := actCommit c w l.2.2
        gray := gray (actWr c w l.2.2)
        syncCommit := h.2.1
        updValid := h.1
        upd := h.2.2
        f := l.1
        status := l.2.1
        rdG1 := s.x.rdGray
        rdG2 := w.rdG1
        ack1 := s.x.ack
        ack2 := w.ack1 }
    r := s.r
    x := { s.x with wrGray := w.gray, commit := w.syncCommit, upd := w.upd } }

/-! read side -/

/-- output before pausing :737-744, :781-787 -/
def Rd.mout (c : Cfg) (r : Rd) : Option Beat := if c.outFifo then r.oreg else r.pipe.head?.join

/-- output :849-850 -/
def Rd.m (c : Cfg) (r : Rd) : Option Beat := if c.pauseEnable && r.pause then none else r.mout c

/-- `m_axis_tready_out` :849 -/
def Rd.rdyOut (c : Cfg) (r : Rd) (mready : Bool) : Bool := mready && !(c.pauseEnable && r.pause)

/-- `m_axis_tready_pipe` :736, :779 -/
def Rd.rdyPipe (c : Cfg) (r : Rd) (mready : Bool) : Bool := if c.outFifo then true else r.rdyOut c mready

/-- a word is read :663-674; `pipe_ready` :734, :777 -/
def Rd.rdEn (c : Cfg) (r : Rd) (mready : Bool) : Bool := (r.rdyPipe c mready || r.pipe.any Option.isNone) && (!r.empty c && (if c.outFifo then !r.half else true))

def Rd.ofull (c : Cfg) (r : Rd) : Bool := r.owr == (r.ord ^^^ 2 ^ c.oaw)
def Rd.oempty (r : Rd) : Bool := r.owr == r.ord

/-- pause logic :862-884 -/
def pauseNext (c : Cfg) (r : Rd) (mready pauseReq : Bool) : Bool × Bool :=
  if c.framePause then
    match r.m c with
    | some b => if mready then (if b.last then (pauseReq, false) else (r.pause, true)) else (if r.pauseFrame then r.pause else pauseReq, r.pauseFrame)
    | none => (if r.pauseFrame then r.pause else pauseReq, r.pauseFrame)
  else (pauseReq, r.pauseFrame)

/-- an edge of `m_clk` :585-594, :647-674, :789-822; what this side changed at its last edge has arrived at the other by now.  `fast`: if `wr_ptr_update_reg` was sampled at an earlier edge
already, the commit pointer that goes with it is there. -/
def mEdge (c : Cfg) (fast : Bool) (s : S) (mready pauseReq : Bool) : S :=
  let r := s.r
  let commit := if fast && r.upd1 == s.w.upd then s.w.syncCommit else s.x.commit
  let x := if r.rdEn c mready then some (s.w.mem (r.rd % 2 ^ c.aw)) else none
  let rd := if r.rdEn c mready then inc c.aw r.rd else r.rd
  let oput := !r.ofull c && (r.pipe.head?.join).isSome
  let oget := !r.oempty && (r.oreg.isNone || r.rdyOut c mready)
  { w := s.w
    r :=
      { rd := rd
        gray := if r.rdEn c mready then gray rd else r.gray
        pipe := adv (r.rdyPipe c mready) r.pipe x
        omem := if c.outFifo && oput then upd r.omem (r.owr % 2 ^ c.oaw) ((r.pipe.head?.join).getD ⟨0, false, 0⟩) else r.omem
        owr := if c.outFifo && oput then inc c.oaw r.owr else r.owr
        ord := if c.outFifo && oget then inc c.oaw r.ord else r.ord
        half := (r.owr + 2 ^ (c.oaw + 1) - r.ord) % 2 ^ (c.oaw + 1) ≥ 2 ^ (c.oaw - 1)
        oreg := if c.outFifo && oget then some (r.omem (r.ord % 2 ^ c.oaw)) else if r.rdyOut c mready then none else r.oreg
        pause := (pauseNext c r mready pauseReq).1
        pauseFrame := (pauseNext c r mready pauseReq).2
        wrG1 := s.x.wrGray
        wrG2 := r.wrG1
        commitSync := if c.frameFifo && (r.upd2 ^^ r.upd3) then commit else r.commitSync
        upd1 := s.x.upd
        upd2 := r.upd1
        upd3 := r.upd2 }
    x := { s.x with commit := commit, rdGray := r.gray, ack := r.upd3 } }

/-- the bits of `mask` have changed, the others not -/
def mix (old new mask : Nat) : Nat := old ^^^ ((old ^^^ new) &&& mask)

inductive Ev where
  /-- edge of `s_clk` with `s_axis_tvalid` and the input -/
  | s (valid : Bool) (beat : Beat)
  /-- edge of `m_clk` with `m_axis_tready` and the pause request -/
  | m (mready pauseReq : Bool)
  /-- these bits arrive on the wires -/
  | settle (wr commit rd : Nat) (upd ack : Bool)

def step (c : Cfg) (fast : Bool) (s : S) : Ev → S
  | .s v b => sEdge c s v b
  | .m a p => mEdge c fast s a p
  | .settle wr commit rd u a =>
    { s with x := ⟨mix s.x.wrGray s.w.gray wr, mix s.x.commit s.w.syncCommit commit, if u then s.w.upd else s.x.upd, mix s.x.rdGray s.r.gray rd, if a then s.r.upd3 else s.x.ack⟩ }

/-- after reset -/
def init (c : Cfg) : S :=
  { w := ⟨fun _ => ⟨0, false, 0⟩, 0, 0, 0, 0, false, false, {}, {}, 0, 0, false, false⟩
    r := ⟨0, 0, List.replicate (c.pl + 1) none, fun _ => ⟨0, false, 0⟩, 0, 0, false, none, false, false, 0, 0, 0, false, false, false⟩
    x := ⟨0, 0, false, 0, false⟩ }

def run (c : Cfg) (fast : Bool) (s : S) (es : List Ev) : S := es.foldl (step c fast) s

/-- beat accepted at an event -/
def acc (c : Cfg) (s : S) : Ev → List Beat
  | .s v b => if s.w.ready c && v then [b] else []
  | _ => []

/-- beat taken at the output at an event -/
def out (c : Cfg) (s : S) : Ev → List Beat
  | .m a _ => if a then (s.r.m c).toList else []
  | _ => []

/-- beats accepted at the input in a run -/
def accepted (c : Cfg) (fast : Bool) : S → List Ev → List Beat
  | _, [] => []
  | s, e :: es => acc c s e ++ accepted c fast (step c fast s e) es

/-- beats taken at the output in a run -/
def delivered (c : Cfg) (fast : Bool) : S → List Ev → List Beat
  | _, [] => []
  | s, e :: es => out c s e ++ delivered c fast (step c fast s e) es

/-- status pulses on the write side in a run, one for each edge of `s_clk` -/
def statuses (c : Cfg) (fast : Bool) : S → List Ev → List Status
  | _, [] => []
  | s, e :: es => (match e with | .s _ _ => [(step c fast s e).w.status] | _ => []) ++ statuses c fast (step c fast s e) es

end Corundum.AsyncFifo
