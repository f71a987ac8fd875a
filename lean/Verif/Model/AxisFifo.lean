/-!
AXI stream FIFO: /repo/fpga/lib/eth/lib/axis/rtl/axis_fifo.v, one step per clock cycle, all operating modes.

`tdata`, `tkeep`, `tid` and `tdest` are carried unchanged and are bundled in `data`. LAST_ENABLE and USER_ENABLE are set. Reset is not modelled; `init` is the
state after reset. Stage data of an invalid pipeline stage is not observable, so a stage is an `Option`.
-/
namespace Corundum.AxisFifo

structure Beat where
  data : Nat
  last : Bool
  user : Nat
  deriving DecidableEq, Repr

/-- module parameters, axis_fifo.v:34-92 -/
structure Cfg where
  /-- ADDR_WIDTH :137 -/
  aw : Nat
  /-- RAM_PIPELINE -/
  pl : Nat
  outFifo : Bool := false
  frameFifo : Bool := false
  dropOversize : Bool := false
  dropBad : Bool := false
  dropWhenFull : Bool := false
  markWhenFull : Bool := false
  pauseEnable : Bool := false
  framePause : Bool := false
  userWidth : Nat := 1
  badValue : Nat := 1
  badMask : Nat := 1

/-- configuration checks :142-176 (with LAST_ENABLE set) -/
def Cfg.Ok (c : Cfg) : Prop :=
  (c.dropOversize = true → c.frameFifo = true) ∧ (c.dropBad = true → c.frameFifo = true ∧ c.dropOversize = true) ∧
  (c.dropWhenFull = true → c.frameFifo = true ∧ c.dropOversize = true) ∧ (c.markWhenFull = true → c.frameFifo = false)

/-- number of memory words -/
def Cfg.size (c : Cfg) : Nat := 2 ^ c.aw

/-- $clog2 -/
def clog2 (n : Nat) : Nat := if n ≤ 1 then 0 else Nat.log2 (n - 1) + 1

/-- OUTPUT_FIFO_ADDR_WIDTH :139 -/
def Cfg.oaw (c : Cfg) : Nat := if c.pl < 2 then 3 else clog2 (c.pl * 2 + 7)

/-- bad frame test :291: some bit selected by the mask equals the corresponding bit of the marker value -/
def Cfg.bad (c : Cfg) (u : Nat) : Bool := (List.range c.userWidth).any (fun i => c.badMask.testBit i && (u.testBit i == c.badValue.testBit i))

/-- write-side flags -/
structure Flags where
  sframe : Bool := false
  drop : Bool := false
  mark : Bool := false
  send : Bool := false
  deriving DecidableEq, Repr

/-- status pulses :212-214 -/
structure Status where
  overflow : Bool := false
  bad : Bool := false
  good : Bool := false
  deriving DecidableEq, Repr

/-- effect of the write logic on memory and write pointers -/
inductive Act
  /-- nothing -/
  | nop
  /-- `mem[wr] <= s_axis; wr <= wr + 1` -/
  | store
  /-- `mem[wr] <= s_axis; wr <= wr + 1; commit <= wr + 1` -/
  | storeCommit
  /-- `mem[wr] <= s_axis; wr <= commit` -/
  | storeReset
  /-- `wr <= commit` -/
  | reset
  /-- `commit <= wr` -/
  | commit
  deriving DecidableEq, Repr

/-- `s_axis_tready` :216 -/
def tready (c : Cfg) (full fullWr : Bool) : Bool :=
  if c.frameFifo then !full || (fullWr && c.dropOversize) || c.dropWhenFull else !full || c.markWhenFull

/-- write logic, frame FIFO mode :270-307 -/
def wrFrame (c : Cfg) (full fullWr : Bool) (f : Flags) (v : Bool) (b : Beat) : Flags × Status × Act :=
  if tready c full fullWr && v then
    if (full && c.dropWhenFull) || (fullWr && c.dropOversize) || f.drop then
      if b.last then ({ f with drop := false }, { overflow := true }, .reset) else ({ f with drop := true }, {}, .nop)
    else if b.last || (!c.dropOversize && (fullWr || f.send)) then
      if b.last && c.dropBad && c.bad b.user then ({ f with send := !b.last }, { bad := true }, .storeReset)
      else ({ f with send := !b.last }, { good := b.last }, .storeCommit)
    else (f, {}, .store)
  else if v && fullWr && !c.dropOversize then ({ f with send := true }, {}, .commit)
  else (f, {}, .nop)

/-- write logic, normal FIFO mode :308-348 (without `s_frame_reg`) -/
def wrNormal (c : Cfg) (full fullWr : Bool) (f : Flags) (v : Bool) (b : Beat) : Flags × Status × Act :=
  if tready c full fullWr && v then
    if f.drop && c.markWhenFull then
      if b.last then
        if !full && f.mark then ({ f with mark := false, drop := false }, { overflow := true }, .storeCommit)
        else ({ f with drop := false }, { overflow := true }, .nop)
      else (f, {}, .nop)
    else if (full || f.mark) && c.markWhenFull then
      ({ f with drop := !b.last, mark := f.mark || f.sframe }, { overflow := b.last }, .nop)
    else (f, {}, .storeCommit)
  else if (!full && !f.drop && f.mark) && c.markWhenFull then ({ f with mark := false }, {}, .storeCommit)
  else (f, {}, .nop)

/-- write logic :260-348: flags, status pulses, action. `v` is `s_axis_tvalid`. `s_frame_reg` :265-268. -/
def wrLogic (c : Cfg) (full fullWr : Bool) (f : Flags) (v : Bool) (b : Beat) : Flags × Status × Act :=
  let r := if c.frameFifo then wrFrame c full fullWr f v b else wrNormal c full fullWr f v b
  ({ r.1 with sframe := if tready c full fullWr && v then !b.last else f.sframe }, r.2)

/-- word written to memory :220-227 -/
def sAxis (c : Cfg) (f : Flags) (b : Beat) : Beat := ⟨b.data, b.last || f.mark, if f.mark then c.badValue else b.user⟩

/-- registers -/
structure S where
  mem : Nat → Beat
  wr : Nat
  commit : Nat
  rd : Nat
  f : Flags
  status : Status
  /-- `depth_reg`, `depth_commit_reg` -/
  depth : Nat
  depthCommit : Nat
  /-- `m_axis_pipe_reg` with valid bits, output stage first -/
  pipe : List (Option Beat)
  /-- output FIFO :418-496 -/
  omem : Nat → Beat
  owr : Nat
  ord : Nat
  half : Bool
  oreg : Option Beat
  pause : Bool
  pauseFrame : Bool

structure Inp where
  /-- `s_axis_tvalid` and the other input signals -/
  valid : Bool
  beat : Beat
  mready : Bool
  pauseReq : Bool := false

/-- :199 -/
def S.full (c : Cfg) (s : S) : Bool := s.wr == (s.rd ^^^ 2 ^ c.aw)
/-- :201 -/
def S.empty (s : S) : Bool := s.commit == s.rd
/-- :203 -/
def S.fullWr (c : Cfg) (s : S) : Bool := s.wr == (s.commit ^^^ 2 ^ c.aw)

/-- `s_axis_tready` :216 -/
def S.ready (c : Cfg) (s : S) : Bool := tready c (s.full c) (s.fullWr c)

def upd (m : Nat → Beat) (a : Nat) (b : Beat) : Nat → Beat := fun x => if x = a then b else m x

/-- pointers are ADDR_WIDTH+1 bits wide -/
def inc (aw : Nat) (p : Nat) : Nat := (p + 1) % 2 ^ (aw + 1)

def actMem (c : Cfg) (s : S) (a : Act) (b : Beat) : Nat → Beat :=
  match a with
  | .store | .storeCommit | .storeReset => upd s.mem (s.wr % 2 ^ c.aw) b
  | _ => s.mem

def actWr (c : Cfg) (s : S) (a : Act) : Nat :=
  match a with
  | .store | .storeCommit => inc c.aw s.wr
  | .storeReset | .reset => s.commit
  | _ => s.wr

def actCommit (c : Cfg) (s : S) (a : Act) : Nat :=
  match a with
  | .storeCommit => inc c.aw s.wr
  | .commit => s.wr
  | _ => s.commit

/-- pipeline :375-387, output stage first: a stage takes the value of its predecessor if the output is ready (`go`) or there is a bubble in it or after it;
the first stage then takes `x` -/
def adv (go : Bool) : List (Option Beat) → Option Beat → List (Option Beat)
  | [], _ => []
  | h :: t, x =>
    let go' := go || h.isNone
    (if go' then (match t with | [] => x | n :: _ => n) else h) :: adv go' t x

/-- output side before pausing: `m_axis_*_out` -/
def S.mout (c : Cfg) (s : S) : Option Beat := if c.outFifo then s.oreg else s.pipe.head?.join

/-- output :506-507: `m_axis_tvalid` with data -/
def S.m (c : Cfg) (s : S) : Option Beat := if c.pauseEnable && s.pause then none else s.mout c

/-- `m_axis_tready_out` :506 -/
def S.rdyOut (c : Cfg) (s : S) (i : Inp) : Bool := i.mready && !(c.pauseEnable && s.pause)

/-- `m_axis_tready_pipe` :412, :455 -/
def S.rdyPipe (c : Cfg) (s : S) (i : Inp) : Bool := if c.outFifo then true else s.rdyOut c i

/-- read from memory :389-398; `pipe_ready` :410, :453 -/
def S.rdEn (c : Cfg) (s : S) (i : Inp) : Bool := (s.rdyPipe c i || s.pipe.any Option.isNone) && (!s.empty && (if c.outFifo then !s.half else true))

def S.ofull (c : Cfg) (s : S) : Bool := s.owr == (s.ord ^^^ 2 ^ c.oaw)
def S.oempty (s : S) : Bool := s.owr == s.ord

/-- pause logic :518-540 -/
def pauseNext (c : Cfg) (s : S) (i : Inp) : Bool × Bool :=
  if c.framePause then
    match s.m c with
    | some b => if i.mready then (if b.last then (i.pauseReq, false) else (s.pause, true)) else (if s.pauseFrame then s.pause else i.pauseReq, s.pauseFrame)
    | none => (if s.pauseFrame then s.pause else i.pauseReq, s.pauseFrame)
  else (i.pauseReq, s.pauseFrame)

/-- one clock cycle -/
def S.step (c : Cfg) (s : S) (i : Inp) : S :=
  let w := wrLogic c (s.full c) (s.fullWr c) s.f i.valid i.beat
  let a := w.2.2
  let x := if s.rdEn c i then some (s.mem (s.rd % 2 ^ c.aw)) else none
  let oput := !s.ofull c && (s.pipe.head?.join).isSome
  let oget := !s.oempty && (s.oreg.isNone || s.rdyOut c i)
  { mem := actMem c s a (sAxis c s.f i.beat)
    wr := actWr c s a
    commit := actCommit c s a
    rd := if s.rdEn c i then inc c.aw s.rd else s.rd
    f := w.1
    status := w.2.1
    depth := (s.wr + 2 ^ (c.aw + 1) - s.rd) % 2 ^ (c.aw + 1)
    depthCommit := (s.commit + 2 ^ (c.aw + 1) - s.rd) % 2 ^ (c.aw + 1)
    pipe := adv (s.rdyPipe c i) s.pipe x
    omem := if c.outFifo && oput then upd s.omem (s.owr % 2 ^ c.oaw) ((s.pipe.head?.join).getD ⟨0, false, 0⟩) else s.omem
    owr := if c.outFifo && oput then inc c.oaw s.owr else s.owr
    ord := if c.outFifo && oget then inc c.oaw s.ord else s.ord
    half := (s.owr + 2 ^ (c.oaw + 1) - s.ord) % 2 ^ (c.oaw + 1) ≥ 2 ^ (c.oaw - 1)
    oreg := if c.outFifo && oget then some (s.omem (s.ord % 2 ^ c.oaw)) else if s.rdyOut c i then none else s.oreg
    pause := (pauseNext c s i).1
    pauseFrame := (pauseNext c s i).2 }

/-- after reset -/
def init (c : Cfg) : S :=
  { mem := fun _ => ⟨0, false, 0⟩, wr := 0, commit := 0, rd := 0, f := {}, status := {}, depth := 0, depthCommit := 0, pipe := List.replicate (c.pl + 1) none,
    omem := fun _ => ⟨0, false, 0⟩, owr := 0, ord := 0, half := false, oreg := none, pause := false, pauseFrame := false }

def S.run (c : Cfg) (s : S) (is : List Inp) : S := is.foldl (S.step c) s

/-- beats accepted at the input in a run -/
def S.accepted (c : Cfg) : S → List Inp → List Beat
  | _, [] => []
  | s, i :: is => (if s.ready c && i.valid then [i.beat] else []) ++ S.accepted c (s.step c i) is

/-- beats taken at the output in a run -/
def S.delivered (c : Cfg) : S → List Inp → List Beat
  | _, [] => []
  | s, i :: is => (if i.mready then (s.m c).toList else []) ++ S.delivered c (s.step c i) is

/-- status pulses in a run -/
def S.statuses (c : Cfg) : S → List Inp → List Status
  | _, [] => []
  | s, i :: is => (s.step c i).status :: S.statuses c (s.step c i) is

end Corundum.AxisFifo
