import Verif.Model.RxCsum

/-!
Transmit checksum offload: /repo/fpga/common/rtl/tx_checksum.v, one step per clock edge.

The data FIFO and the checksum FIFO (instances of `axis_fifo`, see `Model/AxisFifo`) are lists; when they accept and when they show their oldest entry is left to the inputs
`dready`, `cready`, `dshow`, `cshow`, so any depth and latency is covered.  The bus has `4 * 2 ^ d` byte lanes.  The adder tree is that of `rx_checksum.v` (`Model/RxCsum`).
Simplifications: `tid`, `tdest` and `tuser` are one number; a register whose valid flag is clear is `none`; the registers loaded from the checksum FIFO while it shows nothing keep
their value (they are loaded again before use); `rst` is the initial state.
-/
namespace Corundum.TxCsum

/-- parameters: depth of the tree and `USE_INIT_VALUE` (tx_checksum.v:36) -/
structure Params where
  d : Nat
  useInit : Bool

/-- `KEEP_WIDTH` -/
def Params.K (P : Params) : Nat := 4 * 2 ^ P.d

/-- the tree shared with the receive side -/
def Params.cfg (P : Params) : RxCsum.Cfg := ⟨P.d, 0⟩

/-- one word on the bus (tx_checksum.v:47-66) -/
structure Beat where
  lane : Nat → Nat
  keep : Nat → Bool
  last : Bool
  side : Nat

/-- a command (tx_checksum.v:71-76) -/
structure Cmd where
  en : Bool
  start : Nat
  offset : Nat
  init : Nat
deriving DecidableEq, Repr

/-- a stage of the adder tree: partial sums, `sum_last_reg`, `sum_init_valid_reg` -/
structure Item where
  xs : List Nat
  last : Bool
  first : Bool

/-- `sum_odd_reg`, `sum_enable_reg`, `sum_offset_reg`, `sum_init_reg` -/
structure Ctl where
  odd : Bool := false
  en : Bool := false
  offset : Nat := 0
  init : Nat := 0
deriving DecidableEq, Repr

/-- an entry of the checksum FIFO (tx_checksum.v:209) -/
structure Entry where
  csum : Nat := 0
  offset : Nat := 0
  en : Bool := false
deriving DecidableEq, Repr

/-- inputs of one cycle -/
structure In where
  cmd : Option Cmd := none
  beat : Option Beat := none
  /-- `m_axis_tready` -/
  mready : Bool := false
  /-- `data_in_axis_tready` -/
  dready : Bool := false
  /-- `csum_in_ready` -/
  cready : Bool := false
  /-- the data FIFO shows its oldest entry, if any -/
  dshow : Bool := false
  /-- the checksum FIFO shows its oldest entry, if any -/
  cshow : Bool := false

structure S where
  transfer : Bool := false
  mask : Nat → Bool := fun _ => false
  inOff : Nat := 0
  first : Bool := false
  pipe : Nat → Option Item := fun _ => none
  ctl : Nat → Ctl := fun _ => {}
  acc : Nat := 0
  /-- `csum_in_*_reg` with `csum_in_valid_reg` -/
  cin : Option Entry := none
  dq : List Beat := []
  cq : List Entry := []
  frame : Bool := false
  /-- `csum_reg`, `csum_offset_reg`, `csum_enable_reg` -/
  cs : Entry := {}
  split : Bool := false
  oready : Bool := false
  m : Option Beat := none
  temp : Option Beat := none

/-- a command is taken: `s_axis_cmd_ready` (tx_checksum.v:158) -/
def takeCmd (s : S) (i : In) : Option Cmd := if i.cready && !s.transfer then i.cmd else none

/-- a word is taken: `s_axis_tready` (tx_checksum.v:156) -/
def takeBeat (s : S) (i : In) : Option Beat := if i.dready && i.cready && s.transfer then i.beat else none

/-- `s_axis_tdata_masked` (tx_checksum.v:239-243) -/
def masked (s : S) (b : Beat) (j : Nat) : Nat := if b.keep j && s.mask j then b.lane j else 0

/-- `mask_reg` and `input_offset_reg` once `o` bytes remain to be skipped (tx_checksum.v:265-275, 287-293) -/
def skip (P : Params) (o : Nat) : (Nat → Bool) × Nat :=
  if o ≥ P.K then (fun _ => false, o - P.K) else (fun j => decide (o ≤ j), 0)

/-- the masking registers (tx_checksum.v:265-275, 287-293) -/
def maskNext (P : Params) (s : S) (i : In) : (Nat → Bool) × Nat :=
  match takeCmd s i with
  | some c => skip P c.start
  | none => match takeBeat s i with
    | some _ => if s.inOff > 0 then skip P s.inOff else (fun _ => true, s.inOff)
    | none => (s.mask, s.inOff)

/-- stages of the tree (tx_checksum.v:249-262, 302-330) -/
def pipeNext (P : Params) (s : S) (i : In) (l : Nat) : Option Item :=
  if l = 0 then
    match takeBeat s i with
    | some b => some ⟨RxCsum.level0 P.cfg (masked s b), b.last, s.first⟩
    | none => if i.cready then none else s.pipe 0
  else if i.cready then (s.pipe (l - 1)).map fun x => { x with xs := RxCsum.levelN P.cfg l x.xs } else s.pipe l

/-- what goes along with the stages (tx_checksum.v:279-283, 314-319) -/
def ctlNext (s : S) (i : In) (l : Nat) : Ctl :=
  if l = 0 then
    match takeCmd s i with
    | some c => ⟨c.start % 2 == 1, c.en, c.offset, c.init⟩
    | none => s.ctl 0
  else if i.cready && (s.pipe (l - 1)).isSome then s.ctl (l - 1) else s.ctl l

/-- the item leaving the tree -/
def leave (P : Params) (s : S) (i : In) : Option Item := if i.cready then s.pipe P.d else none

/-- `sum_acc_temp` (tx_checksum.v:338-340) -/
def accTemp (P : Params) (s : S) (it : Item) : Nat :=
  RxCsum.accumulate P.cfg (if it.first && P.useInit then (s.ctl P.d).init else s.acc) it.xs

/-- `csum_in_csum_reg` (tx_checksum.v:343-349) -/
def invert (odd : Bool) (t : Nat) : Nat :=
  if odd then (255 - t % 256) * 256 + (255 - t / 256 % 256) else (255 - t / 256 % 256) * 256 + (255 - t % 256)

/-- the checksum of a frame is complete (tx_checksum.v:342-353) -/
def finish (P : Params) (s : S) (i : In) : Option Entry :=
  (leave P s i).bind fun it => if it.last then some ⟨invert (s.ctl P.d).odd (accTemp P s it), (s.ctl P.d).offset, (s.ctl P.d).en⟩ else none

/-- `sum_acc_reg` (tx_checksum.v:353, 355) -/
def accNext (P : Params) (s : S) (i : In) : Nat :=
  match leave P s i with
  | some it => if it.last then 0 else accTemp P s it % 2 ^ 16
  | none => s.acc

/-- a checksum is taken from its FIFO (tx_checksum.v:418-428) -/
def popC (s : S) (i : In) : Option Entry := if !s.frame && i.cshow then s.cq.head? else none

/-- a word is taken from the data FIFO (tx_checksum.v:366) -/
def popD (s : S) (i : In) : Option Beat := if s.oready && s.frame && i.dshow then s.dq.head? else none

/-- the checksum is put into the word (tx_checksum.v:391-413): the word, the registers and `csum_split_reg` -/
def insert (P : Params) (cs : Entry) (split : Bool) (b : Beat) : Beat × Entry × Bool :=
  if cs.en then
    if cs.offset ≥ P.K then (b, { cs with offset := cs.offset - P.K }, split)
    else if split then ({ b with lane := fun j => if j = 0 then cs.csum % 256 else b.lane j }, { cs with en := false }, split)
    else if cs.offset = P.K - 1 then ({ b with lane := fun j => if j = P.K - 1 then cs.csum / 256 % 256 else b.lane j }, cs, true)
    else ({ b with lane := fun j => if j = cs.offset + 1 then cs.csum % 256 else if j = cs.offset then cs.csum / 256 % 256 else b.lane j }, { cs with en := false }, split)
  else (b, cs, split)

/-- `m_axis_*_int` -/
def word (P : Params) (s : S) (i : In) : Option Beat := (popD s i).map fun b => (insert P s.cs s.split b).1

/-- one clock edge -/
def next (P : Params) (s : S) (i : In) : S where
  transfer := match takeCmd s i with
    | some _ => true
    | none => match takeBeat s i with
      | some b => !b.last
      | none => s.transfer
  mask := (maskNext P s i).1
  inOff := (maskNext P s i).2
  first := match takeCmd s i with
    | some _ => true
    | none => match takeBeat s i with
      | some _ => false
      | none => s.first
  pipe := pipeNext P s i
  ctl := ctlNext s i
  acc := accNext P s i
  cin := finish P s i
  dq := (if (popD s i).isSome then s.dq.tail else s.dq) ++ (takeBeat s i).toList
  cq := (if (popC s i).isSome then s.cq.tail else s.cq) ++ (if i.cready then s.cin.toList else [])
  frame := if s.frame then (match popD s i with | some b => !b.last | none => true) else (popC s i).isSome
  cs := if s.frame then (match popD s i with | some b => (insert P s.cs s.split b).2.1 | none => s.cs) else (popC s i).getD s.cs
  split := if s.frame then (match popD s i with | some b => (insert P s.cs s.split b).2.2 | none => s.split) else false
  oready := i.mready || (s.temp.isNone && s.m.isNone)
  m := if s.oready then (if i.mready || s.m.isNone then word P s i else s.m) else if i.mready then s.temp else s.m
  temp := if s.oready then (if i.mready || s.m.isNone then s.temp else word P s i) else if i.mready then none else s.temp

/-- what an observer sees -/
structure G where
  /-- complete frames with their commands -/
  done : List (Cmd × List Beat) := []
  /-- the command of the present frame -/
  cur : Cmd := ⟨false, 0, 0, 0⟩
  /-- the words of the present frame so far -/
  part : List Beat := []
  /-- words taken at the output -/
  out : List Beat := []
  /-- the checksum FIFO was ready in the cycle before and nothing was written to it -/
  held : Bool := false

structure Sys where
  s : S := {}
  g : G := {}

def watch (P : Params) (s : S) (g : G) (i : In) : G where
  done := match takeBeat s i with
    | some b => if b.last then g.done ++ [(g.cur, g.part ++ [b])] else g.done
    | none => g.done
  cur := (takeCmd s i).getD g.cur
  part := match takeBeat s i with
    | some b => if b.last then [] else g.part ++ [b]
    | none => g.part
  out := g.out ++ (if i.mready then s.m.toList else [])
  held := i.cready && s.cin.isNone

def step (P : Params) (x : Sys) (i : In) : Sys := ⟨next P x.s i, watch P x.s x.g i⟩

def run (P : Params) (x : Sys) (is : List In) : Sys := is.foldl (step P) x

end Corundum.TxCsum
