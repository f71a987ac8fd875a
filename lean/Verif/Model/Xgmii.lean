/-!
XGMII endpoints of the test bench, /repo/fpga/lib/eth/tb/xgmii_ep.py.

Modelled: `XGMIIFrame.build` and `parse`, `XGMIISource` and `XGMIISink` with their clock by clock logic, and a source connected to a sink.  A character is a pair of control flag and byte.  An exception (failed
assertion, index out of range) is `none`.  Not modelled: reset in operation, `ctrl` of a frame given by the user, changes of `ifg`, `enable_dic`, `force_offset_start` in operation, printing.
-/
namespace Corundum.Xgmii

/-- control flag and byte of a lane -/
abbrev Ch := Bool × Nat

def IDLE : Ch := (true, 0x07)
def START : Ch := (true, 0xfb)
def TERM : Ch := (true, 0xfd)
def ERROR : Ch := (true, 0xfe)
def PRE : Nat := 0x55

/-- `error` of a frame, xgmii_ep.py:66-74: not given, a nonzero number, a list with a flag for each byte -/
inductive Err where
  | none
  | flag
  | list (l : List Bool)

/-- a frame given to the source, xgmii_ep.py:43-54 -/
structure Frame where
  data : List Nat
  error : Err

/-- the list of error flags, xgmii_ep.py:65-74 -/
def Frame.errs (f : Frame) : Option (List Bool) :=
  match f.error with
  | .none => some (List.replicate f.data.length false)
  | .flag => if f.data = [] then none else some (List.replicate (f.data.length - 1) false ++ [true])
  | .list l => some l

/-- `build`, xgmii_ep.py:56-95 -/
def Frame.build (f : Frame) : Option (List Ch) :=
  f.errs.bind fun e => if e.length < f.data.length then none else some (List.zipWith (fun b e => if e then ERROR else (false, b)) f.data e)

/-- parameters: lanes, xgmii_ep.py:153; `ifg`, `enable_dic`, `force_offset_start`, xgmii_ep.py:119-125 -/
structure Cfg where
  bw : Nat
  ifg : Nat
  dic : Bool
  offset : Bool

/-- `txd` and `txc` -/
structure Word where
  d : Nat
  c : Nat

/-- 0x0707.., xgmii_ep.py:169-170 -/
def idleWord (bw : Nat) : Word := if bw = 8 then ⟨0x0707070707070707, 0xff⟩ else ⟨0x07070707, 0xf⟩

/-- source: frames to send, characters left of the frame being sent, `ifg_cnt`, `deficit_idle_cnt` -/
structure Src where
  queue : List Frame
  dl : List Ch
  ifg : Int
  deficit : Int

/-- the loop over lanes, xgmii_ep.py:184-193 and 224-233, with `n` lanes left; returns the word, the characters left and `ifg_cnt` -/
def emit (c : Cfg) (deficit : Int) : Nat → List Ch → Word → Int → Word × List Ch × Int
  | 0, dl, w, cnt => (w, dl, cnt)
  | n + 1, x :: dl, w, cnt =>
    emit c deficit n dl ⟨w.d ||| x.2 <<< (8 * (c.bw - (n + 1))), w.c ||| x.1.toNat <<< (c.bw - (n + 1))⟩ (if dl.isEmpty then c.ifg - (c.bw - (c.bw - (n + 1) : Nat) : Nat) + deficit else cnt)
  | n + 1, [], w, cnt => emit c deficit n [] ⟨w.d ||| 0x07 <<< (8 * (c.bw - (n + 1))), w.c ||| 1 <<< (c.bw - (n + 1))⟩ cnt

/-- the characters of a frame, xgmii_ep.py:203-213 -/
def wrap (l : List Ch) : Option (List Ch) :=
  match l with
  | [] => none
  | x :: l => if x.2 = PRE then some ((START :: l) ++ [TERM]) else none

/-- one clock of the source, xgmii_ep.py:177-243 -/
def Src.step (c : Cfg) (s : Src) : Option (Src × Word) :=
  if s.ifg > c.bw - 1 ∨ (c.dic = false ∧ s.ifg > 0) then some ({ s with ifg := max (s.ifg - c.bw) 0 }, idleWord c.bw)
  else if s.dl ≠ [] then
    let r := emit c s.deficit c.bw s.dl ⟨0, 0⟩ s.ifg
    some ({ s with dl := r.2.1, ifg := r.2.2 }, r.1)
  else
    match s.queue with
    | f :: q =>
      (f.build.bind wrap).map fun dl =>
        let off := (c.bw = 8 ∧ s.ifg ≥ 4) ∨ c.offset
        let ifg := if off then max (s.ifg - 4) 0 else s.ifg
        let dl := if off then List.replicate 4 IDLE ++ dl else dl
        let deficit := max ifg 0
        let r := emit c deficit c.bw dl ⟨0, 0⟩ 0
        (⟨q, r.2.1, r.2.2, deficit⟩, r.1)
    | [] => some ({ s with ifg := 0, deficit := 0 }, idleWord c.bw)

/-- a frame received, xgmii_ep.py:97-108 -/
structure Rx where
  data : List Nat
  ctrl : List Bool
  error : List Bool
deriving DecidableEq

/-- `parse`, xgmii_ep.py:97-108 -/
def parse (l : List Ch) : Rx := ⟨l.map Prod.snd, l.map Prod.fst, l.map fun x => x.1 && decide (x.2 = ERROR.2)⟩

/-- sink: frames received, the characters of the frame being received -/
structure Snk where
  queue : List Rx
  cur : Option (List Ch)

/-- the character in lane `i`, xgmii_ep.py:313-314 -/
def Word.lane (w : Word) (i : Nat) : Ch := (decide ((w.c >>> i) &&& 1 = 1), (w.d >>> (8 * i)) &&& 0xff)

/-- the loop over lanes of the sink, xgmii_ep.py:323-342, `n` lanes left from lane `i` -/
def take (w : Word) : Nat → Nat → List Ch → List Rx → Snk
  | 0, _, l, q => ⟨q, some l⟩
  | n + 1, i, l, q =>
    if (w.lane i).1 then ⟨q ++ [parse (if (w.lane i).2 ≠ TERM.2 then l ++ [w.lane i] else l)], none⟩
    else take w n (i + 1) (l ++ [w.lane i]) q

/-- lanes from `i` on -/
def Word.lanes (w : Word) (i bw : Nat) : List Ch := (List.range (bw - i)).map fun k => w.lane (i + k)

/-- one clock of the sink, xgmii_ep.py:303-342 -/
def Snk.step (bw : Nat) (s : Snk) (w : Word) : Snk :=
  match s.cur with
  | none =>
    if w.lane 0 = START then ⟨s.queue, some ((false, PRE) :: w.lanes 1 bw)⟩
    else if bw = 8 ∧ w.lane 4 = START then ⟨s.queue, some ((false, PRE) :: w.lanes 5 bw)⟩
    else s
  | some l => take w bw 0 l s.queue

/-- a source connected to a sink; `words` are the words driven so far, the sink sees the last one with the next clock -/
structure Sys where
  src : Src
  snk : Snk
  words : List Word

def init : Sys := ⟨⟨[], [], 0, 0⟩, ⟨[], none⟩, []⟩

inductive Ev where
  /-- `send`, xgmii_ep.py:127-128 -/
  | send (f : Frame)
  /-- a clock edge, with `enable` of both sides -/
  | clk (enable : Bool)

def Sys.step (c : Cfg) (s : Sys) : Ev → Option Sys
  | .send f => some { s with src := { s.src with queue := s.src.queue ++ [f] } }
  | .clk false => some s
  | .clk true => (s.src.step c).map fun r => ⟨r.1, s.snk.step c.bw (s.words.getLast?.getD (idleWord c.bw)), s.words ++ [r.2]⟩

def run (c : Cfg) (s : Sys) (evs : List Ev) : Option Sys := evs.foldlM (Sys.step c) s

end Corundum.Xgmii
