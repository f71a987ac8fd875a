/-!
GMII, MII and RGMII endpoints of the test bench, /repo/fpga/lib/eth/tb/gmii_ep.py, mii_ep.py, rgmii_ep.py.

Modelled: `build` and `parse` of frames, sources and sinks with their clock by clock logic, a source connected to a sink, the double data rate logic of RGMII.  An exception is `none`.  Not modelled: reset in operation,
changes of `mii_select` in operation, printing.
-/
namespace Corundum.Gmii

/-- the endpoints: GMII, GMII with `mii_select`, MII -/
inductive Kind where
  | gmii | gmiiMii | mii
deriving DecidableEq

/-- `error` of a frame, gmii_ep.py:47-50: not given, a nonzero number, a list with a flag for each byte -/
inductive Err where
  | none
  | flag
  | list (l : List Bool)

/-- a frame, gmii_ep.py:28-36, mii_ep.py:28-36 -/
structure Frame where
  data : List Nat
  error : Err

/-- bytes with their error flags, gmii_ep.py:52-59: `self.error[i]` must be there -/
def pairs : List Nat → Err → Option (List (Nat × Bool))
  | [], _ => some []
  | b :: l, .list (e :: es) => (pairs l (.list es)).map ((b, e) :: ·)
  | _ :: _, .list [] => none
  | b :: l, e => (pairs l e).map ((b, false) :: ·)

/-- `er[-1] = 1`, gmii_ep.py:61-63 -/
def markLast : List (Nat × Bool) → Option (List (Nat × Bool))
  | [] => none
  | l => some (l.dropLast ++ (l.getLast?.map fun x => (x.1, true)).toList)

/-- two nibbles of a byte, low one first, gmii_ep.py:137-146, mii_ep.py:53-61 -/
def nibbles (l : List (Nat × Bool)) : List (Nat × Bool) := l.flatMap fun x => [(x.1 &&& 0x0f, x.2), (x.1 >>> 4, x.2)]

/-- what the source puts on the interface, gmii_ep.py:38-65, 131-146, mii_ep.py:38-72 -/
def Frame.build (k : Kind) (f : Frame) : Option (List (Nat × Bool)) :=
  match k, f.error with
  | .gmii, .flag => (pairs f.data .none).bind markLast
  | .gmii, e => pairs f.data e
  | .gmiiMii, .flag => ((pairs f.data .none).bind markLast).map nibbles
  | .gmiiMii, e => (pairs f.data e).map nibbles
  | .mii, .flag => ((pairs f.data .none).map nibbles).bind markLast
  | .mii, e => (pairs f.data e).map nibbles

/-- `txd`, `tx_en`, `tx_er` -/
structure Word where
  d : Nat
  en : Bool
  er : Bool
deriving DecidableEq

/-- cycles between frames, gmii_ep.py:126-129, mii_ep.py:163 -/
def gap : Kind → Nat
  | .gmii => 12
  | _ => 24

/-- a source: frames to send, rest of the frame being sent, `ifg_cnt` -/
structure Src where
  queue : List Frame
  dl : List (Nat × Bool)
  ifg : Nat

def off : Word := ⟨0, false, false⟩

/-- one clock of a source, gmii_ep.py:114-153, mii_ep.py:152-176 -/
def Src.step (k : Kind) (s : Src) : Option (Src × Word) :=
  if s.ifg > 0 then some ({ s with ifg := s.ifg - 1 }, off)
  else match s.dl with
    | x :: dl => some ({ s with dl := dl, ifg := if dl.length = 0 then gap k else s.ifg }, ⟨x.1, true, x.2⟩)
    | [] =>
      match s.queue with
      | f :: q =>
        match f.build k with
        | some (x :: dl) => some ({ s with queue := q, dl := dl }, ⟨x.1, true, x.2⟩)
        | _ => none
      | [] => some (s, off)

/-- a frame received -/
structure Rx where
  data : List Nat
  error : List Bool
deriving DecidableEq

/-- `odd`, `sync`, `b`, `be`, `d2`, `er2` -/
structure Nib where
  odd : Bool
  sync : Bool
  b : Nat
  be : Bool
  out : List (Nat × Bool)

/-- one nibble, gmii_ep.py:241-251, mii_ep.py:87-97 -/
def Nib.step (s : Nib) (x : Nat × Bool) : Nib :=
  let b := (x.1 &&& 0x0f) <<< 4 ||| s.b >>> 4
  let be := s.be || x.2
  let hit := !s.sync && decide (b = 0xD5)
  let odd := if hit then true else !s.odd
  { odd := odd, sync := s.sync || hit, b := b, be := if odd then false else be, out := if odd then s.out ++ [(b, be)] else s.out }

/-- bytes from nibbles, gmii_ep.py:233-253, mii_ep.py:79-100 -/
def repack (l : List (Nat × Bool)) : List (Nat × Bool) := (l.foldl Nib.step ⟨true, false, 0, false, []⟩).out

/-- `parse`, gmii_ep.py:67-72, 231-254, mii_ep.py:74-100 -/
def parse (k : Kind) (l : List (Nat × Bool)) : Rx :=
  let l := match k with
    | .gmii => l
    | _ => repack l
  ⟨l.map Prod.fst, l.map Prod.snd⟩

/-- a sink: frames received, the frame being received -/
structure Snk where
  queue : List Rx
  cur : Option (List (Nat × Bool))

/-- one clock of a sink, gmii_ep.py:220-262, mii_ep.py:236-257 -/
def Snk.step (k : Kind) (s : Snk) (w : Word) : Snk :=
  if w.en then { s with cur := some (s.cur.getD [] ++ [(w.d, w.er)]) }
  else match s.cur with
    | some l => ⟨if l.length > 0 then s.queue ++ [parse k l] else s.queue, none⟩
    | none => s

/-- a source connected to a sink; `words` are the words driven so far -/
structure Sys where
  src : Src
  snk : Snk
  words : List Word

def init : Sys := ⟨⟨[], [], 0⟩, ⟨[], none⟩, []⟩

inductive Ev where
  /-- `send`, gmii_ep.py:88-89, mii_ep.py:116-117 -/
  | send (f : Frame)
  /-- a clock edge, with `clk_enable` of both sides -/
  | clk (enable : Bool)

def Sys.step (k : Kind) (s : Sys) : Ev → Option Sys
  | .send f => some { s with src := { s.src with queue := s.src.queue ++ [f] } }
  | .clk false => some s
  | .clk true => (s.src.step k).map fun r => ⟨r.1, s.snk.step k (s.words.getLast?.getD off), s.words ++ [r.2]⟩

def run (k : Kind) (s : Sys) (evs : List Ev) : Option Sys := evs.foldlM (Sys.step k) s

/-! ### RGMII -/

/-- `gmii_txd_reg` etc., `txd` and `tx_ctl`, the variables `dat`, `ctl1`, `ctl2` of the sink, `gmii_rxd` etc. -/
structure Ddr where
  reg : Word
  txd : Nat
  ctl : Bool
  dat : Nat
  ctl1 : Bool
  ctl2 : Bool
  rx : Word

def Ddr.init : Ddr := ⟨off, 0, false, 0, false, false, off⟩

/-- rising edge, with the output of the GMII source, rgmii_ep.py:59-65 and 94-99.  The first one comes before the source starts, but changes nothing -/
def Ddr.posedge (mii : Bool) (s : Ddr) (g : Word) : Ddr :=
  { reg := g
    txd := if mii then s.txd else s.reg.d / 16 % 16
    ctl := xor s.reg.en s.reg.er
    dat := s.txd
    ctl1 := s.ctl
    ctl2 := s.ctl2
    rx := ⟨s.dat, s.ctl1, xor s.ctl1 s.ctl2⟩ }

/-- falling edge, rgmii_ep.py:56-58 and 100-102 -/
def Ddr.negedge (s : Ddr) : Ddr := { s with txd := s.reg.d % 16, ctl := s.reg.en, dat := s.dat ||| s.txd <<< 4, ctl2 := s.ctl }

/-- an RGMII source connected to a sink -/
structure RSys where
  src : Src
  tx : Word
  ddr : Ddr
  snk : Snk

def rinit : RSys := ⟨⟨[], [], 0⟩, off, Ddr.init, ⟨[], none⟩⟩

inductive REv where
  | send (f : Frame)
  /-- a clock cycle -/
  | clk

def RSys.step (k : Kind) (s : RSys) : REv → Option RSys
  | .send f => some { s with src := { s.src with queue := s.src.queue ++ [f] } }
  | .clk => (s.src.step k).map fun r => ⟨r.1, r.2, ((s.ddr.posedge (decide (k ≠ .gmii)) s.tx).negedge), s.snk.step k s.ddr.rx⟩

def rrun (k : Kind) (s : RSys) (evs : List REv) : Option RSys := evs.foldlM (RSys.step k) s

end Corundum.Gmii
