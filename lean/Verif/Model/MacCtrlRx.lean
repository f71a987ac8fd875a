import Verif.Model.MacCtrlTx
/-!
Reception of MAC control frames, fpga/lib/eth/rtl/mac_ctrl_rx.v: frames of the data stream that match are reported and
marked as bad on the data output.

The header registers are one list of bytes in the order of the frame: `mcf_eth_dst_reg[8*5 +: 8]` is at index 0,
`mcf_params_reg[8*k +: 8]` at index 16+k.  The wires `mcf_*_match` (RTL :196-213) are functions of the `_next` values that
the always block assigns before it uses them, so the model computes them from these values.
-/
namespace Corundum.MacCtrl

open Corundum.ArbMux (Skid)

/-- parameters: BYTE_LANES, MCF_PARAMS_SIZE, USE_READY, :36-46 -/
structure RxCfg where
  lanes : Nat
  params : Nat
  useReady : Bool

/-- configuration inputs, :92-104, vectors as lists of bytes, least significant first -/
structure Match where
  mcast : List Nat
  checkMcast : Bool
  ucast : List Nat
  checkUcast : Bool
  src : List Nat
  checkSrc : Bool
  etype : List Nat
  opLfc : List Nat
  checkLfc : Bool
  opPfc : List Nat
  checkPfc : Bool
  forward : Bool
  enable : Bool

/-- registers of the parser, :153-155, :170-178 -/
structure Parse where
  read : Bool := true
  frame : Bool := false
  ptr : Nat := 0
  hdr : List Nat
  id : Nat := 0
  dest : Nat := 0
  user : Nat := 0
deriving DecidableEq, Repr

/-- the registers as outputs, :185-192 -/
def Parse.req (p : Parse) : Req :=
  { dst := (p.hdr.take 6).reverse
    src := ((p.hdr.drop 6).take 6).reverse
    etype := ((p.hdr.drop 12).take 2).reverse
    opcode := ((p.hdr.drop 14).take 2).reverse
    params := p.hdr.drop 16
    id := p.id, dest := p.dest, user := p.user }

/-- `mcf_match`, :196-213 -/
def Match.hit (m : Match) (r : Req) : Bool :=
  ((r.dst == m.mcast && m.checkMcast) || (r.dst == m.ucast && m.checkUcast) || (!m.checkMcast && !m.checkUcast)) &&
  (r.src == m.src || !m.checkSrc) && r.etype == m.etype &&
  ((r.opcode == m.opLfc && m.checkLfc) || (r.opcode == m.opPfc && m.checkPfc) || (!m.checkLfc && !m.checkPfc))

/-- lanes of a transfer taken into the header registers, :253-284 -/
def capture (c : RxCfg) (p : Nat) (b : Beat) (h : List Nat) : List Nat :=
  let h := if p == 0 / c.lanes then h.take 16 ++ List.replicate c.params 0 else h
  (List.range (16 + c.params)).foldl (fun h o => if p == o / c.lanes then h.set o (b.data.getD (o % c.lanes) 0) else h) h

/-- a transfer of the header, :246-296; PTR_WIDTH :116-118 -/
def absorb (c : RxCfg) (m : Match) (p : Parse) (b : Beat) : Parse :=
  if p.read then
    let q := { p with
      ptr := (p.ptr + 1) % 2 ^ RxHash.clog2 ((60 + c.lanes - 1) / c.lanes)
      id := b.id, dest := b.dest, user := b.user
      hdr := capture c p.ptr b p.hdr
      read := if p.ptr == 59 / c.lanes then false else true }
    { q with frame := if p.ptr == 15 / c.lanes && (c.lanes == 1 || b.keep.getD (13 % c.lanes) false) then m.hit q.req && m.enable else p.frame }
  else p

/-- end of a frame, :311-313 -/
def settle (p : Parse) (b : Beat) : Parse := if b.last then { p with read := true, frame := false, ptr := 0 } else p

/-- `mcf_valid_next`, :298-309 -/
def reports (p : Parse) (b : Beat) : Bool := b.last && b.user % 2 == 0 && p.frame

/-- the transfer on the data output: `m_axis_tuser_int[0]` set, :302-305 -/
def stamp (m : Match) (p : Parse) (b : Beat) : Beat := if reports p b && !m.forward then { b with user := b.user + 1 } else b

/-- all registers, :157, :170, :347-362; `stat_rx_mcf_reg` is as `mcf_valid_reg` -/
structure Rx where
  p : Parse
  sready : Bool := false
  valid : Bool := false
  out : Skid Beat := ⟨false, none, none⟩

/-- inputs of a cycle -/
structure RxIn where
  s : Option Beat := none
  ready : Bool := true

/-- the transfer accepted in a cycle, :245 -/
def Rx.take (c : RxCfg) (s : Rx) (i : RxIn) : Option Beat := if s.sready || !c.useReady then i.s else none

/-- what goes to the output registers, :222-229 -/
def Rx.offer (c : RxCfg) (m : Match) (s : Rx) (i : RxIn) : Option Beat :=
  match s.take c i with
  | some b => some (stamp m (absorb c m s.p b) b)
  | none => i.s

/-- one clock edge, :217-345, :378-444 -/
def Rx.step (c : RxCfg) (m : Match) (s : Rx) (i : RxIn) : Rx :=
  let r := i.ready || !c.useReady
  let offer := s.offer c m i
  let early := r || (s.out.temp.isNone && (s.out.m.isNone || offer.isNone))
  let out := s.out.step true offer r
  match s.take c i with
  | some b => { p := settle (absorb c m s.p b) b, sready := early || !c.useReady, valid := reports (absorb c m s.p b) b, out := out }
  | none => { p := s.p, sready := early || !c.useReady, valid := false, out := out }

/-- the registers before cycle n, from reset (:337-344, :439-443) on -/
def rx (c : RxCfg) (m : Match) (ins : Nat → RxIn) : Nat → Rx
  | 0 => { p := { hdr := List.replicate (16 + c.params) 0 } }
  | n + 1 => (rx c m ins n).step c m (ins n)

end Corundum.MacCtrl
