import Verif.Model.ArbMux
import Verif.Model.RxHash
/-!
Transmission of MAC control frames, fpga/lib/eth/rtl/mac_ctrl_tx.v: requests for control frames are turned into
frames of 60 bytes and merged with the data stream; a pause request stops the data stream.

Vectors are lists of bytes, the byte `[8*k +: 8]` at index k.  The ID, DEST and USER fields are there (ID_ENABLE and so
on are 1), and BYTE_LANES is the number of lanes of the stream.
-/
namespace Corundum.MacCtrl

open Corundum.ArbMux (Skid)

/-- parameters, :35-45: BYTE_LANES and MCF_PARAMS_SIZE -/
structure Cfg where
  lanes : Nat
  params : Nat

/-- one transfer of an AXI stream, :54-61 -/
structure Beat where
  data : List Nat
  keep : List Bool
  last : Bool
  id : Nat
  dest : Nat
  user : Nat
deriving DecidableEq, Repr

/-- a request for a control frame, :78-86 -/
structure Req where
  dst : List Nat
  src : List Nat
  etype : List Nat
  opcode : List Nat
  params : List Nat
  id : Nat
  dest : Nat
  user : Nat
deriving DecidableEq, Repr

/-- CYCLE_COUNT, :105 (HDR_SIZE is 60, :103) -/
def Cfg.cycles (c : Cfg) : Nat := (60 + c.lanes - 1) / c.lanes

/-- the byte at offset o of a control frame, :256-280 -/
def field (c : Cfg) (r : Req) (o : Nat) : Nat :=
  if o < 6 then r.dst.getD (5 - o) 0
  else if o < 12 then r.src.getD (11 - o) 0
  else if o < 14 then r.etype.getD (13 - o) 0
  else if o < 16 then r.opcode.getD (15 - o) 0
  else if o - 16 < c.params then r.params.getD (o - 16) 0
  else 0

/-- the lanes of transfer p of a control frame, :249-282 -/
def place (c : Cfg) (r : Req) (p : Nat) : List Nat × List Bool :=
  (List.range 60).foldl (fun a o => if p == o / c.lanes then (a.1.set (o % c.lanes) (field c r o), a.2.set (o % c.lanes) true) else a)
    (List.replicate c.lanes 0, List.replicate c.lanes false)

/-- transfer p of a control frame, :245-287 -/
def ctrlBeat (c : Cfg) (r : Req) (p : Nat) : Beat :=
  { data := (place c r p).1, keep := (place c r p).2, last := p == 59 / c.lanes, id := r.id, dest := r.dest, user := r.user }

/-- registers, :141-148, :321-335 -/
structure Tx where
  data : Bool := false
  mcf : Bool := false
  ptr : Nat := 0
  sready : Bool := false
  mready : Bool := false
  ack : Bool := false
  stat : Bool := false
  out : Skid Beat := ⟨false, none, none⟩

/-- inputs of a cycle: the data stream, the control request, the pause request, `m_axis_tready` -/
structure TxIn where
  s : Option Beat := none
  mcfValid : Bool := false
  mcf : Req
  pause : Bool := false
  ready : Bool := true

/-- what goes into the output registers: `m_axis_*_int`, :177-297.  send_data_reg and send_mcf_reg are never both set
(shown in the proofs), so the order of the cases does not matter. -/
def Tx.offer (c : Cfg) (s : Tx) (i : TxIn) : Option Beat :=
  if s.mcf then if s.out.ready then some (ctrlBeat c i.mcf s.ptr) else none
  else if s.sready then i.s else none

/-- `m_axis_tready_int_early`, :351 -/
def Tx.early (c : Cfg) (s : Tx) (i : TxIn) : Bool :=
  i.ready || (s.out.temp.isNone && (s.out.m.isNone || (s.offer c i).isNone))

/-- one clock edge, :168-317 -/
def Tx.step (c : Cfg) (s : Tx) (i : TxIn) : Tx :=
  let early := s.early c i
  let out := s.out.step true (s.offer c i) i.ready
  if s.mcf then
    if s.out.ready then
      let ptr := (s.ptr + 1) % 2 ^ RxHash.clog2 c.cycles
      if s.ptr == 59 / c.lanes then
        { s with ptr := ptr, sready := early && !i.pause, mready := false, mcf := false, stat := true, out := out }
      else
        { s with ptr := ptr, sready := false, mready := (ptr == c.cycles - 1) && early, stat := false, out := out }
    else
      { s with sready := false, mready := (c.cycles == 1 || s.ptr == c.cycles - 1) && early, stat := false, out := out }
  else if s.data then
    match (if s.sready then i.s else none) with
    | some b =>
      if b.last then
        if i.mcfValid then
          { s with data := false, mcf := true, ptr := 0, sready := false, mready := (c.cycles == 1) && early, stat := false, out := out }
        else
          { s with data := false, sready := early && !i.pause, mready := false, stat := false, out := out }
      else { s with sready := early, mready := false, stat := false, out := out }
    | none => { s with sready := early, mready := false, stat := false, out := out }
  else
    match (if s.sready then i.s else none) with
    | some b =>
      if b.last then
        { s with sready := early && !i.mcfValid && !s.mready, mready := false, ack := false, stat := false, out := out }
      else
        { s with data := true, sready := early, mready := false, ack := false, stat := false, out := out }
    | none =>
      if i.mcfValid then
        { s with mcf := true, ptr := 0, sready := false, mready := (c.cycles == 1) && early, ack := i.pause, stat := false, out := out }
      else
        { s with sready := early && !i.pause, mready := false, ack := i.pause, stat := false, out := out }

/-- the registers before cycle n, from reset (:309-317, :412-416) on -/
def tx (c : Cfg) (ins : Nat → TxIn) : Nat → Tx
  | 0 => {}
  | n + 1 => (tx c ins n).step c (ins n)

end Corundum.MacCtrl
