/-!
Routing of TLPs to one of several outputs: fpga/lib/pcie/rtl/pcie_tlp_demux.v, used by pcie_tlp_demux_bar.v (by BAR) and by
mqnic_core_pcie.v. One step per clock edge without reset. The FIFOs behind (FIFO_ENABLE) are left out. A cycle of the input is
the list of its valid segments, in order of position; data, strobe, header, sequence number, BAR, function and error of a segment
are one field, which is only copied; positions of segments are kept by the code and are not modelled.
-/
namespace Corundum.TlpDemux

/-- a segment of the input with `select` and `drop` of its position, lines 64-73, 102-103 -/
structure Seg where
  data : Nat
  sop : Bool
  eop : Bool
  sel : List Bool
  drop : Bool
deriving DecidableEq, Repr

/-- `select_reg`, `drop_reg`, `frame_reg` -/
structure Ctl where
  select : Nat
  drop : Bool
  frame : Bool
deriving DecidableEq, Repr

/-- registers; `out` are the segments with their bit in `out_tlp_valid_reg` set, with the port of that bit -/
structure St where
  ctl : Ctl
  out : List (Seg × Nat)
deriving DecidableEq, Repr

/-- initial values -/
def St.init : St := ⟨⟨0, false, false⟩, []⟩

/-- inputs: `enable`, valid segments, `out_tlp_ready` of the ports -/
structure In where
  enable : Bool
  segs : List Seg
  ready : List Bool
deriving DecidableEq, Repr

/-- the start of a TLP: the highest port selected, lines 279-294 -/
def pick (ports : Nat) (g : Seg) : Nat × Bool :=
  let x := (List.range ports).foldl (fun (x : Nat × Bool) p => if g.sel.getD p false then (p, false) else x) (0, true)
  (x.1, if g.drop then true else x.2)

/-- one segment, lines 278-302 -/
def segment (ports : Nat) (c : Ctl) (g : Seg) : Ctl × List (Seg × Nat) :=
  let c := if g.sop then ⟨(pick ports g).1, (pick ports g).2, true⟩ else c
  (if g.eop then { c with frame := false, drop := false } else c, if c.frame && !c.drop then [(g, c.select)] else [])

/-- all segments of a cycle, line 277 -/
def segments (ports : Nat) : Ctl → List Seg → Ctl × List (Seg × Nat)
  | c, [] => (c, [])
  | c, g :: gs =>
    ((segments ports (segment ports c g).1 gs).1, (segment ports c g).2 ++ (segments ports (segment ports c g).1 gs).2)

/-- `in_tlp_ready`, line 154 -/
def St.ready (ports : Nat) (s : St) (i : In) : Bool :=
  (s.out.isEmpty || (List.range ports).all fun p => i.ready.getD p false) && i.enable

/-- lines 245-330; the data registers are overwritten if input is taken -/
def St.step (ports : Nat) (s : St) (i : In) : St :=
  if s.ready ports i then
    ⟨(segments ports s.ctl i.segs).1, (segments ports s.ctl i.segs).2⟩
  else { s with out := s.out.filter fun e => !i.ready.getD e.2 false }

end Corundum.TlpDemux
