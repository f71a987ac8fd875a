/-!
Flow control credits of TLPs: fpga/lib/pcie/rtl/pcie_tlp_fc_count.v. One step per clock edge without reset. Of a header only the format and type
(bits 120-127) and the length (bits 96-105) are modelled.
-/
namespace Corundum.FcCount

inductive Fc | p | np | cpl
deriving DecidableEq, Repr

/-- `tlp_fc_type`, lines 77-116; `none` is undefined -/
def fcType (x : BitVec 8) : Option Fc :=
  if x = 0b00000000 ∨ x = 0b00100000 ∨ x = 0b00000001 ∨ x = 0b00100001 then some .np
  else if x = 0b01000000 ∨ x = 0b01100000 then some .p
  else if x = 0b00000010 ∨ x = 0b01000010 ∨ x = 0b00000100 ∨ x = 0b01000100 ∨ x = 0b00000101 ∨ x = 0b01000101 then some .np
  else if x = 0b00110000 ∨ x = 0b00110001 ∨ x = 0b00110010 ∨ x = 0b00110011 ∨ x = 0b00110100 ∨ x = 0b00110101 then some .p
  else if x = 0b01110000 ∨ x = 0b01110001 ∨ x = 0b01110010 ∨ x = 0b01110011 ∨ x = 0b01110100 ∨ x = 0b01110101 then some .p
  else if x = 0b00001010 ∨ x = 0b01001010 ∨ x = 0b00001011 ∨ x = 0b01001011 then some .cpl
  else if x = 0b01001100 ∨ x = 0b01101100 ∨ x = 0b01001101 ∨ x = 0b01101101 ∨ x = 0b01001110 ∨ x = 0b01101110 then some .np
  else none

/-- a segment of the TLP bus -/
structure Seg where
  sop : Bool
  valid : Bool
  fmtType : BitVec 8
  len : BitVec 10
deriving DecidableEq, Repr

/-- the counters of a type: headers (4 bits) and data (9 bits) -/
structure Cnt where
  h : BitVec 4 := 0
  d : BitVec 9 := 0
deriving DecidableEq, Repr

structure St where
  p : Cnt := {}
  np : Cnt := {}
  cpl : Cnt := {}
deriving DecidableEq, Repr

/-- `seg_fc_d`, lines 147-150: only nine bits of the length are looked at -/
def segData (g : Seg) : Nat :=
  if g.fmtType.getLsbD 6 then ((if g.len.toNat % 512 = 0 then 512 else 0) + g.len.toNat % 512 + 3) / 4 else 0

/-- lines 154-155 and so on -/
def Cnt.add (c : Cnt) (d : Nat) : Cnt := ⟨c.h + 1, c.d + BitVec.ofNat 9 d⟩

/-- one segment, lines 146-163 -/
def seg (ready : Bool) (s : St) (g : Seg) : St :=
  if g.sop && g.valid && ready then
    match fcType g.fmtType with
    | some .p => { s with p := s.p.add (segData g) }
    | some .np => { s with np := s.np.add (segData g) }
    | some .cpl => { s with cpl := s.cpl.add (segData g) }
    | none => s
  else s

/-- the counters after an edge, lines 137-173; the state before is not used -/
def step (ready : Bool) (segs : List Seg) : St := segs.foldl (seg ready) {}

end Corundum.FcCount
