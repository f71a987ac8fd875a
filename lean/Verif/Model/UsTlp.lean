import Verif.Model.TlpPack

/-!
`TLP_us` and `USPcieFrame` of /repo/fpga/lib/pcie/tb/pcie_us.py (:59-645): the descriptors of the four UltraScale PCIe hard core
streams (CQ completer request, CC completer completion, RQ requester request, RC requester completion), their byte enables and parity.

Simplifications: `none` is a Python exception (`IndexError`, `AssertionError`, "Invalid packet type"); double words are natural
numbers; the unpack functions start from `TLP_us()`, as every caller in the file does.
-/
namespace Corundum.Pcie

/-- `dword_parity` (pcie_us.py:59-68) -/
def dwordParity (d : Nat) : Nat :=
  let d := d ^^^ (d >>> 4)
  let d := d ^^^ (d >>> 2)
  let d := d ^^^ (d >>> 1)
  (d &&& 0x1) ||| ((d &&& 0x100) >>> 7) ||| ((d &&& 0x10000) >>> 14) ||| ((d &&& 0x1000000) >>> 21)

/-- `USPcieFrame` (pcie_us.py:71-88) -/
structure Frame where
  data : List Nat := []
  byteEn : List Nat := []
  parity : List Nat := []
  firstBe : Nat := 0
  lastBe : Nat := 0
  discontinue : Bool := false
  seqNum : Nat := 0
deriving DecidableEq, Repr

/-- `update_parity` (pcie_us.py:90-91) -/
def Frame.updateParity (f : Frame) : Frame := { f with parity := f.data.map fun d => dwordParity d ^^^ 0xf }

/-- `check_parity` (pcie_us.py:93-94) -/
def Frame.checkParity (f : Frame) : Bool := f.parity == f.data.map fun d => dwordParity d ^^^ 0xf

/-- `TLP_us` (pcie_us.py:120-138) -/
structure UsTlp extends Tlp where
  barId : Nat := 0
  barAperture : Nat := 0
  completerIdEnable : Bool := false
  requesterIdEnable : Bool := false
  discontinue : Bool := false
  seqNum : Nat := 0
  errorCode : Nat := 0
deriving DecidableEq, Repr

/-- the `fmt_type` test of `pack_us_cq` (pcie_us.py:143-145) -/
def isCqType (t : Tlp) : Bool :=
  (t.fmt, t.typ) == (0, 2) || (t.fmt, t.typ) == (2, 2) || (t.fmt, t.typ) == (0, 0) || (t.fmt, t.typ) == (1, 0) ||
    (t.fmt, t.typ) == (2, 0) || (t.fmt, t.typ) == (3, 0)

/-- the request type of `pack_us_cq` and `pack_us_rq` (pcie_us.py:153-168, :364-388) for the types which pass the first test -/
def reqType (t : Tlp) : Nat :=
  if (t.fmt, t.typ) == (0, 0) || (t.fmt, t.typ) == (1, 0) then 0
  else if (t.fmt, t.typ) == (2, 0) || (t.fmt, t.typ) == (3, 0) then 1
  else if (t.fmt, t.typ) == (0, 2) then 2
  else if (t.fmt, t.typ) == (2, 2) then 3
  else if (t.fmt, t.typ) == (0, 4) then 8
  else if (t.fmt, t.typ) == (0, 5) then 9
  else if (t.fmt, t.typ) == (2, 4) then 10
  else if (t.fmt, t.typ) == (2, 5) then 11
  else 0

/-- byte enables of a payload (pcie_us.py:188-193, :253-258, :522-527, :576-581) -/
def byteEnables (first last n : Nat) : List Nat :=
  (if n ≥ 1 then [first] else []) ++ (if n > 2 then List.replicate (n - 2) 0xf else []) ++ (if n > 1 then [last] else [])

/-- `pack_us_cq` (pcie_us.py:140-202) -/
def packCq (t : UsTlp) : Option Frame :=
  if isCqType t.toTlp then
    some (Frame.updateParity {
      data := [(t.at' &&& 3) ||| (t.address &&& 0xfffffffc),
        (t.address &&& 0xffffffff00000000) >>> 32,
        (t.length &&& 0x7ff) ||| (reqType t.toTlp <<< 11) ||| (t.requester.toInt <<< 16),
        (t.tag &&& 0xff) ||| ((t.completer.fn &&& 0xff) <<< 8) ||| ((t.barId &&& 7) <<< 16) ||| ((t.barAperture &&& 0x3f) <<< 19) |||
          ((t.tc &&& 7) <<< 25) ||| ((t.attr &&& 7) <<< 28)] ++ t.data
      byteEn := [0, 0, 0, 0] ++ byteEnables t.firstBe t.lastBe t.data.length
      firstBe := t.firstBe, lastBe := t.lastBe, discontinue := t.discontinue })
  else none

/-- `fmt_type` from the request type (pcie_us.py:207-222, :418-441) -/
def reqFmtType : Nat → Option (Nat × Nat)
  | 0 => some (0, 0)
  | 1 => some (2, 0)
  | 2 => some (0, 2)
  | 3 => some (2, 2)
  | 4 => some (2, 0xC)
  | 5 => some (2, 0xD)
  | 6 => some (2, 0xE)
  | 7 => some (0, 1)
  | 8 => some (0, 4)
  | 9 => some (0, 5)
  | 10 => some (2, 4)
  | 11 => some (2, 5)
  | _ => none

/-- 64-bit format iff the address needs it (pcie_us.py:237-241, :455-459) -/
def widen (fmt address : Nat) : Nat :=
  if address > 0xffffffff then (if fmt = 0 then 1 else if fmt = 2 then 3 else fmt) else fmt

/-- `TLP_us().unpack_us_cq(pkt, check_parity)` (pcie_us.py:204-269); types 8 and up are refused (:223-224) -/
def unpackCq (f : Frame) (chk : Bool) : Option UsTlp := do
  let w2 ← f.data[2]?
  let req := (w2 >>> 11) &&& 0xf
  if req ≥ 8 then none
  let ft ← reqFmtType req
  let w3 ← f.data[3]?
  let w0 ← f.data[0]?
  let w1 ← f.data[1]?
  let address := (w1 <<< 32) ||| (w0 &&& 0xfffffffc)
  let data := f.data.drop 4
  if f.byteEn != [0, 0, 0, 0] ++ byteEnables f.firstBe f.lastBe data.length then none
  if chk && !f.checkParity then none
  return { fmt := widen ft.1 address, typ := ft.2, length := w2 &&& 0x7ff, requester := Id.ofInt (w2 >>> 16), tag := w3 &&& 0xff
           tc := (w3 >>> 25) &&& 7, attr := (w3 >>> 28) &&& 7, at' := w0 &&& 3, address := address
           completer := ⟨0, 0, (w3 >>> 8) &&& 0xff⟩, barId := (w3 >>> 16) &&& 7, barAperture := (w3 >>> 19) &&& 0x3f
           firstBe := f.firstBe, lastBe := f.lastBe, discontinue := f.discontinue, data := data }

/-- `if b: l |= 1 << k` -/
def flag (b : Bool) (k : Nat) : Nat := if b then 1 <<< k else 0

/-- `TLP_CPL_LOCKED`, `TLP_CPL_LOCKED_DATA` (pcie.py:66-67) -/
def isLocked (t : Tlp) : Bool := (t.fmt, t.typ) == (0, 0xB) || (t.fmt, t.typ) == (2, 0xB)

/-- `pack_us_cc` (pcie_us.py:271-307) -/
def packCc (t : UsTlp) : Option Frame :=
  if isCpl t.toTlp then
    some (Frame.updateParity {
      data := [(t.lowerAddress &&& 0x7f) ||| ((t.at' &&& 3) <<< 8) ||| ((t.byteCount &&& 0x1fff) <<< 16) ||| flag (isLocked t.toTlp) 29,
        (t.length &&& 0x7ff) ||| ((t.status &&& 7) <<< 11) ||| (t.requester.toInt <<< 16),
        (t.tag &&& 0xff) ||| (t.completer.toInt <<< 8) ||| flag t.completerIdEnable 24 ||| ((t.tc &&& 7) <<< 25) |||
          ((t.attr &&& 7) <<< 28)] ++ t.data
      discontinue := t.discontinue })
  else none

/-- `TLP_us().unpack_us_cc(pkt, check_parity)` (pcie_us.py:309-338) -/
def unpackCc (f : Frame) (chk : Bool) : Option UsTlp := do
  let w0 ← f.data[0]?
  let w1 ← f.data[1]?
  let w2 ← f.data[2]?
  let length := w1 &&& 0x7ff
  if chk && !f.checkParity then none
  return { fmt := if length > 0 then 2 else 0, typ := if w0 &&& (1 <<< 29) != 0 then 0xB else 0xA
           lowerAddress := w0 &&& 0x7f, at' := (w0 >>> 8) &&& 3, byteCount := (w0 >>> 16) &&& 0x1fff
           length := length, status := (w1 >>> 11) &&& 7, requester := Id.ofInt (w1 >>> 16), completer := Id.ofInt (w2 >>> 8)
           completerIdEnable := (w2 >>> 24) &&& 1 != 0, tag := w2 &&& 0xff, tc := (w2 >>> 25) &&& 7, attr := (w2 >>> 28) &&& 7
           discontinue := f.discontinue, data := if length > 0 then (f.data.drop 3).take length else [] }

/-- `pack_us_rq` (pcie_us.py:340-413) -/
def packRq (t : UsTlp) : Option Frame :=
  if isCqType t.toTlp || isCfg t.toTlp then
    some (Frame.updateParity {
      data := (if isCqType t.toTlp then [(t.at' &&& 3) ||| (t.address &&& 0xfffffffc), (t.address &&& 0xffffffff00000000) >>> 32]
          else [(t.registerNumber &&& 0x3ff) <<< 2, 0]) ++
        [(t.length &&& 0x7ff) ||| (reqType t.toTlp <<< 11) ||| (t.requester.toInt <<< 16),
         (t.tag &&& 0xff) ||| (t.completer.toInt <<< 8) ||| flag t.requesterIdEnable 24 ||| ((t.tc &&& 7) <<< 25) |||
          ((t.attr &&& 7) <<< 28)] ++ t.data
      firstBe := t.firstBe, lastBe := t.lastBe, discontinue := t.discontinue, seqNum := t.seqNum })
  else none

/-- `TLP_us().unpack_us_rq(pkt, check_parity)` (pcie_us.py:415-482) -/
def unpackRq (f : Frame) (chk : Bool) : Option UsTlp := do
  let w2 ← f.data[2]?
  let req := (w2 >>> 11) &&& 0xf
  let ft ← reqFmtType req
  let w3 ← f.data[3]?
  let w0 ← f.data[0]?
  let w1 ← f.data[1]?
  let address := (w1 <<< 32) ||| (w0 &&& 0xfffffffc)
  if chk && !f.checkParity then none
  let t : UsTlp := {
    fmt := ft.1, typ := ft.2, length := w2 &&& 0x7ff, requester := Id.ofInt (w2 >>> 16), tag := w3 &&& 0xff
    tc := (w3 >>> 25) &&& 7, attr := (w3 >>> 28) &&& 7, completer := Id.ofInt (w3 >>> 8)
    requesterIdEnable := (w3 >>> 24) &&& 1 != 0, firstBe := f.firstBe, lastBe := f.lastBe, discontinue := f.discontinue
    seqNum := f.seqNum, data := f.data.drop 4 }
  if req < 8 then return { t with fmt := widen ft.1 address, at' := w0 &&& 3, address := address }
  else return { t with registerNumber := (w0 >>> 2) &&& 0x3ff }

/-- byte enables of a completion with data (pcie_us.py:512-527, :565-581); `& 3` of a negative Python integer is the remainder mod 4 -/
def cplByteEnables (t : Tlp) : List Nat :=
  let first := (0xf <<< (t.lowerAddress &&& 3)) &&& 0xf
  let last := if t.byteCount + (t.lowerAddress &&& 3) > t.length * 4 then 0xf
    else 0xf >>> ((4 - (t.byteCount : Int) - t.lowerAddress) % 4).toNat
  if t.data.length = 1 then byteEnables (first &&& last) 0 1 else byteEnables first last t.data.length

/-- `pack_us_rc` (pcie_us.py:484-538) -/
def packRc (t : UsTlp) : Option Frame :=
  if isCpl t.toTlp then
    some (Frame.updateParity {
      data := [(t.lowerAddress &&& 0xfff) ||| ((t.errorCode &&& 0xf) <<< 12) ||| ((t.byteCount &&& 0x1fff) <<< 16) |||
          flag (isLocked t.toTlp) 29,
        (t.length &&& 0x7ff) ||| ((t.status &&& 7) <<< 11) ||| (t.requester.toInt <<< 16),
        (t.tag &&& 0xff) ||| (t.completer.toInt <<< 8) ||| ((t.tc &&& 7) <<< 25) ||| ((t.attr &&& 7) <<< 28)] ++ t.data
      byteEn := [0, 0, 0] ++ cplByteEnables t.toTlp
      discontinue := t.discontinue })
  else none

/-- `TLP_us().unpack_us_rc(pkt, check_parity)` (pcie_us.py:540-591) -/
def unpackRc (f : Frame) (chk : Bool) : Option UsTlp := do
  let w0 ← f.data[0]?
  let w1 ← f.data[1]?
  let w2 ← f.data[2]?
  let length := w1 &&& 0x7ff
  let t : UsTlp := {
    fmt := if length > 0 then 2 else 0, typ := if w0 &&& (1 <<< 29) != 0 then 0xB else 0xA
    lowerAddress := w0 &&& 0xfff, errorCode := (w0 >>> 12) &&& 0xf, byteCount := (w0 >>> 16) &&& 0x1fff
    length := length, status := (w1 >>> 11) &&& 7, requester := Id.ofInt (w1 >>> 16), completer := Id.ofInt (w2 >>> 8)
    tag := w2 &&& 0xff, tc := (w2 >>> 25) &&& 7, attr := (w2 >>> 28) &&& 7
    discontinue := f.discontinue, data := if length > 0 then (f.data.drop 3).take length else [] }
  if f.byteEn != [0, 0, 0] ++ cplByteEnables t.toTlp then none
  if chk && !f.checkParity then none
  return t

end Corundum.Pcie
