import Verif.Model.Tlp

/-!
`TLP.pack` and `TLP.unpack` of /repo/fpga/lib/pcie/tb/pcie.py (:553-668), and `PcieId` (:166-192).

Simplification: `none` is a Python exception (`IndexError`, "Unknown TLP type"); double words are natural numbers.
-/
namespace Corundum.Pcie

/-- `PcieId.__int__` (pcie.py:191-192) -/
def Id.toInt (i : Id) : Nat := ((i.bus &&& 0xff) <<< 8) ||| ((i.dev &&& 0x1f) <<< 3) ||| (i.fn &&& 7)

/-- `PcieId.from_int` (pcie.py:182-184) -/
def Id.ofInt (v : Nat) : Id := ⟨(v >>> 8) &&& 0xff, (v >>> 3) &&& 0x1f, v &&& 7⟩

/-- pcie.py:48-51 -/
def isCfg (t : Tlp) : Bool :=
  (t.fmt, t.typ) == (0, 4) || (t.fmt, t.typ) == (2, 4) || (t.fmt, t.typ) == (0, 5) || (t.fmt, t.typ) == (2, 5)

/-- pcie.py:46-47 -/
def isIo (t : Tlp) : Bool := (t.fmt, t.typ) == (0, 2) || (t.fmt, t.typ) == (2, 2)

/-- pcie.py:64-67 -/
def isCpl (t : Tlp) : Bool :=
  (t.fmt, t.typ) == (0, 0xA) || (t.fmt, t.typ) == (2, 0xA) || (t.fmt, t.typ) == (0, 0xB) || (t.fmt, t.typ) == (2, 0xB)

/-- first double word (pcie.py:557-567) -/
def packHead (t : Tlp) : Nat :=
  (t.length &&& 0x3ff) ||| ((t.at' &&& 3) <<< 10) ||| ((t.attr &&& 3) <<< 12) ||| ((t.ep &&& 1) <<< 14) ||| ((t.td &&& 1) <<< 15) |||
    ((t.th &&& 1) <<< 16) ||| ((t.attr &&& 4) <<< 16) ||| ((t.tc &&& 7) <<< 20) ||| ((t.typ &&& 0x1f) <<< 24) ||| ((t.fmt &&& 7) <<< 29)

/-- `pack` (pcie.py:553-610). For a 64-bit address `l` is not cleared between the two address words (:588-592). -/
def pack (t : Tlp) : Option (List Nat) :=
  let payload := if t.fmt == 2 || t.fmt == 3 then t.data else []
  if isCfg t || isMemReq t || isIo t then
    let w1 := (t.firstBe &&& 0xf) ||| ((t.lastBe &&& 0xf) <<< 4) ||| ((t.tag &&& 0xff) <<< 8) ||| (t.requester.toInt <<< 16)
    if isCfg t then
      some ([packHead t, w1, ((t.registerNumber &&& 0x3ff) <<< 2) ||| (t.dest.toInt <<< 16)] ++ payload)
    else if t.fmt == 1 || t.fmt == 3 then
      let hi := (t.address >>> 32) &&& 0xffffffff
      some ([packHead t, w1, hi, hi ||| (t.address &&& 0xfffffffc)] ++ payload)
    else some ([packHead t, w1, t.address &&& 0xfffffffc] ++ payload)
  else if isCpl t then
    some ([packHead t,
      (t.byteCount &&& 0xfff) ||| ((t.bcm &&& 1) <<< 12) ||| ((t.status &&& 7) <<< 13) ||| (t.completer.toInt <<< 16),
      (t.lowerAddress &&& 0x7f) ||| ((t.tag &&& 0xff) <<< 8) ||| (t.requester.toInt <<< 16)] ++ payload)
  else none

/-- first double word of `unpack` (pcie.py:614-627) -/
def unpackHead (w : Nat) : Tlp :=
  let fmt := (w >>> 29) &&& 7
  let len := w &&& 0x3ff
  { length := if (fmt == 2 || fmt == 3) && len == 0 then 1024 else len
    at' := (w >>> 10) &&& 3
    attr := ((w >>> 12) &&& 3) ||| ((w >>> 16) &&& 4)
    ep := (w >>> 14) &&& 1, td := (w >>> 15) &&& 1, th := (w >>> 16) &&& 1, tc := (w >>> 20) &&& 7,
    typ := (w >>> 24) &&& 0x1f, fmt := fmt }

/-- payload of `unpack` (pcie.py:663-666) -/
def unpackData (t : Tlp) (pkt : List Nat) : Tlp :=
  if t.fmt == 2 then { t with data := pkt.drop 3 } else if t.fmt == 3 then { t with data := pkt.drop 4 } else t

/-- `TLP().unpack(pkt)` (pcie.py:612-668) -/
def unpack (pkt : List Nat) : Option Tlp := do
  let w0 ← pkt[0]?
  let t := unpackHead w0
  if isCfg t || isMemReq t || isIo t then
    let w1 ← pkt[1]?
    let t := { t with firstBe := w1 &&& 0xf, lastBe := (w1 >>> 4) &&& 0xf, tag := (w1 >>> 8) &&& 0xff, requester := Id.ofInt (w1 >>> 16) }
    if isCfg t then
      let w2 ← pkt[2]?
      return unpackData { t with registerNumber := (w2 >>> 2) >>> 0x3ff, dest := Id.ofInt (w2 >>> 16) } pkt
    else if t.fmt == 0 || t.fmt == 2 then
      let w3 ← pkt[3]?
      return unpackData { t with address := w3 &&& 0xfffffffc } pkt
    else if t.fmt == 1 || t.fmt == 3 then
      let w4 ← pkt[4]?
      return unpackData { t with address := ((w4 &&& 0xffffffff) <<< 32) ||| (w4 &&& 0xfffffffc) } pkt
    else return unpackData t pkt
  else if isCpl t then
    let w1 ← pkt[1]?
    let w2 ← pkt[2]?
    let bc := w1 &&& 0xfff
    return unpackData { t with
      byteCount := if bc == 0 then 4096 else bc, bcm := (w1 >>> 12) &&& 1, status := (w1 >>> 13) &&& 7, completer := Id.ofInt (w1 >>> 16)
      lowerAddress := w2 &&& 0x7f, tag := (w2 >>> 8) &&& 0xff, requester := Id.ofInt (w2 >>> 16) } pkt
  else none

end Corundum.Pcie
