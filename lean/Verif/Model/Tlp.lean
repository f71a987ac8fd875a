import Verif.Model.Struct

/-!
Memory and IO transactions of the Python PCIe model: /repo/fpga/lib/pcie/tb/pcie.py, class `TLP` (:329-700), requesters
`Function.mem_write`, `RootComplex.mem_read`, `Function.mem_read`, `io_read`, `io_write` and the completers
`MemoryEndpoint.handle_*_tlp`, `RootComplex.handle_*_tlp`.

Simplifications
* All TLP fields are natural numbers, `PcieId` a triple. `none` is a Python exception (`struct.error`, failed `assert`).
* `math.ceil(x/4)` is exact (the code divides through floats, exact below 2^53).
* Transport (ports, delays, tags, timeouts) is left out: a request is handed to the completer, and the requester receives its
  completions in the order sent.
* A memory region is the list of its bytes; reading and assigning slices follows Python (`bytearray`). Regions with read/write
  callbacks are not modelled.
* `while` loops carry a fuel argument, started with the number of bytes to transfer.
-/
namespace Corundum.Pcie
open Corundum.Struct

/-- pcie.py:166-182 -/
structure Id where
  bus : Nat := 0
  dev : Nat := 0
  fn : Nat := 0
deriving DecidableEq, Repr

/-- `TLP.__init__` (pcie.py:330-353); `fmt`/`type` are kept apart as in the code. -/
structure Tlp where
  fmt : Nat := 0
  typ : Nat := 0
  tc : Nat := 0
  th : Nat := 0
  td : Nat := 0
  ep : Nat := 0
  attr : Nat := 0
  at' : Nat := 0
  length : Nat := 0
  completer : Id := {}
  status : Nat := 0
  bcm : Nat := 0
  byteCount : Nat := 0
  requester : Id := {}
  dest : Id := {}
  tag : Nat := 0
  firstBe : Nat := 0
  lastBe : Nat := 0
  lowerAddress : Nat := 0
  address : Nat := 0
  registerNumber : Nat := 0
  data : List Nat := []
deriving DecidableEq, Repr

/-- pcie.py:38-39, :42-43, :44-45, :61-62 -/
def isMemReq (t : Tlp) : Bool :=
  (t.fmt, t.typ) == (0, 0) || (t.fmt, t.typ) == (1, 0) || (t.fmt, t.typ) == (0, 1) || (t.fmt, t.typ) == (1, 1) ||
    (t.fmt, t.typ) == (2, 0) || (t.fmt, t.typ) == (3, 0)

/-- `check` (pcie.py:409-436). `0 > self.length > 1024` (:416) is never true. -/
def check (t : Tlp) : Bool :=
  (!(t.fmt == 2 || t.fmt == 3) || t.length == t.data.length) &&
  (!isMemReq t || t.length * 4 ≤ 0x1000 - (t.address &&& 0xfff)) &&
  (!((t.fmt, t.typ) == (0, 2) || (t.fmt, t.typ) == (2, 2)) || (t.length == 1 && t.lastBe == 0)) &&
  (!((t.fmt, t.typ) == (2, 0xA)) || t.length * 4 ≤ t.byteCount + (t.lowerAddress &&& 3) + 3)

/-- `set_completion` (pcie.py:438-449) on a new TLP -/
def setCompletion (t : Tlp) (completer : Id) (hasData : Bool) : Tlp :=
  { fmt := if hasData then 2 else 0, typ := 0xA, requester := t.requester, completer := completer, status := 0,
    attr := t.attr, tag := t.tag, tc := t.tc }

/-- `first_pad` and `last_pad` of `set_be` (pcie.py:470-471); Python `(addr+length-1) % 4` also for `addr+length = 0`. -/
def firstPad (addr : Nat) : Nat := addr % 4
def lastPad (addr length : Nat) : Nat := 3 - (addr + length + 3) % 4

/-- `set_be` (pcie.py:467-479) -/
def setBe (t : Tlp) (addr length : Nat) : Tlp :=
  let n := (length + firstPad addr + lastPad addr length + 3) / 4
  let f := (0xf <<< firstPad addr) &&& 0xf
  let l := 0xf >>> lastPad addr length
  { t with
    address := addr - addr % 4
    length := n
    firstBe := if n = 1 then f &&& l else f
    lastBe := if n = 1 then 0 else l }

/-- loop of `set_data` (pcie.py:484-485): four bytes make a little-endian double word; a shorter rest is a `struct.error` -/
def toDwords : List Nat → Option (List Nat)
  | [] => some []
  | a :: b :: c :: d :: rest => do
    let v ← unpackLE 4 [a, b, c, d]
    let vs ← toDwords rest
    return v :: vs
  | _ => none

/-- `set_data` (pcie.py:481-486) -/
def setData (t : Tlp) (bytes : List Nat) : Option Tlp :=
  (toDwords bytes).map fun d => { t with data := d, length := d.length }

/-- `set_be_data` (pcie.py:488-492) -/
def setBeData (t : Tlp) (addr : Nat) (bytes : List Nat) : Option Tlp :=
  setData (setBe t addr bytes.length) (List.replicate (firstPad addr) 0 ++ bytes ++
    List.replicate (lastPad addr bytes.length) 0)

/-- loops `data.extend(struct.pack('<L', dw))` (pcie.py:494-498, :2017-2020) -/
def toBytes : List Nat → Option (List Nat)
  | [] => some []
  | w :: ws => do
    let a ← packLE 4 w
    let b ← toBytes ws
    return a ++ b

/-- `get_first_be_offset` (pcie.py:500-509) -/
def firstBeOffset (t : Tlp) : Nat :=
  if t.firstBe &&& 7 = 0 then 3 else if t.firstBe &&& 3 = 0 then 2 else if t.firstBe &&& 1 = 0 then 1 else 0

/-- `get_last_be_offset` (pcie.py:511-524) -/
def lastBeOffset (t : Tlp) : Nat :=
  let be := if t.length = 1 then t.firstBe else t.lastBe
  if be &&& 0xf = 1 then 3 else if be &&& 0xe = 2 then 2 else if be &&& 0xc = 4 then 1 else 0

/-- `get_be_byte_count` (pcie.py:526-528) -/
def beByteCount (t : Tlp) : Nat := t.length * 4 - firstBeOffset t - lastBeOffset t

/-- `get_lower_address` (pcie.py:530-532): `+` binds tighter than `&`. -/
def getLowerAddress (t : Tlp) : Nat := t.address &&& (0x7c + firstBeOffset t)

/-! ### Regions -/

/-- Python `l[a:a+len(d)] = d` -/
def sliceSet (l : List Nat) (a : Nat) (d : List Nat) : List Nat := l.take a ++ d ++ l.drop (a + d.length)

/-! ### Memory write -/

/-- `byte_length` of `mem_write` (pcie.py:2080-2083, :4071-4074) -/
def writeLen (mps addr n : Nat) : Nat := min (min n ((128 <<< mps) - firstPad addr)) (0x1000 - (addr &&& 0xfff))

/-- loop of `mem_write` (pcie.py:2070-2089, :4061-4080): the TLPs sent. -/
def memWrite (mps : Nat) (req : Id) (attr tc : Nat) : Nat → Nat → List Nat → Option (List Tlp)
  | 0, _, _ => some []
  | fuel + 1, addr, data =>
    if data = [] then some [] else do
      let k := writeLen mps addr data.length
      let t ← setBeData { fmt := if addr > 0xffffffff then 3 else 2, typ := 0, requester := req, attr := attr, tc := tc }
        addr (data.take k)
      let ts ← memWrite mps req attr tc fuel (addr + k) (data.drop k)
      return t :: ts

/-- State of the scan over byte enables in the write handlers: `start_offset`, `offset`, region. -/
structure Scan where
  start : Option Nat
  offset : Nat
  region : List Nat
deriving DecidableEq, Repr

/-- `if start_offset is not None and offset != start_offset: self.write_region(addr+start_offset, data[start_offset:offset])` -/
def Scan.flush (addr : Nat) (data : List Nat) (s : Scan) : List Nat :=
  match s.start with
  | some a => if s.offset ≠ a then sliceSet s.region (addr + a) (slice data a s.offset) else s.region
  | none => s.region

/-- one byte-enable bit (pcie.py:2445-2453) -/
def Scan.bit (addr : Nat) (data : List Nat) (s : Scan) (en : Bool) : Scan :=
  if en then { s with start := some (s.start.getD s.offset), offset := s.offset + 1 }
  else { start := none, offset := s.offset + 1, region := s.flush addr data }

/-- `for k in range(4)` over a mask -/
def Scan.mask (addr : Nat) (data : List Nat) (m : Nat) (s : Scan) : Scan :=
  (List.range 4).foldl (fun s k => s.bit addr data (m &&& (1 <<< k) != 0)) s

/-- middle double words (pcie.py:2455-2459) -/
def Scan.middle (len : Nat) (s : Scan) : Scan :=
  if len > 2 then { s with start := some (s.start.getD s.offset), offset := s.offset + (len - 2) * 4 } else s

/-- last double word (pcie.py:2461-2475) -/
def Scan.last (addr : Nat) (data : List Nat) (t : Tlp) (s : Scan) : Scan :=
  if t.length > 1 then s.mask addr data t.lastBe else s

/-- `handle_mem_write_tlp` (pcie.py:2422-2483, :3586-3645) of the region that contains the address; `addr` is the offset in the region, `chk` the
address used in the 4k test (the offset in an endpoint, the full address in the root complex). -/
def handleMemWrite (region : List Nat) (addr chk : Nat) (t : Tlp) : Option (List Nat) :=
  if t.length * 4 > 0x1000 - (chk &&& 0xfff) then some region else do
    let data ← toBytes t.data
    let s := Scan.mask addr data t.firstBe ⟨none, 0, region⟩
    let s := s.middle t.length
    let s := s.last addr data t
    return s.flush addr data

/-- Endpoint whose BAR of `2^k` bytes is located at `base`: the region offset is `addr & ~bar_mask` (:1768, :2423-2430). -/
def epWrite (k : Nat) (region : List Nat) (t : Tlp) : Option (List Nat) :=
  handleMemWrite region (t.address % 2 ^ k) (t.address % 2 ^ k) t

/-- Root complex region at `base` (:3310-3314, :3335-3342). -/
def rcWrite (base : Nat) (region : List Nat) (t : Tlp) : Option (List Nat) :=
  handleMemWrite region (t.address - base) t.address t

/-! ### Memory read -/

/-- loop over completions of `handle_mem_read_tlp` (pcie.py:2381-2411, :3545-3574): `m`, `n`, `addr` -/
def cplLoop (mps : Nat) (completer : Id) (t : Tlp) (data : List Nat) : Nat → Nat → Nat → Nat → Option (List Tlp)
  | 0, _, _, _ => some []
  | fuel + 1, m, n, addr =>
    if m < t.length then do
      let d0 := t.length - m
      let d := if d0 > 32 <<< mps then (32 <<< mps) - ((addr &&& 0x7c) >>> 2) else d0
      let c ← setData { setCompletion t completer true with
        byteCount := beByteCount t - n, lowerAddress := addr &&& 0x7f } (slice data (m * 4) ((m + d) * 4))
      let cs ← cplLoop mps completer t data fuel (m + d) (n + (d * 4 - (addr &&& 3))) (addr + (d * 4 - (addr &&& 3)))
      return c :: cs
    else some []

/-- `handle_mem_read_tlp` (pcie.py:2364-2411, :3528-3574); a request across a 4k boundary is discarded. -/
def handleMemRead (mps : Nat) (completer : Id) (region : List Nat) (addr chk : Nat) (t : Tlp) : Option (List Tlp) :=
  if t.length * 4 > 0x1000 - (chk &&& 0xfff) then some [] else
    cplLoop mps completer t (slice region addr (addr + t.length * 4)) t.length 0 0 (t.address + firstBeOffset t)

def epRead (mps : Nat) (completer : Id) (k : Nat) (region : List Nat) (t : Tlp) : Option (List Tlp) :=
  handleMemRead mps completer region (t.address % 2 ^ k) (t.address % 2 ^ k) t

def rcRead (mps : Nat) (completer : Id) (base : Nat) (region : List Nat) (t : Tlp) : Option (List Tlp) :=
  handleMemRead mps completer region (t.address - base) t.address t

/-- receive loop of `mem_read` (pcie.py:2003-2024, :3994-4015) with the completions that arrive; no completion left is a timeout. -/
def recv (byteLength : Nat) : Nat → List Tlp → Option (List Nat)
  | m, cpls =>
    if m < byteLength then
      match cpls with
      | [] => none
      | c :: cs => do
        guard (c.status = 0)
        guard (c.length * 4 ≤ c.byteCount + 3 + (c.lowerAddress &&& 3))
        guard (c.byteCount = byteLength - m)
        guard (c.length ≤ c.data.length)
        let d ← toBytes (c.data.take c.length)
        let off := c.lowerAddress &&& 3
        let rest ← recv byteLength (m + (d.length - off)) cs
        return slice d off (off + c.byteCount) ++ rest
    else some []

/-- `byte_length` of `mem_read` (pcie.py:1995-1998, :3986-3989) -/
def readLen (mrrs addr n : Nat) : Nat := min (min n ((128 <<< mrrs) - firstPad addr)) (0x1000 - (addr &&& 0xfff))

/-- `RootComplex.mem_read` (pcie.py:3975-4020); `send` is the completer with its transport, `tag` the free tag taken for a request at
`addr`. -/
def rcMemRead (mrrs : Nat) (req : Id) (attr tc : Nat) (tag : Nat → Nat) (send : Tlp → Option (List Tlp)) :
    Nat → Nat → Nat → Option (List Nat)
  | 0, _, _ => some []
  | fuel + 1, addr, len =>
    if len = 0 then some [] else do
      let k := readLen mrrs addr len
      let t := setBe { fmt := if addr > 0xffffffff then 1 else 0, requester := req, tag := tag addr, attr := attr, tc := tc } addr k
      guard (check t)
      let cpls ← send t
      let d ← recv k 0 cpls
      let rest ← rcMemRead mrrs req attr tc tag send fuel (addr + k) (len - k)
      return d ++ rest

/-- `Function.mem_read` (pcie.py:1984-2029): the byte enables are set from the whole `length` (:1999) instead of `byte_length`.
`len` is `length - n`; `total` is `length`. -/
def fnMemRead (mrrs : Nat) (req : Id) (attr tc : Nat) (tag : Nat → Nat) (send : Tlp → Option (List Tlp)) (total : Nat) :
    Nat → Nat → Nat → Option (List Nat)
  | 0, _, _ => some []
  | fuel + 1, addr, len =>
    if len = 0 then some [] else do
      let k := readLen mrrs addr len
      let t := setBe { fmt := if addr > 0xffffffff then 1 else 0, requester := req, tag := tag addr, attr := attr, tc := tc } addr total
      guard (check t)
      let cpls ← send t
      let d ← recv k 0 cpls
      let rest ← fnMemRead mrrs req attr tc tag send total fuel (addr + k) (len - k)
      return d ++ rest

/-! ### IO and configuration accesses -/

/-- `byte_length` of the double-word accesses (pcie.py:1869, :1936, :3659, :3723, :3860, :3927) -/
def dwLen (addr n : Nat) : Nat := min n (4 - firstPad addr)

/-- loop of `io_write` (pcie.py:1929-1948, :3920-3939) -/
def ioWrite (req : Id) (tag : Nat → Nat) : Nat → Nat → List Nat → Option (List Tlp)
  | 0, _, _ => some []
  | fuel + 1, addr, data =>
    if data = [] then some [] else do
      let k := dwLen addr data.length
      let t ← setBeData { fmt := 2, typ := 2, requester := req, tag := tag addr } addr (data.take k)
      let ts ← ioWrite req tag fuel (addr + k) (data.drop k)
      return t :: ts

/-- `handle_io_write_tlp` (pcie.py:2312-2352, :3478-3519): the region after the write -/
def handleIoWrite (region : List Nat) (addr : Nat) (t : Tlp) : Option (List Nat) := do
  guard (t.length = 1)
  let data ← toBytes t.data
  return (Scan.mask addr data t.firstBe ⟨none, 0, region⟩).flush addr data

/-- State of the scan in `handle_io_read_tlp`: the answer assembled so far. -/
structure RScan where
  start : Option Nat
  offset : Nat
  data : List Nat
deriving DecidableEq, Repr

def RScan.flush (region : List Nat) (addr : Nat) (s : RScan) : List Nat :=
  match s.start with
  | some a => if s.offset ≠ a then
      s.data.take a ++ slice region (addr + a) (addr + s.offset) ++ s.data.drop s.offset else s.data
  | none => s.data

def RScan.bit (region : List Nat) (addr : Nat) (s : RScan) (en : Bool) : RScan :=
  if en then { s with start := some (s.start.getD s.offset), offset := s.offset + 1 }
  else { start := none, offset := s.offset + 1, data := s.flush region addr }

/-- `handle_io_read_tlp` (pcie.py:2258-2300, :3426-3466) -/
def handleIoRead (completer : Id) (region : List Nat) (addr : Nat) (t : Tlp) : Option Tlp := do
  guard (t.length = 1)
  let s := (List.range 4).foldl (fun s k => RScan.bit region addr s (t.firstBe &&& (1 <<< k) != 0)) ⟨none, 0, [0, 0, 0, 0]⟩
  let c ← setData (setCompletion t completer true) (s.flush region addr)
  return { c with byteCount := 4, length := 1 }

/-- `io_read` (pcie.py:1862-1888, :3853-3879), before the final `data[:length]` -/
def ioReadLoop (req : Id) (tag : Nat → Nat) (send : Tlp → Option Tlp) : Nat → Nat → Nat → Option (List Nat)
  | 0, _, _ => some []
  | fuel + 1, addr, len =>
    if len = 0 then some [] else do
      let k := dwLen addr len
      let t := setBe { fmt := 0, typ := 2, requester := req, tag := tag addr } addr k
      guard (check t)
      let c ← send t
      guard (c.status = 0)
      guard (c.length = 1)
      let w ← c.data.head?
      let d ← packLE 4 w
      let rest ← ioReadLoop req tag send fuel (addr + k) (len - k)
      return d.drop (firstPad addr) ++ rest

def ioRead (req : Id) (tag : Nat → Nat) (send : Tlp → Option Tlp) (addr len : Nat) : Option (List Nat) :=
  (ioReadLoop req tag send len addr len).map (·.take len)

end Corundum.Pcie
