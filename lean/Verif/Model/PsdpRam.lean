/-
Segmented ("parallel simple dual port") DMA RAM bus models.

Source: /repo/fpga/lib/pcie/tb/dma_psdp_ram.py: PsdpRamMasterWrite, PsdpRamMasterRead, PsdpRamWrite,
PsdpRamRead.

One clock edge is one `clk` event; coroutines woken between edges (`_process_write`,
`_process_write_resp`, ...) are separate events, so a run covers every order in which the simulator
may schedule them. Both sides sample the bus before either drives it, as in cocotb.

Simplifications.
* Reset is not modelled; a run starts from the state after construction.
* The bus carries, per segment, the operation the master drives and a valid flag; packing of the
  segments' fields into wide vectors (lines 285-292, 716-718) is not modelled, but each field is
  reduced to its width as there.
* `Memory.read`/`Memory.write` come from a dependency (cocotbext.axi) and are modelled as plain
  access to a byte array at least as large as the address space.
-/
namespace Corundum.PsdpRam

/-- Segment count, bytes per segment, segment address width: dma_psdp_ram.py:160-164. -/
structure Cfg where
  sc : Nat
  sbl : Nat
  saw : Nat
deriving DecidableEq, Repr

/-- Bytes covered by all segment addresses. -/
def Cfg.space (c : Cfg) : Nat := 2 ^ c.saw * (c.sc * c.sbl)

/-- SegWriteData: dma_psdp_ram.py:45-49. -/
structure Op where
  addr : Nat
  data : Nat
  be : Nat
deriving DecidableEq, Repr

/-- `val |= cmd.data[offset] << j*8` for successive `j`: dma_psdp_ram.py:260-263. -/
def putLanes : Nat → Nat → List Nat → Nat
  | acc, _, [] => acc
  | acc, j, d :: ds => putLanes (acc ||| d <<< (j * 8)) (j + 1) ds

/-- `segments`: dma_psdp_ram.py:234, 430. -/
def segments (c : Cfg) (addr len : Nat) : Nat := (len + addr % c.sbl + c.sbl - 1) / c.sbl

/-- The loop of `_process_write`, dma_psdp_ram.py:245-275, with `rem` passes left: the operations in
the order they are queued, each with its segment; the flag is false once a data index is out of
range. -/
def opsLoop (c : Cfg) (addr : Nat) (data : List Nat) : Nat → Nat → Nat → Nat → List (Nat × Op) × Bool
  | 0, _, _, _ => ([], true)
  | rem + 1, k, off, seg =>
    let so := addr % c.sbl
    let eo := (addr + data.length - 1) % c.sbl + 1
    let mask := 2 ^ c.sbl - 1
    let start := if k = 0 then so else 0
    let stop := if rem = 0 then eo else c.sbl
    let be0 := if k = 0 then mask &&& ((mask <<< so) &&& mask) else mask
    let be := if rem = 0 then be0 &&& (mask >>> (c.sbl - eo)) else be0
    let val := putLanes 0 start ((data.drop off).take (stop - start))
    let t := opsLoop c addr data rem (k + 1) (off + (stop - start)) ((seg + 1) % c.sc)
    ((seg, ⟨(addr + k * c.sbl) / (c.sc * c.sbl), val, be⟩) :: t.1,
      decide (off + (stop - start) ≤ data.length) && t.2)

/-- `_process_write` for one command: dma_psdp_ram.py:223-275. -/
def writeOps (c : Cfg) (addr : Nat) (data : List Nat) : List (Nat × Op) × Bool :=
  opsLoop c addr data (segments c addr data.length) 0 0 (addr / c.sbl % c.sc)

abbrev Mem := Nat → Nat

/-- `Memory.write(address, data)`. -/
def store (m : Mem) (a : Nat) (bs : List Nat) : Mem :=
  fun x => if h : a ≤ x ∧ x < a + bs.length then bs[x - a] else m x

/-- `int.to_bytes(n, 'little')`: dma_psdp_ram.py:727. -/
def toBytes (n v : Nat) : List Nat := (List.range n).map fun i => (v >>> (8 * i)) % 256

/-- The operation list of dma_psdp_ram.py:722-741 after `n` lanes: open run, and the writes so far. -/
def coalesce (base be : Nat) (data : List Nat) : Nat → Option Nat × List (Nat × List Nat)
  | 0 => (none, [])
  | n + 1 =>
    let t := coalesce base be data n
    if be.testBit n then (some (t.1.getD n), t.2)
    else
      match t.1 with
      | some s => (none, if n ≠ s then t.2 ++ [(base + s, (data.drop s).take (n - s))] else t.2)
      | none => (none, t.2)

/-- All writes of one operation: dma_psdp_ram.py:740-741. -/
def writesOf (base be : Nat) (data : List Nat) (n : Nat) : List (Nat × List Nat) :=
  let t := coalesce base be data n
  match t.1 with
  | some s => if n ≠ s then t.2 ++ [(base + s, (data.drop s).take (n - s))] else t.2
  | none => t.2

/-- PsdpRamWrite, one accepted operation of segment `seg`: dma_psdp_ram.py:715-745. -/
def exec (c : Cfg) (seg : Nat) (o : Op) (m : Mem) : Mem :=
  let sa := o.addr % 2 ^ c.saw
  let data := toBytes c.sbl (o.data % 2 ^ (8 * c.sbl))
  let be := o.be % 2 ^ c.sbl
  let base := (sa * c.sc + seg) * c.sbl
  (writesOf base be data (c.sc * c.sbl)).foldl (fun m w => store m w.1 w.2) m

/-- A pending response command: WriteRespCmd / ReadRespCmd, dma_psdp_ram.py:52-57, 77-82. -/
structure RespCmd where
  addr : Nat
  len : Nat
  segs : Nat
  first : Nat
deriving DecidableEq, Repr

/-- The write side: master queues and driven command per segment, RAM handshake, response
bookkeeping. `ready` is `cmd_ready` of the RAM model (the same bit for every segment). -/
structure WSys where
  q : Nat → List Op
  cmd : Nat → Option Op
  ready : Bool
  done : Nat → Bool
  respq : Nat → Nat
  rc : List RespCmd
  k : Nat
  completed : List (Nat × Nat)
  mem : Mem

inductive WEv where
  /-- `write(address, data)` taken by `_process_write`: dma_psdp_ram.py:200-220, 223-275 -/
  | write (addr : Nat) (data : List Nat)
  /-- clock edge, with the pause flags of the master and of the RAM -/
  | clk (mp rp : Bool)
  /-- one step of `_process_write_resp` -/
  | resp

def upd {α : Type} (f : Nat → α) (i : Nat) (v : α) : Nat → α := fun j => if j = i then v else f j

/-- Append each operation to its segment's queue: dma_psdp_ram.py:272. -/
def enqueue {α : Type} (q : Nat → List α) : List (Nat × α) → (Nat → List α)
  | [] => q
  | (s, o) :: t => enqueue (upd q s (q s ++ [o])) t

/-- PsdpRamWrite._run for one segment, dma_psdp_ram.py:714-750. -/
def ramSeg (c : Cfg) (ready : Bool) (cmd : Option Op) (n : Nat) (m : Mem) : Mem :=
  match cmd with
  | some o => if ready then exec c n o m else m
  | none => m

/-- PsdpRamWrite._run over the segments, dma_psdp_ram.py:714-750. -/
def ramWrite (c : Cfg) (ready : Bool) (cmd : Nat → Option Op) : Nat → Mem → Mem
  | 0, m => m
  | n + 1, m => ramSeg c ready (cmd n) n (ramWrite c ready cmd n m)

/-- One event. `clk`: dma_psdp_ram.py:303-334 (master) and 703-757 (RAM). `resp`:
dma_psdp_ram.py:277-300. -/
def WSys.step (c : Cfg) (s : WSys) : WEv → WSys
  | .write a d =>
    { s with
      q := enqueue s.q (writeOps c a d).1
      rc := s.rc ++ [⟨a, d.length, segments c a d.length, a / c.sbl % c.sc⟩] }
  | .clk mp rp =>
    { s with
      mem := ramWrite c s.ready s.cmd c.sc s.mem
      done := fun i => s.ready && (s.cmd i).isSome
      ready := !rp
      cmd := fun i => if s.ready || (s.cmd i).isNone then (if mp then none else (s.q i).head?) else s.cmd i
      q := fun i => if s.ready || (s.cmd i).isNone then (if mp then s.q i else (s.q i).tail) else s.q i
      respq := fun i => if s.done i then s.respq i + 1 else s.respq i }
  | .resp =>
    match s.rc with
    | [] => s
    | r :: rest =>
      if s.k < r.segs then
        let seg := (r.first + s.k) % c.sc
        if 0 < s.respq seg then
          { s with respq := upd s.respq seg (s.respq seg - 1), k := s.k + 1 }
        else s
      else { s with rc := rest, k := 0, completed := s.completed ++ [(r.addr, r.len)] }

/-- State after construction, with memory contents `m`. -/
def WSys.init (m : Mem) : WSys :=
  ⟨fun _ => [], fun _ => none, false, fun _ => false, fun _ => 0, [], 0, [], m⟩

def WSys.run (c : Cfg) (s : WSys) (es : List WEv) : WSys := es.foldl (WSys.step c) s

/-- The commands issued in a run. -/
def issued : List WEv → List (Nat × List Nat)
  | [] => []
  | .write a d :: t => (a, d) :: issued t
  | _ :: t => issued t

/-! ### Read side -/

/-- `_process_read`: dma_psdp_ram.py:425-448: segment addresses in queue order. -/
def addrLoop (c : Cfg) (addr : Nat) : Nat → Nat → Nat → List (Nat × Nat)
  | 0, _, _ => []
  | rem + 1, k, seg =>
    (seg, (addr + k * c.sbl) / (c.sc * c.sbl)) :: addrLoop c addr rem (k + 1) ((seg + 1) % c.sc)

def readAddrs (c : Cfg) (addr len : Nat) : List (Nat × Nat) :=
  addrLoop c addr (segments c addr len) 0 (addr / c.sbl % c.sc)

/-- `int.from_bytes(data, 'little')`. -/
def fromBytes : List Nat → Nat
  | [] => 0
  | b :: bs => b + 256 * fromBytes bs

/-- PsdpRamRead, one accepted command: dma_psdp_ram.py:868-875. -/
def fetch (c : Cfg) (m : Mem) (seg a : Nat) : Nat :=
  fromBytes ((List.range c.sbl).map fun i => m ((a % 2 ^ c.saw * c.sc + seg) * c.sbl + i))

/-- `_process_read_resp`, the lanes taken from response `k`: dma_psdp_ram.py:463-474. -/
def takeLanes (c : Cfg) (r : RespCmd) (k v : Nat) : List Nat :=
  let start := if k = 0 then r.addr % c.sbl else 0
  let stop := if k = r.segs - 1 then (r.addr + r.len - 1) % c.sbl + 1 else c.sbl
  (List.range (stop - start)).map fun i => (v >>> ((start + i) * 8)) % 256

/-- The read side: per segment, queued addresses, the driven command, the RAM pipeline slot
(dma_psdp_ram.py:826), the driven response, the response queue. `mready` is `resp_ready` of the
master. -/
structure RSys where
  q : Nat → List Nat
  cmd : Nat → Option Nat
  ready : Nat → Bool
  pipe : Nat → Option Nat
  resp : Nat → Option Nat
  mready : Bool
  respq : Nat → List Nat
  rc : List RespCmd
  k : Nat
  acc : List Nat
  completed : List (Nat × List Nat)

inductive REv where
  /-- `read(address, length)` taken by `_process_read`: dma_psdp_ram.py:404-448 -/
  | read (addr len : Nat)
  | clk (mp rp : Bool)
  | resp

/-- RAM response register of a segment after an edge: dma_psdp_ram.py:853-861. -/
def RSys.resp' (s : RSys) (i : Nat) : Option Nat :=
  if s.mready || (s.resp i).isNone then s.pipe i else s.resp i

/-- RAM pipeline slot after an edge: dma_psdp_ram.py:857, 868-875. -/
def RSys.pipe' (c : Cfg) (m : Mem) (s : RSys) (i : Nat) : Option Nat :=
  match s.ready i, s.cmd i with
  | true, some a => some (fetch c m i a)
  | _, _ => if s.mready || (s.resp i).isNone then none else s.pipe i

/-- One event. `clk`: dma_psdp_ram.py:492-539 (master) and 832-893 (RAM). `resp`:
dma_psdp_ram.py:450-490. -/
def RSys.step (c : Cfg) (m : Mem) (s : RSys) : REv → RSys
  | .read a l =>
    { s with
      q := enqueue s.q (readAddrs c a l)
      rc := s.rc ++ [⟨a, l, segments c a l, a / c.sbl % c.sc⟩] }
  | .clk mp rp =>
    { s with
      resp := s.resp'
      pipe := s.pipe' c m
      ready := fun i => !rp && ((s.resp' i).isNone || (s.pipe' c m i).isNone)
      mready := !mp
      cmd := fun i => if s.ready i || (s.cmd i).isNone then (if mp then none else (s.q i).head?) else s.cmd i
      q := fun i => if s.ready i || (s.cmd i).isNone then (if mp then s.q i else (s.q i).tail) else s.q i
      respq := fun i => match s.mready, s.resp i with
        | true, some v => s.respq i ++ [v]
        | _, _ => s.respq i }
  | .resp =>
    match s.rc with
    | [] => s
    | r :: rest =>
      if s.k < r.segs then
        let seg := (r.first + s.k) % c.sc
        match s.respq seg with
        | [] => s
        | v :: vs => { s with respq := upd s.respq seg vs, k := s.k + 1, acc := s.acc ++ takeLanes c r s.k v }
      else { s with rc := rest, k := 0, acc := [], completed := s.completed ++ [(r.addr, s.acc)] }

def RSys.init : RSys :=
  ⟨fun _ => [], fun _ => none, fun _ => false, fun _ => none, fun _ => none, false, fun _ => [], [], 0, [], []⟩

def RSys.run (c : Cfg) (m : Mem) (s : RSys) (es : List REv) : RSys := es.foldl (RSys.step c m) s

def rissued : List REv → List (Nat × Nat)
  | [] => []
  | .read a l :: t => (a, l) :: rissued t
  | _ :: t => rissued t

end Corundum.PsdpRam
