/-!
DMA client, stream to RAM: fpga/lib/pcie/rtl/dma_client_axis_sink.v, as used by mqnic_interface_rx.v:625-643.

One step per descriptor accepted or data transfer accepted: the registers change in no other cycles (lines 314-466), apart
from those loaded with the descriptor input while idle. The command FIFOs, the status FIFO and the completion of
writes are in `Model/DmaSinkDone`. Simplified: `AXIS_LAST_ENABLE` is 1, `AXIS_KEEP_ENABLE` is 1 (with one lane it is 0,
which makes no difference if `tkeep` is 1), the number of lanes, of segments and of lanes of a segment are powers of two,
`tid`, `tdest`, `tuser` are one field, which is only copied.
-/
namespace Corundum.DmaSink

/-- logarithms of AXIS_KEEP_WIDTH, of PART_COUNT (line 127) and of SEG_BE_WIDTH, RAM_ADDR_WIDTH, LEN_WIDTH -/
structure Cfg where
  ko : Nat
  po : Nat
  so : Nat
  aw : Nat
  lw : Nat
deriving DecidableEq, Repr

/-- AXIS_KEEP_WIDTH_INT, line 123 -/
def Cfg.k (c : Cfg) : Nat := 2 ^ c.ko

/-- bytes of a RAM word: SEG_COUNT*SEG_BE_WIDTH, line 127 -/
def Cfg.w (c : Cfg) : Nat := 2 ^ (c.ko + c.po)

/-- SEG_COUNT -/
def Cfg.segs (c : Cfg) : Nat := 2 ^ (c.ko + c.po - c.so)

/-- PART_OFFSET_WIDTH, line 129: 1 for one lane -/
def Cfg.partOffsetWidth (c : Cfg) : Nat := if c.k > 1 then c.ko else 1

/-- CYCLE_COUNT_WIDTH, line 138 -/
def Cfg.countWidth (c : Cfg) : Nat := c.lw - c.ko + 1

/-- a descriptor: `s_axis_write_desc_*` -/
structure Desc where
  addr : Nat
  len : Nat
  tag : Nat
deriving DecidableEq, Repr

/-- a transfer: `s_axis_write_data_*` -/
structure Beat where
  data : List Nat
  keep : Nat
  last : Bool
  user : Nat
deriving DecidableEq, Repr

/-- a write command of one segment, lines 569-572 -/
structure Cmd where
  seg : Nat
  addr : Nat
  be : Nat
  data : List Nat
deriving DecidableEq, Repr

/-- an entry of the status FIFO, lines 205-211 -/
structure Entry where
  len : Nat
  tag : Nat
  user : Nat
  mask : List Bool
  last : Bool
deriving DecidableEq, Repr

inductive Phase where
  | idle | write | drop
deriving DecidableEq, Repr

/-- lines 188-200 -/
structure St where
  phase : Phase
  addr : Nat
  keepMask : Nat
  lastOffset : Nat
  length : Nat
  count : Nat
  last : Bool
  tag : Nat
deriving DecidableEq, Repr

/-- lines 189-200 and the reset, line 530 -/
def init : St := ⟨.idle, 0, 0, 0, 0, 0, false, 0⟩

/-- the mask of the lanes of a cycle, lines 328-332, 356-360 -/
def mask (c : Cfg) (count offset : Nat) : Nat :=
  if count = 0 ∧ offset ≠ 0 then (2 ^ c.k - 1) >>> (c.k - offset) else 2 ^ c.k - 1

/-- a descriptor is accepted, lines 317-343; `len - 1` is taken with the 32 bits of the literal -/
def load (c : Cfg) (d : Desc) : St :=
  let count := ((d.len + 2 ^ 32 - 1) % 2 ^ 32) >>> c.ko % 2 ^ c.countWidth
  { phase := .write
    addr := d.addr / c.k * c.k % 2 ^ c.aw
    keepMask := mask c count (d.len % c.k)
    lastOffset := d.len % c.k
    length := 0
    count := count
    last := decide (count = 0)
    tag := d.tag }

/-- the byte enables of all segments, lines 362-366 -/
def enables (c : Cfg) (s : St) (b : Beat) : Nat :=
  let km := b.keep &&& s.keepMask
  if c.po > 0 then km <<< (s.addr &&& ((2 ^ c.po - 1) <<< c.partOffsetWidth)) % 2 ^ c.w else km

/-- the byte enables of one segment, line 284 -/
def segBe (c : Cfg) (be n : Nat) : Nat := (be >>> (n * 2 ^ c.so)) % 2 ^ (2 ^ c.so)

/-- `ram_wr_cmd_mask`, lines 283-285 -/
def segMask (c : Cfg) (be : Nat) : List Bool := (List.range c.segs).map fun n => decide (segBe c be n ≠ 0)

/-- the commands of a transfer, lines 362-369: the data is repeated in all parts -/
def cmds (c : Cfg) (s : St) (b : Beat) : List Cmd :=
  ((List.range c.segs).filter fun n => decide (segBe c (enables c s b) n ≠ 0)).map fun n =>
    ⟨n, s.addr >>> (c.ko + c.po), segBe c (enables c s b) n,
      (List.range (2 ^ c.so)).map fun j => b.data.getD ((n * 2 ^ c.so + j) % c.k) 0⟩

/-- `cycle_size`, lines 383-388: the lowest lane that is not enabled -/
def cycleSize (c : Cfg) (km : Nat) : Nat :=
  (List.range c.k).reverse.foldl (fun x i => if !km.testBit i then i else x) c.k

/-- a transfer in STATE_WRITE, lines 349-444 -/
def write (c : Cfg) (s : St) (b : Beat) : St × List Cmd × Entry :=
  let km := b.keep &&& s.keepMask
  let count := (s.count + 2 ^ c.countWidth - 1) % 2 ^ c.countWidth
  let t := { s with
    addr := (s.addr + c.k) % 2 ^ c.aw
    length := (s.length + c.k) % 2 ^ c.lw
    count := count
    last := decide (count = 0)
    keepMask := mask c count s.lastOffset }
  let entry : Nat → Bool → Entry := fun len last => ⟨len, s.tag, b.user, segMask c (enables c s b), last⟩
  if b.last then
    let len :=
      if s.last && decide (s.lastOffset > 0) then
        if (List.range c.k).all fun i => !(km.testBit i && !((2 ^ c.k - 1) >>> (c.k - s.lastOffset)).testBit i) then
          (s.length + cycleSize c km) % 2 ^ c.lw
        else (s.length + s.lastOffset) % 2 ^ c.lw
      else (s.length + cycleSize c km) % 2 ^ c.lw
    ({ t with phase := .idle, length := len }, cmds c s b, entry len true)
  else if s.last then
    let len := if s.lastOffset > 0 then (s.length + s.lastOffset) % 2 ^ c.lw else t.length
    ({ t with phase := .drop, length := len }, cmds c s b, entry len true)
  else (t, cmds c s b, entry t.length false)

/-- what has been put out: state, commands and status FIFO entries in order -/
structure Out where
  st : St
  cmds : List Cmd
  entries : List Entry
deriving DecidableEq, Repr

/-- a transfer is accepted, lines 345-466; none is while idle (tready is 0, lines 264, 432, 456) -/
def Out.beat (c : Cfg) (o : Out) (b : Beat) : Out :=
  match o.st.phase with
  | .idle => o
  | .write =>
    let r := write c o.st b
    ⟨r.1, o.cmds ++ r.2.1, o.entries ++ [r.2.2]⟩
  | .drop => if b.last then { o with st := { o.st with phase := .idle } } else o

/-- a descriptor and the transfers of one frame -/
def Out.packet (c : Cfg) (o : Out) (p : Desc × List Beat) : Out :=
  p.2.foldl (Out.beat c) { o with st := load c p.1 }

def run (c : Cfg) (ps : List (Desc × List Beat)) : Out := ps.foldl (Out.packet c) ⟨init, [], []⟩

/-- the RAM: a command writes the enabled bytes of its segment; the bytes of a word are spread over the
segments in order, as in dma_psdp_ram.v -/
def ramCmd (c : Cfg) (m : Nat → Nat) (x : Cmd) : Nat → Nat :=
  (List.range (2 ^ c.so)).foldl (fun m j =>
    if x.be.testBit j then
      (fun y => if y = (x.addr * c.segs + x.seg) * 2 ^ c.so + j then x.data.getD j 0 else m y)
    else m) m

/-- the status reported: entries with `last`, lines 468-484 -/
def reported (es : List Entry) : List (Nat × Nat × Nat) :=
  (es.filter (·.last)).map fun e => (e.len, e.tag, e.user)

end Corundum.DmaSink
