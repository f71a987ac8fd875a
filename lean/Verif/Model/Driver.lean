import Verif.Spec.Segments
/-
Model of the data path of the Python driver, `fpga/common/tb/mqnic.py`:

* `Driver.alloc_pkt` / `free_pkt`           lines 1780-1791  -> `allocPkt`, `freePkt`
* `Interface.start_xmit`                    lines 1482-1539  -> `startXmit`
* `Txq.free_desc`, `Rxq.free_desc`          lines 801-804, 983-986 -> `freeDesc`
* `Txq.process_tx_cq`, `Rxq.process_rx_cq`  lines 812-860, 1020-1084 -> `processCq` (up to the await),
                                             `scanRing` (ring scan after the await)
* `Rxq.prepare_desc`, `refill_buffers`      lines 994-1018 -> `prepareDesc`, `refill`
* `Txq.open`, `Rxq.open`, `Cq.open`         initial values -> `Ring.fresh`

and of the device as the environment (`devComplete`): it may complete any posted, not yet completed
position, in any order, as long as the completion queue has room.

Coroutines interleave only at `await`.  `start_xmit` has no await between the space check and
`prod_ptr += 1`; the completion loop has none up to `cq.cons_ptr = ...`; the ring scan and (for
receive) the refill up to `write_prod_ptr` have none.  Those are the atomic operations below, and they
may interleave arbitrarily, including several instances of the same handler.

Simplifications: Python ints are `Nat`/`Int`; buffers are numbered in order of allocation and region `b`
lives at `cfg.base b`; logging, counters, timestamps and checksum fields are omitted; `port_up` is
true; a `start_xmit` waiting for space is an operation that has not happened yet; the descriptor
memory and the completion records are kept as decoded values.
-/
namespace Corundum.Driver
open Segments

abbrev Byte := UInt8

/-- Function update. -/
def upd {α : Type} (f : Nat → α) (k : Nat) (v : α) : Nat → α := fun x => if x = k then v else f x

/-- Environment parameters: `pkt_buf_size`, absolute address of the b-th packet buffer region,
`max_tx_mtu`. -/
structure Cfg where
  bufSize : Nat
  base : Nat → Int
  maxTxMtu : Nat

/-- Fields of a completion record the driver uses: `cpl_data[1]`, `cpl_data[2]`, bit 31 of
`cpl_data[-1]` (mqnic.py:828-835). -/
structure Cpl where
  index : Nat
  len : Nat
  phase : Bool
  deriving DecidableEq, Repr

/-- A transmit or receive ring together with its completion queue. `info` is `tx_info`/`rx_info`. -/
structure Ring where
  isTx : Bool
  logSize : Nat
  blockSize : Nat
  prod : Nat
  cons : Nat
  info : Nat → Option Nat
  desc : Nat → List Seg
  cqLog : Nat
  cqBuf : Nat → Cpl
  cqCons : Nat

/-- `self.size = 2**self.log_queue_size` -/
def Ring.size (g : Ring) : Nat := 2 ^ g.logSize
/-- `self.size_mask = self.size-1` -/
def Ring.mask (g : Ring) : Nat := g.size - 1
/-- `self.full_size = self.size >> 1` -/
def Ring.fullSize (g : Ring) : Nat := g.size >>> 1
def Ring.cqSize (g : Ring) : Nat := 2 ^ g.cqLog
def Ring.cqMask (g : Ring) : Nat := g.cqSize - 1

/-- State after `open` (mqnic.py:713-747, 603-640, 895-929) before any refill. -/
def Ring.fresh (isTx : Bool) (logSize blockSize cqLog : Nat) : Ring :=
  { isTx, logSize, blockSize, prod := 0, cons := 0, info := fun _ => none, desc := fun _ => []
    cqLog, cqBuf := fun _ => ⟨0, 0, false⟩, cqCons := 0 }

/-- Driver state: rings (by number), packet buffer pool, host memory, received packet queue
(`pkt_rx_queue`, tagged with the ring the packet came from = `skb.queue`). -/
structure World where
  rings : Nat → Ring
  free : List Nat
  nalloc : Nat
  ram : Int → Byte
  rxq : List (Nat × List Byte)

/-- Exceptions the modelled code can raise. -/
inductive Err where
  | freeNone     -- `assert pkt is not None` (mqnic.py:1789)
  | freeUnknown  -- `assert pkt in self.allocated_packets` (mqnic.py:1790)
  | slotBusy     -- `assert not ring.tx_info[index]` (mqnic.py:1512)
  | nullPkt      -- `pkt[:length]` with `pkt = None` (mqnic.py:1049)
  | diverge      -- the completion loop does not stop
  deriving DecidableEq, Repr

def World.setRing (w : World) (r : Nat) (g : Ring) : World := { w with rings := upd w.rings r g }

/-- `alloc_pkt` (mqnic.py:1780-1786). -/
def allocPkt (w : World) : Nat × World :=
  match w.free with
  | b :: t => (b, { w with free := t })
  | [] => (w.nalloc, { w with nalloc := w.nalloc + 1 })

/-- `free_pkt` (mqnic.py:1788-1791). -/
def freePkt (w : World) (pkt : Option Nat) : Except Err World :=
  match pkt with
  | none => .error .freeNone
  | some b => if b < w.nalloc then .ok { w with free := w.free ++ [b] } else .error .freeUnknown

/-- `free_desc` (mqnic.py:801-804, 983-986). -/
def freeDesc (w : World) (r index : Nat) : Except Err World :=
  match freePkt w ((w.rings r).info index) with
  | .error e => .error e
  | .ok w' => .ok (w'.setRing r { w'.rings r with info := upd (w'.rings r).info index none })

/-- Store a byte list at consecutive/listed addresses. -/
def store (ram : Int → Byte) : List Int → List Byte → Int → Byte
  | a :: as, v :: vs => store (fun x => if x = a then v else ram x) as vs
  | _, _ => ram

/-- `pkt[:length]`: at most the whole region. -/
def readPkt (cfg : Cfg) (ram : Int → Byte) (b len : Nat) : List Byte :=
  (List.range (min len cfg.bufSize)).map (fun i : Nat => ram (cfg.base b + i))

/-- Result of `start_xmit`. -/
inductive XmitOut where
  | tooLong   -- `assert len(data) < self.max_tx_mtu` fails, nothing changed (mqnic.py:1488)
  | blocked   -- no space: the coroutine waits, nothing changed (mqnic.py:1497-1504)
  | sent
  deriving DecidableEq, Repr

/-- `start_xmit` (mqnic.py:1482-1539). -/
def startXmit (cfg : Cfg) (w : World) (r : Nat) (data : List Byte) : Except Err (World × XmitOut) :=
  if ¬ data.length < cfg.maxTxMtu then .ok (w, .tooLong)
  else
    let g := w.rings r
    if ¬ ((g.prod : Int) - g.cons < g.fullSize) then .ok (w, .blocked)
    else
      let index := g.prod &&& g.mask
      let (b, w) := allocPkt w
      if (g.info index).isSome then .error .slotBusy
      else
        let ptr := cfg.base b + 10
        let ram := store w.ram (block ptr data.length) data
        let g := { g with
          info := upd g.info index (some b)
          desc := upd g.desc index (txSegs data.length ptr g.blockSize)
          prod := g.prod + 1 }
        .ok ({ w with ram := ram }.setRing r g, .sent)

/-- The body of the completion loop for one valid record (mqnic.py:838-845 and 1043-1065). -/
def consumeOne (cfg : Cfg) (w : World) (r : Nat) (c : Cpl) : Except Err World :=
  let g := w.rings r
  let index := c.index &&& g.mask
  if g.isTx then freeDesc w r index
  else
    match g.info index with
    | none => .error .nullPkt
    | some b => freeDesc { w with rxq := w.rxq ++ [(r, readPkt cfg w.ram b c.len)] } r index

/-- The completion loop (mqnic.py:825-845, 1035-1065).  The loop variable `cq_cons_ptr` is kept in the
ring's `cqCons` field. `none` = out of fuel. -/
def cqLoop (cfg : Cfg) : Nat → World → Nat → Option (Except Err World)
  | 0, _, _ => none
  | fuel + 1, w, r =>
    let g := w.rings r
    let c := g.cqBuf (g.cqCons &&& g.cqMask)
    if c.phase = ((g.cqCons &&& g.cqSize) != 0) then some (.ok w)
    else
      match consumeOne cfg w r c with
      | .error e => some (.error e)
      | .ok w => cqLoop cfg fuel (w.setRing r { w.rings r with cqCons := (w.rings r).cqCons + 1 }) r

/-- First segment of the completion handler. -/
def processCq (cfg : Cfg) (w : World) (r : Nat) : Except Err World :=
  match cqLoop cfg ((w.rings r).cqSize + 1) w r with
  | none => .error .diverge
  | some x => x

/-- Ring scan loop (mqnic.py:851-857, 1070-1076), `n` = distance to `prod_ptr`.  (If `cons_ptr` were
beyond `prod_ptr` the real loop would not stop; shown unreachable.) -/
def scanTo (g : Ring) : Nat → Nat → Nat
  | 0, c => c
  | n + 1, c => if (g.info (c &&& g.mask)).isSome then c else scanTo g n (c + 1)

def scan (w : World) (r : Nat) : World :=
  let g := w.rings r
  w.setRing r { g with cons := scanTo g (g.prod - g.cons) g.cons }

/-- `Rxq.prepare_desc` at `prod_ptr & size_mask`, then `prod_ptr += 1` (mqnic.py:994-1006, 1015-1016). -/
def prepareDesc (cfg : Cfg) (w : World) (r : Nat) : World :=
  let g := w.rings r
  let index := g.prod &&& g.mask
  let (b, w) := allocPkt w
  w.setRing r { g with
    info := upd g.info index (some b)
    desc := upd g.desc index (rxSegs cfg.bufSize (cfg.base b) g.blockSize)
    prod := g.prod + 1 }

def prepareMany (cfg : Cfg) (w : World) (r : Nat) : Nat → World
  | 0 => w
  | n + 1 => prepareMany cfg (prepareDesc cfg w r) r n

/-- `Rxq.refill_buffers` (mqnic.py:1008-1018). -/
def refill (cfg : Cfg) (w : World) (r : Nat) : World :=
  let g := w.rings r
  let missing : Int := (g.size : Int) - ((g.prod : Int) - g.cons)
  if missing < 8 then w else prepareMany cfg w r missing.toNat

/-- Second segment of the completion handler: ring scan, and refill on receive rings. -/
def scanRing (cfg : Cfg) (w : World) (r : Nat) : World :=
  let w := scan w r
  if (w.rings r).isTx then w else refill cfg w r

/-! ### The device as environment -/

/-- Driver plus device history: `log r` is the list of completions the device has written for ring `r`
(ring position, received bytes), `sent r` the frames accepted by `start_xmit` on ring `r`. -/
structure Sys where
  w : World
  log : Nat → List (Nat × List Byte)
  sent : Nat → List (List Byte)

/-- What the device is allowed to complete: a position that has been posted and not completed before,
when the completion queue has a free entry (C10, C11, C14 are about the hardware keeping to this). -/
def DevOk (cfg : Cfg) (s : Sys) (r pos : Nat) (data : List Byte) : Prop :=
  pos < (s.w.rings r).prod ∧ pos ∉ (s.log r).map Prod.fst ∧
  (s.log r).length < (s.w.rings r).cqCons + (s.w.rings r).cqSize ∧
  data.length ≤ cfg.bufSize ∧ ((s.w.rings r).isTx = true → data = [])

instance (cfg s r pos data) : Decidable (DevOk cfg s r pos data) := by unfold DevOk; infer_instance

/-- The device completes position `pos` of ring `r`: on a receive ring it first stores `data` to the
addresses of that slot's descriptors; then it writes the completion record at its producer
position, with 16-bit index and length fields and the inverted wrap bit as phase. -/
def devComplete (s : Sys) (r pos : Nat) (data : List Byte) : Sys :=
  let g := s.w.rings r
  let n := (s.log r).length
  let ram := if g.isTx then s.w.ram
    else store s.w.ram (addresses (g.desc (pos % g.size))) data
  let rec' : Cpl := { index := pos % 65536, len := data.length % 65536, phase := !((n &&& g.cqSize) != 0) }
  { s with
    w := { s.w with ram := ram }.setRing r { g with cqBuf := upd g.cqBuf (n % g.cqSize) rec' }
    log := upd s.log r (s.log r ++ [(pos, data)]) }

/-- Operations that may happen next. -/
inductive Op where
  | xmit (r : Nat) (data : List Byte)
  | process (r : Nat)
  | scan (r : Nat)
  | refill (r : Nat)
  | dev (r pos : Nat) (data : List Byte)

/-- One atomic step.  `start_xmit` is called on transmit rings and `refill_buffers` on receive rings
(the methods exist on no other class); device actions outside `DevOk` do not happen. -/
def step (cfg : Cfg) (s : Sys) : Op → Except Err Sys
  | .xmit r data =>
    if (s.w.rings r).isTx then
      match startXmit cfg s.w r data with
      | .error e => .error e
      | .ok (w, .sent) => .ok { s with w := w, sent := upd s.sent r (s.sent r ++ [data]) }
      | .ok (w, _) => .ok { s with w := w }
    else .ok s
  | .process r =>
    match processCq cfg s.w r with
    | .error e => .error e
    | .ok w => .ok { s with w := w }
  | .scan r => .ok { s with w := scanRing cfg s.w r }
  | .refill r => if (s.w.rings r).isTx then .ok s else .ok { s with w := refill cfg s.w r }
  | .dev r pos data => if DevOk cfg s r pos data then .ok (devComplete s r pos data) else .ok s

/-- Run a history of operations. -/
def run (cfg : Cfg) (s : Sys) : List Op → Except Err Sys
  | [] => .ok s
  | op :: ops => match step cfg s op with
    | .error e => .error e
    | .ok s => run cfg s ops

/-- All rings freshly opened. -/
def Sys.init (ram : Int → Byte) (rings : Nat → Ring) : Sys :=
  { w := { rings := rings, free := [], nalloc := 0, ram := ram, rxq := [] }
    log := fun _ => [], sent := fun _ => [] }

end Corundum.Driver
