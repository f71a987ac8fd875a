/-
AXI bus models: the master that turns byte transfers into bursts, and the memory that serves them.

Source: /repo/fpga/lib/axi/tb/axi.py.

Simplifications.
* The five AXI channels carry their queue entries in order and without loss (the valid/ready loops
  of lines 341-408, 538-596 and 753-822 are not stepped cycle by cycle); every process is a
  deterministic consumer of its queues, so its result is a function of the queue contents.
* `int(a/b)` is floating point division in the source; it is modelled as exact division, which agrees
  below 2^53.
* Side-band fields (lock, cache, prot, qos, region, user) are passed through untouched in the source
  and left out here.
* A failed `assert`, an index error or a simulation stop is the result `none`.
-/
namespace Corundum.Axi

/-- axi.py:29-31. -/
abbrev FIXED : Nat := 0
abbrev INCR : Nat := 1
abbrev WRAP : Nat := 2

/-- Entry of the write or read address queue: axi.py:308 (`cur_addr, awid, burst_length-1, size,
burst`) and 450. -/
structure Addr where
  addr : Nat
  id : Nat
  len : Nat
  size : Nat
  burst : Nat
deriving DecidableEq, Repr

/-- Entry of the write data queue: axi.py:313. -/
structure WBeat where
  data : Nat
  strb : Nat
  last : Bool
deriving DecidableEq, Repr

/-- Entry of the read response queue of the memory: axi.py:876. -/
structure RBeat where
  id : Nat
  data : Nat
  resp : Nat
  last : Bool
deriving DecidableEq, Repr

/-- Master configuration: bus width in bytes (axi.py:226), `max_burst_len` (axi.py:120) and the
width of the id signal, `none` when there is none (axi.py:303-306). -/
structure Cfg where
  bw : Nat
  maxBurst : Nat
  idw : Option Nat
deriving DecidableEq, Repr

/-- `size` when not given: axi.py:260-261. -/
def sizeOf (c : Cfg) : Option Nat → Nat
  | none => Nat.log2 c.bw
  | some s => s

/-- axi.py:300-301, 441-442. `rem` is `cycles-k`. -/
def burstLen (c : Cfg) (nb rem cur : Nat) : Nat :=
  let b := min rem (min (max c.maxBurst 1) 256)
  (min (b * nb) (0x1000 - (cur &&& 0xfff)) + nb - 1) / nb

/-- axi.py:303-306, 444-447. -/
def nextId (c : Cfg) (id : Nat) : Nat :=
  match c.idw with
  | some w => (id + 1) % 2 ^ w
  | none => 0

/-- The lane loop of axi.py:292-295: `val |= data[offset] << j*8` for successive `j`. -/
def putLanes : Nat → Nat → List Nat → Nat
  | acc, _, [] => acc
  | acc, j, d :: ds => putLanes (acc ||| d <<< (j * 8)) (j + 1) ds

/-- axi.py:290. -/
def strobe (bw start stop : Nat) : Nat :=
  ((2 ^ bw - 1) <<< start) &&& (2 ^ bw - 1) &&& ((2 ^ bw - 1) >>> (bw - stop))

/-- Loop variables of `write_logic`, axi.py:273-279; `ok` is false once an index is out of range or
a shift count negative. -/
structure WS where
  cur : Nat
  off : Nat
  co : Nat
  n : Nat
  bl : Nat
  cnt : Nat
  id : Nat
  ok : Bool
deriving DecidableEq, Repr

/-- One pass of the loop of `write_logic`, axi.py:284-318, where `cycles = k + rem`. -/
def WS.beat (c : Cfg) (nb size burst addr : Nat) (data : List Nat) (k rem : Nat) (s : WS) :
    WS × List Addr × WBeat :=
  let start := if k = 0 then addr % c.bw else s.co
  let stop := if rem = 1 then (addr + data.length - 1) % c.bw + 1 else s.co + nb
  let val := putLanes 0 start ((data.drop s.off).take (stop - start))
  let ok := s.ok && decide (s.off + (stop - start) ≤ data.length) && decide (stop ≤ c.bw)
  let off := s.off + (stop - start)
  if s.n ≥ s.bl then
    let bl := burstLen c nb rem s.cur
    ({ cur := s.cur + nb, off := off, co := (s.co + nb) % c.bw, n := 1, bl := bl,
       cnt := s.cnt + 1, id := nextId c s.id, ok := ok },
     [⟨s.cur, s.id, bl - 1, size, burst⟩],
     ⟨val, strobe c.bw start stop, decide (1 ≥ bl)⟩)
  else
    ({ cur := s.cur + nb, off := off, co := (s.co + nb) % c.bw, n := s.n + 1, bl := s.bl,
       cnt := s.cnt, id := s.id, ok := ok },
     [],
     ⟨val, strobe c.bw start stop, decide (s.n + 1 ≥ s.bl)⟩)

/-- The loop of `write_logic`, axi.py:284-318: address queue entries and data queue entries in the
order they are appended. -/
def writeLoop (c : Cfg) (nb size burst addr : Nat) (data : List Nat) :
    Nat → Nat → WS → WS × List Addr × List WBeat
  | 0, _, s => (s, [], [])
  | r + 1, k, s =>
    let b := s.beat c nb size burst addr data k (r + 1)
    let t := writeLoop c nb size burst addr data r (k + 1) b.1
    (t.1, b.2.1 ++ t.2.1, b.2.2 :: t.2.2)

/-- A write command: axi.py:129-131. -/
structure WCmd where
  addr : Nat
  data : List Nat
  burst : Nat := INCR
  size : Option Nat := none
deriving DecidableEq, Repr

/-- Number of beats: axi.py:271, 422. -/
def cyclesOf (nb addr len : Nat) : Nat := (len + nb - 1 + addr % nb) / nb

/-- `write_logic` for one command, axi.py:254-321: what is appended to the address queue, to the data
queue, the number of bursts to wait for and the next id. `2^size` must not exceed the bus width
(line 264). -/
def masterWrite (c : Cfg) (id : Nat) (w : WCmd) : Option (List Addr × List WBeat × Nat × Nat) :=
  let size := sizeOf c w.size
  let nb := 2 ^ size
  if nb ≤ c.bw then
    let aligned := w.addr / nb * nb
    let t := writeLoop c nb size w.burst w.addr w.data (cyclesOf nb w.addr w.data.length) 0
      { cur := aligned, off := 0, co := aligned - w.addr / c.bw * c.bw, n := 0, bl := 0, cnt := 0,
        id := id, ok := true }
    if t.1.ok then some (t.2.1, t.2.2, t.1.cnt, t.1.id) else none
  else none

/-- All write commands of the queue, in order: axi.py:247-321. The third component lists the entries
of `int_write_resp_command_queue` (address, length, bursts to wait for). -/
def masterWrites (c : Cfg) : Nat → List WCmd →
    Option (List Addr × List WBeat × List (Nat × Nat × Nat))
  | _, [] => some ([], [], [])
  | id, w :: ws =>
    match masterWrite c id w with
    | none => none
    | some (as, bs, n, id') =>
      match masterWrites c id' ws with
      | none => none
      | some (as', bs', ns) => some (as ++ as', bs ++ bs', (w.addr, w.data.length, n) :: ns)

/-! ### The memory -/

/-- Contents of the memory map, axi.py:601-602; only addresses below the size matter. -/
abbrev Mem := Nat → Nat

def upd (m : Mem) (a v : Nat) : Mem := fun x => if x = a then v else m x

/-- axi.py:739-750: the bytes of one data word are stored at the word address of the beat, modulo
the memory size, where the strobe allows. -/
def ramBeat (bw ms : Nat) (m : Mem) (cur : Nat) (w : WBeat) : Mem :=
  (List.range bw).foldl (fun m i =>
    if w.strb.testBit i then upd m (cur / bw * bw % ms + i) ((w.data >>> (8 * i)) % 256) else m) m

/-- Address of the next beat: axi.py:761-766, 881-886. `ts` is `transfer_size`, `a` the burst
address. -/
def nextAddr (burst nb ts a cur : Nat) : Nat :=
  if burst = FIXED then cur
  else
    let nx := cur + nb
    if burst = WRAP ∧ nx = a / ts * ts + ts then a / ts * ts else nx

/-- The beats of one write burst, axi.py:731-766: `r` beats are left. The word must lie inside the
memory map and `last` must be set on the last beat only (lines 754-757). -/
def ramBeats (bw ms : Nat) (b : Addr) : Nat → Nat → Mem → List WBeat → Option (Mem × List WBeat)
  | 0, _, m, ws => some (m, ws)
  | _ + 1, _, _, [] => none
  | r + 1, cur, m, w :: ws =>
    if cur / bw * bw % ms + bw ≤ ms ∧ w.last = decide (r = 0) then
      ramBeats bw ms b r (nextAddr b.burst (2 ^ b.size) (2 ^ b.size * (b.len + 1)) b.addr cur)
        (ramBeat bw ms m cur w) ws
    else none

/-- The checks of axi.py:714-729, 852-867. -/
def burstOk (bw : Nat) (b : Addr) : Bool :=
  decide (2 ^ b.size ≤ bw) &&
    (b.burst != INCR ||
      decide (0x1000 - (b.addr / 2 ^ b.size * 2 ^ b.size &&& 0xfff) ≥ 2 ^ b.size * (b.len + 1)))

/-- `write_logic` of the memory, axi.py:703-766: final contents, the data words left over, and the
write responses `(bid, bresp)`. -/
def ramWrites (bw ms : Nat) : List Addr → Mem → List WBeat →
    Option (Mem × List WBeat × List (Nat × Nat))
  | [], m, ws => some (m, ws, [])
  | b :: bs, m, ws =>
    if burstOk bw b then
      match ramBeats bw ms b (b.len + 1) (b.addr / 2 ^ b.size * 2 ^ b.size) m ws with
      | none => none
      | some (m', ws') =>
        match ramWrites bw ms bs m' ws' with
        | none => none
        | some (m'', ws'', rs) => some (m'', ws'', (b.id, 0) :: rs)
    else none

/-- `write_resp_logic` of the master, axi.py:325-347: for each command, wait for its bursts'
responses and report address, length and response code. -/
def masterResps : List (Nat × Nat × Nat) → List (Nat × Nat) →
    Option (List (Nat × Nat × Nat) × List (Nat × Nat))
  | [], rs => some ([], rs)
  | (a, l, n) :: cs, rs =>
    if n ≤ rs.length then
      match masterResps cs (rs.drop n) with
      | none => none
      | some (o, rest) =>
        some ((a, l, (rs.take n).foldl (fun r x => if x.2 ≠ 0 then x.2 else r) 0) :: o, rest)
    else none

/-! ### Reads -/

/-- `read_logic`, axi.py:429-458: address queue entries; the burst list holds `(arid,
burst_length)` for each. -/
def readLoop (c : Cfg) (nb size burst : Nat) :
    Nat → (cur n bl id : Nat) → List Addr × List (Nat × Nat) × Nat
  | 0, _, _, _, id => ([], [], id)
  | r + 1, cur, n, bl, id =>
    if n + 1 ≥ bl then
      let bl' := burstLen c nb (r + 1) cur
      let t := readLoop c nb size burst r (cur + nb) 0 bl' (nextId c id)
      (⟨cur, id, bl' - 1, size, burst⟩ :: t.1, (id, bl') :: t.2.1, t.2.2)
    else
      readLoop c nb size burst r (cur + nb) (n + 1) bl id

/-- A read command: axi.py:125-127. -/
structure RCmd where
  addr : Nat
  len : Nat
  burst : Nat := INCR
  size : Option Nat := none
deriving DecidableEq, Repr

/-- `read_logic` for one command, axi.py:411-460. -/
def masterRead (c : Cfg) (id : Nat) (q : RCmd) : Option (List Addr × List (Nat × Nat) × Nat) :=
  let size := sizeOf c q.size
  let nb := 2 ^ size
  if nb ≤ c.bw then
    some (readLoop c nb size q.burst (cyclesOf nb q.addr q.len) (q.addr / nb * nb) 0 0 id)
  else none

/-- All read commands: address queue, and per command the entry of
`int_read_resp_command_queue` with its burst list, axi.py:427. -/
def masterReads (c : Cfg) : Nat → List RCmd → Option (List Addr × List (RCmd × List (Nat × Nat)))
  | _, [] => some ([], [])
  | id, q :: qs =>
    match masterRead c id q with
    | none => none
    | some (as, bl, id') =>
      match masterReads c id' qs with
      | none => none
      | some (as', cs) => some (as ++ as', (q, bl) :: cs)

/-- axi.py:870-875: the word read from the memory map, built from the highest byte down. -/
def ramWord (bw ms : Nat) (m : Mem) (cur : Nat) : Nat :=
  (List.range bw).reverse.foldl (fun v i => (v <<< 8) + m (cur / bw * bw % ms + i)) 0

/-- The beats of one read burst, axi.py:867-886. -/
def ramReadBeats (bw ms : Nat) (m : Mem) (b : Addr) : Nat → Nat → Option (List RBeat)
  | 0, _ => some []
  | r + 1, cur =>
    if cur / bw * bw % ms + bw ≤ ms then
      match ramReadBeats bw ms m b r
          (nextAddr b.burst (2 ^ b.size) (2 ^ b.size * (b.len + 1)) b.addr cur) with
      | none => none
      | some t => some (⟨b.id, ramWord bw ms m cur, 0, decide (r = 0)⟩ :: t)
    else none

/-- `read_logic` of the memory, axi.py:842-886. -/
def ramReads (bw ms : Nat) (m : Mem) : List Addr → Option (List RBeat)
  | [] => some []
  | b :: bs =>
    if burstOk bw b then
      match ramReadBeats bw ms m b (b.len + 1) (b.addr / 2 ^ b.size * 2 ^ b.size) with
      | none => none
      | some t =>
        match ramReads bw ms m bs with
        | none => none
        | some t' => some (t ++ t')
    else none

/-- `int_read_resp_queue_list[rid].pop(0)`, axi.py:503-507: the first response with this id. -/
def popId (rid : Nat) : List RBeat → Option (RBeat × List RBeat)
  | [] => none
  | x :: xs =>
    if x.id = rid then some (x, xs)
    else
      match popId rid xs with
      | none => none
      | some (y, ys) => some (y, x :: ys)

/-- The lane loop of axi.py:523-524. -/
def getLanes (v start stop : Nat) : List Nat :=
  (List.range (stop - start)).map fun i => (v >>> ((start + i) * 8)) % 256

/-- Variables of `read_resp_logic`: cycle offset, response code, bytes so far, `first`. -/
structure RS where
  co : Nat
  resp : Nat
  data : List Nat
  first : Bool
deriving DecidableEq, Repr

/-- The beats of one burst in `read_resp_logic`, axi.py:502-528: `r` beats left. -/
def respBeats (bw nb so rid : Nat) : Nat → RS → List RBeat → Option (RS × List RBeat)
  | 0, s, q => some (s, q)
  | r + 1, s, q =>
    match popId rid q with
    | none => none
    | some (x, q') =>
      if x.last = decide (r = 0) then
        respBeats bw nb so rid r
          { co := (s.co + nb) % bw
            resp := if x.resp ≠ 0 then x.resp else s.resp
            data := s.data ++ getLanes x.data (if s.first then so else s.co) (s.co + nb)
            first := false } q'
      else none

/-- The bursts of one command, axi.py:490-528. -/
def respBursts (bw nb so : Nat) : List (Nat × Nat) → RS → List RBeat → Option (RS × List RBeat)
  | [], s, q => some (s, q)
  | (rid, bl) :: bs, s, q =>
    match respBeats bw nb so rid bl s q with
    | none => none
    | some (s', q') => respBursts bw nb so bs s' q'

/-- `read_resp_logic`, axi.py:462-536: for each command the entry `(addr, data, resp)` appended to
`read_data_queue`. -/
def masterData (c : Cfg) : List (RCmd × List (Nat × Nat)) → List RBeat →
    Option (List (Nat × List Nat × Nat) × List RBeat)
  | [], q => some ([], q)
  | (cmd, bl) :: cs, q =>
    let nb := 2 ^ sizeOf c cmd.size
    match respBursts c.bw nb (cmd.addr % c.bw) bl
        { co := cmd.addr / nb * nb - cmd.addr / c.bw * c.bw, resp := 0, data := [], first := true }
        q with
    | none => none
    | some (s, q') =>
      match masterData c cs q' with
      | none => none
      | some (o, q'') => some ((cmd.addr, s.data.take cmd.len, s.resp) :: o, q'')

end Corundum.Axi
