import Verif.Model.CplWrite
import Verif.Model.BufRing

/-!
Descriptor fetch engine: /repo/fpga/common/rtl/desc_fetch.v, one step per clock edge.

A request names a port (a queue manager) and a queue.  The queue manager is asked for the next block of descriptors; its answer is reported; if
there is one, it is fetched from host memory into a slot of the descriptor RAM by DMA.  When the fetch has finished, the dequeue operation is
committed and the block is sent out, by a `dma_client_axis_source`.

Simplifications: `DESC_TABLE_SIZE` and `DESC_SIZE` are powers of two; vectors with one bit per port are functions of the port; reset is the
initial state only; the DMA RAM is an array of bytes; the stream client is outside and takes read commands (the command says which bytes it sends,
under which `tid`).  Responses and status reports carry the number of the request, fetch or read they are about, for the monitor only: the
engine looks at the tags.
-/
namespace Corundum.DescFetch
open Corundum.CplWrite (upd upd?)

structure Params where
  /-- `PORTS` -/
  ports : Nat
  /-- `CL_DESC_TABLE_SIZE` -/
  cl : Nat
  /-- `CL_DESC_SIZE` -/
  clDesc : Nat
  /-- `LOG_BLOCK_SIZE_WIDTH` -/
  lbw : Nat
  /-- `DMA_LEN_WIDTH` -/
  lw : Nat

/-- `DESC_TABLE_SIZE` (desc_fetch.v:56) -/
def Params.n (P : Params) : Nat := 2 ^ P.cl

/-- `x & DESC_PTR_MASK` (desc_fetch.v:161) -/
def Params.mask (P : Params) (x : Nat) : Nat := x &&& (2 ^ P.cl - 1)

/-- `CL_DESC_SIZE+(2**LOG_BLOCK_SIZE_WIDTH)-1` (desc_fetch.v:496) -/
def Params.shift (P : Params) : Nat := P.clDesc + 2 ^ P.lbw - 1

/-- `DESC_SIZE` (desc_fetch.v:52, 189) -/
def Params.dsz (P : Params) : Nat := 2 ^ P.clDesc

/-- `s_axis_req_*` (desc_fetch.v:69-73) -/
structure Req where
  sel : Nat
  queue : Nat
  tag : Nat
deriving DecidableEq, Repr

/-- `s_axis_desc_dequeue_resp_*` of one port (desc_fetch.v:108-118) -/
structure Resp where
  queue : Nat
  ptr : Nat
  addr : Nat
  blk : Nat
  cpl : Nat
  tag : Nat
  opTag : Nat
  empty : Bool
  error : Bool
deriving DecidableEq, Repr

/-- `m_axis_req_status_*` (desc_fetch.v:78-84) -/
structure Stat where
  queue : Nat := 0
  ptr : Nat := 0
  cpl : Nat := 0
  tag : Nat := 0
  empty : Bool := false
  error : Bool := false
deriving DecidableEq, Repr

/-- `m_axis_dma_read_desc_*` (desc_fetch.v:130-134) -/
structure Dma where
  addr : Nat := 0
  ram : Nat := 0
  len : Nat := 0
  tag : Nat := 0
deriving DecidableEq, Repr

/-- the command to the stream client (desc_fetch.v:252-257) -/
structure Rd where
  ram : Nat := 0
  len : Nat := 0
  tag : Nat := 0
  id : Nat := 0
deriving DecidableEq, Repr

/-- the inputs during one cycle -/
structure In where
  enable : Bool := true
  req : Option Req := none
  askReady : Nat → Bool := fun _ => false
  /-- the answer a port offers, and the number of the request it is about -/
  resp : Nat → Option (Nat × Resp) := fun _ => none
  commitReady : Nat → Bool := fun _ => false
  dmaReady : Bool := false
  /-- `s_axis_dma_read_desc_status_*`: the tag, and the number of the fetch -/
  fstat : Option (Nat × Nat) := none
  rdReady : Bool := false
  /-- `dma_read_desc_status_*`: the tag, and the number of the read -/
  rstat : Option (Nat × Nat) := none
  /-- bytes the DMA engine writes to the descriptor RAM in this cycle -/
  pokes : List (Nat × Nat) := []

/-- the registers (desc_fetch.v:195-257), with their initial values -/
structure S where
  reqReady : Bool := false
  st : Stat := {}
  stValid : Bool := false
  eqQueue : Nat := 0
  eqTag : Nat := 0
  eqValid : Nat → Bool := fun _ => false
  respReady : Nat → Bool := fun _ => false
  coTag : Nat := 0
  coValid : Nat → Bool := fun _ => false
  d : Dma := {}
  dValid : Bool := false
  count : Nat := 0
  active : Nat → Bool := fun _ => false
  fetched : Nat → Bool := fun _ => false
  done : Nat → Bool := fun _ => false
  sel : Nat → Nat := fun _ => 0
  blk : Nat → Nat := fun _ => 0
  tag : Nat → Nat := fun _ => 0
  opTag : Nat → Nat := fun _ => 0
  start : Nat := 0
  rdp : Nat := 0
  fin : Nat := 0
  r : Rd := {}
  rValid : Bool := false

/-- some bit of a vector is set -/
def Params.any (P : Params) (v : Nat → Bool) : Bool := (List.range P.ports).any v

/-- `s_axis_req_ready && s_axis_req_valid` (desc_fetch.v:463) -/
def accept (s : S) (i : In) : Option Req := if s.reqReady then i.req else none

/-- `!desc_table_active[start] && start - finish < DESC_TABLE_SIZE` (desc_fetch.v:462, 476) -/
def room (P : Params) (s : S) : Bool :=
  !s.active (P.mask s.start) && decide ((s.start + 2 ^ (P.cl + 1) - s.fin) % 2 ^ (P.cl + 1) < P.n)

/-- `s_axis_req_ready_next` (desc_fetch.v:462-464) -/
def readyNext (P : Params) (s : S) (i : In) : Bool :=
  match accept s i with
  | some _ => false
  | none => i.enable && decide (s.count < P.n) && room P s && (!P.any s.eqValid || P.any fun p => s.eqValid p && i.askReady p)

/-- the priority encoder over `resp_valid & ~resp_ready`, lowest port first (desc_fetch.v:291-300) -/
def enc (P : Params) (s : S) (i : In) : Option (Nat × Nat × Resp) :=
  (List.range P.ports).findSome? fun p =>
    match i.resp p with
    | some x => if s.respReady p then none else some (p, x)
    | none => none

/-- the response being processed, with its port (desc_fetch.v:476) -/
def proc (P : Params) (s : S) (i : In) : Option (Nat × Nat × Resp) := if !s.dValid && room P s then enc P s i else none

/-- the response being processed if it grants descriptors: `desc_table_start_en` (desc_fetch.v:500-512) -/
def grant (P : Params) (s : S) (i : In) : Option (Nat × Nat × Resp) := (proc P s i).filter fun x => !(x.2.2.error || x.2.2.empty)

/-- `dec_active_1` (desc_fetch.v:503) -/
def refused (P : Params) (s : S) (i : In) : Bool := (proc P s i).any fun x => x.2.2.error || x.2.2.empty

/-- `desc_table_desc_read_en` (desc_fetch.v:526-529) -/
def readGo (P : Params) (s : S) : Bool :=
  s.active (P.mask s.rdp) && decide (s.rdp ≠ s.start) && s.fetched (P.mask s.rdp) && !s.coValid (s.sel (P.mask s.rdp)) && !s.rValid

/-- `desc_table_finish_en` (desc_fetch.v:555-560) -/
def finGo (P : Params) (s : S) : Bool := s.active (P.mask s.fin) && decide (s.fin ≠ s.start) && s.done (P.mask s.fin)

/-- one clock edge (desc_fetch.v:411-647) -/
def next (P : Params) (s : S) (i : In) : S where
  reqReady := readyNext P s i
  st := match proc P s i with | some (_, _, r) => ⟨r.queue, r.ptr, r.cpl, r.tag, r.empty, r.error⟩ | none => s.st
  stValid := (proc P s i).isSome
  eqQueue := match accept s i with | some q => q.queue | none => s.eqQueue
  eqTag := match accept s i with | some q => q.tag | none => s.eqTag
  eqValid := match accept s i with | some q => fun p => decide (p = q.sel) | none => fun p => s.eqValid p && !i.askReady p
  respReady := match proc P s i with | some (p, _) => fun q => decide (q = p) | none => fun _ => false
  coTag := if readGo P s then s.opTag (P.mask s.rdp) else s.coTag
  coValid := if readGo P s then fun p => decide (p = s.sel (P.mask s.rdp)) else fun p => s.coValid p && !i.commitReady p
  d := match proc P s i with | some (_, _, r) => ⟨r.addr, P.mask s.start <<< P.shift, (P.dsz <<< r.blk) % 2 ^ P.lw, P.mask s.start⟩ | none => s.d
  dValid := (grant P s i).isSome || (s.dValid && !i.dmaReady)
  count := (s.count + (accept s i).isSome.toNat + 2 ^ (P.cl + 2) - (refused P s i).toNat - (finGo P s).toNat) % 2 ^ (P.cl + 1)
  active :=
    let a := upd? s.active ((grant P s i).map fun _ => (P.mask s.start, true))
    if finGo P s then upd a (P.mask s.fin) false else a
  fetched := upd? (upd? s.fetched ((grant P s i).map fun _ => (P.mask s.start, false))) (i.fstat.map fun x => (P.mask x.1, true))
  done := upd? (upd? s.done ((grant P s i).map fun _ => (P.mask s.start, false))) (i.rstat.map fun x => (P.mask x.1, true))
  sel := upd? s.sel ((grant P s i).map fun x => (P.mask s.start, x.1))
  blk := upd? s.blk ((grant P s i).map fun x => (P.mask s.start, x.2.2.blk))
  tag := upd? s.tag ((grant P s i).map fun x => (P.mask s.start, x.2.2.tag))
  opTag := upd? s.opTag ((grant P s i).map fun x => (P.mask s.start, x.2.2.opTag))
  start := if (grant P s i).isSome then (s.start + 1) % 2 ^ (P.cl + 1) else s.start
  rdp := if readGo P s then (s.rdp + 1) % 2 ^ (P.cl + 1) else s.rdp
  fin := if finGo P s then (s.fin + 1) % 2 ^ (P.cl + 1) else s.fin
  r := if readGo P s then ⟨P.mask s.rdp <<< P.shift, (P.dsz <<< s.blk (P.mask s.rdp)) % 2 ^ 8, P.mask s.rdp, s.tag (P.mask s.rdp)⟩ else s.r
  rValid := readGo P s || (s.rValid && !i.rdReady)

/-! ### What an observer of the interfaces sees -/

/-- a monitor of the interfaces; requests, fetches and reads are numbered in the order they come -/
structure G where
  /-- accepted requests -/
  reqs : List Req := []
  /-- requests taken by the queue managers: port, queue, tag -/
  asks : List (Nat × Nat × Nat) := []
  /-- responses used: number of the request, port, response -/
  used : List (Nat × Nat × Resp) := []
  /-- responses handed over: number of the request, port, response -/
  handed : List (Nat × Nat × Resp) := []
  /-- the response to a request has been handed over -/
  answered : Nat → Bool := fun _ => false
  /-- a response offered in the last cycle and not handed over -/
  held : Nat → Option (Nat × Resp) := fun _ => none
  /-- request status pulses -/
  pulses : List Stat := []
  /-- fetches taken by the DMA engine -/
  dmas : List Dma := []
  /-- the DMA engine has reported the fetch finished -/
  got : Nat → Bool := fun _ => false
  /-- what the DMA engine had written to the descriptor RAM when it reported -/
  data : Nat → List Nat := fun _ => []
  /-- commits taken by the queue managers: port, operation tag -/
  commits : List (Nat × Nat) := []
  /-- reads taken by the stream client -/
  reads : List Rd := []
  /-- the stream client has reported the read finished -/
  sent : Nat → Bool := fun _ => false
  /-- the descriptor RAM -/
  ram : Nat → Nat := fun _ => 0
  /-- fetches for which the read has been started -/
  rdn : Nat := 0
  /-- fetches that are over -/
  fin : Nat := 0

structure Sys where
  s : S := {}
  g : G := {}

/-- what the ports take of an offer -/
def taken (P : Params) {α : Type} (valid ready : Nat → Bool) (f : Nat → α) : List α :=
  (List.range P.ports).filterMap fun p => if valid p && ready p then some (f p) else none

/-- the monitor at a clock edge -/
def watch (P : Params) (s : S) (g : G) (i : In) : G where
  reqs := g.reqs ++ (accept s i).toList
  asks := g.asks ++ taken P s.eqValid i.askReady fun p => (p, s.eqQueue, s.eqTag)
  used := g.used ++ ((proc P s i).map fun x => (x.2.1, x.1, x.2.2)).toList
  handed := g.handed ++ (List.range P.ports).filterMap fun p => if s.respReady p then (i.resp p).map fun x => (x.1, p, x.2) else none
  answered := fun k => g.answered k || P.any fun p => s.respReady p && (i.resp p).any fun x => x.1 == k
  held := fun p => if s.respReady p then none else i.resp p
  pulses := g.pulses ++ (if s.stValid then [s.st] else [])
  dmas := g.dmas ++ (if s.dValid && i.dmaReady then [s.d] else [])
  got := fun k => g.got k || i.fstat.any fun x => x.2 == k
  data := fun k => if i.fstat.any fun x => x.2 == k then (match g.dmas[k]? with | some d => BufRing.read (BufRing.fill g.ram i.pokes) d.ram d.len | none => []) else g.data k
  commits := g.commits ++ taken P s.coValid i.commitReady fun p => (p, s.coTag)
  reads := g.reads ++ (if s.rValid && i.rdReady then [s.r] else [])
  sent := fun k => g.sent k || i.rstat.any fun x => x.2 == k
  ram := BufRing.fill g.ram i.pokes
  rdn := if readGo P s then g.rdn + 1 else g.rdn
  fin := if finGo P s then g.fin + 1 else g.fin

def step (P : Params) (x : Sys) (i : In) : Sys := ⟨next P x.s i, watch P x.s x.g i⟩

def run (P : Params) (x : Sys) (is : List In) : Sys := is.foldl (step P) x

end Corundum.DescFetch
