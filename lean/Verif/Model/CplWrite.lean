/-!
Completion write engine: /repo/fpga/common/rtl/cpl_write.v, one step per clock edge.

A request (completion data for a queue) gets a slot of the descriptor table, an entry of the queue is requested from the queue
manager, the completion is written to host memory by DMA, and the entry is committed when the write has finished.

Simplifications: `DESC_TABLE_SIZE` is a power of two; vectors with one bit per port are functions of the port; reset is the initial
state only; the DMA engine reads the table through `ramWord` (the read pipeline of :262-305 delays the value, it does not change it).
-/
namespace Corundum.CplWrite

structure Params where
  /-- `PORTS` -/
  ports : Nat
  /-- `CL_DESC_TABLE_SIZE` -/
  cl : Nat
  /-- `CPL_SIZE`, bytes -/
  cplSize : Nat
  /-- `$clog2(SEG_COUNT*SEG_BE_WIDTH)` -/
  ramShift : Nat

/-- `DESC_TABLE_SIZE` (cpl_write.v:50) -/
def Params.n (P : Params) : Nat := 2 ^ P.cl

/-- `x & DESC_PTR_MASK` (cpl_write.v:136) -/
def Params.mask (P : Params) (x : Nat) : Nat := x &&& (2 ^ P.cl - 1)

/-- `s_axis_req_*` (cpl_write.v:59-64) -/
structure Req where
  sel : Nat
  queue : Nat
  tag : Nat
  data : Nat
deriving DecidableEq, Repr

/-- `s_axis_cpl_enqueue_resp_*` of one port (cpl_write.v:85-92) -/
structure Resp where
  phase : Bool
  addr : Nat
  tag : Nat
  opTag : Nat
  full : Bool
  error : Bool
deriving DecidableEq, Repr

/-- an entry was granted -/
def Resp.ok (r : Resp) : Bool := !(r.error || r.full)

/-- the inputs during one cycle -/
structure In where
  enable : Bool := true
  req : Option Req := none
  enqReady : Nat → Bool := fun _ => false
  resp : Nat → Option Resp := fun _ => none
  commitReady : Nat → Bool := fun _ => false
  dmaReady : Bool := false
  status : Option Nat := none

/-- the registers (cpl_write.v:163-217), with their initial values -/
structure S where
  reqReady : Bool := false
  stTag : Nat := 0
  stFull : Bool := false
  stError : Bool := false
  stValid : Bool := false
  eqQueue : Nat := 0
  eqTag : Nat := 0
  eqValid : Nat → Bool := fun _ => false
  respReady : Nat → Bool := fun _ => false
  coTag : Nat := 0
  coValid : Nat → Bool := fun _ => false
  dAddr : Nat := 0
  dRam : Nat := 0
  dLen : Nat := 0
  dTag : Nat := 0
  dValid : Bool := false
  active : Nat → Bool := fun _ => false
  invalid : Nat → Bool := fun _ => false
  done : Nat → Bool := fun _ => false
  sel : Nat → Nat := fun _ => 0
  tag : Nat → Nat := fun _ => 0
  data : Nat → Nat := fun _ => 0
  phase : Nat → Bool := fun _ => false
  opTag : Nat → Nat := fun _ => 0
  start : Nat := 0
  finish : Nat := 0

def upd {α : Type} (f : Nat → α) (k : Nat) (v : α) : Nat → α := fun j => if j = k then v else f j

def upd? {α : Type} (f : Nat → α) : Option (Nat × α) → Nat → α
  | none => f
  | some (k, v) => upd f k v

/-- some bit of a vector is set -/
def Params.any (P : Params) (v : Nat → Bool) : Bool := (List.range P.ports).any v

/-- `s_axis_req_ready && s_axis_req_valid` (cpl_write.v:352) -/
def accept (s : S) (i : In) : Option Req := if s.reqReady then i.req else none

/-- `s_axis_req_ready_next` (cpl_write.v:351-353) -/
def readyNext (P : Params) (s : S) (i : In) : Bool :=
  match accept s i with
  | some _ => false
  | none => i.enable && !s.active (P.mask s.start) && decide ((s.start + 2 ^ (P.cl + 1) - s.finish) % 2 ^ (P.cl + 1) < P.n) &&
      (!P.any s.eqValid || P.any fun p => s.eqValid p && i.enqReady p)

/-- the priority encoder over `resp_valid & ~resp_ready`, lowest port first (cpl_write.v:249-258) -/
def enc (P : Params) (s : S) (i : In) : Option (Nat × Resp) :=
  (List.range P.ports).findSome? fun p =>
    match i.resp p with
    | some r => if s.respReady p then none else some (p, r)
    | none => none

/-- the response being processed: `enqueue_resp_enc_valid && !m_axis_dma_write_desc_valid_reg` (cpl_write.v:369) -/
def proc (P : Params) (s : S) (i : In) : Option (Nat × Resp) := if s.dValid then none else enc P s i

/-- cpl_write.v:418 -/
def headBusy (P : Params) (s : S) : Bool := s.active (P.mask s.finish) && decide (s.finish ≠ s.start)

/-- cpl_write.v:419-421 -/
def drop (P : Params) (s : S) : Bool := headBusy P s && s.invalid (P.mask s.finish)

/-- cpl_write.v:423-429 -/
def commit (P : Params) (s : S) : Bool :=
  headBusy P s && !s.invalid (P.mask s.finish) && s.done (P.mask s.finish) && !P.any s.coValid

/-- one clock edge (cpl_write.v:309-508) -/
def next (P : Params) (s : S) (i : In) : S where
  reqReady := readyNext P s i
  stTag := match proc P s i with | some (_, r) => s.tag (P.mask r.tag) | none => s.stTag
  stFull := match proc P s i with | some (_, r) => r.full | none => s.stFull
  stError := match proc P s i with | some (_, r) => r.error | none => s.stError
  stValid := (proc P s i).isSome
  eqQueue := match accept s i with | some q => q.queue | none => s.eqQueue
  eqTag := match accept s i with | some _ => P.mask s.start | none => s.eqTag
  eqValid := match accept s i with | some q => fun p => decide (p = q.sel) | none => fun p => s.eqValid p && !i.enqReady p
  respReady := match proc P s i with | some (p, _) => fun q => decide (q = p) | none => fun _ => false
  coTag := if commit P s then s.opTag (P.mask s.finish) else s.coTag
  coValid := if commit P s then fun p => decide (p = s.sel (P.mask s.finish)) else fun p => s.coValid p && !i.commitReady p
  dAddr := match proc P s i with | some (_, r) => r.addr | none => s.dAddr
  dRam := match proc P s i with | some (_, r) => P.mask r.tag <<< P.ramShift | none => s.dRam
  dLen := match proc P s i with | some _ => P.cplSize | none => s.dLen
  dTag := match proc P s i with | some (_, r) => P.mask r.tag | none => s.dTag
  dValid := match proc P s i with | some (_, r) => if r.ok then true else s.dValid && !i.dmaReady | none => s.dValid && !i.dmaReady
  active :=
    let a := upd? s.active ((accept s i).map fun _ => (P.mask s.start, true))
    if drop P s || commit P s then upd a (P.mask s.finish) false else a
  invalid := upd? (upd? s.invalid ((accept s i).map fun _ => (P.mask s.start, false)))
    ((proc P s i).map fun x => (P.mask x.2.tag, !x.2.ok))
  done := upd? (upd? s.done ((accept s i).map fun _ => (P.mask s.start, false))) (i.status.map fun t => (P.mask t, true))
  sel := upd? s.sel ((accept s i).map fun q => (P.mask s.start, q.sel))
  tag := upd? s.tag ((accept s i).map fun q => (P.mask s.start, q.tag))
  data := upd? s.data ((accept s i).map fun q => (P.mask s.start, q.data))
  phase := upd? s.phase ((proc P s i).map fun x => (P.mask x.2.tag, x.2.phase))
  opTag := upd? s.opTag ((proc P s i).map fun x => (P.mask x.2.tag, x.2.opTag))
  start := if (accept s i).isSome then (s.start + 1) % 2 ^ (P.cl + 1) else s.start
  finish := if drop P s || commit P s then (s.finish + 1) % 2 ^ (P.cl + 1) else s.finish

/-- what the DMA engine reads from slot `j`: `{desc_table_phase[j], desc_table_data[j][CPL_SIZE*8-2:0]}` (cpl_write.v:294) -/
def ramWord (P : Params) (s : S) (j : Nat) : Nat :=
  (s.phase j).toNat * 2 ^ (8 * P.cplSize - 1) + s.data j % 2 ^ (8 * P.cplSize - 1)

/-! ### What an observer of the interfaces sees -/

/-- a monitor of the interfaces; requests are numbered in the order they are accepted -/
structure G where
  /-- accepted requests -/
  reqs : List Req := []
  /-- the last request sent to a queue manager under a tag -/
  own : Nat → Option Nat := fun _ => none
  /-- the queue manager has taken the enqueue request -/
  taken : Nat → Bool := fun _ => false
  /-- the response used for a request -/
  resp : Nat → Option Resp := fun _ => none
  /-- the response has been handed over -/
  answered : Nat → Bool := fun _ => false
  /-- a response offered in the last cycle and not handed over -/
  held : Nat → Option Resp := fun _ => none
  /-- the DMA engine has taken the write -/
  dtaken : Nat → Bool := fun _ => false
  /-- the DMA engine has reported the write finished -/
  wrote : Nat → Bool := fun _ => false
  /-- commits taken by the queue managers: port, operation tag -/
  commits : List (Nat × Nat) := []
  /-- request status pulses: tag, full, error -/
  pulses : List (Nat × Bool × Bool) := []
  /-- requests in the order their responses were used -/
  order : List Nat := []
  /-- retired requests -/
  fin : Nat := 0

structure Sys where
  s : S := {}
  g : G := {}

def commitsTaken (P : Params) (s : S) (i : In) : List (Nat × Nat) :=
  (List.range P.ports).filterMap fun p => if s.coValid p && i.commitReady p then some (p, s.coTag) else none

/-- the monitor at a clock edge -/
def watch (P : Params) (s : S) (g : G) (i : In) : G where
  reqs := match accept s i with | some q => g.reqs ++ [q] | none => g.reqs
  own := upd? g.own ((accept s i).map fun _ => (P.mask s.start, some g.reqs.length))
  taken := fun k => g.taken k || (P.any (fun p => s.eqValid p && i.enqReady p) && g.own s.eqTag == some k)
  resp := match proc P s i with | some (_, r) => (match g.own r.tag with | some k => upd g.resp k (some r) | none => g.resp) | none => g.resp
  answered := fun k => g.answered k || P.any fun p => s.respReady p && (match i.resp p with | some r => g.own r.tag == some k | none => false)
  held := fun p => if s.respReady p then none else i.resp p
  dtaken := fun k => g.dtaken k || (s.dValid && i.dmaReady && g.own s.dTag == some k)
  wrote := fun k => g.wrote k || (match i.status with | some t => g.own t == some k | none => false)
  commits := g.commits ++ commitsTaken P s i
  pulses := if s.stValid then g.pulses ++ [(s.stTag, s.stFull, s.stError)] else g.pulses
  order := match proc P s i with | some (_, r) => (match g.own r.tag with | some k => g.order ++ [k] | none => g.order) | none => g.order
  fin := if drop P s || commit P s then g.fin + 1 else g.fin

def step (P : Params) (x : Sys) (i : In) : Sys := ⟨next P x.s i, watch P x.s x.g i⟩

def run (P : Params) (x : Sys) (is : List In) : Sys := is.foldl (step P) x

end Corundum.CplWrite
