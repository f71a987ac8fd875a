import Verif.Model.TxEngine
import Verif.Spec.BufRing

/-! What the surroundings of the transmit engine promise, and what its outputs should be. -/
namespace Corundum.TxEngine

/-- the length of a packet -/
def total (ds : List Desc) : Nat := (ds.map (·.data.length)).sum

/-- the number of DMA reads of a packet -/
def reads (ds : List Desc) : Nat := ds.countP fun d => d.data.length ≠ 0

/-- all descriptors of the packet have arrived -/
def complete (ds : List Desc) : Bool := ds.any (·.last)

/-- there was no descriptor for the request -/
def G.bad (g : G) (k : Nat) : Bool := (g.resp k).any fun r => !r.ok

/-- there was one -/
def G.good (g : G) (k : Nat) : Bool := (g.resp k).any fun r => r.ok

/-- all bytes of the read are in the buffer -/
def G.written (g : G) (o : BufRing.Op) : Bool := (List.range o.data.length).all fun j => g.b.full (o.addr + j)

/-- The surroundings behave during a cycle.  Descriptor fetches are answered once, after they have been taken.  Descriptors come only for requests with a
good answer, in the order of the requests, one packet after the other, with a pause between packets; a packet keeps the size limit and needs fewer reads than
the counters can count.  The DMA engine writes only what it was asked to read, and reports a read only when its bytes have been written.  The transmit path reports
packets in order, and their time stamps after them, once each; the completion write engine reports completions it has taken, once. -/
structure Legal (P : Params) (g : G) (i : In) : Prop where
  dstat : ∀ d, i.dstat = some d → ∃ k, g.own d.tag = some k ∧ k < g.fetches.length ∧ g.resp k = none
  desc : ∀ d, i.desc = some d → ∃ k, g.own d.tid = some k ∧ g.good k = true ∧ complete (g.descs k) = false ∧
    (∀ j, j < k → g.bad j = true ∨ complete (g.descs j) = true) ∧ total (g.descs k) + d.data.length ≤ P.buf.max ∧ reads (g.descs k) + 1 < 2 ^ P.cw
  gap : g.b.ended = true → i.desc = none
  pokes : ∀ w ∈ i.pokes, ∃ o ∈ g.b.flat, ∃ j, o.data[j]? = some w.2 ∧ w.1 = o.addr + j
  rstat : ∀ t, i.rstat = some t → ∃ k, g.own t = some k ∧ g.txs k = false ∧
    g.rep k < (g.ops k).countP (fun o => decide (o.data.length ≠ 0) && g.written o)
  txStat : ∀ t, i.txStat = some t → ∃ k, g.own t = some k ∧ g.took k = true ∧ g.txs k = false ∧ g.out.head? = some k
  txCpl : ∀ t ts, i.txCpl = some (true, t, ts) → ∃ k, g.own t = some k ∧ g.txs k = true ∧ g.ts k = none
  cstat : ∀ t, i.cstat = some t → ∃ k, g.own t = some k ∧ g.cqTook k = true ∧ g.cst k = false

def LegalRun (P : Params) : Sys → List In → Prop
  | _, [] => True
  | x, i :: is => Legal P x.g i ∧ LegalRun P (step P x i) is

/-! ### What the outputs should be -/

/-- the descriptor fetch of each request: its queue, and its number modulo the size of the descriptor table as the tag -/
def G.fetchOf (P : Params) (g : G) : List (Nat × Nat) := g.reqs.zipIdx.map fun x => (x.1.queue, x.2 % P.n)

/-- the packet of request `k` for the transmit path -/
def G.txOf (P : Params) (g : G) (k : Nat) : Option TxDesc :=
  if g.good k then g.reqs[k]?.map fun q => ⟨P.buf.off (g.place k), total (g.descs k), k % P.n, q.queue, q.dest⟩ else none

/-- the checksum command of request `k` -/
def G.csOf (g : G) (k : Nat) : Option Csum :=
  if g.good k then (g.descs k).head?.map fun d => ⟨d.csEn, d.csStart % 128, d.csStart % 128 + d.csOff % 128⟩ else none

/-- a completion record: queue, queue pointer, length, time stamp, port -/
def record (P : Params) (q : Req) (ptr len ts : Nat) : Nat :=
  q.queue % 2 ^ 16 + 2 ^ 16 * (ptr % 2 ^ 16) + 2 ^ 32 * (len % 2 ^ 16) + (if P.ptp then 2 ^ 64 * (ts / 2 ^ 16 % 2 ^ 48) else 0) + 2 ^ 168 * (q.dest % 2 ^ 9)

/-- the completion of request `k` -/
def G.cplOf (P : Params) (g : G) (k : Nat) : Option Cpl :=
  match g.reqs[k]?, g.resp k, g.ts k with
  | some q, some r, some t => if r.ok then some ⟨r.cpl, k % P.n, record P q r.ptr (total (g.descs k)) t⟩ else none
  | _, _, _ => none

/-- the status of request `k`: the length of the packet, and the tag of the request -/
def G.report (g : G) (k : Nat) : Nat × Nat := (if g.good k then total (g.descs k) else 0, (g.reqs[k]?.map (·.tag)).getD 0)

/-- requests whose descriptors have not all arrived -/
def G.waiting (g : G) : Nat := (List.range g.reqs.length).countP fun k => !g.bad k && !complete (g.descs k)

/-- a valid output register -/
def shown {α : Type} (v : Bool) (x : α) : List α := if v then [x] else []

end Corundum.TxEngine
