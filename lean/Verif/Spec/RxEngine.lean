import Verif.Model.RxEngine
import Verif.Spec.TxEngine

/-! What the surroundings of the receive engine promise, and what its outputs should be. -/
namespace Corundum.RxEngine
open Corundum.TxEngine (DStat Cpl shown)

/-- the size of the host memory the descriptors point to -/
def total (ds : List Desc) : Nat := (ds.map (·.len)).sum

/-- all descriptors of the packet have arrived -/
def complete (ds : List Desc) : Bool := ds.any (·.last)

/-- there was no descriptor for the packet -/
def G.bad (g : G) (k : Nat) : Bool := (g.resp k).any fun r => !r.ok

/-- there was one -/
def G.good (g : G) (k : Nat) : Bool := (g.resp k).any fun r => r.ok

/-- the widths are large enough for the largest packet -/
structure Good (P : Params) : Prop where
  buf : BufRing.Good P.buf
  max : P.buf.max < 2 ^ P.lw
  lw : P.lw ≤ 32

/-- The surroundings behave during a cycle.  The configured size is constant.  The receive path writes only to buffers it was given and has not reported, reports each
packet once, and keeps the size it was told; the queue map answers once, after the report.  Descriptor fetches are answered once, after they have been taken.  Descriptors come
only for requests with a good answer, one packet after the other.  The DMA engine reports writes it was given, once each, when the descriptors of the packet have arrived,
and before the status of the request; the completion write engine reports completions it has taken, once. -/
structure Legal (P : Params) (m : Nat) (g : G) (i : In) : Prop where
  mtu : i.mtu = m
  pokes : ∀ w ∈ i.pokes, ∃ k o, g.rxs[k]? = some o ∧ g.rx k = none ∧ o.addr ≤ w.1 ∧ w.1 < o.addr + o.len
  rx : ∀ r, i.rxStat = some r → ∃ k, g.own r.tag = some k ∧ g.rx k = none ∧ ∃ o, g.rxs[k]? = some o ∧ r.len ≤ o.len
  qmap : ∀ t q, i.qmap = some (t, q) → ∃ k, g.own t = some k ∧ (g.rx k).isSome = true ∧ g.map k = none
  dstat : ∀ d, i.dstat = some d → ∃ k, g.own d.tag = some k ∧ k < g.fetches.length ∧ g.resp k = none
  desc : ∀ d, i.desc = some d → d.len < 2 ^ 32 ∧ ∃ k, g.own d.tid = some k ∧ g.good k = true ∧ complete (g.descs k) = false ∧
    ∀ j, j ≠ k → g.descs j = [] ∨ complete (g.descs j) = true
  wstat : ∀ t, i.wstat = some t → ∃ k, g.own t = some k ∧ g.rep k < (g.ops k).length ∧ complete (g.descs k) = true ∧ g.pulses.length ≤ k
  cstat : ∀ t, i.cstat = some t → ∃ k, g.own t = some k ∧ g.cqTook k = true ∧ g.cst k = false

def LegalRun (P : Params) (m : Nat) : Sys → List In → Prop
  | _, [] => True
  | x, i :: is => Legal P m x.g i ∧ LegalRun P m (step P x i) is

/-- The answer that there is no descriptor comes after the checksum of the packet has been taken. -/
def Prompt (g : G) (i : In) : Prop := ∀ d, i.dstat = some d → d.ok = false → ∃ k, g.own d.tag = some k ∧ k < g.sums.length

def PromptRun (P : Params) : Sys → List In → Prop
  | _, [] => True
  | x, i :: is => Prompt x.g i ∧ PromptRun P (step P x i) is

/-! ### What the outputs should be -/

/-- the order to receive a packet for each request -/
def G.rxOf (P : Params) (m : Nat) (g : G) : List RxDesc :=
  (List.range g.reqs.length).map fun k => ⟨P.buf.off (g.place k), min m P.buf.max, k % P.n⟩

/-- the descriptor fetch for request `k` -/
def G.fetchOf (P : Params) (g : G) (k : Nat) : Option (Nat × Nat) := (g.map k).map fun q => (q, k % P.n)

/-- `n` bytes at `a` cut up to fill the descriptors one after the other -/
def carve : Nat → Nat → List Desc → List W
  | _, _, [] => []
  | a, n, d :: ds => (if min d.len n = 0 then [] else [⟨d.addr, a, min d.len n⟩]) ++ carve (a + min d.len n) (n - min d.len n) ds

/-- the fields of the user signal of a received packet, from the lowest bit: error, time stamp if enabled, hash and its type if enabled -/
def tuser (P : Params) (bad ts hash htype : Nat) : Nat :=
  bad + 2 * ((if P.ptp then ts else 0) + 2 ^ (if P.ptp then P.tw else 0) * (hash + 2 ^ (if P.hash then 32 else 0) * htype))

/-- a completion record: queue, queue pointer, length, time stamp, checksum, hash, hash type, port -/
def record (P : Params) (queue ptr len ts csum hash htype id : Nat) : Nat :=
  queue % 2 ^ 16 + 2 ^ 16 * (ptr % 2 ^ 16) + 2 ^ 32 * (len % 2 ^ 16) + (if P.ptp then 2 ^ 64 * (ts / 2 ^ 16 % 2 ^ 48) else 0) +
    (if P.csum then 2 ^ 112 * (csum % 2 ^ 16) else 0) + (if P.hash then 2 ^ 128 * (hash % 2 ^ 32) + 2 ^ 160 * (htype % 2 ^ 8) else 0) + 2 ^ 168 * (id % 2 ^ 9)

/-- the completion of request `k` -/
def G.cplOf (P : Params) (g : G) (k : Nat) : Option Cpl :=
  match g.map k, g.resp k, g.rx k with
  | some q, some r, some x =>
    if r.ok then
      some ⟨r.cpl, k % P.n, record P q r.ptr x.len (x.user / 2 % 2 ^ P.tw) ((g.csum k).getD 0) (x.user / 2 ^ P.hashOff % 2 ^ 32) (x.user / 2 ^ P.typeOff % 2 ^ 4) x.id⟩
    else none
  | _, _, _ => none

/-- the status of request `k`: the length of the packet, zero if it was dropped, and the tag of the request -/
def G.report (g : G) (k : Nat) : Nat × Nat := (if g.good k then ((g.rx k).map (·.len)).getD 0 else 0, (g.reqs[k]?).getD 0)

/-- requests whose descriptor fetch has begun and not ended -/
def G.waiting (g : G) : Nat := (List.range g.dqn).countP fun k => !g.bad k && !complete (g.descs k)

end Corundum.RxEngine
