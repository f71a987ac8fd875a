import Verif.Model.DescFetch

/-! What the queue managers, the DMA engine and the stream client promise to the descriptor fetch engine, and what it should do. -/
namespace Corundum.DescFetch

/-- The surroundings behave during a cycle: requests name an existing port; a port answers only requests it has taken, once, with their tag and a block size that fits its
field, and holds its answer until it is taken; the DMA engine writes only to the descriptor RAM of fetches it has taken and not reported finished, and reports
each once, with its tag; the stream client reports each read it has taken once, with its tag. -/
structure Legal (P : Params) (g : G) (i : In) : Prop where
  req : ∀ q, i.req = some q → q.sel < P.ports
  resp : ∀ p, p < P.ports → ∀ k r, i.resp p = some (k, r) →
    ∃ q, g.reqs[k]? = some q ∧ q.sel = p ∧ q.tag = r.tag ∧ r.blk < 2 ^ P.lbw ∧ k < g.asks.length ∧ g.answered k = false
  hold : ∀ p, p < P.ports → ∀ x, g.held p = some x → i.resp p = some x
  fstat : ∀ t k, i.fstat = some (t, k) → ∃ d, g.dmas[k]? = some d ∧ d.tag = t ∧ g.got k = false
  rstat : ∀ t k, i.rstat = some (t, k) → ∃ r, g.reads[k]? = some r ∧ r.tag = t ∧ g.sent k = false
  pokes : ∀ w ∈ i.pokes, ∃ (k : Nat) (d : Dma), g.dmas[k]? = some d ∧ g.got k = false ∧ d.ram ≤ w.1 ∧ w.1 < d.ram + d.len

def LegalRun (P : Params) : Sys → List In → Prop
  | _, [] => True
  | x, i :: is => Legal P x.g i ∧ LegalRun P (step P x i) is

/-- The queue managers take a commit in the cycle it is offered, as queue_manager.v does when enabled (queue_manager.v:582), or there is one queue manager only. -/
def Prompt (P : Params) (s : S) (i : In) : Prop := P.ports = 1 ∨ ∀ p, p < P.ports → s.coValid p = true → i.commitReady p = true

def PromptRun (P : Params) : Sys → List In → Prop
  | _, [] => True
  | x, i :: is => Prompt P x.s i ∧ PromptRun P (step P x i) is

/-- the lengths fit their registers -/
structure Good (P : Params) : Prop where
  len : 2 ^ P.shift < 2 ^ P.lw
  len8 : 2 ^ P.shift < 2 ^ 8

/-- descriptors were granted -/
def Resp.ok (r : Resp) : Bool := !r.error && !r.empty

/-- the responses that granted descriptors, in the order they were used: port, response -/
def G.grants (g : G) : List (Nat × Resp) := (g.used.map (·.2)).filter fun x => x.2.ok

/-- the size of a slot of the descriptor RAM -/
def Params.slot (P : Params) : Nat := P.dsz * 2 ^ (2 ^ P.lbw - 1)

/-- the fetch for grant `k` -/
def fetchOf (P : Params) (k : Nat) (r : Resp) : Dma := ⟨r.addr, k % P.n * P.slot, P.dsz * 2 ^ r.blk, k % P.n⟩

/-- the read for grant `k` -/
def readOf (P : Params) (k : Nat) (r : Resp) : Rd := ⟨k % P.n * P.slot, P.dsz * 2 ^ r.blk, k % P.n, r.tag⟩

/-- the status of a response -/
def statOf (r : Resp) : Stat := ⟨r.queue, r.ptr, r.cpl, r.tag, r.empty, r.error⟩

/-- what is offered on a port and not taken -/
def offered {α : Type} (P : Params) (valid : Nat → Bool) (f : Nat → α) : List α :=
  (List.range P.ports).filterMap fun p => if valid p then some (f p) else none

/-- what is shown -/
def shown {α : Type} (b : Bool) (x : α) : List α := if b then [x] else []

end Corundum.DescFetch
