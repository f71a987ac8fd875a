/-
Receive ring of the Linux driver, `modules/mqnic/mqnic_rx.c`:

* `mqnic_process_rx_cq` lines 293-419: completion loop body -> `consume`, loop -> `consumeAll`, ring scan -> `scanTo`
* `mqnic_prepare_rx_desc` / `mqnic_refill_rx_buffers` lines 226-291 -> `prepare`, `refillLoop`, `refill`

The records consumed by a pass are given as a list (their order and freshness is C07).  u32 pointers that are
only used through differences and masks are `Nat`.  Page and skb allocation and DMA mapping are assumed to
succeed; pages are numbered by allocation; timestamps, checksums and statistics are omitted.
-/
namespace Corundum.LinuxRx

/-- `rx_info[i].page` is `page i`; every page has the ring's length `len = PAGE_SIZE << page_order`. -/
structure Rx where
  k : Nat
  len : Nat
  prod : Nat
  cons : Nat
  page : Nat → Option Nat
  nextPage : Nat

def Rx.size (g : Rx) : Nat := 2 ^ g.k
def Rx.mask (g : Rx) : Nat := g.size - 1

/-- A completion record: `cpl->index`, `cpl->len`. -/
structure Cpl where
  index : Nat
  len : Nat
  deriving DecidableEq

def ETH_HLEN : Nat := 14

/-- Loop body, lines 326-391.  Result: `none` = `break` (null page), otherwise what was handed to the stack (`none` for a
dropped frame) and the new ring. -/
def consume (g : Rx) (c : Cpl) : Option (Option (Nat × Nat) × Rx) :=
  let i := c.index &&& g.mask
  let len := min c.len g.len
  if len < ETH_HLEN then some (none, g)      -- goto rx_drop (lines 331-336)
  else match g.page i with
    | none => none                           -- line 338: break
    | some pg => some (some (pg, len), { g with page := fun j => if j = i then none else g.page j })

def consumeAll (g : Rx) : List Cpl → List (Nat × Nat) × Rx
  | [] => ([], g)
  | c :: cs =>
    match consume g c with
    | none => ([], g)
    | some (d, g) => let (ds, g) := consumeAll g cs; (d.toList ++ ds, g)

/-- Lines 402-410; `n` = distance to `prod_ptr`. -/
def scanTo (g : Rx) : Nat → Nat → Nat
  | 0, c => c
  | n + 1, c => if (g.page (c &&& g.mask)).isSome then c else scanTo g n (c + 1)

def scan (g : Rx) : Rx := { g with cons := scanTo g (g.prod - g.cons) g.cons }

/-- `mqnic_prepare_rx_desc` at `prod_ptr & size_mask` and `prod_ptr++`; `none` = error return. -/
def prepare (g : Rx) : Option Rx :=
  let i := g.prod &&& g.mask
  if (g.page i).isSome then none
  else some { g with
    page := fun j => if j = i then some g.nextPage else g.page j
    nextPage := g.nextPage + 1
    prod := g.prod + 1 }

def refillLoop (g : Rx) : Nat → Rx
  | 0 => g
  | n + 1 => match prepare g with
    | none => g
    | some g => refillLoop g n

/-- `mqnic_refill_rx_buffers`; `missing` is a u32 (`size - (prod - cons)` never negative, shown below). -/
def refill (g : Rx) : Rx :=
  let missing := g.size - (g.prod - g.cons)
  if missing < 8 then g else refillLoop g missing

/-- One call of `mqnic_process_rx_cq` that consumes the records `cs`. -/
def processRx (g : Rx) (cs : List Cpl) : List (Nat × Nat) × Rx :=
  let (ds, g) := consumeAll g cs
  (ds, refill (scan g))

/-- A freshly activated ring after its first refill. -/
def start (k len : Nat) : Rx :=
  refill { k, len, prod := 0, cons := 0, page := fun _ => none, nextPage := 0 }

/-- Repeated calls. -/
def runRx (g : Rx) (passes : List (List Cpl)) : Rx := passes.foldl (fun g cs => (processRx g cs).2) g

end Corundum.LinuxRx
