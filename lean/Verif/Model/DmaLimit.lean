import Verif.Model.RxHash

/-!
The limit on TLPs in flight: /repo/fpga/lib/pcie/rtl/dma_if_pcie_wr.v:880-967, 1000-1019 and dma_if_pcie_rd.v:815-845, 1366-1385.

One step is one clock cycle.  All that decides whether a TLP could be sent apart from the limit is input.
-/
namespace Corundum.DmaLimit

/-- TX_COUNT_WIDTH and TX_LIMIT (dma_if_pcie_wr.v:75, 180; dma_if_pcie_rd.v:71, 198) -/
def width (lim : Nat) : Nat := RxHash.clog2 (lim + 1)

/-- `active_tx_count_next`: the sum with two more bits, saturated (dma_if_pcie_wr.v:1003-1016, dma_if_pcie_rd.v:1369-1382) -/
def count (w cnt : Nat) (inc : Bool) (acks : Nat) : Nat :=
  let v := (cnt + inc.toNat + 2 ^ (w + 2) - acks % 2 ^ (w + 2)) % 2 ^ (w + 2)
  if v ≥ 2 ^ (w + 1) then 0 else if v ≥ 2 ^ w then 2 ^ w - 1 else v

structure In where
  /-- there is an entry to be sent (write: line 897; read: the other conditions of line 820) -/
  want : Bool
  /-- write: a beat can be sent (line 921) -/
  go : Bool
  /-- write: it is the last one of its TLP (line 938) -/
  last : Bool
  /-- sequence numbers that come back -/
  acks : Nat

/-- `busy`: `TLP_STATE_TRANSFER`, with `tlp_frame_reg`; `out` (ghost): TLPs begun whose sequence number has not come back -/
structure St where
  cnt : Nat := 0
  av : Bool := true
  busy : Option Bool := none
  out : Nat := 0
deriving DecidableEq, Repr

/-- a cycle of the write interface (dma_if_pcie_wr.v:880-967, 1000-1019) -/
def wr (lim : Nat) (s : St) (i : In) : St :=
  let inc := match s.busy with | some frame => i.go && !frame | none => false
  let fin := match s.busy with | some _ => i.go && i.last | none => true
  let cnt := count (width lim) s.cnt inc i.acks
  { cnt := cnt
    av := decide (cnt < lim)
    busy := if fin then (if i.want && s.av then some false else none) else (match s.busy with | some frame => some (frame || i.go) | none => none)
    out := s.out + inc.toNat - i.acks }

/-- a cycle of the read interface, where a TLP has one beat (dma_if_pcie_rd.v:820-845, 1366-1385) -/
def rd (lim : Nat) (s : St) (i : In) : St :=
  let inc := i.want && s.av
  let cnt := count (width lim) s.cnt inc i.acks
  { s with cnt := cnt, av := decide (cnt < lim), out := s.out + inc.toNat - i.acks }

end Corundum.DmaLimit
