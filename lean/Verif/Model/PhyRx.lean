/-! Receive side supervision of the 10G PHY: `eth_phy_10g_rx_frame_sync.v`, `eth_phy_10g_rx_ber_mon.v`, `eth_phy_10g_rx_watchdog.v` in
`fpga/lib/eth/rtl`.  One function per clock edge.  Reset is the initial state. -/
namespace Corundum.PhyRx

/-- sync header of a block is `SYNC_DATA` or `SYNC_CTRL` (eth_phy_10g_rx_frame_sync.v:67-69, :98) -/
def good (h : Nat) : Bool := h == 1 || h == 2

/-! ### frame sync -/

/-- registers (eth_phy_10g_rx_frame_sync.v:71-77) -/
structure Sync where
  count : Nat := 0
  bad : Nat := 0
  wait : Nat := 0
  slip : Bool := false
  lock : Bool := false
deriving DecidableEq, Repr

/-- one clock edge (eth_phy_10g_rx_frame_sync.v:82-133); `hi`, `lo` are `BITSLIP_HIGH_CYCLES` and `BITSLIP_LOW_CYCLES`, `bitslip_count`
is wide enough for both by its definition (:55-56) -/
def Sync.step (hi lo : Nat) (s : Sync) (h : Nat) : Sync :=
  if s.wait ≠ 0 then { s with wait := s.wait - 1 }
  else if s.slip then { s with slip := false, wait := lo - 1 }
  else if good h then
    if s.count = 63 then { s with count := 0, bad := 0, lock := if s.bad = 0 then true else s.lock }
    else { s with count := (s.count + 1) % 64 }
  else if s.lock = false ∨ s.bad = 15 then { s with count := 0, bad := 0, lock := false, slip := true, wait := hi - 1 }
  else if s.count = 63 then { s with count := 0, bad := 0 }
  else { s with count := (s.count + 1) % 64, bad := (s.bad + 1) % 16 }

/-! ### bit error rate monitor -/

/-- smallest `k` with `n ≤ 2 ^ k` (`$clog2`) -/
def clog2 (n : Nat) : Nat := if n ≤ 1 then 0 else Nat.log2 (n - 1) + 1

/-- what `time_count_reg <= COUNT_125US` stores: the register has `$clog2(COUNT_125US)` bits, at least one
(eth_phy_10g_rx_ber_mon.v:62, :68, :106; eth_phy_10g_rx_watchdog.v:71, :77, :117) -/
def timer (count : Nat) : Nat := count % 2 ^ max 1 (clog2 count)

/-- registers (eth_phy_10g_rx_ber_mon.v:68-71) -/
structure Ber where
  time : Nat
  ber : Nat := 0
  high : Bool := false
deriving DecidableEq, Repr

/-- one clock edge (eth_phy_10g_rx_ber_mon.v:75-113) -/
def Ber.step (count : Nat) (s : Ber) (h : Nat) : Ber :=
  { time := if s.time = 0 then timer count else s.time - 1
    ber := if s.time = 0 then 0 else if good h then s.ber else if s.ber = 15 then s.ber else (s.ber + 1) % 16
    high :=
      if good h then if s.ber ≠ 15 ∧ s.time = 0 then false else s.high
      else if s.ber = 15 then true else if s.time = 0 then false else s.high }

/-- after reset (eth_phy_10g_rx_ber_mon.v:115-119) -/
def Ber.init (count : Nat) : Ber := { time := timer count }

/-! ### watchdog -/

/-- inputs of a cycle (eth_phy_10g_rx_watchdog.v:46-56) -/
structure WIn where
  hdr : Nat
  badBlock : Bool
  seqErr : Bool
  lock : Bool
deriving DecidableEq, Repr

/-- registers (eth_phy_10g_rx_watchdog.v:77-86) -/
structure Dog where
  time : Nat
  err : Nat := 0
  stat : Nat := 0
  saw : Bool := false
  blk : Nat := 0
  req : Bool := false
  status : Bool := false
deriving DecidableEq, Repr

/-- one clock edge (eth_phy_10g_rx_watchdog.v:92-150); later assignments to the same signal win -/
def Dog.step (count : Nat) (s : Dog) (i : WIn) : Dog :=
  let saw := if i.lock && i.hdr == 1 then true else s.saw
  let blk := if i.lock && (i.badBlock || i.seqErr) && s.blk != 1023 then (s.blk + 1) % 1024 else s.blk
  let status := if i.lock then s.status else false
  let stat := if i.lock then s.stat else 0
  if s.time ≠ 0 then { s with time := s.time - 1, saw := saw, blk := blk, status := status, stat := stat, req := false }
  else
    let bad := !s.saw || s.blk == 1023
    { time := timer count
      err := if s.err = 15 then 0 else if bad then (s.err + 1) % 16 else 0
      stat := if bad then 0 else if s.stat ≠ 15 then (s.stat + 1) % 16 else stat
      saw := false
      blk := 0
      req := s.err = 15
      status := if s.stat = 15 then true else status }

/-- after reset (eth_phy_10g_rx_watchdog.v:152-159, :162-165) -/
def Dog.init (count : Nat) : Dog := { time := timer count }

end Corundum.PhyRx
