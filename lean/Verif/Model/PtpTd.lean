/-! PTP time distribution: source and sink of the serial time messages (fpga/lib/eth/tb/ptp_td.py).  One step is one rising clock edge, on which both
run; the sink samples the line as it was before the edge.  Reset, logging, the `pps` event and the conversions to and from `Decimal` are not modelled. -/
namespace Corundum.PtpTd

/-! ### the clock, which both have -/

/-- period and drift, drift counter, times (tb/ptp_td.py:58-73, :378-397) -/
structure Clk where
  pNs : Nat := 0
  pFns : Nat := 0
  num : Nat := 0
  denom : Nat := 0
  cnt : Nat := 0
  fns : Nat := 0
  rel : Nat := 0
  s : Nat := 0
  ns : Nat := 0
deriving DecidableEq, Repr

/-- fraction and drift (tb/ptp_td.py:230-238, :474-482) -/
def Clk.frac (c : Clk) : Clk :=
  let c := { c with fns := c.fns + (c.pNs * 2 ^ 32 + c.pFns) }
  if c.denom ≠ 0 then
    if c.cnt > 0 then { c with cnt := c.cnt - 1 } else { c with cnt := c.denom - 1, fns := c.fns + c.num }
  else c

/-- one period (tb/ptp_td.py:230-253, :474-497) -/
def Clk.tick (c : Clk) : Clk :=
  let c := c.frac
  let inc := c.fns / 2 ^ 32
  let c := { c with fns := c.fns % 2 ^ 32, rel := (c.rel + inc) % 2 ^ 48, ns := c.ns + inc }
  if c.ns ≥ 1000000000 then { c with s := c.s + 1, ns := c.ns - 1000000000 } else c

/-! ### source -/

/-- `timestamp_delay` holds time of day, relative time and fraction (tb/ptp_td.py:226) -/
abbrev Stamp := Nat × Nat × Nat × Nat

/-- attributes and the local variables of `_run` (tb/ptp_td.py:37-90, :214-220) -/
structure Src where
  clk : Clk := {}
  relUpd : Bool := false
  todUpd : Bool := false
  idx : Nat := 0
  msg : List Nat := []
  delay : Nat := 0
  word : Option Nat := none
  bit : Nat := 0
  data : Nat := 1
  hist : List Stamp := [(0, 0, 0, 0)]
deriving DecidableEq, Repr

/-- `set_period`, `set_drift`, `set_ts_tod`, `set_ts_rel` -/
inductive Op where
  | period (ns fns : Nat)
  | drift (num denom : Nat)
  | tod (s ns fns : Nat)
  | rel (ns fns : Nat)
deriving DecidableEq, Repr

/-- (tb/ptp_td.py:92-98, :118-122, :159-162) -/
def Src.op (x : Src) : Op → Src
  | .period ns fns => { x with clk := { x.clk with pNs := ns, pFns := fns % 2 ^ 32 } }
  | .drift num denom => { x with clk := { x.clk with num := num, denom := denom } }
  | .tod s ns fns => { x with clk := { x.clk with s := s, ns := ns, fns := fns }, todUpd := true }
  | .rel ns fns => { x with clk := { x.clk with rel := ns, fns := fns }, relUpd := true }

/-- offset of the current second (tb/ptp_td.py:256) -/
def Clk.off (c : Clk) : Nat := (((c.ns : Int) - c.rel) % 2 ^ 32).toNat

/-- the second before or after (tb/ptp_td.py:259-266) -/
def Clk.altS (c : Clk) : Int := if c.ns / 2 ^ 29 % 2 = 1 then (c.s : Int) + 1 else c.s - 1

/-- offset of that second (tb/ptp_td.py:259-266) -/
def Clk.altOff (c : Clk) : Nat :=
  if c.ns / 2 ^ 29 % 2 = 1 then (((c.off : Int) - 1000000000) % 2 ^ 32).toNat else (((c.off : Int) + 1000000000) % 2 ^ 32).toNat

/-- 16 bits of a number (`(x >> n) & 0xffff`) -/
def w16 (x n : Nat) : Nat := x / 2 ^ n % 2 ^ 16

/-- the same for a number that may be negative -/
def z16 (x : Int) (n : Nat) : Nat := (x / 2 ^ n % 2 ^ 16).toNat

/-- words 1 to 5 (tb/ptp_td.py:281-316) -/
def Src.body (x : Src) : List Nat :=
  if x.idx = 0 then
    [w16 x.clk.ns 0, x.clk.ns / 2 ^ 16 % 2 ^ 14 + (if x.todUpd then 0x8000 else 0), w16 x.clk.s 0, w16 x.clk.s 16, w16 x.clk.s 32]
  else if x.idx = 1 then [w16 x.clk.off 0, w16 x.clk.off 16, x.clk.num, x.clk.denom, x.clk.cnt]
  else if x.idx = 2 then [w16 x.clk.altOff 0, w16 x.clk.altOff 16, z16 x.clk.altS 0, z16 x.clk.altS 16, z16 x.clk.altS 32]
  else []

/-- the message (tb/ptp_td.py:271-334) -/
def Src.build (x : Src) : List Nat :=
  [x.idx % 16 + (if x.relUpd then 256 else 0) + (if x.clk.s % 2 = 1 then 512 else 0)] ++ x.body ++
  [w16 x.clk.fns 0, w16 x.clk.fns 16, w16 x.clk.rel 0, w16 x.clk.rel 16, w16 x.clk.rel 32, w16 x.clk.pFns 0, w16 x.clk.pFns 16, x.clk.pNs % 256]

/-- a message is built every 256 edges (tb/ptp_td.py:268-338) -/
def Src.message (x : Src) : Src :=
  if x.delay = 0 then
    { x with msg := x.build, relUpd := false, todUpd := x.todUpd && x.idx != 0,
             idx := if x.idx = 0 then 1 else if x.idx = 1 then 2 else if x.idx = 2 then 0 else x.idx, delay := 255 }
  else { x with delay := x.delay - 1 }

/-- a start bit, then 16 bits, least significant first; 1 between messages (tb/ptp_td.py:340-353) -/
def Src.serialize (x : Src) : Src :=
  match x.word with
  | none =>
    match x.msg with
    | w :: ws => { x with word := some w, msg := ws, bit := 0, data := 0 }
    | [] => { x with data := 1 }
  | some w =>
    { x with data := w / 2 ^ x.bit % 2, bit := x.bit + 1, word := if x.bit + 1 = 16 then none else some w }

/-- one edge (tb/ptp_td.py:222-353) -/
def Src.edge (td : Nat) (x : Src) : Src :=
  let h := x.hist ++ [(x.clk.s, x.clk.ns, x.clk.rel, x.clk.fns)]
  let x := { x with hist := h.drop (h.length - (14 * 17 + td)), clk := x.clk.tick }
  x.message.serialize

/-- `get_ts_tod`, `get_ts_rel`: the oldest of the delayed times (tb/ptp_td.py:142-144, :180-182) -/
def Src.get (x : Src) : Stamp := x.hist.headD (0, 0, 0, 0)

/-! ### sink -/

/-- attributes and the local variables of `_run` (tb/ptp_td.py:375-407, :460-467) -/
structure Snk where
  clk : Clk := {}
  off : Nat := 0
  altS : Nat := 0
  altOff : Nat := 0
  msg : Option (List Nat) := none
  delay : Nat := 0
  cur : List Nat := []
  word : Option Nat := none
  bit : Nat := 0
deriving DecidableEq, Repr

/-- words of a message by number -/
def mw (m : List Nat) (i : Nat) : Nat := m.getD i 0

/-- words 1 to 5 (tb/ptp_td.py:509-561) -/
def Snk.body (k : Snk) (m : List Nat) : Snk :=
  if mw m 0 % 16 = 0 then
    { k with clk := { k.clk with ns := mw m 2 % 2 ^ 14 * 2 ^ 16 + mw m 1, s := mw m 5 * 2 ^ 32 + mw m 4 * 2 ^ 16 + mw m 3 } }
  else if mw m 0 % 16 = 1 then
    { k with off := mw m 2 * 2 ^ 16 + mw m 1, clk := { k.clk with num := mw m 3, denom := mw m 4, cnt := mw m 5 } }
  else if mw m 0 % 16 = 2 then
    { k with altOff := mw m 2 * 2 ^ 16 + mw m 1, altS := mw m 5 * 2 ^ 32 + mw m 4 * 2 ^ 16 + mw m 3 }
  else k

/-- a message takes effect (tb/ptp_td.py:504-585); reading past the end of a short one raises an exception that ends the sink: `none` -/
def Snk.load (k : Snk) (m : List Nat) : Option Snk :=
  if m.length < 14 then none
  else
    let k := k.body m
    some { k with clk := { k.clk with fns := mw m 7 * 2 ^ 16 + mw m 6, rel := mw m 10 * 2 ^ 32 + mw m 9 * 2 ^ 16 + mw m 8,
                                      pFns := mw m 12 * 2 ^ 16 + mw m 11, pNs := mw m 13 % 256 },
                  msg := none }

/-- pending message (tb/ptp_td.py:499-585) -/
def Snk.process (k : Snk) : Option Snk :=
  let k := { k with delay := k.delay - 1 }
  if k.delay = 0 then
    match k.msg with
    | some m => k.load m
    | none => some k
  else some k

/-- the line (tb/ptp_td.py:587-604); `|` of a new bit above the others is a sum -/
def Snk.deserialize (td : Nat) (k : Snk) (sdi : Nat) : Snk :=
  match k.word with
  | some w =>
    let w := w + sdi * 2 ^ k.bit
    if k.bit + 1 = 16 then { k with cur := k.cur ++ [w], word := none, bit := k.bit + 1 } else { k with word := some w, bit := k.bit + 1 }
  | none =>
    if sdi = 0 then { k with word := some 0, bit := 0 }
    else if k.cur ≠ [] then { k with msg := some k.cur, delay := td, cur := [] }
    else k

/-- one edge (tb/ptp_td.py:469-604) -/
def Snk.edge (td : Nat) (k : Snk) (sdi : Nat) : Option Snk :=
  match ({ k with clk := k.clk.tick } : Snk).process with
  | some k => some (k.deserialize td sdi)
  | none => none

end Corundum.PtpTd
