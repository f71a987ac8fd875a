/-!
PTP time distribution: `fpga/lib/eth/tb/ptp_td.py`, `PtpTdSource` and `PtpTdSink` (the two are the reference
for `ptp_td_phc.v` and for every consumer of the serial time stream).

Simplifications: arguments of the `set_*` calls are non-negative integers (the decimal front ends
`set_period_ns`, `set_ts_tod_ns` etc. are not modelled); logging, the `pps` event and resets are left out.
-/

namespace Corundum.Ptp

/-- The counters kept by both classes: `period_ns`, `period_fns`, `drift_num`, `drift_denom`, `drift_cnt`,
`ts_fns`, `ts_rel_ns`, `ts_tod_s`, `ts_tod_ns`. ptp_td.py:59-75, 374-391. -/
structure Clk where
  pns : Nat
  pfns : Nat
  num : Nat
  denom : Nat
  cnt : Nat
  fns : Nat
  rel : Nat
  s : Nat
  ns : Nat
deriving DecidableEq, Repr

/-- Drift counter and amount added this clock: ptp_td.py:233-238, 477-482. -/
def drift (k : Clk) : Nat × Nat :=
  if k.denom ≠ 0 then
    if k.cnt > 0 then (k.cnt - 1, 0) else (k.denom - 1, k.num)
  else (k.cnt, 0)

/-- One clock of the time counters: ptp_td.py:230-253 (source), 474-497 (sink). -/
def tick (k : Clk) : Clk :=
  let t := k.fns + ((k.pns <<< 32) + k.pfns) + (drift k).2
  let inc := t >>> 32
  let n := k.ns + inc
  { k with
    cnt := (drift k).1
    fns := t &&& 0xffffffff
    rel := (k.rel + inc) &&& 0xffffffffffff
    s := if n ≥ 1000000000 then k.s + 1 else k.s
    ns := if n ≥ 1000000000 then n - 1000000000 else n }

/-- User calls on the source. -/
inductive Op where
  /-- `set_period`: ptp_td.py:92-94 -/
  | period (ns fns : Nat)
  /-- `set_drift`: ptp_td.py:96-98 -/
  | drift (num denom : Nat)
  /-- `set_ts_tod`: ptp_td.py:118-122 -/
  | tod (s ns fns : Nat)
  /-- `set_ts_rel`: ptp_td.py:159-162 -/
  | rel (ns fns : Nat)

def Op.apply (k : Clk) : Op → Clk
  | .period ns fns => { k with pns := ns, pfns := fns &&& 0xffffffff }
  | .drift num denom => { k with num := num, denom := denom }
  | .tod s ns fns => { k with s := s, ns := ns, fns := fns }
  | .rel ns fns => { k with rel := ns, fns := fns }

/-- ptp_td.py:255-256. -/
def offsetNs (k : Clk) : Nat := (((k.ns : Int) - k.rel) % 2 ^ 32).toNat

/-- ptp_td.py:258-266. -/
def altS (k : Clk) : Int := if k.ns &&& (1 <<< 29) ≠ 0 then (k.s : Int) + 1 else (k.s : Int) - 1

/-- ptp_td.py:258-266. -/
def altOffsetNs (k : Clk) : Nat :=
  if k.ns &&& (1 <<< 29) ≠ 0 then (((offsetNs k : Int) - 1000000000) % 2 ^ 32).toNat
  else (((offsetNs k : Int) + 1000000000) % 2 ^ 32).toNat

/-- 16-bit slice `(v >> 16*i) & 0xffff` of a possibly negative integer. -/
def slice (v : Int) (i : Nat) : Nat := ((v / 2 ^ (16 * i)) % 2 ^ 16).toNat

/-- The message for index `i`, with the update flags: ptp_td.py:271-334. -/
def build (k : Clk) (i : Nat) (ru tu : Bool) : List Nat :=
  [(i &&& 0xf) ||| (ru.toNat <<< 8) ||| ((k.s &&& 1) <<< 9)] ++
  (if i = 0 then
    [k.ns &&& 0xffff, ((k.ns >>> 16) &&& 0x3fff) ||| (if tu then 0x8000 else 0),
     k.s &&& 0xffff, (k.s >>> 16) &&& 0xffff, (k.s >>> 32) &&& 0xffff]
  else if i = 1 then
    [offsetNs k &&& 0xffff, (offsetNs k >>> 16) &&& 0xffff, k.num, k.denom, k.cnt]
  else if i = 2 then
    [altOffsetNs k &&& 0xffff, (altOffsetNs k >>> 16) &&& 0xffff,
     slice (altS k) 0, slice (altS k) 1, slice (altS k) 2]
  else []) ++
  [k.fns &&& 0xffff, (k.fns >>> 16) &&& 0xffff,
   k.rel &&& 0xffff, (k.rel >>> 16) &&& 0xffff, (k.rel >>> 32) &&& 0xffff,
   k.pfns &&& 0xffff, (k.pfns >>> 16) &&& 0xffff, k.pns &&& 0xff]

/-- Serialiser variables `msg`, `word`, `bit_index` and the data line. ptp_td.py:216-220. -/
structure Ser where
  msg : List Nat
  word : Option Nat
  bit : Nat
  data : Bool
deriving DecidableEq, Repr

/-- Serialiser, after the message variable has been set: ptp_td.py:340-352. -/
def Ser.step (z : Ser) : Ser :=
  match z.word with
  | none =>
    match z.msg with
    | w :: t => ⟨t, some w, 0, false⟩
    | [] => ⟨[], none, z.bit, true⟩
  | some w => ⟨z.msg, if z.bit + 1 = 16 then none else some w, z.bit + 1, (w >>> z.bit) &&& 1 = 1⟩

/-- The source: counters, update flags, message index, message delay, serialiser. -/
structure Src where
  clk : Clk
  relUpd : Bool
  todUpd : Bool
  idx : Nat
  delay : Nat
  ser : Ser
deriving DecidableEq, Repr

/-- A user call on the source, with its update flag: ptp_td.py:92-98, 118-122, 159-162. -/
def Src.apply (s : Src) (o : Op) : Src :=
  { s with
    clk := o.apply s.clk
    relUpd := match o with | .rel _ _ => true | _ => s.relUpd
    todUpd := match o with | .tod _ _ _ => true | _ => s.todUpd }

/-- One clock edge of `PtpTdSource._run`: ptp_td.py:223-352. -/
def Src.step (s : Src) : Src :=
  let k := tick s.clk
  if s.delay = 0 then
    { clk := k
      relUpd := false
      todUpd := if s.idx = 0 then false else s.todUpd
      idx := if s.idx = 0 then 1 else if s.idx = 1 then 2 else if s.idx = 2 then 0 else s.idx
      delay := 255
      ser := Ser.step { s.ser with msg := build k s.idx s.relUpd s.todUpd } }
  else { s with clk := k, delay := s.delay - 1, ser := s.ser.step }

/-- Deserialiser variables `cur_msg`, `word`, `bit_index`. ptp_td.py:462-467. -/
structure Des where
  cur : List Nat
  word : Option Nat
  bit : Nat
deriving DecidableEq, Repr

/-- Deserialiser: new state and the message completed, if any. ptp_td.py:587-604. -/
def Des.step (d : Des) (sdi : Bool) : Des × Option (List Nat) :=
  match d.word with
  | some w =>
    if d.bit + 1 = 16 then (⟨d.cur ++ [w ||| (sdi.toNat <<< d.bit)], none, d.bit + 1⟩, none)
    else (⟨d.cur, some (w ||| (sdi.toNat <<< d.bit)), d.bit + 1⟩, none)
  | none =>
    if sdi = false then (⟨d.cur, some 0, 0⟩, none)
    else if d.cur = [] then (d, none)
    else (⟨[], none, d.bit⟩, some d.cur)

/-- The sink: counters, offsets, alternate second, pending message and its delay, deserialiser. -/
structure Snk where
  clk : Clk
  off : Nat
  altS : Nat
  altOff : Nat
  msg : Option (List Nat)
  delay : Nat
  des : Des
deriving DecidableEq, Repr

/-- Apply a message of at least 14 words to the sink: ptp_td.py:505-584. -/
def Snk.process (k : Snk) (m : List Nat) : Snk :=
  let g := fun i => m.getD i 0
  let i := g 0 &&& 0xf
  { k with
    clk := {
      pns := g 13 &&& 0xff
      pfns := (g 12 <<< 16) ||| g 11
      num := if i = 1 then g 3 else k.clk.num
      denom := if i = 1 then g 4 else k.clk.denom
      cnt := if i = 1 then g 5 else k.clk.cnt
      fns := (g 7 <<< 16) ||| g 6
      rel := (g 10 <<< 32) ||| (g 9 <<< 16) ||| g 8
      s := if i = 0 then (g 5 <<< 32) ||| (g 4 <<< 16) ||| g 3 else k.clk.s
      ns := if i = 0 then ((g 2 &&& 0x3fff) <<< 16) ||| g 1 else k.clk.ns }
    off := if i = 1 then (g 2 <<< 16) ||| g 1 else k.off
    altOff := if i = 2 then (g 2 <<< 16) ||| g 1 else k.altOff
    altS := if i = 2 then (g 5 <<< 32) ||| (g 4 <<< 16) ||| g 3 else k.altS }

/-- Counters and pending message of the sink at an edge: ptp_td.py:474-585. `none` when a message too short to
index is processed (IndexError). -/
def Snk.work (k : Snk) : Option Snk :=
  match k.msg with
  | some m =>
    if k.delay - 1 = 0 then
      if m.length < 14 then none
      else some { (({ k with clk := tick k.clk, delay := k.delay - 1 } : Snk).process m) with msg := none }
    else some { k with clk := tick k.clk, delay := k.delay - 1 }
  | none => some { k with clk := tick k.clk, delay := k.delay - 1 }

/-- Result of the deserialiser: ptp_td.py:587-604. -/
def Snk.recv (td : Nat) (r : Des × Option (List Nat)) (k : Snk) : Snk :=
  { k with
    des := r.1
    msg := if r.2.isSome then r.2 else k.msg
    delay := if r.2.isSome then td else k.delay }

/-- One clock edge of `PtpTdSink._run`: ptp_td.py:469-604. -/
def Snk.step (td : Nat) (k : Snk) (sdi : Bool) : Option Snk := k.work.map (Snk.recv td (k.des.step sdi))

/-- Source after construction and reset with any counters. -/
def Src.init (k : Clk) : Src := ⟨k, false, false, 0, 0, ⟨[], none, 0, true⟩⟩

/-- Sink after construction and reset with any counters. -/
def Snk.init (k : Clk) : Snk := ⟨k, 0, 0, 0, none, 0, ⟨[], none, 0⟩⟩

/-- Source and sink on one clock and one wire: user calls `ops n` happen before edge `n`; the sink samples the
wire value from before the edge. -/
def joint (td : Nat) (ops : Nat → List Op) (k0 k1 : Clk) : Nat → Src × Option Snk
  | 0 => (Src.init k0, some (Snk.init k1))
  | n + 1 =>
    let p := joint td ops k0 k1 n
    (((ops n).foldl Src.apply p.1).step, p.2.bind fun k => k.step td p.1.ser.data)

/-- The source's counters under a sequence of clock edges (`none`) and user calls (`some`). -/
def exec (k : Clk) (l : List (Option Op)) : Clk :=
  l.foldl (fun k e => match e with | none => tick k | some o => o.apply k) k

/-- One edge of a serialiser with an optional fresh message, wired to a deserialiser whose completed messages
are collected. -/
def wire (x : Ser × Des × List (List Nat)) (new : Option (List Nat)) : Ser × Des × List (List Nat) :=
  (Ser.step { x.1 with msg := new.getD x.1.msg }, (x.2.1.step x.1.data).1, x.2.2 ++ (x.2.1.step x.1.data).2.toList)

end Corundum.Ptp
