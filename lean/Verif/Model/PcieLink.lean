/-! Links of the PCIe model (fpga/lib/pcie/tb/pcie.py:724-817): a `Port` sends transaction layer packets to the port it is connected to, one after the
other, each for as long as it takes at the speed and width of the link.

`send` and `transmit` are generators run by the simulator; between two `yield`s a generator runs alone.  A generator that waits is a job with the time
it is due.  Of the jobs due at the same time the simulator may run any first; the real one has a fixed order, so it has fewer runs.  The handler that
receives a packet is not modelled, nor the exception raised when the port is not connected. -/
namespace Corundum.PcieLink

/-! ### packets and time on the wire -/

/-- what matters of a `TLP` here: `fmt`, `data` and something to tell packets apart (pcie.py:329-378) -/
structure Pkt where
  fmt : Nat
  data : List Nat
  mark : Nat := 0
deriving DecidableEq, Repr

/-- `get_size` (pcie.py:534-543); other formats give `None` -/
def Pkt.size (p : Pkt) : Nat :=
  if p.fmt = 0 then 12
  else if p.fmt = 2 then 12 + p.data.length * 4
  else if p.fmt = 1 then 16
  else 16 + p.data.length * 4

/-- `get_wire_size` (pcie.py:545-547) -/
def Pkt.wireSize (p : Pkt) : Nat := p.size + 12

/-- `PCIE_GEN_RATE` (pcie.py:130-136) as numerator and denominator, in Gbit/s per lane; the code has floating point numbers -/
def genRate (speed : Nat) : Nat × Nat :=
  if speed = 1 then (20, 10)
  else if speed = 2 then (40, 10)
  else if speed = 3 then (1024, 130)
  else if speed = 4 then (2048, 130)
  else (4096, 130)

/-- `int(d)`: time on the wire in ns (pcie.py:773-774) -/
def serial (speed width : Nat) (p : Pkt) : Nat :=
  p.wireSize * 8 * (genRate speed).2 / ((genRate speed).1 * width)

/-! ### connecting -/

/-- the fields of a `Port` that `connect` uses (pcie.py:726-740) -/
structure Port where
  other : Option Nat := none
  maxSpeed : Nat := 3
  maxWidth : Nat := 16
  portDelay : Nat := 5
  curSpeed : Nat := 1
  curWidth : Nat := 1
  linkDelay : Nat := 0
deriving DecidableEq, Repr

/-- all ports, by number -/
abbrev Ports := Nat → Port

/-- replace a port -/
def Ports.put (w : Ports) (i : Nat) (p : Port) : Ports := fun j => if j = i then p else w j

/-- `_connect_int` on port `i`; `false` is the exception (pcie.py:754-760) -/
def connectInt (w : Ports) (i j : Nat) : Bool × Ports :=
  if (w i).other.isSome then (false, w)
  else (true, w.put i { w i with
      other := some j
      curSpeed := min (w i).maxSpeed (w j).maxSpeed
      curWidth := min (w i).maxWidth (w j).maxWidth
      linkDelay := (w i).portDelay + (w j).portDelay })

/-- `connect` of port `i` with port `j` (pcie.py:742-752) -/
def connect (w : Ports) (i j : Nat) : Bool × Ports :=
  if (w i).other.isSome then (false, w)
  else
    match connectInt w j i with
    | (false, w) => (false, w)
    | (true, w) => connectInt w i j

/-! ### sending -/

/-- the link of a connected port: time on the wire by packet, and `int(self.link_delay)` -/
structure Cfg where
  ser : Pkt → Nat
  link : Nat

/-- the link of port `p` -/
def Port.cfg (p : Port) : Cfg := ⟨serial p.curSpeed p.curWidth, p.linkDelay⟩

/-- a generator that waits -/
inductive Job where
  /-- the rest of `send`, after the fork (pcie.py:767) -/
  | flag
  /-- `transmit`, from its beginning (pcie.py:770) -/
  | tx
  /-- `transmit` after the time on the wire (pcie.py:775) -/
  | wire (p : Pkt)
  /-- `transmit` after the delay of the link (pcie.py:777) -/
  | fly (p : Pkt)
deriving DecidableEq, Repr

/-- a port while it sends: `tx_queue`, `tx_scheduled`, the generators and what the other port was given by `ext_recv`, with the time -/
structure St where
  now : Nat := 0
  queue : List Pkt := []
  sched : Bool := false
  jobs : List (Nat × Job) := []
  out : List (Nat × Pkt) := []
deriving DecidableEq, Repr

/-- what happens: a call of `send`, a generator goes on, time goes on -/
inductive Ev where
  | send (p : Pkt)
  | run (i : Nat)
  | tick
deriving DecidableEq, Repr

/-- `send` up to the `yield` (pcie.py:762-766) -/
def St.send (s : St) (p : Pkt) : St :=
  let s := { s with queue := s.queue ++ [p] }
  if s.sched then s else { s with jobs := s.jobs ++ [(s.now, .tx), (s.now, .flag)] }

/-- a generator goes on until its next `yield` (pcie.py:767, 769-779, 781-784) -/
def St.exec (c : Cfg) (s : St) : Job → St
  | .flag => { s with sched := true }
  | .tx =>
    match s.queue with
    | p :: q => { s with queue := q, jobs := s.jobs ++ [(s.now + c.ser p, .wire p)] }
    | [] => { s with sched := false }
  | .wire p => { s with jobs := s.jobs ++ [(s.now, .tx), (s.now + c.link, .fly p)] }
  | .fly p => { s with out := s.out ++ [(s.now, p)] }

/-- one event; a job runs when it is due, time goes on when none is due -/
def St.step (c : Cfg) (s : St) : Ev → St
  | .send p => s.send p
  | .run i =>
    match s.jobs[i]? with
    | some (t, j) => if t = s.now then { s with jobs := s.jobs.eraseIdx i }.exec c j else s
    | none => s
  | .tick => if s.jobs.any (fun x => x.1 == s.now) then s else { s with now := s.now + 1 }

/-- a run from the beginning -/
def run (c : Cfg) (es : List Ev) : St := es.foldl (St.step c) {}

end Corundum.PcieLink
