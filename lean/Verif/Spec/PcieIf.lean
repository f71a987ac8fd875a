import Verif.Model.PcieIf
/-!
What users of the PCIe interface see: frames sent and frames received.
-/
namespace Corundum.PcieIf

/-- a frame that fits the bus: field widths, and data as announced by the header -/
structure Frame.Ok (c : Cfg) (f : Frame) : Prop where
  prfx : f.prfx < 2 ^ 32
  hdr : f.hdr < 2 ^ 128
  prfxPar : f.prfxPar < 2 ^ 4
  hdrPar : f.hdrPar < 2 ^ 16
  func : f.func < 2 ^ 8
  vf : ∀ v, f.vf = some v → v < 2 ^ 11
  bar : f.bar < 2 ^ 3
  error : f.error < 2 ^ 4
  seq : f.seq < 2 ^ c.seqW
  data : ∀ d ∈ f.data, d < 2 ^ 32
  parity : ∀ d ∈ f.parity, d < 2 ^ 4
  plen : f.parity.length = f.data.length
  /-- fmt[1] of the header says whether there is data; the length field has ten bits, 0 stands for 1024 -/
  len : f.data.length = if f.hdr.testBit 126 then (if f.hdr / 2 ^ 96 % 1024 = 0 then 1024 else f.hdr / 2 ^ 96 % 1024) else 0

/-- a frame as it is received: the abort flag is not on the bus of the source -/
def norm (f : Frame) : Frame := { f with abort := 0 }

/-- the state after a sequence of events -/
def run (c : Cfg) (evs : List Ev) : St := evs.foldl (step c) {}

/-- the frames sent -/
def sent : List Ev → List Frame
  | [] => []
  | .send f :: evs => f :: sent evs
  | _ :: evs => sent evs

/-- nothing is on its way: the source is idle, :455, and nothing is on the bus -/
def Idle (s : St) : Prop := s.queue = [] ∧ s.cur = none ∧ s.wait = none ∧ s.drive = none ∧ s.bus.valid = 0

/-- the number of ones in byte `j` is odd -/
def oddByte (d j : Nat) : Bool := (List.range 8).countP (fun i => d.testBit (8 * j + i)) % 2 == 1

end Corundum.PcieIf
