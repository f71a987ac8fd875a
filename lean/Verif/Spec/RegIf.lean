import Verif.Model.RegIf
/-!
What can be seen at the ports of the register interface: handshakes on the bus and accesses on the register side. An access is a
run of cycles with the enable high; it is over when the enable goes low.
-/
namespace Corundum.RegIf

/-- an access that is over: address, data, whether it was acknowledged in its last cycle, cycles without `wait` before that -/
structure Access (δ : Type) where
  addr : Nat
  data : δ
  acked : Bool
  age : Nat
deriving DecidableEq, Repr

/-- write side: addresses and data taken from the bus, accesses over, responses taken by the bus, acknowledges given while
enabled, cycles without `wait` of the current access -/
structure WMon where
  aws : List Nat
  ws : List (Nat × Nat)
  over : List (Access (Nat × Nat))
  responses : Nat
  acks : Nat
  age : Nat
deriving DecidableEq, Repr

def WMon.init : WMon := ⟨[], [], [], 0, 0, 0⟩

/-- one cycle, with the registers before and after -/
def WMon.step (m : WMon) (s : WSt) (i : WIn) (s' : WSt) : WMon :=
  { aws := if i.awvalid && s.awready then m.aws ++ [i.awaddr] else m.aws
    ws := if i.wvalid && s.wready then m.ws ++ [i.wdata] else m.ws
    over := if s.en && !s'.en then m.over ++ [⟨s.addr, s.data, i.ack, m.age⟩] else m.over
    responses := if s.bv && i.bready then m.responses + 1 else m.responses
    acks := if s.en && i.ack then m.acks + 1 else m.acks
    age := if s.en && s'.en then (if i.wait then m.age else m.age + 1) else 0 }

/-- a run of the write side -/
def wrun (t : Nat) : WSt × WMon → List WIn → WSt × WMon
  | x, [] => x
  | x, i :: is => wrun t (x.1.step t i, x.2.step x.1 i (x.1.step t i)) is

/-- read side: addresses taken, accesses over with the data then on the register side, data taken by the bus -/
structure RMon where
  ars : List Nat
  over : List (Access Nat)
  rs : List Nat
  acks : Nat
  age : Nat
deriving DecidableEq, Repr

def RMon.init : RMon := ⟨[], [], [], 0, 0⟩

def RMon.step (m : RMon) (s : RSt) (i : RIn) (s' : RSt) : RMon :=
  { ars := if i.arvalid && s.arready then m.ars ++ [i.araddr] else m.ars
    over := if s.en && !s'.en then m.over ++ [⟨s.addr, i.data, i.ack, m.age⟩] else m.over
    rs := if s.rv && i.rready then m.rs ++ [s.data] else m.rs
    acks := if s.en && i.ack then m.acks + 1 else m.acks
    age := if s.en && s'.en then (if i.wait then m.age else m.age + 1) else 0 }

def rrun (t : Nat) : RSt × RMon → List RIn → RSt × RMon
  | x, [] => x
  | x, i :: is => rrun t (x.1.step t i, x.2.step x.1 i (x.1.step t i)) is

end Corundum.RegIf
