import Verif.Model.PriorityEncoder
/-!
Arbiter: /repo/fpga/lib/eth/lib/axis/rtl/arbiter.v (identical copies in /repo/fpga/lib/axi/rtl, /repo/fpga/lib/pcie/rtl), one step per clock cycle.
Bit vectors are naturals.
-/
namespace Corundum.Arbiter
open Corundum.PriorityEncoder

/-- :35-45 -/
structure Cfg where
  ports : Nat
  roundRobin : Bool
  block : Bool
  blockAck : Bool
  lsb : Bool

structure In where
  req : Nat
  ack : Nat := 0
  rst : Bool := false

/-- :58-60, :79 -/
structure St where
  grant : Nat
  valid : Bool
  enc : Nat
  mask : Nat
  deriving DecidableEq

def init : St := ⟨0, false, 0, 0⟩

/-- conditions of the two hold branches, :103, :108 -/
def hold (c : Cfg) (s : St) (i : In) : Bool :=
  (c.block && !c.blockAck && (s.grant &&& i.req) != 0) || (c.block && c.blockAck && s.valid && (s.grant &&& i.ack) == 0)

/-- :118-122, :127-131 -/
def maskFor (c : Cfg) (idx : Nat) : Nat :=
  if c.lsb then ((2 ^ c.ports - 1) <<< (idx + 1)) % 2 ^ c.ports else (2 ^ c.ports - 1) >>> (c.ports - idx)

/-- :97-156 -/
def step (c : Cfg) (s : St) (i : In) : St :=
  if i.rst then init
  else if hold c s i then s
  else if valid c.ports i.req then
    if c.roundRobin then
      if valid c.ports (i.req &&& s.mask) then
        let e := encoded c.lsb c.ports (i.req &&& s.mask)
        { grant := unencoded c.lsb c.ports (i.req &&& s.mask), valid := true, enc := e, mask := maskFor c e }
      else
        let e := encoded c.lsb c.ports i.req
        { grant := unencoded c.lsb c.ports i.req, valid := true, enc := e, mask := maskFor c e }
    else { grant := unencoded c.lsb c.ports i.req, valid := true, enc := encoded c.lsb c.ports i.req, mask := s.mask }
  else { grant := 0, valid := false, enc := 0, mask := s.mask }

def run (c : Cfg) (s : St) (is : List In) : St := is.foldl (step c) s

end Corundum.Arbiter
