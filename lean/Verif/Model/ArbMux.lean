import Verif.Model.Arbiter
/-!
Multiplexer with arbiter: one register for each input, the arbiter, an output skid buffer.  The same code is in
/repo/fpga/common/rtl/desc_op_mux.v:94-287, cpl_op_mux.v:76-260, tx_req_mux.v:76-265, event_mux.v:57-210, /repo/fpga/lib/pcie/rtl/dma_if_desc_mux.v:110-340 (one beat for each transfer)
and /repo/fpga/lib/axis/rtl/axis_arb_mux.v:95-308 (frames).  Line numbers below are those of axis_arb_mux.v unless said otherwise.

One step is one clock cycle.  The fields of a beat other than the last flag are an arbitrary type.
-/
namespace Corundum.ArbMux

structure Beat (α : Type) where
  val : α
  last : Bool
deriving DecidableEq

/-- PORTS/S_COUNT, ARB_TYPE_ROUND_ROBIN, ARB_LSB_HIGH_PRIORITY; `frames`: LAST_ENABLE (false in the other modules); `eager`: the output stage is that of axis_arb_mux.v:240, not that of
desc_op_mux.v:217 -/
structure Cfg where
  ports : Nat
  rr : Bool
  lsb : Bool
  frames : Bool
  eager : Bool

/-- the arbiter instance, :153-168 -/
def Cfg.arb (c : Cfg) : Arbiter.Cfg := ⟨c.ports, c.rr, true, true, c.lsb⟩

/-- the output registers, :206-228; an invalid register is `none` -/
structure Skid (β : Type) where
  ready : Bool
  m : Option β
  temp : Option β

/-- :240-306; desc_op_mux.v:217-279 -/
def Skid.step (eager : Bool) (s : Skid β) (offer : Option β) (mready : Bool) : Skid β :=
  let early := mready || (s.temp.isNone && (s.m.isNone || (eager && offer.isNone)))
  if s.ready then
    if mready || s.m.isNone then { ready := early, m := offer, temp := s.temp }
    else { ready := early, m := s.m, temp := offer }
  else if mready then { ready := early, m := s.temp, temp := none }
  else { s with ready := early }

/-- the input registers (:121-128), the arbiter, the output registers -/
structure St (α : Type) where
  reg : Nat → Option (Beat α)
  arb : Arbiter.St
  out : Skid (Nat × Beat α)

/-- what is offered at each input, and `m_axis_tready` -/
structure In (α : Type) where
  offer : Nat → Option (Beat α)
  mready : Bool

/-- a bit vector -/
def bits : Nat → (Nat → Bool) → Nat
  | 0, _ => 0
  | n + 1, f => bits n f + if f n then 2 ^ n else 0

variable {α : Type}

/-- `s_axis_tready`, :141 -/
def sready (s : St α) (p : Nat) : Bool := (s.reg p).isNone || (s.out.ready && s.arb.grant.testBit p)

/-- `request`, :171 -/
def req (c : Cfg) (s : St α) (i : In α) : Nat := bits c.ports fun p => ((s.reg p).isSome && !s.arb.grant.testBit p) || ((i.offer p).isSome && s.arb.grant.testBit p)

/-- `acknowledge`, :172 -/
def ack (c : Cfg) (s : St α) : Nat :=
  bits c.ports fun p => match s.reg p with
    | none => false
    | some b => s.arb.grant.testBit p && s.out.ready && (!c.frames || b.last)

/-- what is passed to the output stage, with the number of its input, :174-187 -/
def pass (s : St α) : Option (Nat × Beat α) := if s.out.ready && s.arb.valid then (s.reg s.arb.enc).map fun b => (s.arb.enc, b) else none

/-- a clock cycle, :189-306 -/
def step (c : Cfg) (s : St α) (i : In α) : St α where
  reg p := if sready s p then i.offer p else s.reg p
  arb := Arbiter.step c.arb s.arb { req := req c s i, ack := ack c s }
  out := s.out.step c.eager (pass s) i.mready

/-- after reset -/
def init : St α := ⟨fun _ => none, Arbiter.init, ⟨false, none, none⟩⟩

end Corundum.ArbMux
