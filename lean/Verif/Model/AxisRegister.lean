/-!
AXI stream register slice: /repo/fpga/lib/eth/lib/axis/rtl/axis_register.v, one step per clock cycle.

The beat (tdata, tkeep, tlast, tid, tdest, tuser) is an arbitrary type `α`; all its registers are loaded together (:160-194, :246-253). The constant
outputs of disabled fields (:118-124) are not modelled. The same code is the output stage of many modules.
-/
namespace Corundum.AxisRegister

/-- inputs of one cycle: offered beat (`s_axis_tvalid` and data), `m_axis_tready`, `rst` -/
structure In (α : Type) where
  offer : Option α
  mready : Bool
  rst : Bool := false

/-- skid buffer registers, :92-110; an invalid register is `none`, see `step` -/
structure Skid (α : Type) where
  ready : Bool
  m : Option α
  temp : Option α

/-- REG_TYPE > 1: next state, :126-201. `m`/`temp` combine the valid bit and the data register: with valid clear the data is irrelevant. -/
def Skid.step (s : Skid α) (i : In α) : Skid α :=
  let early := i.mready || (s.temp.isNone && (s.m.isNone || i.offer.isNone))
  let n : Skid α :=
    if s.ready then
      if i.mready || s.m.isNone then { ready := early, m := i.offer, temp := s.temp }
      else { ready := early, m := s.m, temp := i.offer }
    else if i.mready then { ready := early, m := s.temp, temp := none }
    else { s with ready := early }
  if i.rst then ⟨false, none, none⟩ else n

/-- REG_TYPE = 1, :203-262 -/
structure Simple (α : Type) where
  ready : Bool
  m : Option α

def Simple.step (s : Simple α) (i : In α) : Simple α :=
  let m := if s.ready then i.offer else if i.mready then none else s.m
  if i.rst then ⟨false, none⟩ else { ready := m.isNone, m := m }

/-- beats accepted at the input: offered while `s_axis_tready` -/
def accepted (step : S → In α → S) (ready : S → Bool) : S → List (In α) → List α
  | _, [] => []
  | s, i :: is => (if ready s then i.offer.toList else []) ++ accepted step ready (step s i) is

/-- beats taken at the output: valid while `m_axis_tready` -/
def delivered (step : S → In α → S) (m : S → Option α) : S → List (In α) → List α
  | _, [] => []
  | s, i :: is => (if i.mready then (m s).toList else []) ++ delivered step m (step s i) is

def run (step : S → In α → S) (s : S) (is : List (In α)) : S := is.foldl step s

end Corundum.AxisRegister
