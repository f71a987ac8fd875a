import Verif.Model.MacCtrlRx
import Verif.Spec.MacCtrlTx
/-!
What is asked of the reception of control frames, in terms of frames.
-/
namespace Corundum.MacCtrl

/-- the bytes of a transfer -/
def kept (b : Beat) : List Nat := ((b.data.zip b.keep).filter (·.2)).map (·.1)

/-- the bytes of a frame -/
def payload (f : List Beat) : List Nat := f.flatMap kept

/-- a frame of at least 60 bytes as AXI stream transfers: full transfers, then one that ends the frame and has its
bytes in the first lanes -/
def FrameOk (lanes : Nat) (f : List Beat) : Prop :=
  ∃ fs b k, f = fs ++ [b] ∧ (∀ x ∈ fs, x.data.length = lanes ∧ x.keep = List.replicate lanes true ∧ x.last = false) ∧
    b.data.length = lanes ∧ b.last = true ∧ k ≤ lanes ∧ b.keep = List.replicate k true ++ List.replicate (lanes - k) false ∧ 60 ≤ (payload f).length

/-- the control frame in these bytes -/
def reqOf (params : Nat) (bytes : List Nat) (at60 : Beat) : Req :=
  { dst := (bytes.take 6).reverse
    src := ((bytes.drop 6).take 6).reverse
    etype := ((bytes.drop 12).take 2).reverse
    opcode := ((bytes.drop 14).take 2).reverse
    params := (bytes.drop 16).take params
    id := at60.id, dest := at60.dest, user := at60.user }

/-- a control frame for us: not bad, reception enabled, type as configured, each of the other fields as configured if
it is checked -/
def Wanted (m : Match) (r : Req) (bad : Bool) : Prop :=
  bad = false ∧ m.enable = true ∧ r.etype = m.etype ∧
  (m.checkSrc = true → r.src = m.src) ∧
  (m.checkMcast = true ∨ m.checkUcast = true → (m.checkMcast = true ∧ r.dst = m.mcast) ∨ (m.checkUcast = true ∧ r.dst = m.ucast)) ∧
  (m.checkLfc = true ∨ m.checkPfc = true → (m.checkLfc = true ∧ r.opcode = m.opLfc) ∨ (m.checkPfc = true ∧ r.opcode = m.opPfc))

instance (m : Match) (r : Req) (bad : Bool) : Decidable (Wanted m r bad) := by unfold Wanted; infer_instance

/-- the frame is bad: bit 0 of `tuser` of its last transfer -/
def bad (f : List Beat) : Bool := match f.getLast? with
  | some b => b.user % 2 == 1
  | none => false

/-- the transfer with byte 59 of the frame -/
def at60 (lanes : Nat) (f : List Beat) : Beat := f.getD (59 / lanes) ⟨[], [], false, 0, 0, 0⟩

/-- what is to be reported of a frame -/
def reported (lanes params : Nat) (m : Match) (f : List Beat) : Option Req :=
  if Wanted m (reqOf params (payload f) (at60 lanes f)) (bad f) then some (reqOf params (payload f) (at60 lanes f)) else none

/-- what is to be put out for a frame: a control frame for us is marked bad unless it is to be forwarded -/
def passed (lanes params : Nat) (m : Match) (f : List Beat) : List Beat :=
  if (reported lanes params m f).isSome = true ∧ m.forward = false then
    f.dropLast ++ (f.getLast?.map fun b => { b with user := b.user + 1 }).toList
  else f

/-- transfers accepted before cycle n -/
def taken (c : RxCfg) (m : Match) (ins : Nat → RxIn) (n : Nat) : List Beat :=
  upTo (fun k => if (rx c m ins k).sready || !c.useReady then (ins k).s.toList else []) n

/-- transfers put out before cycle n -/
def given (c : RxCfg) (m : Match) (ins : Nat → RxIn) (n : Nat) : List Beat :=
  upTo (fun k => if (ins k).ready || !c.useReady then (rx c m ins k).out.m.toList else []) n

/-- control frames reported before cycle n -/
def told (c : RxCfg) (m : Match) (ins : Nat → RxIn) (n : Nat) : List Req :=
  upTo (fun k => if (rx c m ins k).valid then [(rx c m ins k).p.req] else []) n

end Corundum.MacCtrl
