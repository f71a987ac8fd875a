/-!
Register block for a transceiver port (DRP) in another clock domain: fpga/common/rtl/rb_drp.v. A step is an edge of either clock
or of both at once; then each side sees the old values of the other. No reset. Synchroniser registers sample the old or the new value
depending on the order of edges; other effects of metastability are not modelled. Only writes of the three registers are modelled,
and the contents of the registers that reads return.
-/
namespace Corundum.RbDrp

/-- states 0, 1, 2 of `rb_state_reg` and `drp_state_reg` -/
inductive Phase | idle | wait | done
deriving DecidableEq, Repr

/-- an access: address, data in, write -/
structure Acc where
  addr : Nat
  di : Nat
  we : Bool
deriving DecidableEq, Repr

/-- registers of the register clock, lines 89-90, 98-111 -/
structure Rb where
  st : Phase := .idle
  flag : Bool := false
  /-- `drp_flag_sync_reg_1`, `drp_flag_sync_reg_2` -/
  s1 : Bool := false
  s2 : Bool := false
  /-- `rb_ctrl_en_reg`; `rb_ctrl_addr_reg`, `rb_ctrl_di_reg`, `rb_ctrl_we_reg` -/
  en : Bool := false
  ctrl : Acc := ⟨0, 0, false⟩
  /-- `rb_addr_reg`, `rb_di_reg`, `rb_we_reg` -/
  acc : Acc := ⟨0, 0, false⟩
  /-- `rb_do_reg` -/
  rdata : Nat := 0
deriving DecidableEq, Repr

/-- registers of the DRP clock, lines 91-97, 113-118 -/
structure Dr where
  st : Phase := .idle
  flag : Bool := false
  /-- `rb_flag_sync_reg_1`, `rb_flag_sync_reg_2` -/
  s1 : Bool := false
  s2 : Bool := false
  /-- `drp_en_reg`; `drp_addr_reg`, `drp_di_reg`, `drp_we_reg` (the last is 0 when `drp_en_reg` is) -/
  en : Bool := false
  acc : Acc := ⟨0, 0, false⟩
  rdata : Nat := 0
  valid : Bool := false
deriving DecidableEq, Repr

structure St where
  rb : Rb := {}
  dr : Dr := {}
deriving DecidableEq, Repr

/-- register writes: none, control, address, data in -/
inductive Wr
  | none
  | ctrl (en we : Bool)
  | addr (a : Nat)
  | di (d : Nat)
deriving DecidableEq, Repr

/-- an edge of the DRP clock, lines 131-163, 181-184; `rdy` carries `drp_do` -/
def Dr.edge (d : Dr) (r : Rb) (rdy : Option Nat) : Dr :=
  let d' : Dr := { d with
    s1 := r.flag, s2 := d.s1, en := false
    rdata := rdy.getD d.rdata
    valid := d.valid || rdy.isSome }
  match d.st with
  | .idle => if d.s2 then { d' with st := .wait, acc := r.acc, en := true, valid := false } else d'
  | .wait => if d.valid then { d' with st := .done, flag := true } else d'
  | .done => if d.s2 then d' else { d' with st := .idle, flag := false }

/-- the handshake at an edge of the register clock, lines 176-179, 191-214 -/
def Rb.hand (r : Rb) (d : Dr) : Rb :=
  let r' : Rb := { r with s1 := d.flag, s2 := r.s1 }
  match r.st with
  | .idle => if r.en then { r' with st := .wait, flag := true, acc := r.ctrl } else r'
  | .wait => if r.s2 then { r' with st := .done, flag := false, rdata := d.rdata } else r'
  | .done => if r.s2 then r' else { r' with st := .idle, en := false }

/-- a register write, lines 216-229 -/
def Rb.write (r : Rb) : Wr → Rb
  | .none => r
  | .ctrl en we => { r with en := en, ctrl := { r.ctrl with we := we } }
  | .addr a => { r with ctrl := { r.ctrl with addr := a } }
  | .di x => { r with ctrl := { r.ctrl with di := x } }

/-- an edge of the register clock, lines 176-179, 186-229 -/
def Rb.edge (r : Rb) (d : Dr) (w : Wr) : Rb := (r.hand d).write w

/-- edges of the clocks -/
structure Ev where
  clk : Option Wr
  drp : Option (Option Nat)
deriving DecidableEq, Repr

def St.step (s : St) (e : Ev) : St :=
  ⟨match e.clk with
    | some w => s.rb.edge s.dr w
    | none => s.rb,
   match e.drp with
    | some rdy => s.dr.edge s.rb rdy
    | none => s.dr⟩

end Corundum.RbDrp
