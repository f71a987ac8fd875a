import Verif.Model.TagMux
import Verif.Spec.ArbMux
import Verif.Spec.RamDemux
/-!
What the users see: requests with their tags, and what comes back for them.
-/
namespace Corundum.TagMux
open Corundum.ArbMux (Skid)

variable {σ β : Type}

/-- the parameters fit, desc_op_mux.v:107-112 -/
structure Cfg.Ok (c : Cfg) : Prop where
  pos : 0 < c.ports
  cl : c.ports ≤ 2 ^ c.cl
  mw : c.sw + c.cl ≤ c.mw

/-- a request: its tag, and the other fields -/
structure Req (β : Type) where
  tag : Nat
  val : β
deriving DecidableEq

/-- the state of the data demultiplexer before cycle `n` -/
def dst (c : Cfg) (ins : Nat → Option (Nat × σ)) (rdy : Nat → Nat → Bool) : Nat → Skid (Nat × Nat × σ)
  | 0 => ⟨false, none, none⟩
  | n + 1 => dataStep c (dst c ins rdy n) (ins n) (rdy n)

/-- a beat of input `p` with tag `t` there, as it comes with the tag with which the request left -/
def tagged (c : Cfg) (src : Nat → Option (Nat × Nat × σ)) (n : Nat) : Option (Nat × σ) := (src n).map fun x => (c.out x.1 x.2.1, x.2.2)

/-- those taken before cycle `n` -/
def din (c : Cfg) (src : Nat → Option (Nat × Nat × σ)) (rdy : Nat → Nat → Bool) : Nat → List (Nat × Nat × σ)
  | 0 => []
  | n + 1 => din c src rdy n ++ if (dst c (tagged c src) rdy n).ready then (src n).toList else []

/-- the beats given at output `p` before cycle `n` -/
def dout (c : Cfg) (ins : Nat → Option (Nat × σ)) (rdy : Nat → Nat → Bool) (p : Nat) : Nat → List (Nat × σ)
  | 0 => []
  | n + 1 => dout c ins rdy p n ++ match (dst c ins rdy n).m with
    | some x => if x.1 = p ∧ rdy n p = true then [x.2] else []
    | none => []

end Corundum.TagMux
