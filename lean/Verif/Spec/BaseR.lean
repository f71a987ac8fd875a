/-!
The block formats of IEEE 802.3 clause 49 (figure 49-7) as a grammar over XGMII characters.
-/
namespace Corundum.BaseR.Spec

/-- XGMII characters -/
inductive Ch
  | data (b : Fin 256)
  | ctl (k : Fin 9)      -- idle, LPI, error, reserved 0-5
  | start | term | seq | sig
  deriving DecidableEq, Repr

/-- the nine plain control characters -/
def ctlByte (k : Fin 9) : Nat := [0x07, 0x06, 0xfe, 0x1c, 0x3c, 0x7c, 0xbc, 0xdc, 0xf7][k.1]!

def Ch.lane : Ch → Bool × Nat
  | .data b => (false, b.1)
  | .ctl k => (true, ctlByte k)
  | .start => (true, 0xfb)
  | .term => (true, 0xfd)
  | .seq => (true, 0x9c)
  | .sig => (true, 0x5c)

/-- ordered set characters: sequence, and (if `sg`) signal -/
inductive Os (sg : Bool) : Ch → Prop
  | seq : Os sg .seq
  | sig : sg = true → Os sg .sig

/-- words of eight characters that have a block format -/
inductive Fmt (sg : Bool) : List Ch → Prop
  | data (d : Fin 8 → Fin 256) : Fmt sg ((List.finRange 8).map (fun i => .data (d i)))
  | start0 (d : Fin 7 → Fin 256) : Fmt sg (.start :: (List.finRange 7).map (fun i => .data (d i)))
  | start4 (k : Fin 4 → Fin 9) (d : Fin 3 → Fin 256) :
      Fmt sg ((List.finRange 4).map (fun i => .ctl (k i)) ++ .start :: (List.finRange 3).map (fun i => .data (d i)))
  | os0 (o : Ch) (ho : Os sg o) (d : Fin 3 → Fin 256) (k : Fin 4 → Fin 9) :
      Fmt sg (o :: (List.finRange 3).map (fun i => .data (d i)) ++ (List.finRange 4).map (fun i => .ctl (k i)))
  | os4 (k : Fin 4 → Fin 9) (o : Ch) (ho : Os sg o) (d : Fin 3 → Fin 256) :
      Fmt sg ((List.finRange 4).map (fun i => .ctl (k i)) ++ o :: (List.finRange 3).map (fun i => .data (d i)))
  | os04 (o o' : Ch) (ho : Os sg o) (ho' : Os sg o') (d d' : Fin 3 → Fin 256) :
      Fmt sg (o :: (List.finRange 3).map (fun i => .data (d i)) ++ o' :: (List.finRange 3).map (fun i => .data (d' i)))
  | osStart (o : Ch) (ho : Os sg o) (d d' : Fin 3 → Fin 256) :
      Fmt sg (o :: (List.finRange 3).map (fun i => .data (d i)) ++ .start :: (List.finRange 3).map (fun i => .data (d' i)))
  | term (n : Fin 8) (d : Fin n.1 → Fin 256) (k : Fin (7 - n.1) → Fin 9) :
      Fmt sg ((List.finRange n.1).map (fun i => .data (d i)) ++ .term :: (List.finRange (7 - n.1)).map (fun i => .ctl (k i)))
  | ctl (k : Fin 8 → Fin 9) : Fmt sg ((List.finRange 8).map (fun i => .ctl (k i)))

end Corundum.BaseR.Spec
