/-!
Conversion between AXI stream and Avalon stream: fpga/common/rtl/axis2avst.v and avst2axis.v, with `KEEP_ENABLE`, for any number `w` of bytes in
a beat. `empty` is a number; the width of the signal, the logarithm of `w`, holds every value below `w`. Runs have no reset in them.
-/
namespace Corundum.Avst

/-- a beat of an AXI stream: lanes of data, valid lanes, last beat, error -/
structure Axi where
  data : Nat → BitVec 8
  keep : Nat → Bool
  last : Bool
  user : Bool

/-- a beat of an Avalon stream -/
structure Av where
  data : Nat → BitVec 8
  sop : Bool
  eop : Bool
  empty : Nat
  error : Bool

/-- `empty`, axis2avst.v:79-92 -/
def emptyOf (w : Nat) (keep : Nat → Bool) : Nat :=
  (List.range w).foldl (fun e k => if keep k then w - 1 - k else e) (w - 1)

/-- axis2avst.v:63-99; `rev` is `BYTE_REVERSE`, `frame` is `frame_reg` -/
def toAv (w : Nat) (rev frame : Bool) (b : Axi) : Av where
  data := fun k => if rev then b.data (w - k - 1) else b.data k
  sop := !frame
  eop := b.last
  empty := emptyOf w b.keep
  error := b.user

/-- `frame_reg`, axis2avst.v:101-109, and the beats put out for the beats taken in a run -/
def toAvs (w : Nat) (rev : Bool) : Bool → List Axi → List Av
  | _, [] => []
  | frame, b :: bs => toAv w rev frame b :: toAvs w rev (!b.last) bs

/-- avst2axis.v:63-83 -/
def toAxi (w : Nat) (rev : Bool) (a : Av) : Axi where
  data := fun k => if rev then a.data (w - k - 1) else a.data k
  keep := fun k => if a.eop then decide (k + a.empty < w) else decide (k < w)
  last := a.eop
  user := a.error

end Corundum.Avst
