/-!
Tree priority encoder: /repo/fpga/lib/eth/lib/axis/rtl/priority_encoder.v (identical copies in /repo/fpga/lib/axi/rtl, /repo/fpga/lib/pcie/rtl).

Simplification: the packed vector `stage_enc[l]` (field `n` at bits [(n+1)*(l+1)-1 : n*(l+1)]) is modelled field by field as `encAt l n`.
-/
namespace Corundum.PriorityEncoder

/-- `$clog2` -/
def clog2 (n : Nat) : Nat := if n ≤ 1 then 0 else Nat.log2 (n - 1) + 1

/-- :46 -/
def levels (w : Nat) : Nat := if w > 2 then clog2 w else 1

/-- `input_padded[i]`, :50 -/
def padded (w x i : Nat) : Bool := decide (i < w) && x.testBit i

/-- `stage_valid[l][n]`, :60, :73 -/
def validAt (w x : Nat) : Nat → Nat → Bool
  | 0, n => padded w x (2 * n) || padded w x (2 * n + 1)
  | l + 1, n => validAt w x l (2 * n) || validAt w x l (2 * n + 1)

/-- field `n` of `stage_enc[l]`, :61-67, :74-80; `lsb` is LSB_HIGH_PRIORITY -/
def encAt (lsb : Bool) (w x : Nat) : Nat → Nat → Nat
  | 0, n => if lsb then (if padded w x (2 * n) then 0 else 1) else (if padded w x (2 * n + 1) then 1 else 0)
  | l + 1, n =>
    if lsb then
      if validAt w x l (2 * n) then encAt lsb w x l (2 * n) else 2 ^ (l + 1) + encAt lsb w x l (2 * n + 1)
    else
      if validAt w x l (2 * n + 1) then 2 ^ (l + 1) + encAt lsb w x l (2 * n + 1) else encAt lsb w x l (2 * n)

/-- :85 -/
def valid (w x : Nat) : Bool := validAt w x (levels w - 1) 0
/-- :86 -/
def encoded (lsb : Bool) (w x : Nat) : Nat := encAt lsb w x (levels w - 1) 0
/-- :87, WIDTH bits -/
def unencoded (lsb : Bool) (w x : Nat) : Nat := (1 <<< encoded lsb w x) % 2 ^ w

end Corundum.PriorityEncoder
