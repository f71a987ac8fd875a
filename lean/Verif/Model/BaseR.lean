/-!
10GBASE-R 64b/66b coding: fpga/lib/eth/rtl/xgmii_baser_enc_64.v, xgmii_baser_dec_64.v and the coding part of the Python endpoints
in fpga/lib/eth/tb/baser.py.

Simplifications
* An XGMII word is eight lanes: `c i` control flag, `d i` byte of lane `i`; a block is a 2-bit header and a 64-bit number.
* One function call is one clock edge (the outputs are registered: one cycle of delay).
* The constants imported by baser.py from cocotbext.eth (not in the repository) are taken to be the ones of the RTL.
-/
namespace Corundum.BaseR

/-- Verilog concatenation, least significant field first: (width, value) -/
def cat : List (Nat × Nat) → Nat
  | [] => 0
  | (w, v) :: r => v + 2 ^ w * cat r

/-- part select `x[lo +: n]` -/
def ext (x lo n : Nat) : Nat := x / 2 ^ lo % 2 ^ n

def byte (x i : Nat) : Nat := ext x (8 * i) 8
/-- 7-bit control code of lane `i` -/
def code (x i : Nat) : Nat := ext x (7 * i + 8) 7

/-- control character to code (enc_64.v:149-193): code, error -/
def encCtl (b : Nat) : Nat × Bool :=
  if b = 0x07 then (0x00, false) else if b = 0x06 then (0x06, false) else if b = 0xfe then (0x1e, false)
  else if b = 0x1c then (0x2d, false) else if b = 0x3c then (0x33, false) else if b = 0x7c then (0x4b, false)
  else if b = 0xbc then (0x55, false) else if b = 0xdc then (0x66, false) else if b = 0xf7 then (0x78, false)
  else (0x1e, true)

/-- code to control character (dec_64.v:157-200): character, error -/
def decCtl (k : Nat) : Nat × Bool :=
  if k = 0x00 then (0x07, false) else if k = 0x06 then (0x06, false) else if k = 0x1e then (0xfe, false)
  else if k = 0x2d then (0x1c, false) else if k = 0x33 then (0x3c, false) else if k = 0x4b then (0x7c, false)
  else if k = 0x55 then (0xbc, false) else if k = 0x66 then (0xdc, false) else if k = 0x78 then (0xf7, false)
  else (0xfe, true)

structure Word where
  c : Nat → Bool
  d : Nat → Nat

/-- the control flags as an 8-bit number -/
def Word.cw (w : Word) : Nat := (List.range 8).foldr (fun i a => (w.c i).toNat + 2 * a) 0

structure Block where
  hdr : Nat
  data : Nat
  deriving DecidableEq, Repr

def SYNC_DATA : Nat := 2
def SYNC_CTRL : Nat := 1

/-- lane code and error of the encoder: data lanes give CTRL_ERROR with error set (lines 194-198) -/
def Word.k (w : Word) (i : Nat) : Nat := if w.c i then (encCtl (w.d i)).1 else 0x1e
def Word.e (w : Word) (i : Nat) : Bool := if w.c i then (encCtl (w.d i)).2 else true

/-- any error in lanes `lo ..` (count `n`) -/
def anyErr (e : Nat → Bool) (lo n : Nat) : Bool := (List.range n).any (fun i => e (lo + i))

/-- data bytes of lanes `lo ..` as 8-bit fields -/
def dF (w : Word) (lo n : Nat) : List (Nat × Nat) := (List.range n).map (fun i => (8, w.d (lo + i)))
/-- control codes of lanes `lo ..` as 7-bit fields -/
def kF (w : Word) (lo n : Nat) : List (Nat × Nat) := (List.range n).map (fun i => (7, w.k (lo + i)))

/-- xgmii_baser_enc_64.v:146-273: block, tx_bad_block -/
def enc (w : Word) : Block × Bool :=
  let ctl (fields : List (Nat × Nat)) (bad : Bool) : Block × Bool := (⟨SYNC_CTRL, cat fields⟩, bad)
  if w.cw = 0x00 then (⟨SYNC_DATA, cat (dF w 0 8)⟩, false)
  else if w.cw = 0x1f ∧ w.d 4 = 0x9c then ctl ([(8, 0x2d)] ++ kF w 0 4 ++ [(4, 0)] ++ dF w 5 3) (anyErr w.e 0 4)
  else if w.cw = 0x1f ∧ w.d 4 = 0xfb then ctl ([(8, 0x33)] ++ kF w 0 4 ++ [(4, 0)] ++ dF w 5 3) (anyErr w.e 0 4)
  else if w.cw = 0x11 ∧ w.d 0 = 0x9c ∧ w.d 4 = 0xfb then ctl ([(8, 0x66)] ++ dF w 1 3 ++ [(4, 0), (4, 0)] ++ dF w 5 3) false
  else if w.cw = 0x11 ∧ w.d 0 = 0x9c ∧ w.d 4 = 0x9c then ctl ([(8, 0x55)] ++ dF w 1 3 ++ [(4, 0), (4, 0)] ++ dF w 5 3) false
  else if w.cw = 0x01 ∧ w.d 0 = 0xfb then ctl ([(8, 0x78)] ++ dF w 1 7) false
  else if w.cw = 0xf1 ∧ w.d 0 = 0x9c then ctl ([(8, 0x4b)] ++ dF w 1 3 ++ [(4, 0)] ++ kF w 4 4) (anyErr w.e 4 4)
  else if w.cw = 0xff ∧ w.d 0 = 0xfd then ctl ([(8, 0x87), (7, 0)] ++ kF w 1 7) (anyErr w.e 1 7)
  else if w.cw = 0xfe ∧ w.d 1 = 0xfd then ctl ([(8, 0x99)] ++ dF w 0 1 ++ [(6, 0)] ++ kF w 2 6) (anyErr w.e 2 6)
  else if w.cw = 0xfc ∧ w.d 2 = 0xfd then ctl ([(8, 0xaa)] ++ dF w 0 2 ++ [(5, 0)] ++ kF w 3 5) (anyErr w.e 3 5)
  else if w.cw = 0xf8 ∧ w.d 3 = 0xfd then ctl ([(8, 0xb4)] ++ dF w 0 3 ++ [(4, 0)] ++ kF w 4 4) (anyErr w.e 4 4)
  else if w.cw = 0xf0 ∧ w.d 4 = 0xfd then ctl ([(8, 0xcc)] ++ dF w 0 4 ++ [(3, 0)] ++ kF w 5 3) (anyErr w.e 5 3)
  else if w.cw = 0xe0 ∧ w.d 5 = 0xfd then ctl ([(8, 0xd2)] ++ dF w 0 5 ++ [(2, 0)] ++ kF w 6 2) (anyErr w.e 6 2)
  else if w.cw = 0xc0 ∧ w.d 6 = 0xfd then ctl ([(8, 0xe1)] ++ dF w 0 6 ++ [(1, 0)] ++ kF w 7 1) (anyErr w.e 7 1)
  else if w.cw = 0x80 ∧ w.d 7 = 0xfd then ctl ([(8, 0xff)] ++ dF w 0 7) false
  else if w.cw = 0xff then ctl ([(8, 0x1e)] ++ kF w 0 8) (anyErr w.e 0 8)
  else ctl ([(8, 0x1e)] ++ List.replicate 8 (7, 0x1e)) true

structure Dec where
  lanes : List (Bool × Nat)    -- xgmii_rxc, xgmii_rxd, lane 0 first
  bad : Bool                   -- rx_bad_block
  seqErr : Bool                -- rx_sequence_error
  frame : Bool                 -- frame_reg, next value
  deriving DecidableEq, Repr

/-- data lanes from block bytes `lo ..` -/
def dL (x lo n : Nat) : List (Bool × Nat) := (List.range n).map (fun i => (false, byte x (lo + i)))
/-- control lanes from codes `lo ..` -/
def kL (x lo n : Nat) : List (Bool × Nat) := (List.range n).map (fun i => (true, (decCtl (code x (lo + i))).1))
def kErr (x lo n : Nat) : Bool := anyErr (fun i => (decCtl (code x i)).2) lo n
def eight (p : Bool × Nat) : List (Bool × Nat) := List.replicate 8 p

/-- terminate in lane `n` (dec_64.v:294-357) -/
def decTerm (x n : Nat) (frame : Bool) : Dec :=
  ⟨dL x 1 n ++ [(true, 0xfd)] ++ kL x (n + 1) (7 - n), kErr x (n + 1) (7 - n), !frame, false⟩

/-- xgmii_baser_dec_64.v:150-371 (without reset); `frame` = frame_reg -/
def dec (b : Block) (frame : Bool) : Dec :=
  let x := b.data
  let os (v : Nat) : Nat := if v = 0 then 0x9c else 0xfe
  let o0 := ext x 32 4
  let o4 := ext x 36 4
  if b.hdr = SYNC_DATA then ⟨dL x 0 8, false, false, frame⟩
  else if b.hdr = SYNC_CTRL then
    let t := byte x 0
    if t = 0x1e then ⟨kL x 0 8, kErr x 0 8, false, frame⟩
    else if t = 0x2d then ⟨kL x 0 4 ++ [(true, os o4)] ++ dL x 5 3, if o4 = 0 then kErr x 0 4 else true, false, frame⟩
    else if t = 0x33 then ⟨kL x 0 4 ++ [(true, 0xfb)] ++ dL x 5 3, kErr x 0 4, frame, true⟩
    -- OS_START sets all four low control flags (line 239: 4'hf)
    else if t = 0x66 then
      ⟨[(true, os o0)] ++ (dL x 1 3).map (fun p => (true, p.2)) ++ [(true, 0xfb)] ++ dL x 5 3, decide (o0 ≠ 0), frame, true⟩
    else if t = 0x55 then ⟨[(true, os o0)] ++ dL x 1 3 ++ [(true, os o4)] ++ dL x 5 3, decide (o0 ≠ 0) || decide (o4 ≠ 0), false, frame⟩
    else if t = 0x78 then ⟨[(true, 0xfb)] ++ dL x 1 7, false, frame, true⟩
    else if t = 0x4b then ⟨[(true, os o0)] ++ dL x 1 3 ++ kL x 4 4, if o0 = 0 then kErr x 4 4 else true, false, frame⟩
    else if t = 0x87 then decTerm x 0 frame
    else if t = 0x99 then decTerm x 1 frame
    else if t = 0xaa then decTerm x 2 frame
    else if t = 0xb4 then decTerm x 3 frame
    else if t = 0xcc then decTerm x 4 frame
    else if t = 0xd2 then decTerm x 5 frame
    else if t = 0xe1 then decTerm x 6 frame
    else if t = 0xff then decTerm x 7 frame
    else ⟨eight (true, 0xfe), true, false, frame⟩
  else ⟨eight (true, 0xfe), true, false, frame⟩

/-! ### Python -/

/-- `xgmii_ctrl_to_baser_mapping.get(d, BaseRCtrl.ERROR)` (baser.py:230): the flag is not consulted -/
def pyK (w : Word) (i : Nat) : Nat := (encCtl (w.d i)).1
/-- ordered set character -/
def isOs (b : Nat) : Bool := b = 0x9c || b = 0x5c
/-- BaseRO of an ordered set character -/
def osCode (b : Nat) : Nat := if b = 0x5c then 0xf else 0
def anyC (w : Word) (lo hi : Nat) : Bool := (List.range (hi - lo)).any (fun i => w.c (lo + i))
def pkF (w : Word) (lo n : Nat) : List (Nat × Nat) := (List.range n).map (fun i => (7, pyK w (lo + i)))

/-- BaseRSerdesSource coding (baser.py:229-323). The shifted and masked fields are disjoint, so `|` is concatenation. -/
def pyEnc (w : Word) : Block :=
  let ctl (fields : List (Nat × Nat)) : Block := ⟨SYNC_CTRL, cat fields⟩
  if !anyC w 0 8 then ⟨SYNC_DATA, cat (dF w 0 8)⟩
  else if w.c 0 && w.d 0 = 0xfb && !anyC w 1 8 then ctl ([(8, 0x78)] ++ dF w 1 7)
  else if w.c 4 && w.d 4 = 0xfb && !anyC w 5 8 then
    if w.c 0 && isOs (w.d 0) && !anyC w 1 4 then
      ctl ([(8, 0x66)] ++ dF w 1 3 ++ [(4, osCode (w.d 0)), (4, 0)] ++ dF w 5 3)
    else ctl ([(8, 0x33)] ++ pkF w 0 4 ++ [(4, 0)] ++ dF w 5 3)
  else if w.c 0 && isOs (w.d 0) && !anyC w 1 4 then
    if w.c 4 && isOs (w.d 4) && !anyC w 5 8 then
      ctl ([(8, 0x55)] ++ dF w 1 3 ++ [(4, osCode (w.d 0)), (4, osCode (w.d 4))] ++ dF w 5 3)
    -- `(ctrl & 0xfffffff) << 40` (line 271): the codes of lanes 0-3, not 4-7, at bit 40 (68 bits in total)
    else ctl ([(8, 0x4b)] ++ dF w 1 3 ++ [(4, osCode (w.d 0)), (4, 0)] ++ [(28, cat (pkF w 0 4))])
  else if w.c 4 && isOs (w.d 4) && !anyC w 5 8 then
    ctl ([(8, 0x2d)] ++ pkF w 0 4 ++ [(4, osCode (w.d 4))] ++ dF w 5 3)
  else if w.c 0 && w.d 0 = 0xfd then ctl ([(8, 0x87), (7, 0)] ++ pkF w 1 7)
  else if w.c 1 && w.d 1 = 0xfd && !w.c 0 then ctl ([(8, 0x99)] ++ dF w 0 1 ++ [(6, 0)] ++ pkF w 2 6)
  else if w.c 2 && w.d 2 = 0xfd && !anyC w 0 2 then ctl ([(8, 0xaa)] ++ dF w 0 2 ++ [(5, 0)] ++ pkF w 3 5)
  else if w.c 3 && w.d 3 = 0xfd && !anyC w 0 3 then ctl ([(8, 0xb4)] ++ dF w 0 3 ++ [(4, 0)] ++ pkF w 4 4)
  else if w.c 4 && w.d 4 = 0xfd && !anyC w 0 4 then ctl ([(8, 0xcc)] ++ dF w 0 4 ++ [(3, 0)] ++ pkF w 5 3)
  else if w.c 5 && w.d 5 = 0xfd && !anyC w 0 5 then ctl ([(8, 0xd2)] ++ dF w 0 5 ++ [(2, 0)] ++ pkF w 6 2)
  else if w.c 6 && w.d 6 = 0xfd && !anyC w 0 6 then ctl ([(8, 0xe1)] ++ dF w 0 6 ++ [(1, 0)] ++ pkF w 7 1)
  else if w.c 7 && w.d 7 = 0xfd && !anyC w 0 7 then ctl ([(8, 0xff)] ++ dF w 0 7)
  else ctl ([(8, 0x1e)] ++ pkF w 0 8)

/-- ordered set character of a BaseRO value (e.g. baser.py:491-496) -/
def pyOs (v : Nat) : Nat := if v = 0 then 0x9c else if v = 0xf then 0x5c else 0xfe

/-- terminate in lane `n` (baser.py:565-580) -/
def pyTerm (x n : Nat) : List (Bool × Nat) := dL x 1 n ++ [(true, 0xfd)] ++ kL x (n + 1) (7 - n)

/-- BaseRSerdesSink decoding (baser.py:470-591): the lanes `cl`, `dl` -/
def pyDec (b : Block) : List (Bool × Nat) :=
  let x := b.data
  let o0 := ext x 32 4
  let o4 := ext x 36 4
  if b.hdr = SYNC_DATA then dL x 0 8
  else if b.hdr = SYNC_CTRL then
    let t := byte x 0
    if t = 0x1e then kL x 0 8
    else if t = 0x2d then kL x 0 4 ++ [(true, pyOs o4)] ++ dL x 5 3
    else if t = 0x33 then kL x 0 4 ++ [(true, 0xfb)] ++ dL x 5 3
    else if t = 0x66 then [(true, pyOs o0)] ++ dL x 1 3 ++ [(true, 0xfb)] ++ dL x 5 3
    else if t = 0x55 then [(true, pyOs o0)] ++ dL x 1 3 ++ [(true, pyOs o4)] ++ dL x 5 3
    else if t = 0x78 then [(true, 0xfb)] ++ dL x 1 7
    -- both ordered set codes give SEQ_OS here (lines 548-551)
    else if t = 0x4b then [(true, if o0 = 0 then 0x9c else if o0 = 0xf then 0x9c else 0xfe)] ++ dL x 1 3 ++ kL x 4 4
    else if t = 0x87 then pyTerm x 0
    else if t = 0x99 then pyTerm x 1
    else if t = 0xaa then pyTerm x 2
    else if t = 0xb4 then pyTerm x 3
    else if t = 0xcc then pyTerm x 4
    else if t = 0xd2 then pyTerm x 5
    else if t = 0xe1 then pyTerm x 6
    else if t = 0xff then pyTerm x 7
    else eight (true, 0xfe)
  else eight (true, 0xfe)

end Corundum.BaseR
