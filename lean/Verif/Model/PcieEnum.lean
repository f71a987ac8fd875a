import Verif.Model.PcieAlloc

/-!
Bus enumeration and address routing: /repo/fpga/lib/pcie/tb/pcie.py `byte_mask_update` (:150-159), `Function.configure_bar` (:1712-1731),
`Function.match_bar` (:1733-1767), BAR register access of `Endpoint` and `Bridge` (:2187-2193, :2574-2578), bridge window registers
(:2579-2600), `Bridge.upstream_recv` (:2615-2680), `SwitchUpstreamPort.route_downstream_tlp` (:2795-2870), `Device.upstream_recv`
(:2978-3057), `RootComplex.enumerate_segment` (:4211-4486), `RootComplex.enumerate` (:4488-4507).

Simplifications:
* the functions found on a bus are a list in the order in which enumeration meets them (device number, then function number); that a
  configuration access reaches the function with the given bus, device and function number is assumed here;
* a request nobody claims has the result `none`, whether the code drops it or answers with an "unsupported request" completion;
* capability walking, max payload size, bus mastering and MSI set-up inside the loop are left out (they do not touch the registers below);
* `math.ceil(math.log(size, 2))` of `configure_bar` is a parameter `k`.
-/
namespace Corundum.PcieEnum
open Corundum

/-- Python `a & ~b` on non-negative numbers -/
def andNot (a b : Nat) : Nat := a ^^^ (a &&& b)

/-- the loop of `byte_mask_update` (pcie.py:154-158), `m1 = 1 <<< j`, `m2 = 0xff <<< (8 * j)` -/
def bmuLoop (mask new : Nat) : Nat → Nat → Nat → Nat
  | 0, _, old => old
  | n + 1, j, old =>
    if 1 <<< j ≤ mask then
      bmuLoop mask new n (j + 1)
        (if mask &&& (1 <<< j) ≠ 0 then andNot old (0xff <<< (8 * j)) ||| (new &&& (0xff <<< (8 * j))) else old)
    else old

/-- `byte_mask_update(old, mask, new, bitmask)` (pcie.py:150-159); `none` for the default bitmask -1 -/
def bmu (old mask new : Nat) (bm : Option Nat) : Nat :=
  bmuLoop mask (match bm with | none => new | some b => (new &&& b) ||| andNot old b) (mask + 1) 0 old

/-- `align(val, mask)` (pcie.py:143-147) -/
def align (val mask : Nat) : Nat := if val &&& mask ≠ 0 then val + mask + 1 - (val &&& mask) else val

/-! ### base address registers -/

/-- one base address register: `bar[i]`, `bar_mask[i]` -/
structure Reg where
  val : Nat := 0
  mask : Nat := 0
deriving DecidableEq, Repr

/-- how a register (pair) was set up by `configure_bar`; `k`: the region is `2 ^ k` bytes -/
inductive Slot
  | unused
  | io (k : Nat)
  | m32 (k : Nat) (pf : Bool)
  | m64 (k : Nat) (pf : Bool)
deriving DecidableEq, Repr

/-- `configure_bar(idx, size, ext, prefetch, io)` (pcie.py:1712-1731) with `2 ^ k = 2**ceil(log2(size))`; `none`: raises -/
def configureBar (r : List Reg) (idx k : Nat) (ext prefetch io : Bool) : Option (List Reg) :=
  let mask := 2 ^ k - 1
  if idx ≥ r.length ∨ (ext ∧ idx + 1 ≥ r.length) then none
  else if io then some (r.set idx ⟨1, andNot 0xfffffffc mask⟩)
  else
    let v := (if ext then 4 else 0) ||| (if prefetch then 8 else 0)
    let r := r.set idx ⟨v, andNot 0xfffffff0 mask⟩
    some (if ext then r.set (idx + 1) ⟨0, 0xffffffff &&& (andNot 0xffffffffffffffff mask >>> 32)⟩ else r)

/-- `match_bar(addr, io)` (pcie.py:1733-1767) on the registers from number `i` on: (BAR, offset) pairs -/
def matchBar (addr : Nat) (io : Bool) : Nat → List Reg → List (Nat × Nat)
  | _, [] => []
  | i, r :: rest =>
    if r.mask = 0 then matchBar addr io (i + 1) rest
    else if r.val &&& 1 ≠ 0 then
      (if io ∧ addr &&& r.mask = r.val &&& r.mask then [(i, andNot addr r.mask)] else []) ++ matchBar addr io (i + 1) rest
    else if r.val &&& 4 ≠ 0 then
      match rest with
      | [] => []  -- raises; not reached after a successful enumeration
      | r2 :: rest =>
        let v := r.val ||| (r2.val <<< 32)
        let m := r.mask ||| (r2.mask <<< 32)
        (if ¬ io ∧ addr &&& m = v &&& m then [(i, andNot addr m)] else []) ++ matchBar addr io (i + 2) rest
    else
      (if ¬ io ∧ addr &&& r.mask = r.val &&& r.mask then [(i, andNot addr r.mask)] else []) ++ matchBar addr io (i + 1) rest

/-- writing a base address register: all bytes enabled (pcie.py:2188-2193, :2576, :2578) -/
def Reg.write (r : Reg) (data : Nat) : Reg := { r with val := bmu r.val 0xf data (some r.mask) }

/-- `io_limit`, `mem_limit`, `prefetchable_mem_limit` of the root complex -/
structure Lim where
  io : Nat
  mem : Nat
  pf : Nat
deriving DecidableEq, Repr

/-- `config_write_dword` of a value that must fit 32 bits (`int.to_bytes` raises otherwise) -/
def Reg.put (r : Reg) (data : Nat) : Option Reg := if data < 2 ^ 32 then some (r.write data) else none

/-- the BAR loop of `enumerate_segment` (pcie.py:4286-4396); `none`: raises -/
def enumBars : List Reg → Lim → Option (List Reg × Lim)
  | [], l => some ([], l)
  | r :: rest, l =>
    let r := r.write 0xffffffff
    let val := r.val
    if val = 0 then do
      let (o, l) ← enumBars rest l
      some (r :: o, l)
    else if val &&& 1 ≠ 0 then do
      let mask := (0xffffffff - val) ||| 3
      let a := align l.io mask
      let r ← r.put ((val &&& 3) ||| a)
      let (o, l) ← enumBars rest { l with io := a + (mask + 1) }
      some (r :: o, l)
    else if val &&& 4 ≠ 0 then
      match rest with
      | [] => none
      | r2 :: rest =>
        let r2 := r2.write 0xffffffff
        let val := val ||| (r2.val <<< 32)
        let mask := (0xffffffffffffffff - val) ||| 15
        let p := if val &&& 8 ≠ 0 then (align l.pf mask, { l with pf := align l.pf mask + (mask + 1) })
          else (align l.mem mask, { l with mem := align l.mem mask + (mask + 1) })
        let v := (val &&& 15) ||| p.1
        do
          let (o, l) ← enumBars rest p.2
          some (r.write (v &&& 0xffffffff) :: r2.write ((v >>> 32) &&& 0xffffffff) :: o, l)
    else do
      let mask := (0xffffffff - val) ||| 15
      let a := align l.mem mask
      let r ← r.put ((val &&& 15) ||| a)
      let (o, l) ← enumBars rest { l with mem := a + (mask + 1) }
      some (r :: o, l)

/-! ### bridges -/

/-- bus number and window registers of a bridge (pcie.py:2491-2503) -/
structure Br where
  pri : Nat := 0
  sec : Nat := 0
  sub : Nat := 0
  ioBase : Nat := 0
  ioLimit : Nat := 0xfff
  memBase : Nat := 0
  memLimit : Nat := 0xfffff
  pfBase : Nat := 0
  pfLimit : Nat := 0xfffff
deriving DecidableEq, Repr

/-- `Bridge.write_config_register` (pcie.py:2574-2600), registers 6 to 12 -/
def Br.write (b : Br) (reg data mask : Nat) : Br :=
  if reg = 6 then
    { b with
      pri := bmu b.pri (mask &&& 1) data none
      sec := bmu b.sec ((mask >>> 1) &&& 1) (data >>> 8) none
      sub := bmu b.sub ((mask >>> 2) &&& 1) (data >>> 16) none }
  else if reg = 7 then
    { b with
      ioBase := bmu b.ioBase ((mask &&& 1) <<< 1) (data <<< 8) (some 0xf000)
      ioLimit := bmu b.ioLimit (mask &&& 2) data (some 0xf000) ||| 0xfff }
  else if reg = 8 then
    { b with
      memBase := bmu b.memBase ((mask &&& 3) <<< 2) (data <<< 16) (some 0xfff00000)
      memLimit := bmu b.memLimit (mask &&& 0xc) data (some 0xfff00000) ||| 0xfffff }
  else if reg = 9 then
    { b with
      pfBase := bmu b.pfBase ((mask &&& 3) <<< 2) (data <<< 16) (some 0xfff00000)
      pfLimit := bmu b.pfLimit (mask &&& 0xc) data (some 0xfff00000) ||| 0xfffff }
  else if reg = 10 then { b with pfBase := bmu b.pfBase (mask <<< 4) (data <<< 32) none }
  else if reg = 11 then { b with pfLimit := bmu b.pfLimit (mask <<< 4) (data <<< 32) none }
  else if reg = 12 then
    { b with
      ioBase := bmu b.ioBase ((mask &&& 3) <<< 2) (data <<< 16) none
      ioLimit := bmu b.ioLimit (mask &&& 0xc) data none }
  else b

/-- two 16-bit values packed by `struct.pack('<HH', x, y)` -/
def pack2 (x y : Nat) : Nat := x ||| (y <<< 16)

/-- the window set-up after a secondary bus has been enumerated (pcie.py:4457-4471); `lo`, `hi`: `ti.*_base`, `ti.*_limit` -/
def Br.setWindows (b : Br) (lo hi : Lim) : Br :=
  let b := b.write 7 (((lo.io >>> 8) &&& 0xf0) ||| (((hi.io >>> 8) &&& 0xf0) <<< 8)) 0x3
  let b := b.write 12 (pack2 (lo.io >>> 16) (hi.io >>> 16)) 0xf
  let b := b.write 8 (pack2 ((lo.mem >>> 16) &&& 0xfff0) ((hi.mem >>> 16) &&& 0xfff0)) 0xf
  let b := b.write 9 (pack2 ((lo.pf >>> 16) &&& 0xfff0) ((hi.pf >>> 16) &&& 0xfff0)) 0xf
  let b := b.write 10 (lo.pf >>> 32) 0xf
  b.write 11 (hi.pf >>> 32) 0xf

/-- bus numbers: `config_write(…, 0x018, bytearray([pri, sec, sub]))` -/
def Br.setBus (b : Br) (pri sec sub : Nat) : Br := b.write 6 (pri ||| (sec <<< 8) ||| (sub <<< 16)) 0x7

/-- a function: how its BARs were set up (not used by the code, only by the statements), its registers -/
structure Fn where
  slots : List Slot
  regs : List Reg
deriving DecidableEq, Repr

/-- the functions on a bus in enumeration order; a bridge carries the functions on its secondary bus -/
inductive Seg
  | nil
  | ep (f : Fn) (rest : Seg)
  | br (f : Fn) (b : Br) (child rest : Seg)
deriving DecidableEq, Repr

/-- alignment of the limits to bridge window granularity (pcie.py:4217-4220, :4476-4479) -/
def Lim.align (l : Lim) : Lim := ⟨PcieEnum.align l.io 0xfff, PcieEnum.align l.mem 0xfffff, PcieEnum.align l.pf 0xfffff⟩

/-- `limit - 1` (pcie.py:4481-4483) -/
def Lim.pred (l : Lim) : Lim := ⟨l.io - 1, l.mem - 1, l.pf - 1⟩

/-- what `struct.pack` and `bytearray` accept when the bridge is set up (pcie.py:4441-4471); `hi - 1` is what gets packed, so zero
raises.  (A zero `hi.mem` would not raise in the code but give the mask of -1; the theorems assume a non-zero memory base.) -/
def fits (lo hi : Lim) (sec sub : Nat) : Bool :=
  lo.io < 2 ^ 32 && 0 < hi.io && hi.io ≤ 2 ^ 32 && lo.pf < 2 ^ 64 && 0 < hi.pf && hi.pf ≤ 2 ^ 64 && sec < 256 && sub < 256

/-- the loop over the functions of bus `bus` in `enumerate_segment` (pcie.py:4236-4473): `sec`, `sub` are `sec_bus`, `sub_bus`;
result: configured functions, limits, `sub_bus`; `none`: raises -/
def enumLoop (bus : Nat) : Seg → Lim → Nat → Nat → Option (Seg × Lim × Nat)
  | .nil, l, _, sub => some (.nil, l, sub)
  | .ep f rest, l, sec, sub => do
    let (regs, l1) ← enumBars f.regs l
    let (o, l2, s) ← enumLoop bus rest l1 sec sub
    some (.ep { f with regs := regs } o, l2, s)
  | .br f b child rest, l, sec, _ => do
    let (regs, l1) ← enumBars f.regs l
    let b := b.setBus bus sec 255
    -- recursive call: align, loop, align
    let lo := l1.align
    let (c, l2, s) ← enumLoop sec child lo (sec + 1) sec
    let hi := l2.align
    if fits lo hi sec s then do
      let b := (b.setBus bus sec s).setWindows lo hi.pred
      let (o, l3, s') ← enumLoop bus rest hi (s + 1) s
      some (.br { f with regs := regs } b c o, l3, s')
    else none

/-- `enumerate` (pcie.py:4488-4507) from the bases `l`: functions on bus 0, window of the host bridge -/
def enumerate (l : Lim) (t : Seg) : Option (Seg × Lim × Lim) := do
  let (o, l', _) ← enumLoop 0 t l.align 1 0
  some (o, l, l'.align)

/-! ### routing -/

/-- does the bridge pass the address downstream (pcie.py:2662, :2671) -/
def Br.window (b : Br) (addr : Nat) (io : Bool) : Bool :=
  if io then b.ioBase ≤ addr && addr ≤ b.ioLimit
  else (b.memBase ≤ addr && addr ≤ b.memLimit) || (b.pfBase ≤ addr && addr ≤ b.pfLimit)

/-- routing of an IO or memory request among the functions of a bus, the first being number `i`: the path to the function that handles
it (positions, from this bus down) and what its `match_bar` returns -/
def route (addr : Nat) (io : Bool) : Nat → Seg → Option (List Nat × List (Nat × Nat))
  | _, .nil => none
  | i, .ep f rest =>
    if matchBar addr io 0 f.regs ≠ [] then some ([i], matchBar addr io 0 f.regs) else route addr io (i + 1) rest
  | i, .br f b child rest =>
    if matchBar addr io 0 f.regs ≠ [] then some ([i], matchBar addr io 0 f.regs)
    else if b.window addr io then (route addr io 0 child).map fun x => (i :: x.1, x.2)
    else route addr io (i + 1) rest

/-- a request sent by the root complex: the host bridge has no BARs and the windows set by `enumerate` (pcie.py:4497-4502) -/
def routeRoot (addr : Nat) (io : Bool) (r : Seg × Lim × Lim) : Option (List Nat × List (Nat × Nat)) :=
  if (⟨0, 0, 255, r.2.1.io, r.2.2.io, r.2.1.mem, r.2.2.mem, r.2.1.pf, r.2.2.pf⟩ : Br).window addr io then route addr io 0 r.1 else none

/-- routing by bus number (configuration requests of type 1, completions) among the functions of a bus (pcie.py:2622-2648, :2815-2830):
the path of bridges to the bus -/
def routeBus (bus : Nat) : Nat → Seg → Option (List Nat)
  | _, .nil => none
  | i, .ep _ rest => routeBus bus (i + 1) rest
  | i, .br _ b child rest =>
    if b.sec ≤ bus ∧ bus ≤ b.sub then
      if bus = b.sec then some [i] else (routeBus bus 0 child).map (i :: ·)
    else routeBus bus (i + 1) rest

end Corundum.PcieEnum
