import Verif.Model.CfgSpace
/-!
What software may rely on when it writes configuration registers: the writable bits and the bits cleared by writing one, as the PCI and PCIe specifications have them for the registers the code implements.
`dev` are the bits for which the code deviates; each of them is the subject of a theorem of its own.
-/
namespace Corundum.CfgSpace

/-- writable bits of the header -/
def hdrRw (bridge : Bool) (reg : Nat) : Nat :=
  if reg = 1 then 0x544
  else if reg = 3 then 0xff00ffff
  else if bridge then
    if reg = 6 ∨ reg = 10 ∨ reg = 11 ∨ reg = 12 ∨ reg = 14 then 0xffffffff
    else if reg = 7 then 0xf0f0
    else if reg = 8 ∨ reg = 9 then 0xfff0fff0
    else if reg = 15 then 0x0043ffff
    else 0
  else if reg = 12 then 0xffffffff
  else if reg = 15 then 0xffff
  else 0

/-- bits of the header cleared by writing one -/
def hdrW1c (bridge : Bool) (reg : Nat) : Nat := if reg = 1 ∨ bridge ∧ reg = 7 then 0xf9000000 else 0

/-- the secondary status of a bridge -/
def hdrDev (bridge : Bool) (reg : Nat) : Nat := if bridge ∧ reg = 7 then 0xf9000000 else 0

/-- writable bits of a capability; `b64`: MSI with 64 bit addresses, `mc`: with mask bits -/
def capRw (b64 mc : Bool) : Kind → Nat → Nat
  | .pm, _ => 0
  | .pcie, r => if r = 2 then 0x7fff else if r = 4 then 0xfdb else if r = 6 then 0x1fff else if r = 7 then 0x1f else if r = 10 then 0xe7ff else if r = 12 then 0xffbf else 0
  | .msi, r =>
    if r = 0 then 0x710000
    else if r = 1 then 0xfffffffc
    else if b64 then if r = 2 then 0xffffffff else if r = 3 then 0xffff else if r = 4 ∧ mc then 0xffffffff else 0
    else if r = 2 then 0xffff else if r = 3 ∧ mc then 0xffffffff else 0
  | .msix, r => if r = 0 then 0xc0000000 else 0

/-- bits of a capability cleared by writing one -/
def capW1c : Kind → Nat → Nat
  | .pcie, r => if r = 2 then 0xf0000 else if r = 4 then 0xc0000000 else if r = 6 then 0x11f0000 else if r = 8 then 0x10000 else if r = 12 then 0x200000 else 0
  | _, _ => 0

/-- device status bits 20 and 21, link control bits 3 and 4 -/
def capDev : Kind → Nat → Nat
  | .pcie, r => if r = 2 then 0x300000 else if r = 4 then 0x18 else 0
  | _, _ => 0

/-- register `reg` of `f` has these writable bits, bits cleared by writing one, and bits for which the code deviates -/
inductive Bits (f : Fn) : (reg rw w1c dev : Nat) → Prop where
  | bar (b : Nat) (h : b < if f.bridge then 2 else 6) : Bits f (4 + b) (f.barMask b) 0 0
  | hdr (reg : Nat) (h : reg < 16) (hb : reg < 4 ∨ (if f.bridge then 6 else 10) ≤ reg) : Bits f reg (hdrRw f.bridge reg) (hdrW1c f.bridge reg) (hdrDev f.bridge reg)
  | cap (c : Cap) (hc : c ∈ f.caps) (r : Nat) (hr : r < c.kind.len) :
      Bits f (c.off + r) (capRw (f.obj .msi_64bit_address_capable != 0) (f.obj .msi_per_vector_mask_capable != 0) c.kind r) (capW1c c.kind r) (capDev c.kind r)
  | gap (reg : Nat) (h : 16 ≤ reg) (hn : ∀ c ∈ f.caps, reg < c.off ∨ c.off + c.kind.len ≤ reg) : Bits f reg 0 0 0

/-- bit `i` after data bit `d` was written to it -/
def after (rw w1c i : Nat) (d old : Bool) : Bool := if rw.testBit i then d else if w1c.testBit i then old && !d else old

/-- bit `i` of register `q` after the bytes were written from `addr` on -/
def newBit (addr : Nat) (data : List Nat) (q rw w1c i : Nat) (old : Bool) : Bool :=
  if addr ≤ 4 * q + i / 8 then
    match data[4 * q + i / 8 - addr]? with
    | some x => after rw w1c i (x.testBit (i % 8)) old
    | none => old
  else old

/-- attributes within their widths, BARs of 32 bits, each capability at most once, at offsets from 16 on and within the 64 registers of the ordinary configuration space, without overlap -/
structure Layout (f : Fn) : Prop where
  attr : ∀ a, f.obj a < 2 ^ a.width
  bar : ∀ b, f.bar b < 2 ^ 32
  kinds : (f.caps.map Cap.kind).Nodup
  range : ∀ c ∈ f.caps, 16 ≤ c.off ∧ c.off + c.kind.len ≤ 64
  apart : f.caps.Pairwise fun c d => c.off + c.kind.len ≤ d.off ∨ d.off + d.kind.len ≤ c.off

/-- the write raises an exception: the last register of a bridge header, link control 2 while an equalization request is pending -/
def Raises (f : Fn) (reg : Nat) : Prop :=
  (f.bridge = true ∧ reg = 15) ∨ (∃ c ∈ f.caps, c.kind = .pcie ∧ reg = c.off + 12 ∧ f.obj .link_equalization_request ≠ 0)

end Corundum.CfgSpace
