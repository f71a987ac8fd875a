import Verif.Model.DmaWrReq
import Verif.Spec.DmaRdCpl

/-! What a sequence of beats on the TLP bus writes to the memory of the host, from the PCIe specification. -/
namespace Corundum.DmaWr

/-- length in dwords: the field 0 means 1024 -/
def Hdr.dwords (h : Hdr) : Nat := if h.len = 0 then 1024 else h.len

/-- the byte enables of dword `k` -/
def Hdr.be (h : Hdr) (k : Nat) : Nat := if k = 0 then h.fbe else if k = h.dwords - 1 then h.lbe else 15

section
variable {Byte : Type} (c : Cfg)

/-- the complete TLPs: each ends with `eop` -/
def cut : List (Beat Byte) → List (Beat Byte) → List (List (Beat Byte))
  | _, [] => []
  | acc, b :: bs => if b.eop then (acc ++ [b]) :: cut [] bs else cut (acc ++ [b]) bs

def tlps (bs : List (Beat Byte)) : List (List (Beat Byte)) := cut [] bs

/-- the dwords carried by a beat: those with strobe -/
def Beat.carried (b : Beat Byte) : List Byte := ((List.range c.dws).filter b.strb).flatMap fun k => (List.range 4).map fun j => b.data (4 * k + j)

def payload (t : List (Beat Byte)) : List Byte := t.flatMap (Beat.carried c)

/-- what a TLP writes: addresses and bytes, in order -/
def written (t : List (Beat Byte)) : List (Nat × Byte) :=
  match t with
  | [] => []
  | b :: _ => ((payload c t).zipIdx.filter fun x => (b.hdr.be (x.2 / 4)).testBit (x.2 % 4)).map fun x => (b.hdr.dwAddr * 4 + x.2, x.1)

/-- a TLP as it must be: the start marked in the first beat only; as much data as the header says; within the maximum, and not crossing a page; no last byte enables with one dword, none empty with more -/
structure TlpOk (t : List (Beat Byte)) : Prop where
  sop : ∃ b bs, t = b :: bs ∧ b.sop = true ∧ ∀ x ∈ bs, x.sop = false
  len : ∃ b bs, t = b :: bs ∧ (payload c t).length = b.hdr.dwords * 4 ∧ b.hdr.dwords * 4 ≤ 128 * 2 ^ c.mps ∧ b.hdr.dwAddr * 4 % 4096 + b.hdr.dwords * 4 ≤ 4096
  be : ∃ b bs, t = b :: bs ∧ (b.hdr.dwords = 1 → b.hdr.lbe = 0) ∧ (1 < b.hdr.dwords → b.hdr.fbe ≠ 0 ∧ b.hdr.lbe ≠ 0)

/-- what a descriptor asks to be written, when the RAMs hold `mem` -/
def Desc.wanted (d : Desc Byte) (mem : Nat → Nat → Byte) : List (Nat × Byte) :=
  (List.range d.len).map fun i => (d.addr + i, match d.imm with | some f => f i | none => mem d.sel ((d.ram + i) % 2 ^ c.ram.aw))

/-- configurations: a maximum payload of at most 2048 bytes, a bus narrower than that -/
structure Cfg.Ok : Prop where
  ram : c.ram.Ok
  bus : c.ram.bus ≤ 2048
  mps : c.mps ≤ 4
  wide : 12 ≤ c.paw
  len : 1 ≤ c.lw

/-- a descriptor the interface can be given: it fits the length field, the address spaces and, with immediate data, the immediate -/
structure Desc.Given (d : Desc Byte) : Prop where
  fits : d.len < 2 ^ c.lw
  space : d.addr + d.len ≤ 2 ^ c.paw
  inside : d.addr < 2 ^ c.paw
  ram : d.ram < 2 ^ c.ram.aw
  imm : d.imm.isSome = true → d.len ≤ c.ram.lanes

end

end Corundum.DmaWr
