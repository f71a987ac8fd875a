import Verif.Model.DmaRd
import Verif.Spec.DmaRdReq
import Verif.Spec.DmaRdCpl

/-! What is asked of the surroundings of the DMA read interface: descriptors, host, RAM. -/
namespace Corundum.DmaRd

variable {Byte : Type}

/-- a descriptor that fits, outside the exceptions of C72 -/
structure Fine (c : Cfg) (p : Ram) (d : Desc) : Prop where
  given : Given c d.addr d.len
  nowrap : NoWrap c d.addr d.len
  page : ¬ PageEnd c d.addr d.len
  lw : 1 ≤ c.lw
  raw : c.raw = p.aw
  size : d.len ≤ 2 ^ p.aw

/-- byte `y` of RAM `s` belongs to the buffer of the descriptor -/
def InBuf (p : Ram) (d : Desc) (s y : Nat) : Prop := s = d.sel ∧ ∃ k, k < d.len ∧ y = (d.ram + k) % 2 ^ p.aw

/-- no byte belongs to both -/
def Apart (p : Ram) (d d' : Desc) : Prop := ∀ s y, InBuf p d s y → ¬ InBuf p d' s y

/-- descriptors have buffers apart from those in use; the host answers each request, in order and as C73 has it, or ends it with an error, and nothing else -/
def Legal (c : Cfg) (p : Ram) (host : Nat → Byte) (s : St Byte) : Ev Byte → Prop
  | .accept d => Fine c p d ∧ ∀ o ∈ s.busy, Apart p (s.desc o) d
  | .cpl t h d => t ∈ s.outs ∧
    if (s.ent t).r.zero then h.len = 1 ∧ h.bc = 1
    else ∃ hi, Part ((s.ent t).r.bytes.headD 0) (s.ent t).r.bytes.length (s.prog t) hi ∧
      h = answer ((s.ent t).r.bytes.headD 0) (s.ent t).r.bytes.length (s.prog t) hi ∧ d = answerData host ((s.ent t).r.bytes.headD 0) (s.prog t)
  | .err t _ => t ∈ s.outs
  | _ => True

/-- states reached from reset -/
inductive Reach (w ow : Nat) (c : Cfg) (p : Ram) (host : Nat → Byte) (mem : Nat → Nat → Byte) : St Byte → Prop
  | init : Reach w ow c p host mem (init w ow mem)
  | step (s s' : St Byte) (e : Ev Byte) : Reach w ow c p host mem s → Legal c p host s e → step w c p s e = some s' → Reach w ow c p host mem s'

end Corundum.DmaRd
