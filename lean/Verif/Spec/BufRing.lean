import Verif.Model.BufRing

/-! What the surroundings of the packet buffers promise, and what it means for the buffers to be sound. -/
namespace Corundum.BufRing

/-- the step size divides the buffer size and the maximum packet size -/
structure Good (P : Params) : Prop where
  st : P.st ≤ P.cl
  max : 2 ^ P.st ∣ P.max

/-- two reads use no common address -/
def Apart (a b : Op) : Prop := ∀ x, ¬ (a.addr ≤ x ∧ x < a.addr + a.data.length ∧ b.addr ≤ x ∧ x < b.addr + b.data.length)

namespace Tx

/-- every read into the buffer that has been asked for and not been given up -/
def S.flat (s : S) : List Op := s.pkts.flatMap (·.ops) ++ s.cur

/-- The descriptors of a packet point to at most `MAX_TX_SIZE` bytes; the first descriptor of a packet does not arrive in the cycle after the last one of
the packet before; packets are reported sent only if there are any; the DMA engine writes nothing but the bytes it was asked to read. -/
structure Legal (P : Params) (s : S) (i : In) : Prop where
  beat : ∀ d l, i.beat = some (d, l) → s.len + d.length ≤ P.max
  gap : s.ended = true → i.beat = none
  done : i.done = true → s.pkts ≠ []
  pokes : ∀ w ∈ i.pokes, ∃ o ∈ s.flat, ∃ j, o.data[j]? = some w.2 ∧ w.1 = o.addr + j

def LegalRun (P : Params) : S → List In → Prop
  | _, [] => True
  | s, i :: is => Legal P s i ∧ LegalRun P (step P s i) is

end Tx

namespace Rx

/-- the size of the buffers is constant; buffers are released only if there are any -/
structure Legal (m : Nat) (s : S) (i : In) : Prop where
  mtu : i.mtu = m
  done : i.done = true → s.bufs ≠ []

def LegalRun (P : Params) (m : Nat) : S → List In → Prop
  | _, [] => True
  | s, i :: is => Legal m s i ∧ LegalRun P m (step P s i) is

end Rx

end Corundum.BufRing
