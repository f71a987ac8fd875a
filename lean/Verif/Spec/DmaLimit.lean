import Verif.Model.DmaLimit

/-! Runs in which no more sequence numbers come back than there are TLPs in flight. -/
namespace Corundum.DmaLimit

inductive Reach (f : St → In → St) : St → Prop
  | init : Reach f {}
  | step {s : St} {i : In} : Reach f s → i.acks ≤ s.out → Reach f (f s i)

end Corundum.DmaLimit
