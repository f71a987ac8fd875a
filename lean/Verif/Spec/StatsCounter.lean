import Verif.Model.StatsCounter

/-! What the counters should hold. -/
namespace Corundum.StatsCounter

/-- the sum of the increments of a counter -/
def sumFor : List (Option (Nat × Nat)) → Nat → Nat
  | [], _ => 0
  | some (k, x) :: l, id => (if k = id then x else 0) + sumFor l id
  | none :: l, id => sumFor l id

/-- the value of a counter as seen by a read: the increments accepted more than `PIPELINE` cycles before it -/
def counterAt (P : Params) (hist : List (Option (Nat × Nat))) (id : Nat) : Nat := sumFor (hist.drop P.pl) id % 2 ^ P.cw

/-- the answer to a read -/
def answerOf (P : Params) (q : Nat × List (Option (Nat × Nat))) : Nat := P.word (counterAt P q.2 (P.idOf q.1)) (P.wordOf q.1)

/-- the surroundings hold what they offer until it is taken; counter numbers fit their field -/
structure Legal (P : Params) (s : S) (last i : In) : Prop where
  id : ∀ x ∈ i.stat, x.1 < 2 ^ P.iw
  stat : ∀ x ∈ last.stat, s.tready = true → i.stat = some x
  ar : ∀ a ∈ last.ar, s.arready = true → i.ar = some a

instance (P : Params) (s : S) (last i : In) : Decidable (Legal P s last i) :=
  decidable_of_iff ((∀ x ∈ i.stat, x.1 < 2 ^ P.iw) ∧ (∀ x ∈ last.stat, s.tready = true → i.stat = some x) ∧ ∀ a ∈ last.ar, s.arready = true → i.ar = some a)
    ⟨fun ⟨a, b, c⟩ => ⟨a, b, c⟩, fun ⟨a, b, c⟩ => ⟨a, b, c⟩⟩

/-- `last` is the input of the cycle before; what was accepted in that cycle is still offered in the next, in which it is handed over -/
def LegalRun (P : Params) : Sys → In → List In → Prop
  | _, _, [] => True
  | x, last, i :: is => Legal P x.s last i ∧ LegalRun P (step P x i) i is

def decLegal (P : Params) : (is : List In) → (x : Sys) → (last : In) → Decidable (LegalRun P x last is)
  | [], _, _ => isTrue trivial
  | i :: is, x, last => @instDecidableAnd _ _ _ (decLegal P is (step P x i) i)

instance (P : Params) (x : Sys) (last : In) (is : List In) : Decidable (LegalRun P x last is) := decLegal P is x last

end Corundum.StatsCounter
