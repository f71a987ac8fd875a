import Verif.Model.StatsCollect

/-! What should become of the increments. -/
namespace Corundum.StatsCollect

/-- the increments fit their field -/
def Fits (P : Params) (i : In) : Prop := ∀ j x, i.inc j = some x → x < 2 ^ P.iw

/-- the sum of the updates for a counter -/
def sumFor (l : List (Nat × Nat)) (j : Nat) : Nat := ((l.filter fun x => x.1 == j).map (·.2)).sum

/-- what has been taken or is on offer for a counter -/
def reported (x : Sys) (j : Nat) : Nat := sumFor (x.g.outs ++ if x.s.valid then [(x.s.id, x.s.data)] else []) j

/-- at no time of the run do the increments of a counter not reported yet reach `2 ^ STAT_INC_WIDTH` -/
def Calm (P : Params) (j : Nat) : Sys → List In → Prop
  | x, [] => x.g.total j < reported x j + 2 ^ P.sw
  | x, i :: is => x.g.total j < reported x j + 2 ^ P.sw ∧ Calm P j (step P x i) is

end Corundum.StatsCollect
