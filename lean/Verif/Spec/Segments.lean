import Verif.Model.Segments
/-! Specification vocabulary for C05/C06. -/
namespace Corundum.Segments

/-- The byte addresses a device touches when it follows a descriptor list in order. -/
def addresses (segs : List Seg) : List Int :=
  segs.flatMap (fun s => (List.range s.len.toNat).map (fun i : Nat => s.addr + (i : Int)))

/-- `n` consecutive addresses from `a`. -/
def block (a : Int) (n : Nat) : List Int := (List.range n).map (fun i : Nat => a + (i : Int))

end Corundum.Segments
