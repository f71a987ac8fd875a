import Verif.Model.UsStream

/-! What a PCIe stream carries. -/
namespace Corundum.UsStream
open Corundum.Pcie

/-- A frame the source can send over layout `L`. -/
structure FrameOk (L : Layout) (f : Frame) : Prop where
  ne : f.data ≠ []
  data : ∀ x ∈ f.data, x < 2 ^ 32
  plen : f.parity.length = f.data.length
  par : ∀ x ∈ f.parity, x < 16
  blen : L.byteEn.isSome = true → f.byteEn.length = f.data.length
  be : L.byteEn.isSome = true → ∀ x ∈ f.byteEn, x < 16
  first : f.firstBe < 16
  last : f.lastBe < 16

/-- the sequence number bits carried -/
def seqOf (L : Layout) (v : Nat) : Nat := L.seq.foldl (fun a q => a ||| (((v >>> q.1) &&& (2 ^ q.2.1 - 1)) <<< q.1)) 0

/-- the frame as the sink delivers it: fields the stream has no room for are at their defaults -/
def carried (L : Layout) (f : Frame) : Frame :=
  { data := f.data, parity := f.parity, discontinue := f.discontinue
    byteEn := if L.byteEn.isSome then f.byteEn else []
    firstBe := if L.be.isSome then f.firstBe else 0
    lastBe := if L.be.isSome then f.lastBe else 0
    seqNum := seqOf L f.seqNum }

/-- the intervals of `tuser` used by a layout with `n` lanes: position, width -/
def Layout.fields (L : Layout) (n : Nat) : List (Nat × Nat) :=
  (match L.be with | some (a, b) => [(a, 4), (b, 4)] | none => []) ++
  (match L.sop with | some a => [(a, 1)] | none => []) ++
  [(L.disc, 1)] ++ L.seq.map (fun q => (q.2.2, q.2.1)) ++
  (match L.byteEn with | some o => [(o, 4 * n)] | none => []) ++ [(L.par, 4 * n)] ++
  (match L.eop with | some (a, b) => [(a, 1), (b, 4)] | none => [])

/-- no two fields overlap -/
def Layout.Ok (L : Layout) (n : Nat) : Prop :=
  (L.fields n).Pairwise fun x y => x.1 + x.2 ≤ y.1 ∨ y.1 + y.2 ≤ x.1

/-- the streams of the file with the bus widths they are used at: up to 512 bits (16 lanes), or up to 256 bits (8 lanes) -/
def Fits (L : Layout) (n : Nat) : Prop :=
  (L ∈ [cq512, cc512, rq512, rc512] ∧ n ≤ 16) ∨ (L ∈ [cq256, cc256, rq256, rq256s, rc256] ∧ n ≤ 8)

/-- the frames given to the source in a run -/
def sent : List Op → List Frame
  | [] => []
  | .send f :: ops => f :: sent ops
  | .clk _ _ :: ops => sent ops

/-- clock edges without pause in a schedule -/
def free (ops : List (Bool × Bool)) : Nat := (ops.filter fun b => !b.1 && !b.2).length

end Corundum.UsStream
