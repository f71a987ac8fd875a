import Verif.Model.DmaRdCpl

/-! What a completer sends for a part of a request, from the PCIe specification. -/
namespace Corundum.DmaRd

/-- configurations the module accepts (dma_if_pcie_rd.v:225-248) with power of two sizes, and a bus of at least a dword -/
structure Ram.Ok (p : Ram) : Prop where
  pow : ∃ i j, p.segs = 2 ^ (i + 1) ∧ p.segBytes = 2 ^ j ∧ 2 ≤ i + j ∧ i + 1 + j ≤ p.aw

/-- the completion for bytes `lo` to `hi - 1` of a request for `n` bytes from address `a`: byte count what is left, the low address bits, the dwords touched -/
def answer (a n lo hi : Nat) : Hdr := ⟨((a + lo) % 4 + (hi - lo) + 3) / 4, n - lo, (a + lo) % 128⟩

/-- a legal part: nonempty, and ending at the end of the request or at a read completion boundary -/
structure Part (a n lo hi : Nat) : Prop where
  lt : lo < hi
  le : hi ≤ n
  cut : hi = n ∨ (a + hi) % 64 = 0

/-- the data of that completion, from host memory: it starts at the dword of the first byte -/
def answerData {Byte : Type} (host : Nat → Byte) (a lo : Nat) : Nat → Byte := fun j => host ((a + lo) / 4 * 4 + j)

end Corundum.DmaRd
