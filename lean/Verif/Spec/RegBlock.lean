import Verif.Model.RegBlock
/-! C02 specification: the chain of offsets stored in the register file. -/
namespace Corundum.RegBlock

/-- The i-th offset of the linked list starting at `start`: each block stores the next offset in its
word at byte 8. -/
def chain (regs : Nat → Nat) (start : Nat) : Nat → Nat
  | 0 => start
  | i + 1 => regs (chain regs start i + 8)

/-- Offsets 1..n of the chain are proper list links: non-null, word aligned and new. -/
def Proper (regs : Nat → Nat) (start n : Nat) : Prop :=
  ∀ i, 1 ≤ i → i ≤ n →
    chain regs start i ≠ 0 ∧ chain regs start i % 4 = 0 ∧ ∀ j, j < i → chain regs start j ≠ chain regs start i

/-- The first n+1 blocks of the list. -/
def firstBlocks (regs : Nat → Nat) (start n : Nat) : List Block :=
  (List.range (n + 1)).map (fun i =>
    let o := chain regs start i
    { offset := o, type := regs o, version := regs (o + 4) })

/-- What discovery must report for a given register file. -/
def Report (regs : Nat → Nat) (start : Nat) : Except WalkErr (List Block) → Prop
  | .ok bs => ∃ n, Proper regs start n ∧ chain regs start (n + 1) = 0 ∧ bs = firstBlocks regs start n
  | .error .unaligned => ∃ n, Proper regs start n ∧ chain regs start (n + 1) % 4 ≠ 0
  | .error .loop => ∃ n, Proper regs start n ∧ chain regs start (n + 1) ≠ 0 ∧
      chain regs start (n + 1) % 4 = 0 ∧ ∃ j ≤ n, chain regs start j = chain regs start (n + 1)

end Corundum.RegBlock
