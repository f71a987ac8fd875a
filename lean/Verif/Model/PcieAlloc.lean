
/-!
Allocation of root complex memory regions: /repo/fpga/lib/pcie/tb/pcie.py `align` (:143-147), `RootComplex.alloc_region` (:3282-3294),
`alloc_io_region` (:3296-3308), `find_region` (:3310-3314).

Simplification: `math.ceil(math.log(size, 2))` is a function `lg` of the size: floating point makes it differ from the exact value for
some sizes (2**29 gives 30), so the theorems assume of `lg` only what they need.
-/
namespace Corundum.PcieAlloc

/-- `align(val, mask)` (pcie.py:143-147), `mask + 1 = 2 ^ k` -/
def align (val k : Nat) : Nat := if val % 2 ^ k ≠ 0 then val + 2 ^ k - val % 2 ^ k else val

structure Region where
  addr : Nat
  size : Nat
deriving DecidableEq, Repr

/-- `regions`, `region_limit` -/
structure State where
  regions : List Region := []
  limit : Nat := 0
deriving DecidableEq, Repr

/-- `alloc_region` (pcie.py:3282-3294) -/
def alloc (lg : Nat → Nat) (s : State) (size : Nat) : State × Nat :=
  let addr := align s.limit (lg size)
  ({ regions := s.regions ++ [⟨addr, size⟩], limit := addr + size - 1 }, addr)

/-- a sequence of allocations -/
def allocs (lg : Nat → Nat) (s : State) (sizes : List Nat) : State := sizes.foldl (fun s n => (alloc lg s n).1) s

/-- `find_region` (pcie.py:3310-3314): index of the first region containing the address -/
def find (s : State) (a : Nat) : Option Nat := s.regions.findIdx? fun r => r.addr ≤ a ∧ a < r.addr + r.size

end Corundum.PcieAlloc
