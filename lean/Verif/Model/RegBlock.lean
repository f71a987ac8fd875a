/-
Model of register-block discovery.

* Python driver: `fpga/common/tb/mqnic.py` lines 387-420 (`class RegBlockList`)
* Linux driver:  `modules/mqnic/mqnic_reg_block.c` lines 8-87

The register file is an arbitrary function from byte address to dword value.  Out-of-window
accesses of the simulated bus and `krealloc` failure are not modelled.
-/
namespace Corundum.RegBlock

structure Block where
  offset : Nat
  type : Nat
  version : Nat
  deriving DecidableEq, Repr

/-- The two assertions of `enumerate_reg_blocks`. -/
inductive WalkErr where
  | unaligned   -- "Register block not aligned" (mqnic.py:403)
  | loop        -- "Register blocks form a loop" (mqnic.py:404-405)
  deriving DecidableEq, Repr

/-- The block record read at an offset (mqnic.py:393-397; MQNIC_RB_REG_TYPE = 0, _VER = 4). -/
def blockAt (regs : Nat → Nat) (offset : Nat) : Block :=
  { offset := offset, type := regs (offset + 0x00), version := regs (offset + 0x04) }

/-- `RegBlockList.enumerate_reg_blocks` (mqnic.py:391-405), `MQNIC_RB_REG_NEXT_PTR = 8`.
`while True` becomes recursion on fuel; `none` means the fuel ran out (shown impossible for enough
fuel).  As in the code the *first* offset is not checked for alignment. -/
def walk (regs : Nat → Nat) : Nat → List Block → Nat → Option (Except WalkErr (List Block))
  | 0, _, _ => none
  | fuel + 1, blocks, offset =>
    let blocks := blocks ++ [blockAt regs offset]
    let next := regs (offset + 0x08)
    if next = 0 then some (.ok blocks)
    else if next &&& 0x3 ≠ 0 then some (.error .unaligned)
    else if blocks.any (fun b => b.offset == next) then some (.error .loop)
    else walk regs fuel blocks next

/-- `RegBlockList.find` (mqnic.py:407-414).  `version = 0` stands for both `None` and `0`
(`not version`). -/
def find (blocks : List Block) (type version : Nat) (index : Int) : Option Block :=
  match blocks with
  | [] => none
  | b :: t =>
    if b.type = type ∧ (version = 0 ∨ b.version = version) then
      if index ≤ 0 then some b else find t type version (index - 1)
    else find t type version index

/-- `mqnic_enumerate_reg_block_list` (mqnic_reg_block.c:8-65).  `none` = out of fuel;
`some none` = the function returned NULL (loop). -/
def walkC (regs : Nat → Nat) (size : Nat) : Nat → List Block → Nat → Option (Option (List Block))
  | 0, _, _ => none
  | fuel + 1, blocks, offset =>
    if (offset = 0 ∧ blocks.length ≠ 0) ∨ offset ≥ size then some (some blocks)
    else if blocks.any (fun b => b.offset == offset) then some none
    else walkC regs size fuel (blocks ++ [blockAt regs offset]) (regs (offset + 0x08))

end Corundum.RegBlock
