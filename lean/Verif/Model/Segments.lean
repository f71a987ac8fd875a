/-
Descriptor segmentation of the Python driver.

* transmit: `fpga/common/tb/mqnic.py` lines 1521-1535 (`Interface.start_xmit`)
* receive:  `fpga/common/tb/mqnic.py` lines 1008-1019 (`Rxq.prepare_desc`)

A segment is the pair (length, address) packed into one 16-byte descriptor.  The checksum command
and the byte packing of the descriptor are not modelled here.  Python integers are modelled by `Int`
so that `length-offset` is exact.
-/
namespace Corundum.Segments

/-- One packed descriptor: `seg` and `ptr+offset if seg else 0`. -/
structure Seg where
  len : Int
  addr : Int
  deriving DecidableEq, Repr

def mkSeg (ptr offset seg : Int) : Seg := { len := seg, addr := if seg ≠ 0 then ptr + offset else 0 }

/-- The loop `for k in range(k0, blockSize)` shared by both functions (mqnic.py:1531-1535 and
1016-1019): 4096-byte cap except in the last descriptor.  `n = blockSize - k` is the remaining
iteration count. -/
def segLoop (length ptr : Int) (offset : Int) : Nat → List Seg
  | 0 => []
  | n + 1 =>
    let seg := if n + 1 > 1 then min (length - offset) 4096 else length - offset
    mkSeg ptr offset seg :: segLoop length ptr (offset + seg) n

/-- `start_xmit` descriptors (mqnic.py:1521-1535); `blockSize ≥ 1`.  The first segment is capped at 42
bytes when there are more descriptors. -/
def txSegs (length ptr : Int) (blockSize : Nat) : List Seg :=
  let offset := 0
  let seg := if blockSize > 1 then min (length - offset) 42 else length - offset
  mkSeg ptr offset seg :: segLoop length ptr (offset + seg) (blockSize - 1)

/-- `Rxq.prepare_desc` descriptors (mqnic.py:1011-1019). -/
def rxSegs (length ptr : Int) (blockSize : Nat) : List Seg :=
  segLoop length ptr 0 blockSize

end Corundum.Segments
