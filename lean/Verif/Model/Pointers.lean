/-
Unwrapping of the device's 16-bit queue pointers.

* Python driver: `fpga/common/tb/mqnic.py`
    - `Eq.read_prod_ptr` lines 539-541, `Cq.read_prod_ptr` 667-669 (low half),
    - `Txq.read_cons_ptr` 794-796, `Rxq.read_cons_ptr` 976-978 (high half)
* Linux driver (u32 arithmetic): `modules/mqnic/mqnic_eq.c:180` (low half),
  `mqnic_tx.c:176` and `mqnic_rx.c:186` (high half), `mqnic_cq.c:126` (reads the *high* half although it
  updates the producer pointer).
* Device register layout: `fpga/common/rtl/queue_manager.v:572-576`,
  `fpga/common/rtl/cpl_queue_manager.v:605-609` (`[15:0]` producer, `[31:16]` consumer).

Python's `x & 0xffff` on an unbounded (possibly negative) integer is the two's complement low 16 bits,
i.e. `x mod 65536` with non-negative result (`Int.emod`).
-/
namespace Corundum.Pointers

/-- `x & MQNIC_QUEUE_PTR_MASK` for a Python integer. -/
def pyMask16 (x : Int) : Int := x % 65536

/-- `self.prod_ptr += ((val & MASK) - self.prod_ptr) & MASK`. -/
def readProd (ptr val : Int) : Int := ptr + pyMask16 (pyMask16 val - ptr)

/-- `self.cons_ptr += ((val >> 16) - self.cons_ptr) & MASK`. -/
def readCons (ptr val : Int) : Int := ptr + pyMask16 (val / 65536 - ptr)

/-- The value register of a queue holding (hardware) pointers `prod` and `cons`:
`{cons[15:0], prod[15:0]}` (queue_manager.v:572-576). -/
def ptrReg (prod cons : Nat) : Nat := prod % 65536 + 65536 * (cons % 65536)

/-- `mqnic_eq_read_prod_ptr` (mqnic_eq.c:178-181). -/
def readProdC (ptr val : BitVec 32) : BitVec 32 := ptr + ((val &&& 0xffff#32) - ptr &&& 0xffff#32)

/-- `mqnic_tx_read_cons_ptr` / `mqnic_rx_read_cons_ptr` (mqnic_tx.c:174-177, mqnic_rx.c:184-187). -/
def readConsC (ptr val : BitVec 32) : BitVec 32 := ptr + ((val >>> 16) - ptr &&& 0xffff#32)

/-- `mqnic_cq_read_prod_ptr` (mqnic_cq.c:124-127): note `>> 16`, as written in the source. -/
def cqReadProdC (ptr val : BitVec 32) : BitVec 32 := ptr + ((val >>> 16) - ptr &&& 0xffff#32)

end Corundum.Pointers
