import Verif.Model.Pointers
/-! C03 — 16-bit queue pointer unwrapping: property theorems. -/
namespace Corundum.Pointers

/-- C03 (Python): if the software copy lags the device's true producer position by less than 65536,
reading the pointer register yields the true position exactly, however large it is and whatever the
consumer half holds. -/
theorem C03_read_prod (sw hw cons : Nat) (h1 : sw ≤ hw) (h2 : hw < sw + 65536) :
    readProd sw (ptrReg hw cons) = hw := by
  unfold readProd pyMask16 ptrReg
  omega

/-- C03 (Python): the same for the consumer pointers of the transmit and receive rings. -/
theorem C03_read_cons (sw hw prod : Nat) (h1 : sw ≤ hw) (h2 : hw < sw + 65536) :
    readCons sw (ptrReg prod hw) = hw := by
  unfold readCons pyMask16 ptrReg
  omega

/-- C03: even without the lag bound, the copy never moves backwards, never jumps by 65536 or more, and
agrees with the device modulo 65536. -/
theorem C03_read_monotone (sw hw other : Nat) :
    (sw : Int) ≤ readProd sw (ptrReg hw other) ∧ readProd sw (ptrReg hw other) < sw + 65536 ∧
    readProd sw (ptrReg hw other) % 65536 = (hw : Int) % 65536 ∧
    (sw : Int) ≤ readCons sw (ptrReg other hw) ∧ readCons sw (ptrReg other hw) < sw + 65536 ∧
    readCons sw (ptrReg other hw) % 65536 = (hw : Int) % 65536 := by
  unfold readProd readCons pyMask16 ptrReg
  omega

theorem and_ffff (n : Nat) : n &&& 65535 = n % 65536 := by
  simpa using Nat.and_two_pow_sub_one_eq_mod n 16

theorem ptrReg_lt (a b : Nat) : ptrReg a b < 2^32 := by unfold ptrReg; omega

/-- C03 (Linux): the u32 copies of the event queue producer pointer and of the ring consumer pointers
follow the device's true position modulo 2^32. -/
theorem C03_linux (sw hw other : Nat) (h1 : sw ≤ hw) (h2 : hw < sw + 65536) :
    readProdC (BitVec.ofNat 32 sw) (BitVec.ofNat 32 (ptrReg hw other)) = BitVec.ofNat 32 hw ∧
    readConsC (BitVec.ofNat 32 sw) (BitVec.ofNat 32 (ptrReg other hw)) = BitVec.ofNat 32 hw := by
  have h3 := ptrReg_lt hw other
  have h4 := ptrReg_lt other hw
  constructor
  · apply BitVec.eq_of_toNat_eq
    simp only [readProdC, BitVec.toNat_add, BitVec.toNat_and, BitVec.toNat_sub, BitVec.toNat_ofNat]
    rw [Nat.mod_eq_of_lt h3]
    rw [show (65535 % 2^32 : Nat) = 65535 from rfl, and_ffff, and_ffff]
    unfold ptrReg
    omega
  · apply BitVec.eq_of_toNat_eq
    simp only [readConsC, BitVec.toNat_add, BitVec.toNat_and, BitVec.toNat_sub, BitVec.toNat_ofNat,
      BitVec.toNat_ushiftRight]
    rw [Nat.mod_eq_of_lt h4]
    rw [show (65535 % 2^32 : Nat) = 65535 from rfl, and_ffff, Nat.shiftRight_eq_div_pow]
    unfold ptrReg
    omega

/-- C03, disagreement: `mqnic_cq_read_prod_ptr` of the Linux driver does not follow the completion
queue's producer pointer (it reads the consumer half of the register): with 3 completions produced and
1 consumed it reports 1.  (The function has no caller in the driver.) -/
theorem C03_linux_cq_counterexample :
    ∃ sw hw cons : Nat, sw ≤ hw ∧ hw < sw + 65536 ∧ cons ≤ hw ∧
      cqReadProdC (BitVec.ofNat 32 sw) (BitVec.ofNat 32 (ptrReg hw cons)) ≠ BitVec.ofNat 32 hw :=
  ⟨0, 3, 1, by decide, by decide, by decide, by decide⟩

/-! Non-vacuity: a wrap of both 16-bit halves. -/
example : readProd 65530 (ptrReg 65540 9) = 65540 ∧ readCons 131071 (ptrReg 5 131073) = 131073 := by decide

end Corundum.Pointers
