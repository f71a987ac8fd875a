import Verif.Model.CplTs
/-!
C41: extension of completion timestamps to full seconds.
-/
namespace Corundum.CplTs

theorem mask_hi (x : Nat) (h : x < 2 ^ 64) : x &&& 0xffffffffffffff00 = x / 256 * 256 := by
  apply Nat.eq_of_testBit_eq
  intro i
  have e : x / 256 * 256 = x >>> 8 <<< 8 := by rw [Nat.shiftRight_eq_div_pow, Nat.shiftLeft_eq]
  have m : (0xffffffffffffff00 : Nat) = (2 ^ 56 - 1) <<< 8 := by decide
  rw [e, m, Nat.testBit_and, Nat.testBit_shiftLeft, Nat.testBit_shiftLeft, Nat.testBit_shiftRight, Nat.testBit_two_pow_sub_one]
  by_cases h8 : i ≥ 8
  · simp only [h8, decide_true, Bool.true_and]
    rw [show 8 + (i - 8) = i by omega]
    by_cases h64 : i - 8 < 56
    · simp [h64]
    · simp only [h64, decide_false, Bool.and_false]
      symm
      exact Nat.testBit_lt_two_pow (Nat.lt_of_lt_of_le h (Nat.pow_le_pow_right (by decide) (by omega)))
  · simp [h8]

theorem mask_mid (x : Nat) : (x &&& 0xff00 = 0) ↔ x / 256 % 256 = 0 := by
  have m : x &&& 0xff00 = (x / 256 % 256) * 256 := by
    apply Nat.eq_of_testBit_eq
    intro i
    have e : x / 256 % 256 * 256 = (x >>> 8 % 2 ^ 8) <<< 8 := by rw [Nat.shiftRight_eq_div_pow, Nat.shiftLeft_eq]
    have m : (0xff00 : Nat) = (2 ^ 8 - 1) <<< 8 := by decide
    rw [e, m, Nat.testBit_and, Nat.testBit_shiftLeft, Nat.testBit_shiftLeft, Nat.testBit_two_pow_sub_one, Nat.testBit_mod_two_pow, Nat.testBit_shiftRight]
    by_cases h8 : i ≥ 8
    · simp only [h8, decide_true, Bool.true_and]
      rw [show 8 + (i - 8) = i by omega, Bool.and_comm]
    · simp [h8]
  rw [m]; omega

theorem mid_iff (a b : Nat) : ((a ^^^ b) &&& 0xff00 = 0) ↔ a / 256 % 256 = b / 256 % 256 := by
  rw [mask_mid]
  have e : (a ^^^ b) / 256 % 256 = (a / 256 % 256) ^^^ (b / 256 % 256) := by
    rw [show (256 : Nat) = 2 ^ 8 by rfl, ← Nat.shiftRight_eq_div_pow, ← Nat.shiftRight_eq_div_pow, ← Nat.shiftRight_eq_div_pow,
      Nat.shiftRight_xor_distrib, Nat.xor_mod_two_pow]
  rw [e]
  constructor
  · intro h
    have := congrArg (fun z => z ^^^ (b / 256 % 256)) h
    simpa [Nat.xor_assoc] using this
  · intro h; rw [h, Nat.xor_self]

/-- the OR of the code joins the parts correctly if the cached value is in the same block of 256 seconds -/
theorem join (t c : Nat) (ht : t < 2 ^ 64) (h : c / 256 = t / 256) : (t % 2 ^ 16) ||| (c / 256 * 256) = t := by
  rw [h]
  apply Nat.eq_of_testBit_eq
  intro i
  have e : t / 256 * 256 = t >>> 8 <<< 8 := by rw [Nat.shiftRight_eq_div_pow, Nat.shiftLeft_eq]
  rw [e, Nat.testBit_or, Nat.testBit_mod_two_pow, Nat.testBit_shiftLeft, Nat.testBit_shiftRight]
  by_cases h8 : i ≥ 8
  · simp only [h8, decide_true, Bool.true_and]
    rw [show 8 + (i - 8) = i by omega]
    cases t.testBit i <;> simp
  · simp [h8, show i < 16 by omega]

/-- **C41** (part) The returned seconds are the true seconds `t` of the event whenever the event was processed in the same 256-second block of the
clock in which it happened, and the cached value is less than 65281 seconds away from it. The claim for every event less than 256 seconds old is false of the
code: see the counterexamples below. -/
theorem C41_extend_partial (t now : Nat) (r : Ring) (ht : t < 2 ^ 64) (hnow : now < 2 ^ 64) (hr : r.s < 2 ^ 64)
    (hblock : now / 256 = t / 256) (hfresh : r.valid = true → r.s < t + 65281 ∧ t < r.s + 65281) :
    (readCplTs (some now) r (t % 2 ^ 16)).2 = t ∧ ((readCplTs (some now) r (t % 2 ^ 16)).1.s = now ∨ (readCplTs (some now) r (t % 2 ^ 16)).1.s = r.s) ∧
    (readCplTs (some now) r (t % 2 ^ 16)).1.valid = true := by
  unfold readCplTs
  simp only
  by_cases h : (!r.valid || ((r.s ^^^ t % 2 ^ 16) &&& 0xff00) != 0) = true
  · rw [if_pos h]
    simp only
    rw [mask_hi _ hnow, join t now ht hblock]
    exact ⟨rfl, by simp, by simp⟩
  · rw [if_neg h]
    simp only [Bool.or_eq_true, Bool.not_eq_true', bne_iff_ne, ne_eq, not_or, Bool.not_eq_false, Decidable.not_not] at h
    obtain ⟨h1, h2⟩ := h
    rw [mid_iff] at h2
    obtain ⟨f1, f2⟩ := hfresh h1
    have hc : r.s / 256 = t / 256 := by omega
    rw [mask_hi _ hr, join t r.s ht hc]
    exact ⟨rfl, Or.inr rfl, h1⟩

/-- **C41** The returned value is always at least the low bits and at least the cached block: when the block boundary is crossed between the event and its
processing, the code ORs the two block numbers. -/
theorem C41_crossing (t now : Nat) (r : Ring) (hnow : now < 2 ^ 64) (hinv : r.valid = false ∨ r.s / 256 % 256 ≠ t / 256 % 256) :
    (readCplTs (some now) r (t % 2 ^ 16)).2 = (t % 2 ^ 16) ||| (now / 256 * 256) := by
  unfold readCplTs
  simp only
  have h : (!r.valid || ((r.s ^^^ t % 2 ^ 16) &&& 0xff00) != 0) = true := by
    rcases hinv with h | h
    · simp [h]
    · simp only [Bool.or_eq_true, bne_iff_ne, ne_eq, mid_iff]
      right
      omega
  rw [if_pos h]
  simp only
  rw [mask_hi _ hnow]

/-- **C41** Counterexample to the full claim: an event at second 0xff processed one second later (0x100) is reported at second 0x1ff. -/
theorem C41_rollover_counterexample : (readCplTs (some 0x100) ⟨true, 0x1fe00⟩ (0xff % 2 ^ 16)).2 = 0x1ff := by decide

/-- **C41** Counterexample to the full claim: with a cached value 65536 seconds old (no traffic in between) the cached block number still matches in the
compared byte, so the cache is not refreshed and the result is 65536 seconds early. -/
theorem C41_stale_counterexample : (readCplTs (some 0x20010) ⟨true, 0x10005⟩ (0x20010 % 2 ^ 16)).2 = 0x10010 := by decide

/-- hypotheses of `C41_extend_partial` are met with and without a refresh -/
example : (readCplTs (some 0x65432170) ⟨true, 0x65432001⟩ (0x65432155 % 2 ^ 16)).2 = 0x65432155 ∧
    (readCplTs (some 0x65432170) ⟨true, 0x65432101⟩ (0x65432155 % 2 ^ 16)).2 = 0x65432155 := by decide

end Corundum.CplTs
