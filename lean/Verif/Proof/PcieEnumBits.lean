import Verif.Model.PcieEnum
import Verif.Props.PcieAlloc

/-! Bit level facts about the registers of enumeration. -/
namespace Corundum.PcieEnum
open Corundum

theorem andNot_bit (a b i : Nat) : (andNot a b).testBit i = (a.testBit i && !b.testBit i) := by
  simp only [andNot, Nat.testBit_xor, Nat.testBit_and]
  cases a.testBit i <;> cases b.testBit i <;> rfl

theorem tb_low (n i : Nat) : (2 ^ n - 1).testBit i = decide (i < n) := Nat.testBit_two_pow_sub_one n i

theorem and_pow_ne (m j : Nat) : (m &&& (1 <<< j) ≠ 0) ↔ m.testBit j = true := by
  rw [Nat.one_shiftLeft]
  constructor
  · intro h
    cases hb : m.testBit j
    · refine absurd ?_ h
      apply Nat.eq_of_testBit_eq
      intro i
      rw [Nat.testBit_and, Nat.testBit_two_pow, Nat.zero_testBit]
      by_cases hi : j = i
      · subst hi; rw [hb]; rfl
      · rw [decide_eq_false hi, Bool.and_false]
    · rfl
  · intro h h0
    have h1 : (m &&& 2 ^ j).testBit j = true := by rw [Nat.testBit_and, h, Nat.testBit_two_pow]; simp
    rw [h0, Nat.zero_testBit] at h1
    exact absurd h1 (by decide)

theorem byte_bit (j i : Nat) : (0xff <<< (8 * j)).testBit i = decide (i / 8 = j) := by
  rw [Nat.testBit_shiftLeft, show (0xff : Nat) = 2 ^ 8 - 1 from rfl, tb_low]
  by_cases h : i / 8 = j
  · rw [decide_eq_true h, decide_eq_true (by omega), decide_eq_true (by omega)]; rfl
  · rw [decide_eq_false h]
    by_cases h1 : i ≥ 8 * j
    · rw [decide_eq_false (by omega : ¬ i - 8 * j < 8), Bool.and_false]
    · rw [decide_eq_false h1, Bool.false_and]

theorem bmuLoop_bit (mask new : Nat) : ∀ n j old i, mask < 2 ^ (j + n) →
    (bmuLoop mask new n j old).testBit i = if j ≤ i / 8 ∧ mask.testBit (i / 8) = true then new.testBit i else old.testBit i := by
  intro n
  induction n with
  | zero =>
    intro j old i h
    rw [if_neg]; · rfl
    intro ⟨h1, h2⟩
    rw [Nat.testBit_lt_two_pow (Nat.lt_of_lt_of_le h (Nat.pow_le_pow_right (by decide) (by omega)))] at h2
    exact absurd h2 (by decide)
  | succ n ih =>
    intro j old i h
    unfold bmuLoop
    by_cases hle : 1 <<< j ≤ mask
    · rw [if_pos hle, ih _ _ _ (by rw [show j + 1 + n = j + (n + 1) by omega]; exact h)]
      by_cases hb : mask.testBit j = true
      · rw [if_pos ((and_pow_ne _ _).mpr hb), Nat.testBit_or, andNot_bit, Nat.testBit_and, byte_bit]
        by_cases hi : i / 8 = j
        · rw [if_neg (by omega), if_pos ⟨by omega, by rw [hi]; exact hb⟩, decide_eq_true hi]; simp
        · rw [decide_eq_false hi]
          by_cases h2 : j + 1 ≤ i / 8 ∧ mask.testBit (i / 8) = true
          · rw [if_pos h2, if_pos ⟨by omega, h2.2⟩]
          · rw [if_neg h2, if_neg (fun h3 => h2 ⟨by omega, h3.2⟩)]; simp
      · rw [if_neg (fun h1 => hb ((and_pow_ne _ _).mp h1))]
        by_cases h2 : j + 1 ≤ i / 8 ∧ mask.testBit (i / 8) = true
        · rw [if_pos h2, if_pos ⟨by omega, h2.2⟩]
        · rw [if_neg h2, if_neg]
          intro h3
          rcases Nat.lt_or_eq_of_le h3.1 with h4 | h4
          · exact h2 ⟨h4, h3.2⟩
          · exact hb (h4 ▸ h3.2)
    · rw [if_neg hle, if_neg]
      intro ⟨h1, h2⟩
      rw [Nat.one_shiftLeft] at hle
      rw [Nat.testBit_lt_two_pow (Nat.lt_of_lt_of_le (Nat.lt_of_not_le hle) (Nat.pow_le_pow_right (by decide) h1))] at h2
      exact absurd h2 (by decide)

/-- what `byte_mask_update` does to each bit -/
theorem bmu_bit (old mask new : Nat) (bm : Option Nat) (i : Nat) : (bmu old mask new bm).testBit i =
    if mask.testBit (i / 8) = true ∧ (∀ b ∈ bm, b.testBit i = true) then new.testBit i else old.testBit i := by
  have hm : mask < 2 ^ (0 + (mask + 1)) := by
    rw [Nat.zero_add]; exact Nat.lt_of_lt_of_le Nat.lt_two_pow_self (Nat.pow_le_pow_right (by decide) (by omega))
  rw [bmu.eq_def, bmuLoop_bit _ _ _ _ _ _ hm]
  cases bm with
  | none => simp
  | some b =>
    simp only [Nat.zero_le, true_and, Option.mem_def, Option.some.injEq, forall_eq', Nat.testBit_or, Nat.testBit_and, andNot_bit]
    by_cases h1 : mask.testBit (i / 8) = true
    · cases hb : b.testBit i <;> simp [h1]
    · simp [h1]

theorem ext_lt {x y : Nat} (h : ∀ i, x.testBit i = y.testBit i) : x = y := Nat.eq_of_testBit_eq h

theorem tb_big {x n i : Nat} (h : x < 2 ^ n) (hi : n ≤ i) : x.testBit i = false :=
  Nat.testBit_lt_two_pow (Nat.lt_of_lt_of_le h (Nat.pow_le_pow_right (by decide) hi))

theorem tb_mod {x n i : Nat} (h : x % 2 ^ n = 0) (hi : i < n) : x.testBit i = false := by
  have := Nat.testBit_mod_two_pow x n i
  rw [h, Nat.zero_testBit, decide_eq_true hi, Bool.true_and] at this
  exact this.symm

/-- `x & -(2 ** k)` in `n` bits -/
theorem and_high {x k n : Nat} (hx : x < 2 ^ n) (hk : k ≤ n) : x &&& (2 ^ n - 2 ^ k) = x / 2 ^ k * 2 ^ k := by
  apply ext_lt
  intro i
  have h1 : 2 ^ n - 2 ^ k = 2 ^ k * (2 ^ (n - k) - 1) + 0 := by
    rw [Nat.mul_sub, ← Nat.pow_add, Nat.add_sub_cancel' hk]; omega
  rw [Nat.testBit_and, h1, Nat.testBit_two_pow_mul_add _ (Nat.two_pow_pos k), Nat.mul_comm, ← Nat.add_zero (2 ^ k * (x / 2 ^ k)),
    Nat.testBit_two_pow_mul_add _ (Nat.two_pow_pos k)]
  by_cases hi : i < k
  · rw [if_pos hi, if_pos hi, Nat.zero_testBit, Bool.and_false]
  · rw [if_neg hi, if_neg hi, tb_low, Nat.testBit_div_two_pow, Nat.sub_add_cancel (by omega)]
    by_cases h : i < n
    · rw [decide_eq_true (by omega), Bool.and_true]
    · rw [tb_big hx (by omega), Bool.false_and]

/-- `x & ~(2 ** k - 1)` complement: the offset -/
theorem andNot_high {x k n : Nat} (hx : x < 2 ^ n) (hk : k ≤ n) : andNot x (2 ^ n - 2 ^ k) = x % 2 ^ k := by
  apply ext_lt
  intro i
  have h1 : 2 ^ n - 2 ^ k = 2 ^ k * (2 ^ (n - k) - 1) + 0 := by
    rw [Nat.mul_sub, ← Nat.pow_add, Nat.add_sub_cancel' hk]; omega
  rw [andNot_bit, h1, Nat.testBit_two_pow_mul_add _ (Nat.two_pow_pos k), Nat.testBit_mod_two_pow]
  by_cases hi : i < k
  · rw [if_pos hi, Nat.zero_testBit, decide_eq_true hi, Bool.not_false, Bool.and_true, Bool.true_and]
  · rw [if_neg hi, tb_low, decide_eq_false hi, Bool.false_and]
    by_cases h : i < n
    · rw [decide_eq_true (by omega), Bool.not_true, Bool.and_false]
    · rw [tb_big hx (by omega), Bool.false_and]

theorem or_low {x f k : Nat} (hx : x % 2 ^ k = 0) (hf : f < 2 ^ k) : f ||| x = x + f := by
  apply ext_lt
  intro i
  have e : x + f = 2 ^ k * (x / 2 ^ k) + f := by have := Nat.div_add_mod x (2 ^ k); omega
  rw [e, Nat.testBit_two_pow_mul_add _ hf, Nat.testBit_or]
  by_cases hi : i < k
  · rw [if_pos hi, tb_mod hx hi, Bool.or_false]
  · rw [if_neg hi, tb_big hf (by omega), Nat.testBit_div_two_pow, Nat.sub_add_cancel (by omega), Bool.false_or]

/-- a BAR register whose writable bits are those above `k`, the others being the flags `f` -/
theorem bar_write {x f k old : Nat} (hx : x < 2 ^ 32) (hk : k ≤ 32) (hf : f < 2 ^ k) (ho : andNot old (2 ^ 32 - 2 ^ k) = f) :
    bmu old 0xf x (some (2 ^ 32 - 2 ^ k)) = x / 2 ^ k * 2 ^ k + f := by
  rw [← or_low (Nat.mul_mod_left _ _) hf, ← and_high hx hk, ← ho]
  apply ext_lt
  intro i
  rw [bmu_bit, Nat.testBit_or, andNot_bit, Nat.testBit_and]
  have h15 : (0xf : Nat).testBit (i / 8) = decide (i / 8 < 4) := tb_low 4 _
  simp only [Option.mem_def, Option.some.injEq, forall_eq']
  rw [h15]
  by_cases h : i / 8 < 4
  · cases hm : (2 ^ 32 - 2 ^ k).testBit i <;> simp [h]
  · have h32 : 32 ≤ i := by omega
    have hm : (2 ^ 32 - 2 ^ k).testBit i = false := tb_big (n := 32) (by have := Nat.two_pow_pos k; omega) h32
    simp [h, hm]

end Corundum.PcieEnum
