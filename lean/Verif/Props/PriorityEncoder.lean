import Verif.Model.PriorityEncoder
/-!
C33: the tree-structured priority encoder is exact for every width.
-/
namespace Corundum.PriorityEncoder

theorem valid_iff (w x : Nat) : ∀ l n, validAt w x l n = true ↔ ∃ i, i < 2 ^ (l + 1) ∧ padded w x (n * 2 ^ (l + 1) + i) = true := by
  intro l
  induction l with
  | zero =>
    intro n
    simp only [validAt, Bool.or_eq_true]
    constructor
    · rintro (h | h)
      · exact ⟨0, by decide, by rw [show n * 2 ^ (0 + 1) + 0 = 2 * n by omega]; exact h⟩
      · exact ⟨1, by decide, by rw [show n * 2 ^ (0 + 1) + 1 = 2 * n + 1 by omega]; exact h⟩
    · rintro ⟨i, hi, h⟩
      have : i = 0 ∨ i = 1 := by omega
      rcases this with rfl | rfl
      · left; rw [show n * 2 ^ (0 + 1) + 0 = 2 * n by omega] at h; exact h
      · right; rw [show n * 2 ^ (0 + 1) + 1 = 2 * n + 1 by omega] at h; exact h
  | succ l ih =>
    intro n
    simp only [validAt, Bool.or_eq_true, ih]
    have e : n * 2 ^ (l + 1 + 1) = 2 * n * 2 ^ (l + 1) := by rw [Nat.pow_succ 2 (l + 1), Nat.mul_comm (2 ^ (l + 1)) 2, ← Nat.mul_assoc, Nat.mul_comm n 2]
    have e' : 2 ^ (l + 1 + 1) = 2 * 2 ^ (l + 1) := by rw [Nat.pow_succ 2 (l + 1), Nat.mul_comm]
    rw [e]
    constructor
    · rintro (⟨i, hi, h⟩ | ⟨i, hi, h⟩)
      · exact ⟨i, by omega, h⟩
      · refine ⟨2 ^ (l + 1) + i, by omega, ?_⟩
        rw [Nat.add_mul, Nat.one_mul, Nat.add_assoc] at h
        exact h
    · rintro ⟨i, hi, h⟩
      by_cases hl : i < 2 ^ (l + 1)
      · exact Or.inl ⟨i, hl, h⟩
      · refine Or.inr ⟨i - 2 ^ (l + 1), by omega, ?_⟩
        rw [Nat.add_mul, Nat.one_mul, Nat.add_assoc, Nat.add_sub_cancel' (by omega)]
        exact h

theorem enc_spec (lsb : Bool) (w x : Nat) : ∀ l n, validAt w x l n = true →
    encAt lsb w x l n < 2 ^ (l + 1) ∧ padded w x (n * 2 ^ (l + 1) + encAt lsb w x l n) = true ∧
    ∀ j, j < 2 ^ (l + 1) → padded w x (n * 2 ^ (l + 1) + j) = true → (if lsb then encAt lsb w x l n ≤ j else j ≤ encAt lsb w x l n) := by
  intro l
  induction l with
  | zero =>
    intro n h
    simp only [validAt, Bool.or_eq_true] at h
    have e1 : n * 2 ^ (0 + 1) = 2 * n := by omega
    rw [e1]
    cases lsb
    · simp only [encAt, Bool.false_eq_true, if_false]
      cases h1 : padded w x (2 * n + 1)
      · rw [h1] at h
        simp only [Bool.false_eq_true, or_false] at h
        simp only [Bool.false_eq_true, if_false]
        refine ⟨by decide, h, ?_⟩
        intro j hj hp
        have : j = 0 ∨ j = 1 := by omega
        rcases this with rfl | rfl
        · omega
        · rw [h1] at hp; exact absurd hp (by simp)
      · simp only [if_true]
        exact ⟨by decide, h1, fun j hj _ => by omega⟩
    · simp only [encAt, if_true]
      cases h0 : padded w x (2 * n)
      · rw [h0] at h
        simp only [Bool.false_eq_true, false_or] at h
        simp only [Bool.false_eq_true, if_false]
        refine ⟨by decide, h, ?_⟩
        intro j hj hp
        have : j = 0 ∨ j = 1 := by omega
        rcases this with rfl | rfl
        · rw [Nat.add_zero, h0] at hp; exact absurd hp (by simp)
        · omega
      · simp only [if_true]
        exact ⟨by decide, h0, fun j hj _ => by omega⟩
  | succ l ih =>
    intro n h
    have e : n * 2 ^ (l + 1 + 1) = 2 * n * 2 ^ (l + 1) := by rw [Nat.pow_succ 2 (l + 1), Nat.mul_comm (2 ^ (l + 1)) 2, ← Nat.mul_assoc, Nat.mul_comm n 2]
    have e' : 2 ^ (l + 1 + 1) = 2 * 2 ^ (l + 1) := by rw [Nat.pow_succ 2 (l + 1), Nat.mul_comm]
    have e2 : ∀ i, (2 * n + 1) * 2 ^ (l + 1) + i = 2 * n * 2 ^ (l + 1) + (2 ^ (l + 1) + i) := by
      intro i; rw [Nat.add_mul, Nat.one_mul, Nat.add_assoc]
    simp only [validAt, Bool.or_eq_true] at h
    rw [e]
    cases lsb
    · simp only [encAt, Bool.false_eq_true, if_false]
      cases h1 : validAt w x l (2 * n + 1)
      · rw [h1] at h
        simp only [Bool.false_eq_true, or_false] at h
        simp only [Bool.false_eq_true, if_false]
        obtain ⟨a, b, c⟩ := ih (2 * n) h
        simp only [Bool.false_eq_true, if_false] at c
        refine ⟨by omega, b, ?_⟩
        intro j hj hp
        by_cases hl : j < 2 ^ (l + 1)
        · exact c j hl hp
        · exfalso
          have : validAt w x l (2 * n + 1) = true := (valid_iff w x l _).mpr ⟨j - 2 ^ (l + 1), by omega, by
            rw [e2, Nat.add_sub_cancel' (by omega)]; exact hp⟩
          rw [h1] at this
          exact absurd this (by simp)
      · simp only [if_true]
        obtain ⟨a, b, c⟩ := ih (2 * n + 1) h1
        simp only [Bool.false_eq_true, if_false] at c
        refine ⟨by omega, by rw [← e2]; exact b, ?_⟩
        intro j hj hp
        by_cases hl : j < 2 ^ (l + 1)
        · omega
        · have := c (j - 2 ^ (l + 1)) (by omega) (by rw [e2, Nat.add_sub_cancel' (by omega)]; exact hp)
          omega
    · simp only [encAt, if_true]
      cases h0 : validAt w x l (2 * n)
      · rw [h0] at h
        simp only [Bool.false_eq_true, false_or] at h
        simp only [Bool.false_eq_true, if_false]
        obtain ⟨a, b, c⟩ := ih (2 * n + 1) h
        simp only [if_true] at c
        refine ⟨by omega, by rw [← e2]; exact b, ?_⟩
        intro j hj hp
        by_cases hl : j < 2 ^ (l + 1)
        · exfalso
          have : validAt w x l (2 * n) = true := (valid_iff w x l _).mpr ⟨j, hl, hp⟩
          rw [h0] at this
          exact absurd this (by simp)
        · have := c (j - 2 ^ (l + 1)) (by omega) (by rw [e2, Nat.add_sub_cancel' (by omega)]; exact hp)
          omega
      · simp only [if_true]
        obtain ⟨a, b, c⟩ := ih (2 * n) h0
        simp only [if_true] at c
        refine ⟨by omega, b, ?_⟩
        intro j hj hp
        by_cases hl : j < 2 ^ (l + 1)
        · exact c j hl hp
        · omega

theorem levels_pos (w : Nat) : 0 < levels w := by
  unfold levels clog2
  split
  · split
    · omega
    · omega
  · omega

theorem le_levels (w : Nat) : w ≤ 2 ^ levels w := by
  unfold levels
  split
  · next h =>
    unfold clog2
    rw [if_neg (by omega)]
    have := Nat.lt_log2_self (n := w - 1)
    omega
  · next h => simp; omega

/-- **C33** `output_valid` is set iff some of the WIDTH input bits is set. -/
theorem C33_valid (w x : Nat) : valid w x = true ↔ ∃ i, i < w ∧ x.testBit i = true := by
  unfold valid
  rw [valid_iff, Nat.sub_add_cancel (levels_pos w)]
  simp only [Nat.zero_mul, Nat.zero_add, padded, Bool.and_eq_true, decide_eq_true_eq]
  constructor
  · rintro ⟨i, _, h⟩; exact ⟨i, h⟩
  · rintro ⟨i, h⟩; exact ⟨i, Nat.lt_of_lt_of_le h.1 (le_levels w), h⟩

/-- **C33** When valid, `output_encoded` is a set bit below WIDTH, and the lowest (LSB priority) or highest such bit; `output_unencoded` is its one-hot form. -/
theorem C33_encoded (lsb : Bool) (w x : Nat) (h : ∃ i, i < w ∧ x.testBit i = true) :
    encoded lsb w x < w ∧ x.testBit (encoded lsb w x) = true ∧
    (∀ j, j < w → x.testBit j = true → (if lsb then encoded lsb w x ≤ j else j ≤ encoded lsb w x)) ∧
    unencoded lsb w x = 2 ^ encoded lsb w x := by
  have hv := (C33_valid w x).mpr h
  obtain ⟨a, b, c⟩ := enc_spec lsb w x (levels w - 1) 0 hv
  rw [Nat.sub_add_cancel (levels_pos w)] at a b c
  simp only [Nat.zero_mul, Nat.zero_add, padded, Bool.and_eq_true, decide_eq_true_eq] at b c
  refine ⟨b.1, b.2, fun j hj hx => c j (Nat.lt_of_lt_of_le hj (le_levels w)) ⟨hj, hx⟩, ?_⟩
  unfold unencoded
  rw [Nat.one_shiftLeft]
  exact Nat.mod_eq_of_lt (Nat.pow_lt_pow_right (by decide) b.1)

/-- **C33** The result fits the `$clog2(WIDTH)` bits of the output port. -/
theorem C33_width (lsb : Bool) (w x : Nat) (hw : 2 ≤ w) (h : ∃ i, i < w ∧ x.testBit i = true) : encoded lsb w x < 2 ^ clog2 w := by
  have := (C33_encoded lsb w x h).1
  have h2 : w ≤ 2 ^ clog2 w := by
    have := le_levels w
    unfold levels at this
    split at this
    · exact this
    · have : w = 2 := by omega
      subst this; decide
  omega

example : (∃ i, i < 5 ∧ (0b10010 : Nat).testBit i = true) ∧ encoded true 5 0b10010 = 1 ∧ encoded false 5 0b10010 = 4 ∧ valid 5 0b100000 = false := by
  refine ⟨⟨1, by decide⟩, by decide, by decide, by decide⟩

end Corundum.PriorityEncoder
