import Verif.Model.Timespec
/-!
C42: timespec arithmetic is exact integer nanosecond arithmetic.
-/
namespace Corundum.Timespec

/-- value in nanoseconds -/
def val (t : TS) : Int := t.sec * 1000000000 + t.nsec

/-- normalised: less than one second in the nanosecond field, no mixed signs -/
def Norm (t : TS) : Prop := -1000000000 < t.nsec ∧ t.nsec < 1000000000 ∧ (0 < t.sec → 0 ≤ t.nsec) ∧ (t.sec < 0 → t.nsec ≤ 0)

/-- a normalised pair is determined by its value -/
theorem Norm.unique {a b : TS} (ha : Norm a) (hb : Norm b) (h : val a = val b) : a = b := by
  obtain ⟨s, n⟩ := a
  obtain ⟨s', n'⟩ := b
  simp only [Norm, val] at *
  have : s = s' := by omega
  subst this
  have : n = n' := by omega
  subst this
  rfl

theorem up_spec : ∀ (f : Nat) (t : TS), t.nsec < 1000000000 * (f : Int) →
    val (upLoop f t) = val t ∧ (upLoop f t).nsec < 1000000000 ∧ (t.nsec < 1000000000 → upLoop f t = t) ∧ (1000000000 ≤ t.nsec → 0 ≤ (upLoop f t).nsec) := by
  intro f
  induction f with
  | zero => intro t h; exact ⟨rfl, by rw [upLoop]; omega, fun _ => rfl, by omega⟩
  | succ f ih =>
    intro t h
    rw [upLoop]
    by_cases h1 : t.nsec ≥ G
    · rw [if_pos h1]
      obtain ⟨a, b, c, d⟩ := ih ⟨t.sec + 1, t.nsec - G⟩ (by simp only [G] at *; omega)
      refine ⟨by rw [a]; simp only [val, G]; omega, b, fun h2 => by simp only [G] at h1; omega, fun _ => ?_⟩
      by_cases h3 : t.nsec - G < 1000000000
      · rw [c h3]; simp only; omega
      · exact d (by simp only; omega)
    · rw [if_neg h1]; simp only [G] at h1; exact ⟨rfl, by omega, fun _ => rfl, by omega⟩

theorem down_spec : ∀ (f : Nat) (t : TS), -(1000000000 * (f : Int)) < t.nsec →
    val (downLoop f t) = val t ∧ -1000000000 < (downLoop f t).nsec ∧ (-1000000000 < t.nsec → downLoop f t = t) ∧
      (t.nsec ≤ -1000000000 → (downLoop f t).nsec ≤ 0) := by
  intro f
  induction f with
  | zero => intro t h; exact ⟨rfl, by rw [downLoop]; omega, fun _ => rfl, by omega⟩
  | succ f ih =>
    intro t h
    rw [downLoop]
    by_cases h1 : t.nsec ≤ -G
    · rw [if_pos h1]
      obtain ⟨a, b, c, d⟩ := ih ⟨t.sec - 1, t.nsec + G⟩ (by simp only [G] at *; omega)
      refine ⟨by rw [a]; simp only [val, G]; omega, b, fun h2 => by simp only [G] at h1; omega, fun _ => ?_⟩
      by_cases h3 : -1000000000 < t.nsec + G
      · rw [c h3]; simp only; omega
      · exact d (by simp only; omega)
    · rw [if_neg h1]; simp only [G] at h1; exact ⟨rfl, by omega, fun _ => rfl, by omega⟩

/-- **C42** normalisation preserves the value and yields a normalised pair, for every input. -/
theorem C42_normalise (t : TS) : val (normalise t) = val t ∧ Norm (normalise t) := by
  unfold normalise
  simp only
  obtain ⟨a, b, c, d⟩ := up_spec (t.nsec.natAbs / 1000000000 + 1) t (by omega)
  generalize upLoop (t.nsec.natAbs / 1000000000 + 1) t = u at *
  obtain ⟨a', b', c', d'⟩ := down_spec (u.nsec.natAbs / 1000000000 + 1) u (by omega)
  generalize downLoop (u.nsec.natAbs / 1000000000 + 1) u = w at *
  have hw : w.nsec < 1000000000 := by
    by_cases h : -1000000000 < u.nsec
    · rw [c' h]; exact b
    · have := d' (by omega); omega
  rw [← a, ← a']
  split
  · next h => simp only [val, Norm, G]; omega
  · split
    · next h => simp only [val, Norm, G]; omega
    · next h1 h2 => exact ⟨rfl, b', hw, fun h => by omega, fun h => by omega⟩

theorem normalise_of_norm {t : TS} (h : Norm t) : normalise t = t := by
  obtain ⟨a, b⟩ := C42_normalise t
  exact Norm.unique b h a

/-- **C42** addition and subtraction are exact, for every input, and normalised. -/
theorem C42_add_sub (a b : TS) :
    val (add a b) = val a + val b ∧ Norm (add a b) ∧ val (sub a b) = val a - val b ∧ Norm (sub a b) := by
  obtain ⟨a1, a2⟩ := C42_normalise a
  obtain ⟨b1, b2⟩ := C42_normalise b
  unfold add sub
  simp only
  obtain ⟨x1, x2⟩ := C42_normalise ⟨(normalise a).sec + (normalise b).sec, (normalise a).nsec + (normalise b).nsec⟩
  obtain ⟨y1, y2⟩ := C42_normalise ⟨(normalise a).sec - (normalise b).sec, (normalise a).nsec - (normalise b).nsec⟩
  refine ⟨?_, x2, ?_, y2⟩
  · rw [x1, ← a1, ← b1]; simp only [val]; omega
  · rw [y1, ← a1, ← b1]; simp only [val]; omega

/-- **C42** comparisons of normalised values agree with integer comparison. -/
theorem C42_compare (a b : TS) (ha : Norm a) (hb : Norm b) :
    (eq a b = true ↔ val a = val b) ∧ (gt a b = true ↔ val a > val b) ∧ (ge a b = true ↔ val a ≥ val b) ∧
    (lt a b = true ↔ val a < val b) ∧ (le a b = true ↔ val a ≤ val b) := by
  simp only [eq, gt, ge, lt, le, Bool.or_eq_true, Bool.and_eq_true, beq_iff_eq, decide_eq_true_eq]
  simp only [Norm, val] at *
  refine ⟨?_, ?_, ?_, ?_, ?_⟩ <;> constructor <;> intro h <;> omega

/-- **C42** the comparison functions do not normalise: 0.5 s written as (1, -500000000) compares greater than 0.75 s. -/
theorem C42_compare_unnormalised_counterexample :
    gt ⟨1, -500000000⟩ ⟨0, 750000000⟩ = true ∧ val ⟨1, -500000000⟩ < val ⟨0, 750000000⟩ := by decide

/-! ### remainder -/

/-- positive, at most one second in the nanosecond field (inclusive, as the shift loop leaves it) -/
def Pos (t : TS) : Prop := 0 ≤ t.sec ∧ 0 ≤ t.nsec ∧ t.nsec ≤ 1000000000

theorem ge_pos {a b : TS} (ha : Norm a) (_ha0 : 0 ≤ val a) (hb : Pos b) : ge a b = true ↔ val a ≥ val b := by
  simp only [ge, Bool.or_eq_true, Bool.and_eq_true, beq_iff_eq, decide_eq_true_eq]
  simp only [Norm, val, Pos] at *
  constructor <;> intro h <;> omega

theorem double_spec {b : TS} (hb : Pos b) : Pos (double b) ∧ val (double b) = 2 * val b := by
  unfold double
  simp only [Pos, val, G] at *
  split <;> (simp only; omega)

theorem halve_spec {b : TS} (hb : Pos b) {v : Int} (hv : val b = 2 * v) : Pos (halve b) ∧ val (halve b) = v := by
  unfold halve
  simp only [Pos, val, G] at *
  split <;> omega

theorem shift_spec (a : TS) (ha : Norm a) (ha0 : 0 ≤ val a) (b0 : Int) : ∀ (f : Nat) (b : TS) (i : Nat), Pos b → val b = 2 ^ i * b0 →
    val a < 2 ^ f * val b → ∃ b' i', shiftLoop f a b i = (b', i') ∧ Pos b' ∧ val b' = 2 ^ i' * b0 ∧ (val a < val b' ∨ HALF ≤ b'.sec) := by
  intro f
  induction f with
  | zero =>
    intro b i hb hv hf
    refine ⟨b, i, rfl, hb, hv, Or.inl ?_⟩
    simpa using hf
  | succ f ih =>
    intro b i hb hv hf
    rw [shiftLoop]
    by_cases h : b.sec < HALF ∧ ge a b = true
    · rw [if_pos h]
      obtain ⟨d1, d2⟩ := double_spec hb
      apply ih (double b) (i + 1) d1
      · rw [d2, hv, Int.pow_succ]
        rw [Int.mul_comm (2 ^ i) 2, Int.mul_assoc]
      · rw [d2]
        rw [Int.pow_succ, Int.mul_assoc] at hf
        exact hf
    · rw [if_neg h]
      refine ⟨b, i, rfl, hb, hv, ?_⟩
      by_cases h1 : b.sec < HALF
      · left
        have : ¬ ge a b = true := fun x => h ⟨h1, x⟩
        rw [ge_pos ha ha0 hb] at this
        omega
      · right; omega

theorem sub_spec (b0 : Int) : ∀ (i : Nat) (a b : TS), Norm a → 0 ≤ val a → Pos b → val b = 2 ^ i * b0 → val a < 2 * (2 ^ i * b0) →
    Norm (subLoop i a b).1 ∧ 0 ≤ val (subLoop i a b).1 ∧ val (subLoop i a b).1 < b0 ∧ (∃ q, val a = q * b0 + val (subLoop i a b).1) ∧
      val (subLoop i a b).2 = b0 := by
  intro i
  induction i with
  | zero =>
    intro a b ha ha0 hb hv hlt
    rw [subLoop]
    simp only [Int.pow_zero, Int.one_mul] at hv hlt
    have hs := C42_add_sub a b
    have hg := ge_pos ha ha0 hb
    by_cases h : ge a b = true
    · rw [if_pos h]
      have := hg.mp h
      refine ⟨hs.2.2.2, by rw [hs.2.2.1]; omega, by rw [hs.2.2.1]; omega, ⟨1, by rw [hs.2.2.1]; omega⟩, hv⟩
    · rw [if_neg h]
      have := mt hg.mpr h
      exact ⟨ha, ha0, by simp only; omega, ⟨0, by simp⟩, hv⟩
  | succ i ih =>
    intro a b ha ha0 hb hv hlt
    rw [subLoop]
    have e2 : (2 : Int) ^ (i + 1) * b0 = 2 * (2 ^ i * b0) := by rw [Int.pow_succ, Int.mul_comm (2 ^ i) 2, Int.mul_assoc]
    have hs := C42_add_sub a b
    have hg := ge_pos ha ha0 hb
    obtain ⟨p1, p2⟩ := halve_spec hb (hv.trans e2)
    by_cases h : ge a b = true
    · rw [if_pos h]
      have hab := hg.mp h
      obtain ⟨r1, r2, r3, ⟨q, hq⟩, r5⟩ := ih (sub a b) (halve b) hs.2.2.2 (by rw [hs.2.2.1]; omega) p1 p2 (by rw [hs.2.2.1]; omega)
      refine ⟨r1, r2, r3, ⟨q + 2 ^ (i + 1), ?_⟩, r5⟩
      rw [hs.2.2.1] at hq
      rw [Int.add_mul]
      omega
    · rw [if_neg h]
      have hab := mt hg.mpr h
      obtain ⟨r1, r2, r3, hq, r5⟩ := ih a (halve b) ha ha0 p1 p2 (by omega)
      exact ⟨r1, r2, r3, hq, r5⟩

theorem neg_norm {t : TS} (h : Norm t) : Norm (neg t) ∧ val (neg t) = - val t := by
  simp only [Norm, neg, val] at *; omega

theorem isNeg_iff {t : TS} (h : Norm t) : isNeg t = true ↔ val t < 0 := by
  simp only [isNeg, Bool.or_eq_true, decide_eq_true_eq]
  simp only [Norm, val] at *; omega

theorem zero_iff {t : TS} (h : Norm t) : (t.sec = 0 ∧ t.nsec = 0) ↔ val t = 0 := by
  simp only [Norm, val] at *; omega

/-- `r` is the floored remainder of `x` by `y`: it has the sign of `y` and is smaller -/
def Floored (x y r : Int) : Prop := (∃ q, x = q * y + r) ∧ ((0 < y ∧ 0 ≤ r ∧ r < y) ∨ (y < 0 ∧ y < r ∧ r ≤ 0))

/-- magnitude part of `timespec_mod` -/
theorem mag_spec (a b : TS) (ha : Norm a) (ha0 : 0 ≤ val a) (hb : Norm b) (hb0 : 0 < val b) (hbig : val a < 2 * HALF * 1000000000) :
    ∃ r b', (let (b1, i) := shiftLoop (Nat.log2 (a.sec * G + a.nsec).toNat + 2) a b 0; subLoop i a b1) = (r, b') ∧ Norm r ∧ 0 ≤ val r ∧
      val r < val b ∧ (∃ q, val a = q * val b + val r) ∧ val b' = val b := by
  have hf : val a < 2 ^ (Nat.log2 (a.sec * G + a.nsec).toNat + 2) * val b := by
    have h1 : (val a).toNat < 2 ^ (Nat.log2 (val a).toNat + 1) := Nat.lt_log2_self
    have h2 : val a < ((2 ^ (Nat.log2 (val a).toNat + 1) : Nat) : Int) := by omega
    have e : a.sec * G + a.nsec = val a := rfl
    rw [e]
    have h3 : ((2 ^ (Nat.log2 (val a).toNat + 1) : Nat) : Int) = (2 : Int) ^ (Nat.log2 (val a).toNat + 1) := by simp
    rw [h3] at h2
    rw [Int.pow_succ]
    have hp : (0 : Int) < 2 ^ (Nat.log2 (val a).toNat + 1) := by omega
    have : (2 : Int) ^ (Nat.log2 (val a).toNat + 1) * 2 * 1 ≤ 2 ^ (Nat.log2 (val a).toNat + 1) * 2 * val b :=
      Int.mul_le_mul_of_nonneg_left (by omega) (by omega)
    omega
  have hpos : Pos b := by simp only [Norm, Pos, val] at *; omega
  obtain ⟨b1, i, e, p, v, c⟩ := shift_spec a ha ha0 (val b) _ b 0 hpos (by simp) hf
  rw [e]
  have hlt : val a < 2 * (2 ^ i * val b) := by
    rw [← v]
    rcases c with c | c
    · have : 0 ≤ val b1 := by simp only [Pos, val] at *; omega
      omega
    · simp only [Pos, val, HALF] at *; omega
  obtain ⟨r1, r2, r3, r4, r5⟩ := sub_spec (val b) i a b1 ha ha0 p v hlt
  exact ⟨_, _, rfl, r1, r2, r3, r4, r5⟩

/-- **C42** `timespec_mod` returns the floored remainder, normalised, for every dividend below 2^63-2 seconds in magnitude and every
non-zero divisor; for a zero divisor it returns the (normalised) dividend. -/
theorem C42_mod (a b : TS) (hbig : -(2 * HALF * 1000000000) < val a ∧ val a < 2 * HALF * 1000000000) :
    Norm (mod a b) ∧ (val b = 0 → val (mod a b) = val a) ∧ (val b ≠ 0 → Floored (val a) (val b) (val (mod a b))) := by
  obtain ⟨a1, a2⟩ := C42_normalise a
  obtain ⟨b1, b2⟩ := C42_normalise b
  unfold mod
  simp only
  generalize normalise a = A at *
  generalize normalise b = B at *
  rw [← a1, ← b1]
  rw [← a1] at hbig
  by_cases hz : B.sec = 0 ∧ B.nsec = 0
  · rw [if_pos hz]
    have := (zero_iff b2).mp hz
    exact ⟨a2, fun _ => rfl, fun h => absurd this h⟩
  · rw [if_neg hz]
    have hB := mt (zero_iff b2).mpr hz
    have sA : Norm (if isNeg A = true then neg A else A) ∧ val (if isNeg A = true then neg A else A) = (if isNeg A = true then - val A else val A) ∧
        0 ≤ (if isNeg A = true then - val A else val A) := by
      have := isNeg_iff a2
      split
      · next h => have := this.mp h; exact ⟨(neg_norm a2).1, (neg_norm a2).2, by omega⟩
      · next h => have := mt this.mpr h; exact ⟨a2, rfl, by omega⟩
    have sB : Norm (if isNeg B = true then neg B else B) ∧ val (if isNeg B = true then neg B else B) = (if isNeg B = true then - val B else val B) ∧
        0 < (if isNeg B = true then - val B else val B) := by
      have := isNeg_iff b2
      split
      · next h => have := this.mp h; exact ⟨(neg_norm b2).1, (neg_norm b2).2, by omega⟩
      · next h => have := mt this.mpr h; exact ⟨b2, rfl, by omega⟩
    have nA := isNeg_iff a2
    have nB := isNeg_iff b2
    obtain ⟨A1, A2, A3⟩ := sA
    obtain ⟨B1, B2, B3⟩ := sB
    generalize hx : (if isNeg A = true then neg A else A) = X at *
    generalize hy : (if isNeg B = true then neg B else B) = Y at *
    obtain ⟨r, b', e, r1, r2, r3, ⟨q, hq⟩, r5⟩ := mag_spec X Y A1 (by rw [A2]; exact A3) B1 (by rw [B2]; exact B3) (by
      rw [A2]; split <;> omega)
    simp only at e
    rw [e]
    simp only
    have hzr : (r.sec != 0 || r.nsec != 0) = true ↔ val r ≠ 0 := by
      rw [ne_eq, ← not_congr (zero_iff r1)]
      simp only [Bool.or_eq_true, bne_iff_ne, ne_eq]
      constructor
      · intro h1 h2; rcases h1 with h1 | h1
        · exact h1 h2.1
        · exact h1 h2.2
      · intro h
        by_cases h1 : r.sec = 0
        · exact Or.inr (fun h2 => h ⟨h1, h2⟩)
        · exact Or.inl h1
    have hs := C42_add_sub r b'
    refine ⟨?_, fun h => absurd h hB, fun _ => ?_⟩
    · have hn : Norm (if ((isNeg A ^^ isNeg B) && (r.sec != 0 || r.nsec != 0)) = true then sub r b' else r) := by
        split
        · exact hs.2.2.2
        · exact r1
      split
      · exact (neg_norm hn).1
      · exact hn
    · cases hA : isNeg A <;> cases hBn : isNeg B
      all_goals rw [hA] at A2 A3 nA
      all_goals rw [hBn] at B2 B3 nB
      all_goals simp only [Bool.false_eq_true, if_false, if_true] at A2 A3 B2 B3
      all_goals simp only [Bool.xor_self, Bool.false_and, Bool.xor_false, Bool.xor_true, Bool.not_false, Bool.true_and, Bool.false_eq_true, if_false, if_true]
      · refine ⟨⟨q, ?_⟩, Or.inl ?_⟩
        · rw [← A2, ← B2]; exact hq
        · omega
      · by_cases hr : val r = 0
        · rw [if_neg (fun h => (hzr.mp h) hr)]
          refine ⟨⟨-q, ?_⟩, Or.inr ?_⟩
          · rw [Int.neg_mul_comm, ← B2, ← A2]; exact hq
          · omega
        · rw [if_pos (hzr.mpr hr)]
          rw [hs.2.2.1, r5, B2]
          refine ⟨⟨-(q + 1), ?_⟩, Or.inr ?_⟩
          · rw [Int.neg_mul_comm, ← B2, ← A2, Int.add_mul]; omega
          · omega
      · by_cases hr : val r = 0
        · rw [if_neg (fun h => (hzr.mp h) hr), (neg_norm r1).2]
          refine ⟨⟨-q, ?_⟩, Or.inl ?_⟩
          · rw [Int.neg_mul, ← B2]; omega
          · omega
        · rw [if_pos (hzr.mpr hr), (neg_norm hs.2.2.2).2]
          rw [hs.2.2.1, r5, B2]
          refine ⟨⟨-(q + 1), ?_⟩, Or.inl ?_⟩
          · rw [Int.neg_mul, ← B2, Int.add_mul]; omega
          · omega
      · rw [(neg_norm r1).2]
        refine ⟨⟨q, ?_⟩, Or.inr ?_⟩
        · rw [B2, Int.mul_neg] at hq; omega
        · omega

/-- **C42** at the very end of the range the shift loop stops one step early: LONG_MAX seconds modulo 2^62-1 seconds is reported as 2^62 seconds
(the remainder is 1 second). -/
theorem C42_mod_range_counterexample : mod ⟨9223372036854775807, 0⟩ ⟨4611686018427387903, 0⟩ = ⟨4611686018427387904, 0⟩ ∧
    ¬ Floored (val ⟨9223372036854775807, 0⟩) (val ⟨4611686018427387903, 0⟩) (val ⟨4611686018427387904, 0⟩) := by
  constructor
  · decide
  · intro h
    simp only [Floored, val] at h
    omega

/-- **C42** conversions: milliseconds and microseconds to timespec are exact; timespec to milliseconds truncates toward zero (normalised input). -/
theorem C42_convert (ms sec usec : Int) (t : TS) (ht : Norm t) :
    val (fromMs ms) = ms * 1000000 ∧ val (fromTimeval sec usec) = sec * 1000000000 + usec * 1000 ∧ toMs t = (val t).tdiv 1000000 ∧
    toMs (fromMs ms) = ms := by
  have f : val (fromMs ms) = ms * 1000000 := by
    unfold fromMs
    rw [(C42_normalise _).1]
    simp only [val]
    have := Int.mul_tdiv_add_tmod ms 1000
    omega
  have tm : ∀ t : TS, Norm t → toMs t = (val t).tdiv 1000000 := by
    intro t ht
    simp only [toMs, Norm, val] at *
    by_cases h : 0 ≤ t.sec * 1000000000 + t.nsec
    · rw [Int.tdiv_eq_ediv_of_nonneg h, Int.tdiv_eq_ediv_of_nonneg (by omega)]; omega
    · have h1 : t.nsec.tdiv 1000000 = -((-t.nsec) / 1000000) := by
        rw [← Int.neg_neg t.nsec, Int.neg_tdiv, Int.tdiv_eq_ediv_of_nonneg (by omega)]; simp
      have h2 : (t.sec * 1000000000 + t.nsec).tdiv 1000000 = -((-(t.sec * 1000000000 + t.nsec)) / 1000000) := by
        rw [← Int.neg_neg (t.sec * 1000000000 + t.nsec), Int.neg_tdiv, Int.tdiv_eq_ediv_of_nonneg (by omega)]; simp
      rw [h1, h2]; omega
  refine ⟨f, ?_, tm t ht, ?_⟩
  · unfold fromTimeval; rw [(C42_normalise _).1]; rfl
  · have hn : Norm (fromMs ms) := (C42_normalise _).2
    rw [tm _ hn, f]
    exact Int.mul_tdiv_cancel _ (by omega)

/-- mixed signs and an unnormalised dividend meet the hypotheses -/
example : -(2 * HALF * 1000000000) < val ⟨-10, 1500000000⟩ ∧ val ⟨-10, 1500000000⟩ < 2 * HALF * 1000000000 ∧
    mod ⟨-10, 1500000000⟩ ⟨3, 0⟩ = ⟨0, 500000000⟩ := by decide

end Corundum.Timespec
