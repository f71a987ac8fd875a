import Verif.Model.DmaSource
import Verif.Proof.DmaSink
/-! Lemmas for C145. -/
namespace Corundum.DmaSource
open DmaSink

theorem ones_shl_bit (s t n : Nat) : ((2 ^ s - 1) <<< t).testBit n = decide (t ≤ n ∧ n < t + s) := by
  rw [Nat.testBit_shiftLeft, ones_bit, Bool.eq_iff_iff]
  simp only [Bool.and_eq_true, decide_eq_true_eq]
  omega

theorem part_mul (c : Cfg) (hc : c.Ok) (a : Nat) (ha : c.k ∣ a) :
    (if c.po > 0 then part c a * c.k else 0) = a % c.w := by
  obtain ⟨q, rfl⟩ := ha
  rw [w_eq, Nat.mul_mod_mul_left]
  by_cases hp : c.po > 0
  · rw [if_pos hp]
    have hko : 0 < c.ko := by have := hc.parts; omega
    have h1 : c.partOffsetWidth = c.ko := by
      unfold Cfg.partOffsetWidth
      rw [if_pos (show c.k > 1 from Nat.one_lt_two_pow (show c.ko ≠ 0 by omega))]
    unfold part
    rw [h1, Nat.shiftRight_eq_div_pow, show c.k * q / 2 ^ c.ko = q from Nat.mul_div_cancel_left _ (k_pos c), Nat.mul_comm]
  · rw [if_neg hp, show c.po = 0 by omega, Nat.pow_zero, Nat.mod_one, Nat.mul_zero]

theorem mask_wide (S e K p j : Nat) (hS : 0 < S) (he : 0 < e) (hK : K = S * e) (hj : j < K) :
    p / ((S + K - 1) / K) * ((K + S - 1) / S) ≤ (p * K + j) / S ∧
      (p * K + j) / S < p / ((S + K - 1) / K) * ((K + S - 1) / S) + (K + S - 1) / S := by
  have hk : 0 < K := by omega
  have e1 : (S + K - 1) / K = 1 := by
    have : S ≤ K := by rw [hK]; exact Nat.le_mul_of_pos_right _ he
    rw [show S + K - 1 = (S - 1) + K by omega, Nat.add_div_right _ hk, Nat.div_eq_of_lt (by omega)]
  have e2 : (K + S - 1) / S = e := by
    rw [show K + S - 1 = S - 1 + K by omega, hK, Nat.add_mul_div_left _ _ hS, Nat.div_eq_of_lt (by omega), Nat.zero_add]
  have e3 : (p * K + j) / S = p * e + j / S := by
    rw [hK, show p * (S * e) + j = j + S * (p * e) by rw [Nat.mul_left_comm, Nat.add_comm], Nat.add_mul_div_left _ _ hS,
      Nat.add_comm]
  have e4 : j / S < e := Nat.div_lt_of_lt_mul (by rw [← hK]; exact hj)
  rw [e1, e2, e3, Nat.div_one]
  exact ⟨Nat.le_add_right _ _, Nat.add_lt_add_left e4 _⟩

theorem mask_narrow (S f K p j : Nat) (hf : 0 < f) (hk : 0 < K) (hS : S = K * f) (hj : j < K) :
    p / ((S + K - 1) / K) * ((K + S - 1) / S) ≤ (p * K + j) / S ∧
      (p * K + j) / S < p / ((S + K - 1) / K) * ((K + S - 1) / S) + (K + S - 1) / S := by
  have hS0 : 0 < S := by rw [hS]; exact Nat.mul_pos hk hf
  have hle : K ≤ S := by rw [hS]; exact Nat.le_mul_of_pos_right _ hf
  have e1 : (K + S - 1) / S = 1 := by
    rw [show K + S - 1 = (K - 1) + S by omega, Nat.add_div_right _ hS0, Nat.div_eq_of_lt (by omega)]
  have e2 : (S + K - 1) / K = f := by
    rw [show S + K - 1 = K - 1 + S by omega, hS, Nat.add_mul_div_left _ _ hk, Nat.div_eq_of_lt (by omega), Nat.zero_add]
  have e3 : (p * K + j) / S = p / f := by
    rw [hS, ← Nat.div_div_eq_div_mul, Nat.add_comm, Nat.add_mul_div_right _ _ hk, Nat.div_eq_of_lt hj, Nat.zero_add]
  rw [e1, e2, e3, Nat.mul_one]
  exact ⟨Nat.le_refl _, Nat.lt_succ_self _⟩

/-- the segments of the bytes of a transfer are in its mask -/
theorem in_mask (c : Cfg) (hc : c.Ok) (a j : Nat) (ha : c.k ∣ a) (hj : j < c.k) :
    segMask c a ((a % c.w + j) / 2 ^ c.so) = true := by
  have hpm := part_mul c hc a ha
  have hk := k_pos c
  have hS := Nat.two_pow_pos c.so
  unfold segMask
  by_cases hp : c.po > 0
  · rw [if_pos hp] at hpm ⊢
    rw [← hpm, ones_shl_bit, decide_eq_true_eq]
    unfold segsPerPart partsPerSeg
    by_cases h : c.so ≤ c.ko
    · refine mask_wide (2 ^ c.so) (2 ^ (c.ko - c.so)) c.k _ j hS (Nat.two_pow_pos _) ?_ hj
      unfold Cfg.k
      rw [← Nat.pow_add]
      congr 1
      omega
    · refine mask_narrow (2 ^ c.so) (2 ^ (c.so - c.ko)) c.k _ j (Nat.two_pow_pos _) hk ?_ hj
      unfold Cfg.k
      rw [← Nat.pow_add]
      congr 1
      omega
  · rw [if_neg hp] at hpm ⊢
    rw [← hpm, decide_eq_true_eq, Nat.zero_add]
    apply Nat.div_lt_of_lt_mul
    rw [Nat.mul_comm, segs_mul c hc, w_eq, show c.po = 0 by omega]
    simpa using hj

theorem take_eq (c : Cfg) (hc : c.Ok) (m junk : Nat → Nat) (a : Nat) (ha : c.k ∣ a) (q q' : Queues)
    (h : ∀ n, q n = if segMask c a n then a / c.w :: q' n else q' n) :
    take c m junk q a = some (q', (List.range c.k).map fun j => m (a + j)) := by
  unfold take
  rw [if_pos]
  · simp only [Option.some.injEq, Prod.mk.injEq]
    refine ⟨?_, ?_⟩
    · funext n
      rw [h n]
      by_cases hm : segMask c a n = true
      · simp [hm]
      · simp [hm]
    · apply List.map_congr_left
      intro j hj
      have hj' : j < c.k := List.mem_range.1 hj
      rw [part_mul c hc a ha, h, if_pos (in_mask c hc a j ha hj'), if_pos (in_mask c hc a j ha hj')]
      congr 1
      rw [List.headD_cons, Nat.add_mul, Nat.mul_assoc, segs_mul c hc]
      have h1 := Nat.div_add_mod' (a % c.w + j) (2 ^ c.so)
      have h2 := Nat.div_add_mod' a c.w
      generalize (a % c.w + j) / 2 ^ c.so * 2 ^ c.so = x at *
      generalize (a % c.w + j) % 2 ^ c.so = y at *
      generalize a / c.w * c.w = z at *
      omega
  · rw [List.all_eq_true]
    intro n _
    rw [h n]
    by_cases hm : segMask c a n = true
    · simp [hm]
    · simp [hm]

/-- the addresses read from a segment in `r` cycles -/
def pend (c : Cfg) : Nat → Nat → Nat → List Nat
  | 0, _, _ => []
  | r + 1, a, n =>
    if segMask c a n then a / c.w :: pend c r ((a + c.k) % 2 ^ c.aw) n else pend c r ((a + c.k) % 2 ^ c.aw) n

theorem issueLoop_eq (c : Cfg) : ∀ (r a : Nat) (q : Queues) (n : Nat), issueLoop c r a q n = q n ++ pend c r a n
  | 0, _, _, _ => by simp [issueLoop, pend]
  | r + 1, a, q, n => by
    rw [issueLoop, issueLoop_eq c r, pend]
    unfold issue
    by_cases h : segMask c a n = true
    · rw [if_pos h, if_pos h, List.append_assoc, Nat.shiftRight_eq_div_pow]
      rfl
    · rw [if_neg h, if_neg h]

theorem issueDescs_eq (c : Cfg) : ∀ (ds : List Desc) (q : Queues) (n : Nat),
    ds.foldl (issueDesc c) q n =
      q n ++ ds.flatMap fun d => pend c (count c d.len + 1) (d.addr / c.k * c.k % 2 ^ c.aw) n
  | [], _, _ => by simp
  | d :: ds, q, n => by
    rw [List.foldl_cons, issueDescs_eq c ds, issueDesc, issueLoop_eq, List.flatMap_cons, List.append_assoc]

theorem count_eq (c : Cfg) (hc : c.Ok) (r : Nat) (h0 : 0 < r) (h : r < 2 ^ c.lw) : count c r = (r - 1) / c.k := by
  unfold count
  rw [if_neg (by omega), Nat.shiftRight_eq_div_pow]
  exact Nat.mod_eq_of_lt (count_lt c hc r h)

end Corundum.DmaSource
