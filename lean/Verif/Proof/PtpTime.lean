import Verif.Model.Ptp

/-! PTP counters: exact accounting of time. -/

namespace Corundum.Ptp

theorem and32 (x : Nat) : x &&& 0xffffffff = x % 2 ^ 32 := Nat.and_two_pow_sub_one_eq_mod x 32
theorem and48 (x : Nat) : x &&& 0xffffffffffff = x % 2 ^ 48 := Nat.and_two_pow_sub_one_eq_mod x 48
theorem and16' (x : Nat) : x &&& 0xffff = x % 2 ^ 16 := Nat.and_two_pow_sub_one_eq_mod x 16

/-- Time of day in units of 2^-32 ns. -/
def tot (k : Clk) : Nat := (k.s * 1000000000 + k.ns) * 2 ^ 32 + k.fns

/-- Relative time in the same units. -/
def relTot (k : Clk) : Nat := k.rel * 2 ^ 32 + k.fns

theorem tick_tot (k : Clk) : tot (tick k) = tot k + (k.pns * 2 ^ 32 + k.pfns) + (drift k).2 := by
  unfold tot tick
  simp only [and32, Nat.shiftRight_eq_div_pow, Nat.shiftLeft_eq]
  generalize hT : k.fns + (k.pns * 2 ^ 32 + k.pfns) + (drift k).2 = T
  have := Nat.div_add_mod T (2 ^ 32)
  split <;> omega

theorem tick_rel (k : Clk) : relTot (tick k) = (relTot k + (k.pns * 2 ^ 32 + k.pfns) + (drift k).2) % 2 ^ 80 := by
  unfold relTot tick
  simp only [and32, and48, Nat.shiftRight_eq_div_pow, Nat.shiftLeft_eq]
  generalize hT : k.fns + (k.pns * 2 ^ 32 + k.pfns) + (drift k).2 = T
  have := Nat.div_add_mod T (2 ^ 32)
  omega

theorem tick_ns (k : Clk) (h : k.ns < 1000000000)
    (hi : k.fns + (k.pns * 2 ^ 32 + k.pfns) + (drift k).2 < 1000000001 * 2 ^ 32) : (tick k).ns < 1000000000 := by
  unfold tick
  simp only [Nat.shiftRight_eq_div_pow, Nat.shiftLeft_eq]
  generalize k.fns + (k.pns * 2 ^ 32 + k.pfns) + (drift k).2 = T at *
  split <;> omega

theorem tick_fns (k : Clk) : (tick k).fns < 2 ^ 32 ∧ (tick k).rel < 2 ^ 48 := by
  unfold tick
  simp only [and32, and48]
  exact ⟨Nat.mod_lt _ (by decide), Nat.mod_lt _ (by decide)⟩

theorem tick_keep (k : Clk) : (tick k).pns = k.pns ∧ (tick k).pfns = k.pfns ∧ (tick k).num = k.num ∧
    (tick k).denom = k.denom := ⟨rfl, rfl, rfl, rfl⟩

theorem tick_cnt (k : Clk) : (tick k).cnt = (drift k).1 := rfl

/-- How often the drift is added in `n` clocks when the counter stands at `c`. -/
def applied (denom c n : Nat) : Nat :=
  if denom = 0 then 0 else if n ≤ c then 0 else (n - c - 1) / denom + 1

theorem applied_succ (k : Clk) (n : Nat) :
    k.num * applied k.denom k.cnt (n + 1) = (drift k).2 + k.num * applied k.denom (drift k).1 n := by
  unfold drift
  by_cases hd : k.denom = 0
  · unfold applied; simp [hd]
  · rw [if_pos hd]
    by_cases hc : k.cnt > 0
    · rw [if_pos hc]
      have : applied k.denom k.cnt (n + 1) = applied k.denom (k.cnt - 1) n := by
        unfold applied
        rw [if_neg hd, if_neg hd]
        by_cases h : n + 1 ≤ k.cnt
        · rw [if_pos h, if_pos (by omega)]
        · rw [if_neg h, if_neg (by omega)]
          congr 2; omega
      rw [this]; simp
    · rw [if_neg hc]
      have : applied k.denom k.cnt (n + 1) = 1 + applied k.denom (k.denom - 1) n := by
        unfold applied
        rw [if_neg hd, if_neg hd, if_neg (by omega)]
        by_cases h : n ≤ k.denom - 1
        · rw [if_pos h]
          have : n + 1 - k.cnt - 1 < k.denom := by omega
          rw [Nat.div_eq_of_lt this]
        · rw [if_neg h]
          have : n + 1 - k.cnt - 1 = (n - (k.denom - 1) - 1) + k.denom := by omega
          rw [this, Nat.add_div_right _ (by omega)]
          omega
      rw [this, Nat.mul_add, Nat.mul_one]

/-- `n` clocks. -/
def ticks : Nat → Clk → Clk
  | 0, k => k
  | n + 1, k => ticks n (tick k)

theorem ticks_keep : ∀ (n : Nat) (k : Clk), (ticks n k).pns = k.pns ∧ (ticks n k).pfns = k.pfns ∧
    (ticks n k).num = k.num ∧ (ticks n k).denom = k.denom
  | 0, _ => ⟨rfl, rfl, rfl, rfl⟩
  | n + 1, k => ticks_keep n (tick k)

theorem ticks_tot : ∀ (n : Nat) (k : Clk),
    tot (ticks n k) = tot k + n * (k.pns * 2 ^ 32 + k.pfns) + k.num * applied k.denom k.cnt n
  | 0, k => by
    have : applied k.denom k.cnt 0 = 0 := by unfold applied; simp
    rw [this]; simp [ticks]
  | n + 1, k => by
    have ih := ticks_tot n (tick k)
    obtain ⟨e1, e2, e3, e4⟩ := tick_keep k
    rw [e1, e2, e3, e4, tick_cnt, tick_tot] at ih
    rw [ticks, ih, applied_succ, Nat.succ_mul]
    omega

theorem ticks_rel (n : Nat) : ∀ (k : Clk), relTot k < 2 ^ 80 →
    relTot (ticks n k) = (relTot k + n * (k.pns * 2 ^ 32 + k.pfns) + k.num * applied k.denom k.cnt n) % 2 ^ 80 := by
  have hp : 0 < 2 ^ 80 := Nat.two_pow_pos 80
  induction n with
  | zero =>
    intro k h
    have : applied k.denom k.cnt 0 = 0 := by unfold applied; simp
    rw [this]; simp only [ticks, Nat.zero_mul, Nat.mul_zero, Nat.add_zero]
    rw [Nat.mod_eq_of_lt h]
  | succ n ih =>
    intro k h
    have ih := ih (tick k) (by rw [tick_rel]; exact Nat.mod_lt _ hp)
    obtain ⟨e1, e2, e3, e4⟩ := tick_keep k
    rw [e1, e2, e3, e4, tick_cnt, tick_rel] at ih
    rw [ticks, ih, applied_succ, Nat.succ_mul, Nat.add_assoc, Nat.mod_add_mod]
    refine congrArg (· % 2 ^ 80) ?_
    omega

theorem drift_le (k : Clk) : (drift k).2 ≤ k.num := by
  unfold drift
  split
  · split <;> simp
  · simp

theorem drift_cnt_lt (k : Clk) (M : Nat) (h : k.cnt < M) (hd : k.denom ≤ M) : (drift k).1 < M := by
  unfold drift
  split
  · split <;> simp <;> omega
  · simpa

/-! ### Offsets -/

theorem offset_spec (k : Clk) : (k.rel + offsetNs k) % 2 ^ 32 = k.ns % 2 ^ 32 := by
  unfold offsetNs
  omega

theorem altOffset_spec (k : Clk) : ((k.rel : Int) + altOffsetNs k - ((k.ns : Int) + (k.s - altS k) * 1000000000)) % 2 ^ 32 = 0 := by
  unfold altOffsetNs altS
  have := offset_spec k
  split <;> omega

end Corundum.Ptp
