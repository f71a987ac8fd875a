import Verif.Spec.DmaLimit
import Verif.Props.StatsCounter
import Verif.Proof.StatsCollect

/-!
C77: the number of TLPs in flight is limited to `TX_LIMIT`.  True for DMA reads.  For DMA writes it is exceeded by one, and when `TX_LIMIT` is one less than a power of two there is no limit.
-/
namespace Corundum.DmaLimit

theorem count_eq (w cnt : Nat) (inc : Bool) (acks : Nat) (h : cnt + inc.toNat < 2 ^ w) (ha : acks ≤ cnt) : count w cnt inc acks = cnt + inc.toNat - acks := by
  have h1 : 2 ^ (w + 1) = 2 * 2 ^ w := by rw [Nat.pow_succ]; omega
  have h2 : 2 ^ (w + 2) = 4 * 2 ^ w := by rw [Nat.pow_succ, h1]; omega
  have e1 : acks % 2 ^ (w + 2) = acks := Nat.mod_eq_of_lt (by omega)
  have e2 : (cnt + inc.toNat + 2 ^ (w + 2) - acks) % 2 ^ (w + 2) = cnt + inc.toNat - acks := by
    rw [show cnt + inc.toNat + 2 ^ (w + 2) - acks = cnt + inc.toNat - acks + 2 ^ (w + 2) by omega, Nat.add_mod_right, Nat.mod_eq_of_lt (by omega)]
  unfold count
  rw [e1]
  dsimp only
  rw [e2, if_neg (by omega), if_neg (by omega)]

theorem count_sat (w cnt : Nat) (h : cnt + 1 = 2 ^ w) : count w cnt true 0 = cnt := by
  have h1 : 2 ^ (w + 1) = 2 * 2 ^ w := by rw [Nat.pow_succ]; omega
  have h2 : 2 ^ (w + 2) = 4 * 2 ^ w := by rw [Nat.pow_succ, h1]; omega
  have h3 := Nat.two_pow_pos w
  unfold count
  dsimp only
  rw [Nat.zero_mod, Nat.sub_zero, Bool.toNat_true, h, show 2 ^ w + 2 ^ (w + 2) = 2 ^ w + 2 ^ (w + 2) from rfl, Nat.add_mod_right, Nat.mod_eq_of_lt (by omega), if_neg (by omega), if_pos (by omega)]
  omega

theorem lim_lt (lim : Nat) : lim < 2 ^ width lim := StatsCollect.le_clog2 (lim + 1)

/-- DMA reads: never more than `TX_LIMIT` in flight, and fewer never block -/
theorem C77_read_limit (lim : Nat) (hl : 0 < lim) (s : St) (h : Reach (rd lim) s) : s.out ≤ lim ∧ (s.out < lim → s.av = true) := by
  have hw := lim_lt lim
  have key : s.cnt = s.out ∧ s.av = decide (s.cnt < lim) ∧ s.out ≤ lim := by
    induction h with
    | init => exact ⟨rfl, by simp [hl], Nat.zero_le _⟩
    | @step s i _ ha ih =>
      obtain ⟨h1, h2, h3⟩ := ih
      have hi : s.cnt + (i.want && s.av).toNat ≤ lim := by
        rw [h2]
        cases i.want
        · simp; omega
        · by_cases hc : s.cnt < lim
          · simp [hc]; omega
          · simp [hc]; omega
      have e1 := count_eq (width lim) s.cnt (i.want && s.av) i.acks (by omega) (by omega)
      refine ⟨?_, rfl, ?_⟩
      · show count (width lim) s.cnt (i.want && s.av) i.acks = s.out + (i.want && s.av).toNat - i.acks
        rw [e1, h1]
      · show s.out + (i.want && s.av).toNat - i.acks ≤ lim
        omega
  refine ⟨key.2.2, fun h => ?_⟩
  rw [key.2.1, key.1]; simp [h]

/-- DMA writes, when `TX_LIMIT + 1` fits the counter: never more than `TX_LIMIT + 1` in flight, and fewer than `TX_LIMIT` never block -/
theorem C77_write_limit_plus_one (lim : Nat) (hl : 0 < lim) (hf : lim + 1 < 2 ^ width lim) (s : St) (h : Reach (wr lim) s) : s.out ≤ lim + 1 ∧ (s.out < lim → s.av = true) := by
  have key : s.cnt = s.out ∧ s.av = decide (s.cnt < lim) ∧ (s.busy = some false → s.out ≤ lim) ∧ s.out ≤ lim + 1 := by
    induction h with
    | init => exact ⟨rfl, by simp [hl], by simp, Nat.zero_le _⟩
    | @step s i _ ha ih =>
      obtain ⟨h1, h2, h3, h4⟩ := ih
      have hinc : s.cnt + (match s.busy with | some frame => i.go && !frame | none => false).toNat ≤ lim + 1 := by
        cases hb : s.busy with
        | none => dsimp only; rw [Bool.toNat_false]; omega
        | some f =>
          cases f with
          | true => dsimp only; simp; omega
          | false =>
            have := h3 hb
            have := Bool.toNat_le (i.go && !false)
            dsimp only
            omega
      have e1 := count_eq (width lim) s.cnt (match s.busy with | some frame => i.go && !frame | none => false) i.acks (by omega) (by omega)
      refine ⟨?_, rfl, ?_, ?_⟩
      · rw [h1] at e1
        unfold wr
        dsimp only
        rw [h1]
        exact e1
      · intro hb
        show s.out + (match s.busy with | some frame => i.go && !frame | none => false).toNat - i.acks ≤ lim
        unfold wr at hb
        dsimp only at hb
        cases hbs : s.busy with
        | none =>
          rw [hbs] at hb
          dsimp only at hb ⊢
          rw [Bool.toNat_false]
          cases hav : s.av with
          | false => rw [hav] at hb; simp at hb
          | true =>
            rw [hav] at h2
            have := of_decide_eq_true h2.symm
            omega
        | some f =>
          rw [hbs] at hb
          dsimp only at hb ⊢
          cases hgl : (i.go && i.last) with
          | true =>
            rw [hgl] at hb
            cases hav : s.av with
            | false => rw [hav] at hb; simp at hb
            | true =>
              rw [hav] at h2
              have := of_decide_eq_true h2.symm
              have := Bool.toNat_le (i.go && !f)
              omega
          | false =>
            rw [hgl] at hb
            simp only [Bool.false_eq_true, if_false, Option.some.injEq] at hb
            have hf : f = false := by cases f <;> simp_all
            have hg : i.go = false := by cases hg : i.go <;> simp_all
            subst hf
            have := h3 hbs
            rw [hg]; simp; omega
      · show s.out + (match s.busy with | some frame => i.go && !frame | none => false).toNat - i.acks ≤ lim + 1
        omega
  refine ⟨key.2.2.2, fun h => ?_⟩
  rw [key.2.1, key.1]; simp [h]

/-- a cycle with a TLP of one beat that ends, and the next one waiting -/
def full : In := ⟨true, true, true, 0⟩

theorem wr_full (lim n : Nat) (hn : n < lim) (k : Nat) : wr lim ⟨n, true, some false, k⟩ full = ⟨n + 1, decide (n + 1 < lim), some false, k + 1⟩ := by
  have hw := lim_lt lim
  have := count_eq (width lim) n true 0 (by simp; omega) (Nat.zero_le _)
  simp only [wr, full, Bool.not_false, Bool.and_self, if_true, this, Bool.toNat_true, Nat.sub_zero]

/-- as many TLPs of one beat as the limit minus one, one per cycle -/
theorem reach_full (lim : Nat) (hl : 0 < lim) : ∀ n, n < lim → Reach (wr lim) ⟨n, true, some false, n⟩
  | 0, _ => by
    have h : wr lim {} ⟨true, false, false, 0⟩ = ⟨0, true, some false, 0⟩ := by
      have hw := lim_lt lim
      have := count_eq (width lim) 0 false 0 (by simp; omega) (Nat.le_refl _)
      simp only [wr, Bool.and_self, if_true, this, Bool.toNat_false, Nat.sub_zero, Nat.add_zero, hl, decide_true]
    rw [← h]
    exact .step .init (Nat.zero_le _)
  | n + 1, hn => by
    have h := wr_full lim n (by omega) n
    rw [decide_eq_true hn] at h
    rw [← h]
    exact .step (reach_full lim hl n (by omega)) (Nat.zero_le _)

/-- DMA writes can have `TX_LIMIT + 1` TLPs in flight, for every limit -/
theorem C77_write_exceeds_limit (lim : Nat) (hl : 0 < lim) : ∃ s, Reach (wr lim) s ∧ s.out = lim + 1 := by
  have h1 := reach_full lim hl (lim - 1) (by omega)
  have h2 := wr_full lim (lim - 1) (by omega) (lim - 1)
  refine ⟨wr lim (wr lim ⟨lim - 1, true, some false, lim - 1⟩ full) full, .step (.step h1 (Nat.zero_le _)) (Nat.zero_le _), ?_⟩
  rw [h2]
  show lim - 1 + 1 + 1 - 0 = lim + 1
  omega

/-- when the limit is one less than a power of two, it does not limit anything: the counter loses a TLP each time it is full -/
theorem C77_write_limit_lost (w : Nat) (hw : 0 < w) (n : Nat) : ∃ s, Reach (wr (2 ^ w - 1)) s ∧ n ≤ s.out := by
  have h1 : 2 ≤ 2 ^ w := by
    have := Nat.pow_le_pow_right (show 0 < 2 by omega) (show 1 ≤ w by omega)
    omega
  have hwid : width (2 ^ w - 1) = w := by
    unfold width
    rw [show 2 ^ w - 1 + 1 = 2 ^ w by omega]
    have a := lim_lt (2 ^ w - 1)
    unfold width at a
    rw [show 2 ^ w - 1 + 1 = 2 ^ w by omega] at a
    have b := StatsCounter.clog2_le (Nat.le_refl (2 ^ w))
    have c : 2 ^ w ≤ 2 ^ RxHash.clog2 (2 ^ w) := by omega
    have d := (Nat.pow_le_pow_iff_right (show 1 < 2 by omega)).1 c
    omega
  have round : ∀ k, ∃ m, k ≤ m ∧ Reach (wr (2 ^ w - 1)) ⟨2 ^ w - 2, true, some false, m⟩ := by
    intro k
    induction k with
    | zero => exact ⟨_, Nat.zero_le _, reach_full (2 ^ w - 1) (by omega) (2 ^ w - 2) (by omega)⟩
    | succ k ih =>
      obtain ⟨m, hm, hr⟩ := ih
      refine ⟨m + 1, by omega, ?_⟩
      -- the next TLP is begun too early
      have s1 := wr_full (2 ^ w - 1) (2 ^ w - 2) (by omega) m
      rw [show 2 ^ w - 2 + 1 = 2 ^ w - 1 by omega, show decide (2 ^ w - 1 < 2 ^ w - 1) = false by simp] at s1
      have r1 : Reach (wr (2 ^ w - 1)) ⟨2 ^ w - 1, false, some false, m + 1⟩ := by rw [← s1]; exact .step hr (Nat.zero_le _)
      -- its count is lost
      have s2 : wr (2 ^ w - 1) ⟨2 ^ w - 1, false, some false, m + 1⟩ full = ⟨2 ^ w - 1, false, none, m + 2⟩ := by
        have := count_sat w (2 ^ w - 1) (by omega)
        simp only [wr, full, Bool.not_false, Bool.and_self, if_true, hwid, this, Bool.toNat_true, Nat.sub_zero, Bool.and_false, Bool.false_eq_true, if_false, Nat.lt_irrefl, decide_false]
      have r2 : Reach (wr (2 ^ w - 1)) ⟨2 ^ w - 1, false, none, m + 2⟩ := by rw [← s2]; exact .step r1 (Nat.zero_le _)
      -- a sequence number comes back
      have s3 : wr (2 ^ w - 1) ⟨2 ^ w - 1, false, none, m + 2⟩ ⟨false, false, false, 1⟩ = ⟨2 ^ w - 2, true, none, m + 1⟩ := by
        have := count_eq w (2 ^ w - 1) false 1 (by rw [Bool.toNat_false]; omega) (by omega)
        simp only [wr, hwid, this, Bool.toNat_false, Nat.add_zero, if_true, Bool.and_false, Bool.false_eq_true, if_false]
        rw [show 2 ^ w - 1 - 1 = 2 ^ w - 2 by omega, show decide (2 ^ w - 2 < 2 ^ w - 1) = true by simp; omega]
        rfl
      have r3 : Reach (wr (2 ^ w - 1)) ⟨2 ^ w - 2, true, none, m + 1⟩ := by rw [← s3]; exact .step r2 (by dsimp only; omega)
      -- the next one begins
      have s4 : wr (2 ^ w - 1) ⟨2 ^ w - 2, true, none, m + 1⟩ ⟨true, false, false, 0⟩ = ⟨2 ^ w - 2, true, some false, m + 1⟩ := by
        have := count_eq w (2 ^ w - 2) false 0 (by simp; omega) (Nat.zero_le _)
        simp only [wr, hwid, this, Bool.toNat_false, Nat.add_zero, Nat.sub_zero, if_true, Bool.and_self]
        rw [show decide (2 ^ w - 2 < 2 ^ w - 1) = true by simp; omega]
      rw [← s4]; exact .step r3 (Nat.zero_le _)
  obtain ⟨m, hm, hr⟩ := round n
  exact ⟨_, hr, hm⟩

/-- the hypothesis of the bound holds for the default of 64 -/
example : 64 + 1 < 2 ^ width 64 := by decide

/-- two TLPs in flight with a limit of one -/
example : [(⟨true, false, false, 0⟩ : In), full, full].foldl (wr 1) {} = ⟨1, false, none, 2⟩ := by decide

end Corundum.DmaLimit
