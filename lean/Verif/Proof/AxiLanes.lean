import Verif.Model.Axi
import Verif.Spec.Mem

/-! Lanes of a data word, and the effect of one beat on the memory. -/

namespace Corundum.Axi

open Corundum.Spec

theorem putLanes_byte : ∀ (ds : List Nat) (acc j i : Nat), acc < 2 ^ (8 * j) → (∀ d ∈ ds, d < 256) →
    (putLanes acc j ds >>> (8 * i)) % 256 =
      if h : j ≤ i ∧ i < j + ds.length then ds[i - j] else (acc >>> (8 * i)) % 256
  | [], acc, j, i, _, _ => by
    rw [putLanes, dif_neg (by simp)]
  | d :: ds, acc, j, i, ha, hd => by
    have h256 : d < 256 := hd d (by simp)
    have e8 : 2 ^ (8 * (j + 1)) = 2 ^ (8 * j) * 256 := by rw [Nat.mul_add, Nat.pow_add]
    have hsh : d <<< (j * 8) = 2 ^ (8 * j) * d := by
      rw [Nat.shiftLeft_eq, Nat.mul_comm j 8, Nat.mul_comm]
    have hor : acc ||| d <<< (j * 8) = 2 ^ (8 * j) * d + acc := by
      rw [hsh, Nat.two_pow_add_eq_or_of_lt ha, Nat.or_comm]
    have hlt : acc ||| d <<< (j * 8) < 2 ^ (8 * (j + 1)) := by
      rw [hor, e8]
      have : 2 ^ (8 * j) * d + 2 ^ (8 * j) ≤ 2 ^ (8 * j) * 256 := by
        rw [← Nat.mul_succ]; exact Nat.mul_le_mul_left _ h256
      omega
    rw [putLanes, putLanes_byte ds _ (j + 1) i hlt (fun x hx => hd x (by simp [hx]))]
    by_cases h1 : j + 1 ≤ i ∧ i < j + 1 + ds.length
    · rw [dif_pos h1, dif_pos (by simp only [List.length_cons]; omega)]
      obtain ⟨k, rfl⟩ : ∃ k, i = j + 1 + k := ⟨i - (j + 1), by omega⟩
      simp only [show j + 1 + k - (j + 1) = k by omega, show j + 1 + k - j = k + 1 by omega]
      rfl
    · rw [dif_neg h1]
      by_cases h2 : i = j
      · subst h2
        rw [dif_pos (by simp only [List.length_cons]; omega)]
        simp only [Nat.sub_self, List.getElem_cons_zero]
        rw [hor, Nat.shiftRight_eq_div_pow, Nat.add_comm, Nat.add_mul_div_left _ _ (Nat.two_pow_pos _),
          Nat.div_eq_of_lt ha, Nat.zero_add, Nat.mod_eq_of_lt h256]
      · rw [dif_neg (by simp only [List.length_cons]; omega)]
        rw [show (256 : Nat) = 2 ^ 8 from rfl]
        apply Nat.eq_of_testBit_eq
        intro b
        rw [Nat.testBit_mod_two_pow, Nat.testBit_mod_two_pow, Nat.testBit_shiftRight,
          Nat.testBit_shiftRight, Nat.testBit_or]
        by_cases hb : b < 8
        · simp only [hb, decide_true, Bool.true_and]
          rw [Nat.testBit_shiftLeft]
          rcases Nat.lt_or_ge i j with h3 | h3
          · simp [show ¬ (j * 8 ≤ 8 * i + b) by omega]
          · have : d.testBit (8 * i + b - j * 8) = false := by
              apply Nat.testBit_lt_two_pow
              exact Nat.lt_of_lt_of_le h256 (by
                rw [show (256 : Nat) = 2 ^ 8 from rfl]
                exact Nat.pow_le_pow_right (by omega) (by omega))
            simp [this]
        · simp [hb]

theorem strobe_bit (bw start stop i : Nat) (hs : stop ≤ bw) :
    (strobe bw start stop).testBit i = decide (start ≤ i ∧ i < stop) := by
  unfold strobe
  rw [Nat.testBit_and, Nat.testBit_and, Nat.testBit_shiftLeft, Nat.testBit_two_pow_sub_one,
    Nat.testBit_two_pow_sub_one, Nat.testBit_shiftRight, Nat.testBit_two_pow_sub_one]
  rw [Bool.eq_iff_iff]
  simp only [Bool.and_eq_true, decide_eq_true_eq]
  omega

theorem fold_bytes (p : Nat) (s : Nat → Bool) (v : Nat → Nat) : ∀ (n : Nat) (m : Mem) (x : Nat),
    (List.range n).foldl (fun m i => if s i then upd m (p + i) (v i) else m) m x =
      if p ≤ x ∧ x < p + n ∧ s (x - p) = true then v (x - p) else m x
  | 0, m, x => by simp; omega
  | n + 1, m, x => by
    rw [List.range_succ, List.foldl_append]
    simp only [List.foldl_cons, List.foldl_nil]
    by_cases hs : s n = true
    · rw [if_pos hs, upd, fold_bytes p s v n m x]
      by_cases hx : x = p + n
      · subst hx
        rw [if_pos rfl, if_pos ⟨by omega, by omega, by rw [show p + n - p = n by omega]; exact hs⟩,
          show p + n - p = n by omega]
      · rw [if_neg hx]
        by_cases h : p ≤ x ∧ x < p + n ∧ s (x - p) = true
        · rw [if_pos h, if_pos ⟨h.1, by omega, h.2.2⟩]
        · rw [if_neg h, if_neg (by rintro ⟨a, b, c⟩; exact h ⟨a, by omega, c⟩)]
    · rw [if_neg hs, fold_bytes p s v n m x]
      by_cases h : p ≤ x ∧ x < p + n ∧ s (x - p) = true
      · rw [if_pos h, if_pos ⟨h.1, by omega, h.2.2⟩]
      · rw [if_neg h, if_neg]
        rintro ⟨a, b, c⟩
        refine h ⟨a, ?_, c⟩
        rcases Nat.lt_or_ge x (p + n) with h' | h'
        · exact h'
        · rw [show x - p = n by omega] at c; exact absurd c hs

/-- A block that does not wrap around the end of the memory. -/
theorem flat_block (ms : Nat) : ∀ (ds : List Nat) (m : Mem) (a x : Nat),
    a % ms + ds.length ≤ ms →
    flatWrite ms m a ds x =
      if h : a % ms ≤ x ∧ x < a % ms + ds.length then ds[x - a % ms] else m x := by
  intro ds m a x hl
  by_cases h : a % ms ≤ x ∧ x < a % ms + ds.length
  · rw [dif_pos h]
    have e : (a + (x - a % ms)) % ms = x := by
      rw [← Nat.mod_add_mod, Nat.add_sub_cancel' h.1, Nat.mod_eq_of_lt (by omega)]
    have := flatWrite_get ms ds m a (x - a % ms) (by omega) (by omega)
    rwa [e] at this
  · rw [dif_neg h, flatWrite_other]
    intro i hi e
    rw [← Nat.mod_add_mod, Nat.mod_eq_of_lt (by omega)] at e
    omega

theorem word_mod {bw ms w j : Nat} (hd : bw ∣ ms) (hms : 0 < ms) (hw : bw ∣ w) (hj : j < bw) :
    w % ms + bw ≤ ms ∧ (w + j) % ms = w % ms + j := by
  obtain ⟨k, rfl⟩ := hd
  obtain ⟨l, rfl⟩ := hw
  have hk : 0 < k := Nat.pos_of_mul_pos_left hms
  have h1 : bw * l % (bw * k) + bw ≤ bw * k := by
    rw [Nat.mul_mod_mul_left, ← Nat.mul_succ]
    exact Nat.mul_le_mul_left _ (Nat.mod_lt _ hk)
  refine ⟨h1, ?_⟩
  rw [← Nat.mod_add_mod, Nat.mod_eq_of_lt (by omega)]

/-- One data beat stores exactly its enabled lanes. -/
theorem beat_flat {bw ms : Nat} (hb : 0 < bw) (hd : bw ∣ ms) (hms : 0 < ms) (m : Mem) (cur start : Nat)
    (ds : List Nat) (last : Bool) (hl : start + ds.length ≤ bw) (hv : ∀ d ∈ ds, d < 256) :
    ramBeat bw ms m cur ⟨putLanes 0 start ds, strobe bw start (start + ds.length), last⟩ =
      flatWrite ms m (cur / bw * bw + start) ds := by
  funext x
  unfold ramBeat
  rw [fold_bytes (cur / bw * bw % ms) (fun i => (strobe bw start (start + ds.length)).testBit i)
    (fun i => (putLanes 0 start ds >>> (8 * i)) % 256)]
  have hw : bw ∣ cur / bw * bw := Nat.dvd_mul_left _ _
  by_cases hz : ds = []
  · subst hz
    rw [if_neg (by 
      rintro ⟨_, _, h⟩
      have h' := h
      rw [strobe_bit _ _ _ _ hl, decide_eq_true_iff] at h'
      simp only [List.length_nil] at h'
      omega)]
    rfl
  have hp : 0 < ds.length := List.length_pos_iff.mpr hz
  have e := (word_mod (j := start) hd hms hw (by omega)).2
  have e0 := (word_mod (j := start) hd hms hw (by omega)).1
  rw [flat_block ms ds m _ x (by omega)]
  simp only [strobe_bit _ _ _ _ hl, decide_eq_true_eq]
  generalize cur / bw * bw % ms = p at *
  by_cases h : p + start ≤ x ∧ x < p + start + ds.length
  · rw [dif_pos (by rw [e]; exact h), if_pos (by omega),
      putLanes_byte ds 0 start _ (Nat.two_pow_pos _) hv, dif_pos (by omega)]
    congr 1
    omega
  · rw [dif_neg (by rw [e]; exact h), if_neg (by omega)]

/-- A number inside an aligned unit lies in the same bus word. -/
theorem same_word {nb bw cur y : Nat} (hnb : 0 < nb) (h1 : nb ∣ cur) (h2 : nb ∣ bw) (hc : cur ≤ y)
    (hy : y < cur + nb) : y / bw = cur / bw := by
  obtain ⟨c, rfl⟩ := h1
  obtain ⟨m, rfl⟩ := h2
  have e : y / nb = c := by
    apply Nat.div_eq_of_lt_le
    · rw [Nat.mul_comm]; exact hc
    · rw [Nat.succ_mul, Nat.mul_comm]; exact hy
  rw [← Nat.div_div_eq_div_mul, e, ← Nat.div_div_eq_div_mul, Nat.mul_div_cancel_left _ hnb]

theorem fits_word {nb bw cur : Nat} (hb : 0 < bw) (h1 : nb ∣ cur) (h2 : nb ∣ bw) :
    cur % bw + nb ≤ bw := by
  obtain ⟨c, rfl⟩ := h1
  obtain ⟨m, rfl⟩ := h2
  have hm : 0 < m := Nat.pos_of_mul_pos_left hb
  rw [Nat.mul_mod_mul_left, ← Nat.mul_succ]
  exact Nat.mul_le_mul_left _ (Nat.mod_lt _ hm)

end Corundum.Axi
