import Verif.Model.Ptp

/-! Serialiser and deserialiser of the time distribution stream, position by position. -/

namespace Corundum.Ptp

/-- Serialiser state `p` clocks after the clock that loaded `ws`. -/
def serAt (ws : List Nat) (p : Nat) : Ser :=
  if h : p / 17 < ws.length then
    ⟨ws.drop (p / 17 + 1), if p % 17 = 16 then none else some ws[p / 17], p % 17,
      if p % 17 = 0 then false else decide ((ws[p / 17] >>> (p % 17 - 1)) &&& 1 = 1)⟩
  else ⟨[], none, if ws = [] then 0 else 16, true⟩

/-- States in which the serialiser takes a fresh message. -/
def Ser.Free (z : Ser) : Prop := z.word = none ∧ z.msg = []

theorem ser_load (z : Ser) (h : z.word = none) (w : Nat) (ws : List Nat) :
    Ser.step { z with msg := w :: ws } = serAt (w :: ws) 0 := by
  unfold Ser.step serAt
  rw [dif_pos (by simp)]
  simp [h]

theorem ser_next (ws : List Nat) (hne : ws ≠ []) (p : Nat) : (serAt ws p).step = serAt ws (p + 1) := by
  by_cases h : p / 17 < ws.length
  · by_cases hm : p % 17 = 16
    · have e1 : (p + 1) / 17 = p / 17 + 1 := by omega
      have e2 : (p + 1) % 17 = 0 := by omega
      by_cases h2 : p / 17 + 1 < ws.length
      · unfold Ser.step serAt
        rw [dif_pos h, dif_pos (by rw [e1]; exact h2)]
        simp only [hm, e1, e2, if_true]
        rw [List.drop_eq_getElem_cons h2]
        simp
      · unfold Ser.step serAt
        rw [dif_pos h, dif_neg (by rw [e1]; exact h2)]
        simp only [hm, if_true]
        rw [List.drop_eq_nil_of_le (by omega)]
        simp [hne]
    · have e1 : (p + 1) / 17 = p / 17 := by omega
      have e2 : (p + 1) % 17 = p % 17 + 1 := by omega
      unfold Ser.step serAt
      rw [dif_pos h, dif_pos (by rw [e1]; exact h)]
      simp only [hm, e1, e2, if_false]
      simp
  · unfold Ser.step serAt
    rw [dif_neg h, dif_neg (by omega)]

theorem ser_free (ws : List Nat) (p : Nat) (h : 17 * ws.length ≤ p) : (serAt ws p).word = none := by
  unfold serAt
  rw [dif_neg (by omega)]

/-- Deserialiser state after sampling the line as it stood at clocks `0 .. p-1` of a message. -/
def desAt (ws : List Nat) (b p : Nat) : Des :=
  if p = 0 then ⟨[], none, b⟩
  else if h : (p - 1) / 17 < ws.length then
    if (p - 1) % 17 = 16 then ⟨(ws.take ((p - 1) / 17 + 1)).map (· % 2 ^ 16), none, 16⟩
    else ⟨(ws.take ((p - 1) / 17)).map (· % 2 ^ 16), some (ws[(p - 1) / 17] % 2 ^ ((p - 1) % 17)), (p - 1) % 17⟩
  else ⟨[], none, 16⟩

theorem or_bit (w j : Nat) :
    w % 2 ^ j ||| (decide ((w >>> j) &&& 1 = 1)).toNat <<< j = w % 2 ^ (j + 1) := by
  apply Nat.eq_of_testBit_eq
  intro i
  rw [Nat.testBit_or, Nat.testBit_mod_two_pow, Nat.testBit_mod_two_pow, Nat.testBit_shiftLeft]
  have hb : (decide ((w >>> j) &&& 1 = 1)) = w.testBit j := by
    rw [Nat.testBit, Nat.and_comm, Nat.and_comm 1, Nat.and_comm]
    rcases Nat.mod_two_eq_zero_or_one (w >>> j) with h | h <;> simp [Nat.and_one_is_mod, h]
  rw [hb]
  by_cases h1 : i < j
  · simp [h1, show i < j + 1 by omega, show ¬ j ≤ i by omega]
  · by_cases h2 : i = j
    · subst h2
      cases w.testBit i <;> simp
    · have : ∀ b : Bool, b.toNat.testBit (i - j) = false := by
        intro b
        obtain ⟨d, hd⟩ : ∃ d, i - j = d + 1 := ⟨i - j - 1, by omega⟩
        rw [hd]
        cases b <;> simp [Nat.testBit_succ]
      simp [h1, show ¬ i < j + 1 by omega, this]

theorem des_next (ws : List Nat) (hne : ws ≠ []) (b p : Nat) :
    (desAt ws b p).step (serAt ws p).data =
      (desAt ws b (p + 1), if p = 17 * ws.length then some (ws.map (· % 2 ^ 16)) else none) := by
  have hpos : 0 < ws.length := List.length_pos_iff.mpr hne
  by_cases hp0 : p = 0
  · subst hp0
    unfold desAt Des.step serAt
    rw [dif_pos (by simpa using hpos)]
    simp [hpos, Nat.mod_one]
    omega
  · obtain ⟨q, rfl⟩ : ∃ q, p = q + 1 := ⟨p - 1, by omega⟩
    by_cases h : q / 17 < ws.length
    · by_cases hm : q % 17 = 16
      · -- end of a word
        have e1 : (q + 1) / 17 = q / 17 + 1 := by omega
        have e2 : (q + 1) % 17 = 0 := by omega
        by_cases h2 : q / 17 + 1 < ws.length
        · have hd : (serAt ws (q + 1)).data = false := by
            unfold serAt
            rw [dif_pos (by rw [e1]; exact h2)]
            simp [e2]
          rw [hd, if_neg (by omega)]
          unfold desAt Des.step
          simp only [Nat.add_sub_cancel, Nat.succ_ne_zero, if_false, dif_pos h, hm, if_true, e1, dif_pos h2, e2]
          simp [Nat.mod_one]
        · have hd : (serAt ws (q + 1)).data = true := by
            unfold serAt
            rw [dif_neg (by rw [e1]; exact h2)]
          rw [hd, if_pos (by omega)]
          unfold desAt Des.step
          simp only [Nat.add_sub_cancel, Nat.succ_ne_zero, if_false, dif_pos h, hm, if_true, e1, dif_neg h2]
          have hl : ws.take (q / 17 + 1) = ws := List.take_of_length_le (by omega)
          rw [hl]
          simp [hne]
      · have e1 : (q + 1) / 17 = q / 17 := by omega
        have e2 : (q + 1) % 17 = q % 17 + 1 := by omega
        have hd : (serAt ws (q + 1)).data = decide ((ws[q / 17] >>> (q % 17)) &&& 1 = 1) := by
          unfold serAt
          rw [dif_pos (by rw [e1]; exact h)]
          simp [e2, e1]
        rw [hd, if_neg (by omega)]
        unfold desAt Des.step
        simp only [Nat.add_sub_cancel, Nat.succ_ne_zero, if_false, dif_pos h, hm, or_bit]
        simp only [e1, e2, dif_pos h]
        by_cases hm2 : q % 17 + 1 = 16
        · rw [if_pos hm2, if_pos hm2]
          rw [List.take_succ_eq_append_getElem h]
          rw [List.map_append, hm2]; rfl
        · rw [if_neg hm2, if_neg hm2]
    · have hd : (serAt ws (q + 1)).data = true := by
        unfold serAt
        rw [dif_neg (by omega)]
      rw [hd, if_neg (by omega)]
      unfold desAt Des.step
      simp only [Nat.add_sub_cancel, Nat.succ_ne_zero, if_false, dif_neg h, dif_neg (show ¬ (q + 1) / 17 < ws.length by omega)]
      simp

end Corundum.Ptp
