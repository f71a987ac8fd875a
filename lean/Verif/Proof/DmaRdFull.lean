import Verif.Model.DmaRdFull

namespace Corundum.DmaRdFull

variable {A : Type}

/-- `q` is what is stored between the pointers -/
structure Rep (s : St A) (q : List A) : Prop where
  wp : s.wp = (s.rp + q.length) % 64
  rp : s.rp < 64
  len : q.length + s.wr.toList.length ≤ 31
  mem : ∀ k (h : k < q.length), s.mem ((s.rp + k) % 32) = q[k]
  full : s.full = false → q.length ≤ 28
  ready : s.ready = true → q.length ≤ 29

theorem diff (r n : Nat) (hr : r < 64) (hn : n < 64) : ((r + n) % 64 + 64 - r) % 64 = n := by omega

theorem rep_step {s : St A} {q : List A} (h : Rep s q) (i : In A) : ∃ q', Rep (step s i) q' ∧
    s.rd.toList ++ q ++ s.wr.toList ++ (acc s i).toList = (popped s i).toList ++ ((step s i).rd.toList ++ q' ++ (step s i).wr.toList) ∧
    ((acc s i).isSome = true → s.rd.toList.length + q.length + s.wr.toList.length ≤ 31) := by
  obtain ⟨h1, h2, h3, h4, h5, h6⟩ := h
  have hw1 : s.wr.toList.length ≤ 1 := by cases s.wr <;> simp
  have hr1 : s.rd.toList.length ≤ 1 := by cases s.rd <;> simp
  have ha1 : (acc s i).toList.length ≤ 1 := by cases acc s i <;> simp
  have hacc : (acc s i).isSome = true → s.ready = true := by
    unfold acc; intro h; split at h
    · assumption
    · exact absurd h (by simp)
  have hne : (s.rp != s.wp) = !q.isEmpty := by
    cases q with
    | nil => simp only [List.length_nil, Nat.add_zero] at h1; rw [h1, Nat.mod_eq_of_lt h2]; simp
    | cons a q =>
      simp only [List.length_cons] at h1 h3
      have : s.rp ≠ s.wp := by omega
      simpa using this
  -- what the memory holds after the write
  have hmem : ∀ k (hk : k < (q ++ s.wr.toList).length), (step s i).mem ((s.rp + k) % 32) = (q ++ s.wr.toList)[k] := by
    simp only [step]
    cases hw : s.wr with
    | none =>
      intro k hk
      simp only [Option.toList_none, List.append_nil] at hk ⊢
      exact h4 k hk
    | some a =>
      intro k hk
      simp only [hw, Option.toList_some, List.length_append, List.length_singleton] at hk h3
      simp only [Option.toList_some]
      by_cases hq : k < q.length
      · rw [if_neg (by omega), List.getElem_append_left hq]; exact h4 k hq
      · rw [if_pos (by omega)]
        rw [List.getElem_append_right (by omega)]
        simp
  have hwp : (step s i).wp = (s.rp + (q ++ s.wr.toList).length) % 64 := by
    simp only [step]
    cases hw : s.wr with
    | none => simp [h1]
    | some a => simp [h1]; omega
  have hfull : (step s i).full = false → q.length ≤ 27 := by
    simp only [step, h1]
    rw [diff _ _ h2 (by omega)]
    simp; omega
  have hready : (step s i).ready = true → q.length ≤ 28 := by
    simp only [step, Bool.and_eq_true, Bool.not_eq_true']
    exact fun h => h5 h.2
  have hlen3 : q.length + s.wr.toList.length + (acc s i).toList.length ≤ 31 := by
    cases ha : acc s i with
    | none => simpa using h3
    | some a =>
      have := h6 (hacc (by rw [ha]; rfl))
      simp; omega
  have hgoal3 : (acc s i).isSome = true → s.rd.toList.length + q.length + s.wr.toList.length ≤ 31 := by
    intro h
    have := h6 (hacc h)
    omega
  cases hrd : rden s i with
  | false =>
    refine ⟨q ++ s.wr.toList, ⟨?_, ?_, ?_, ?_, ?_, ?_⟩, ?_, hgoal3⟩
    · rw [hwp]; simp [step, hrd]
    · simpa [step, hrd] using h2
    · show (q ++ s.wr.toList).length + (acc s i).toList.length ≤ 31
      rw [List.length_append]; exact hlen3
    · have : (step s i).rp = s.rp := by simp [step, hrd]
      rw [this]; exact hmem
    · intro h; have := hfull h; rw [List.length_append]; omega
    · intro h; have := hready h; rw [List.length_append]; omega
    · show _ = _ ++ ((if rden s i then some (s.mem (s.rp % 32)) else if i.take then none else s.rd).toList ++ _ ++ (acc s i).toList)
      simp only [hrd, popped]
      cases i.take <;> simp
  | true =>
    have hparts := hrd
    simp only [rden, Bool.and_eq_true, Bool.or_eq_true, hne, Bool.not_eq_true'] at hparts
    cases q with
    | nil => simp at hparts
    | cons a q =>
      refine ⟨q ++ s.wr.toList, ⟨?_, ?_, ?_, ?_, ?_, ?_⟩, ?_, hgoal3⟩
      · rw [hwp]; simp only [step, hrd, if_true, List.length_append, List.length_cons]; omega
      · simp only [step, hrd, if_true]; omega
      · show (q ++ s.wr.toList).length + (acc s i).toList.length ≤ 31
        rw [List.length_append]
        simp only [List.length_cons] at hlen3; omega
      · intro k hk
        have : (step s i).rp = (s.rp + 1) % 64 := by simp [step, hrd]
        rw [this]
        have := hmem (k + 1) (by simp only [List.length_append, List.length_cons] at hk ⊢; omega)
        rw [show ((s.rp + 1) % 64 + k) % 32 = (s.rp + (k + 1)) % 32 by omega, this]
        simp
      · intro h; have := hfull h; rw [List.length_append]; simp only [List.length_cons] at this; omega
      · intro h; have := hready h; rw [List.length_append]; simp only [List.length_cons] at this; omega
      · show _ = _ ++ ((if rden s i then some (s.mem (s.rp % 32)) else if i.take then none else s.rd).toList ++ _ ++ (acc s i).toList)
        have hm := h4 0 (by simp)
        simp only [Nat.add_zero, List.getElem_cons_zero] at hm
        rw [hrd, if_pos rfl, hm]
        unfold popped
        rcases hparts.1 with hn | ht
        · rw [Option.isNone_iff_eq_none] at hn
          rw [hn]
          cases i.take <;> simp
        · rw [ht]; simp

end Corundum.DmaRdFull
