import Verif.Spec.Msix

namespace Corundum.Msix

/-- requests for the first 32 vectors only -/
def Low (ins : Nat → In) : Prop := ∀ n, (ins n).ii < 32

variable {c : Cfg} {ins : Nat → In}

theorem rd_low {i : Nat} (h : i < 32) : c.rdAddr i = 0 := by
  unfold Cfg.rdAddr; rw [show i / 64 = 0 by omega, Nat.zero_mod]

theorem wr_low {i : Nat} (h : i < 32) : c.wrAddr i = 0 := by
  unfold Cfg.wrAddr; rw [show i / 32 = 0 by omega, Nat.zero_mod]

theorem rd_zero {i : Nat} (hi : i < 2 ^ c.w) (h : c.rdAddr i = 0) : i < 64 := by
  unfold Cfg.rdAddr Cfg.pw at h
  by_cases hw : c.w > 6
  · rw [if_pos hw] at h
    have e : 2 ^ c.w = 2 ^ (c.w - 6) * 64 := by
      rw [show (64 : Nat) = 2 ^ 6 by decide, ← Nat.pow_add]; congr 1; omega
    rw [e] at hi
    rw [Nat.mod_eq_of_lt (Nat.div_lt_of_lt_mul (by rw [Nat.mul_comm]; exact hi))] at h
    omega
  · have : 2 ^ c.w ≤ 2 ^ 6 := Nat.pow_le_pow_right (by omega) (by omega)
    omega

theorem words_pos : 0 < c.words := Nat.pow_pos (by omega)

theorem write_low {s : St} {v : Bool} (h : s.idx < 32) : writePba c s v = updW s.pba 0 (updB s.pbd s.idx v) := by
  unfold writePba
  rw [wr_low h, if_pos words_pos, Nat.mod_eq_of_lt (by omega)]

structure Inv (c : Cfg) (s : St) : Prop where
  rdy : s.rdy = true → s.ph = .idle
  idx : s.idx < 2 ^ c.w
  small : s.ph ≠ .idle → s.idx < 32
  rd : s.ph ≠ .idle → s.pbd = s.pba 0
  pb : ∀ a b, s.pba a b = true → a = 0 ∧ b < 32 ∧ b < 2 ^ c.w
  id : s.ph = .idle → s.pbd (s.idx % 64) = true → s.idx < 32 ∧ s.pba 0 s.idx = true

theorem inv_init : Inv c init where
  rdy := by intro h; cases h
  idx := Nat.pow_pos (by omega)
  small := fun h => absurd rfl h
  rd := fun h => absurd rfl h
  pb := by intro a b h; cases h
  id := by intro _ h; cases h

theorem scan_lt (s : St) : scan c s < 2 ^ c.w := by
  unfold scan; split <;> exact Nat.mod_lt _ (Nat.pow_pos (by omega))

theorem succ_ne (hw : 1 ≤ c.w) {i : Nat} (h : i < 2 ^ c.w) : (i + 1) % 2 ^ c.w ≠ i := by
  have : 2 ^ 1 ≤ 2 ^ c.w := Nat.pow_le_pow_right (by omega) hw
  by_cases hc : i + 1 = 2 ^ c.w
  · rw [hc, Nat.mod_self]; omega
  · rw [Nat.mod_eq_of_lt (by omega)]; omega

theorem inv_fsm (hw : 1 ≤ c.w) {s : St} {i : In} (I : Inv c s) (h1 : i.ii < 2 ^ c.w) (h2 : i.ii < 32) : Inv c (fsm c s i) := by
  unfold fsm
  cases hph : s.ph with
  | idle =>
    simp only
    split
    · exact { I with rdy := by intro h; cases h
                     idx := h1
                     small := fun _ => h2
                     rd := fun _ => by dsimp only; rw [rd_low h2]
                     id := by intro h; cases h }
    · split
      · split
        · rename_i hp
          have hs := (I.id hph hp).1
          exact { I with rdy := by intro h; cases h
                         small := fun _ => hs
                         rd := fun _ => by dsimp only; rw [rd_low hs]
                         id := by intro h; cases h }
        · refine { I with rdy := fun _ => rfl, idx := scan_lt s, small := fun h => absurd rfl h, rd := fun h => absurd rfl h, id := ?_ }
          intro _ h
          dsimp only at h ⊢
          obtain ⟨q1, q2, q3⟩ := I.pb _ _ h
          have := rd_zero (scan_lt s) q1
          rw [Nat.mod_eq_of_lt this] at q2 h
          rw [q1] at h
          exact ⟨q2, h⟩
      · exact { I with rdy := fun _ => rfl, small := fun h => absurd rfl h, rd := fun h => absurd rfl h, id := fun _ => I.id hph }
  | rd1 =>
    have hn : s.ph ≠ .idle := by rw [hph]; exact Ph.noConfusion
    exact { I with rdy := by intro h; cases h
                   small := fun _ => I.small hn, rd := fun _ => I.rd hn, id := by intro h; cases h }
  | rd2 =>
    have hn : s.ph ≠ .idle := by rw [hph]; exact Ph.noConfusion
    have hs := I.small hn
    simp only
    split
    · exact { I with rdy := by intro h; cases h
                     small := fun _ => hs, rd := fun _ => I.rd hn, id := by intro h; cases h }
    · rw [write_low hs]
      refine { I with rdy := fun _ => rfl, small := fun h => absurd rfl h, rd := fun h => absurd rfl h, pb := ?_, id := ?_ }
      · intro a b h
        dsimp only at h
        unfold updW updB at h
        split at h
        · rename_i ha
          dsimp only at h
          split at h
          · rename_i hb; exact ⟨ha, by omega, by have := I.idx; omega⟩
          · rw [I.rd hn] at h; exact ⟨ha, (I.pb _ _ h).2⟩
        · exact I.pb _ _ h
      · intro _ _
        exact ⟨hs, by simp [updW, updB]⟩
  | send =>
    have hn : s.ph ≠ .idle := by rw [hph]; exact Ph.noConfusion
    have hs := I.small hn
    simp only
    split
    · rw [write_low hs]
      refine { I with rdy := fun _ => rfl, idx := Nat.mod_lt _ (Nat.pow_pos (by omega)), small := fun h => absurd rfl h, rd := fun h => absurd rfl h, pb := ?_, id := ?_ }
      · intro a b h
        dsimp only at h
        unfold updW updB at h
        split at h
        · rename_i ha
          dsimp only at h
          split at h
          · cases h
          · rw [I.rd hn] at h; exact ⟨ha, (I.pb _ _ h).2⟩
        · exact I.pb _ _ h
      · intro _ h
        dsimp only at h ⊢
        have hle := Nat.mod_le (s.idx + 1) (2 ^ c.w)
        have hne := succ_ne hw I.idx
        generalize (s.idx + 1) % 2 ^ c.w = x at *
        rw [Nat.mod_eq_of_lt (show x < 64 by omega)] at h
        rw [I.rd hn] at h
        refine ⟨(I.pb _ _ h).2.1, ?_⟩
        simp only [updW, if_true, updB, if_neg hne]
        rw [I.rd hn]; exact h
    · exact { I with rdy := by intro h; cases h
                     small := fun _ => hs, rd := fun _ => I.rd hn, id := by intro h; cases h }

theorem inv_step (hw : 1 ≤ c.w) {s : St} {i : In} (I : Inv c s) (h1 : i.ii < 2 ^ c.w) (h2 : i.ii < 32) : Inv c (step c s i) :=
  { inv_fsm hw I h1 h2 with }

theorem inv_st (hw : 1 ≤ c.w) (h : Legal c ins) (hl : Low ins) : ∀ n, Inv c (st c ins n)
  | 0 => inv_init
  | n + 1 => inv_step hw (inv_st hw h hl n) (h n).1 (hl n)

/-! ### owed interrupts -/

/-- `a` is owed -/
def Owed (s : St) (a : Nat) : Prop := s.pba 0 a = true ∨ (s.ph ≠ .idle ∧ s.idx = a)

instance : Decidable (Owed s a) := inferInstanceAs (Decidable (_ ∨ _))

theorem load_ph {s : St} {i : In} (h : load s i = true) : s.ph = .send := by
  unfold load at h; simp at h; exact h.1

/-- after a message its vector is not owed -/
theorem load_clear {s : St} {i : In} (I : Inv c s) (h : load s i = true) : ¬ Owed (step c s i) s.idx := by
  have hp := load_ph h
  have hs := I.small (by rw [hp]; exact Ph.noConfusion)
  rintro (q | ⟨q, _⟩)
  · change (fsm c s i).pba 0 s.idx = true at q
    unfold fsm at q; rw [hp] at q; simp only [h, if_true] at q
    rw [write_low hs] at q; simp [updW, updB] at q
  · apply q
    show (fsm c s i).ph = _
    unfold fsm; rw [hp]; simp only [h, if_true]

/-- the other direction: what becomes owed has been taken -/
theorem owed_from {s : St} {i : In} (I : Inv c s) {a : Nat} (h : Owed (step c s i) a) : Owed s a ∨ (i.iv = true ∧ s.rdy = true ∧ i.ii = a) := by
  change (fsm c s i).pba 0 a = true ∨ ((fsm c s i).ph ≠ .idle ∧ (fsm c s i).idx = a) at h
  unfold fsm at h
  cases hph : s.ph with
  | idle =>
    rw [hph] at h; simp only at h
    split at h
    · rename_i hc
      simp only [Bool.and_eq_true] at hc
      rcases h with h | ⟨_, h⟩
      · exact Or.inl (Or.inl h)
      · exact Or.inr ⟨hc.1, hc.2, h⟩
    · split at h
      · split at h
        · rename_i hp
          rcases h with h | ⟨_, h⟩
          · exact Or.inl (Or.inl h)
          · left; left; rw [← h]; exact (I.id hph hp).2
        · rcases h with h | ⟨h, _⟩
          · exact Or.inl (Or.inl h)
          · exact absurd rfl h
      · rcases h with h | ⟨h, _⟩
        · exact Or.inl (Or.inl h)
        · exact absurd rfl h
  | rd1 =>
    rw [hph] at h; simp only at h
    rcases h with h | ⟨_, h⟩
    · exact Or.inl (Or.inl h)
    · exact Or.inl (Or.inr ⟨by rw [hph]; exact Ph.noConfusion, h⟩)
  | rd2 =>
    have hn : s.ph ≠ .idle := by rw [hph]; exact Ph.noConfusion
    rw [hph] at h; simp only at h
    split at h
    · rcases h with h | ⟨_, h⟩
      · exact Or.inl (Or.inl h)
      · exact Or.inl (Or.inr ⟨hn, h⟩)
    · rw [write_low (I.small hn)] at h
      rcases h with h | ⟨h, _⟩
      · simp only [updW, updB, if_true] at h
        split at h
        · rename_i ha; exact Or.inl (Or.inr ⟨hn, ha.symm⟩)
        · rw [I.rd hn] at h; exact Or.inl (Or.inl h)
      · exact absurd rfl h
  | send =>
    have hn : s.ph ≠ .idle := by rw [hph]; exact Ph.noConfusion
    rw [hph] at h; simp only at h
    split at h
    · rw [write_low (I.small hn)] at h
      rcases h with h | ⟨h, _⟩
      · simp only [updW, updB, if_true] at h
        split at h
        · cases h
        · rw [I.rd hn] at h; exact Or.inl (Or.inl h)
      · exact absurd rfl h
    · rcases h with h | ⟨_, h⟩
      · exact Or.inl (Or.inl h)
      · exact Or.inl (Or.inr ⟨hn, h⟩)

/-- what is owed stays owed until its message -/
theorem owed_step {s : St} {i : In} (I : Inv c s) {a : Nat} (h : Owed s a) : (load s i = true ∧ s.idx = a) ∨ Owed (step c s i) a := by
  by_cases hl : load s i = true ∧ s.idx = a
  · exact Or.inl hl
  right
  show (fsm c s i).pba 0 a = true ∨ ((fsm c s i).ph ≠ .idle ∧ (fsm c s i).idx = a)
  unfold fsm
  cases hph : s.ph with
  | idle =>
    have h0 : s.pba 0 a = true := by rcases h with h | ⟨h, _⟩; exact h; exact absurd hph h
    simp only
    left
    split
    · exact h0
    · split
      · split <;> exact h0
      · exact h0
  | rd1 =>
    rcases h with h | ⟨_, h⟩
    · exact Or.inl h
    · exact Or.inr ⟨Ph.noConfusion, h⟩
  | rd2 =>
    have hn : s.ph ≠ .idle := by rw [hph]; exact Ph.noConfusion
    simp only
    split
    · rcases h with h | ⟨_, h⟩
      · exact Or.inl h
      · exact Or.inr ⟨Ph.noConfusion, h⟩
    · left
      rw [write_low (I.small hn)]
      simp only [updW, updB, if_true]
      split
      · rfl
      · rename_i ha
        rcases h with h | ⟨_, h⟩
        · rw [I.rd hn]; exact h
        · exact absurd h.symm ha
  | send =>
    have hn : s.ph ≠ .idle := by rw [hph]; exact Ph.noConfusion
    simp only
    split
    · rename_i hld
      have ha : ¬a = s.idx := fun q => hl ⟨hld, q.symm⟩
      left
      rw [write_low (I.small hn)]
      simp only [updW, updB, if_true, if_neg ha]
      rcases h with h | ⟨_, h⟩
      · rw [I.rd hn]; exact h
      · exact absurd h.symm ha
    · rcases h with h | ⟨_, h⟩
      · exact Or.inl h
      · exact Or.inr ⟨Ph.noConfusion, h⟩

theorem taken_owed {s : St} {i : In} (I : Inv c s) (h1 : i.iv = true) (h2 : s.rdy = true) : Owed (step c s i) i.ii := by
  right
  show (fsm c s i).ph ≠ _ ∧ (fsm c s i).idx = _
  unfold fsm
  rw [I.rdy h2]; simp [h1, h2]

theorem appears_iff {n : Nat} : Appears c ins n ↔ load (st c ins n) (ins n) = true := by
  show (load (st c ins n) (ins n) || ((st c ins n).ov && !(ins n).trdy)) = true ∧ _ ↔ _
  constructor
  · rintro ⟨h1, h2⟩
    rcases h2 with h2 | h2 <;> rw [h2] at h1 <;> simpa using h1
  · intro h
    refine ⟨by rw [h]; rfl, ?_⟩
    unfold load at h; simp at h; exact h.2

theorem count_le (hw : 1 ≤ c.w) (h : Legal c ins) (hl : Low ins) {a : Nat} : ∀ n, sends c ins n a + (if Owed (st c ins n) a then 1 else 0) ≤ takes c ins n a
  | 0 => by
    have : ¬ Owed (st c ins 0) a := by rintro (q | ⟨q, _⟩); cases q; exact q rfl
    rw [if_neg this]; simp [sends, takes]
  | n + 1 => by
    have ih := count_le hw h hl (a := a) n
    have I := inv_st hw h hl n
    have e1 : sends c ins (n + 1) a = sends c ins n a + if Sent c ins n a then 1 else 0 := by
      unfold sends
      rw [List.range_succ, List.countP_append, List.countP_cons, List.countP_nil]
      simp
    have e2 : takes c ins (n + 1) a = takes c ins n a + if Taken c ins n a then 1 else 0 := by
      unfold takes
      rw [List.range_succ, List.countP_append, List.countP_cons, List.countP_nil]
      simp
    rw [e1, e2]
    by_cases hs : Sent c ins n a
    · obtain ⟨s1, s2⟩ := hs
      have hld := appears_iff.1 s1
      have hn := load_clear I hld
      have ho : Owed (st c ins n) a := Or.inr ⟨by rw [load_ph hld]; exact Ph.noConfusion, s2⟩
      rw [s2] at hn
      rw [if_pos ho] at ih
      rw [if_neg (show ¬ Owed (st c ins (n + 1)) a from hn), if_pos ⟨s1, s2⟩]
      omega
    · rw [if_neg hs]
      by_cases ho' : Owed (st c ins (n + 1)) a
      · rcases owed_from I ho' with q | q
        · rw [if_pos q] at ih; rw [if_pos ho']; omega
        · rw [if_pos ho', if_pos (show Taken c ins n a from q)]; omega
      · rw [if_neg ho']; omega

/-! ### the content of a message -/

theorem source (n : Nat) :
    ((st c ins n).ph = .rd1 → ∃ k, k + 1 = n ∧ (st c ins n).tq = (ins k).tbl (2 * (st c ins n).idx)) ∧
    ((st c ins n).ph = .rd2 → ∃ k, k + 2 = n ∧ (st c ins n).vaddr = (ins k).tbl (2 * (st c ins n).idx) / 4 * 4 ∧ (st c ins n).tq = (ins (k + 1)).tbl (2 * (st c ins n).idx + 1) ∧
      (st c ins n).en = (ins (k + 1)).en ∧ (st c ins n).gm = (ins (k + 1)).gm) ∧
    ((st c ins n).ph = .send → ∃ k, k + 2 < n ∧ (st c ins n).vaddr = (ins k).tbl (2 * (st c ins n).idx) / 4 * 4 ∧ (st c ins n).vdata = (ins (k + 1)).tbl (2 * (st c ins n).idx + 1) % 2 ^ 32 ∧
      ((ins (k + 1)).tbl (2 * (st c ins n).idx + 1)).testBit 32 = false ∧ (ins (k + 1)).en = true ∧ (ins (k + 1)).gm = false) := by
  induction n with
  | zero => exact ⟨(fun h => by cases h), (fun h => by cases h), (fun h => by cases h)⟩
  | succ n ih =>
    obtain ⟨i1, i2, i3⟩ := ih
    refine ⟨fun h => ?_, fun h => ?_, fun h => ?_⟩
    · refine ⟨n, rfl, ?_⟩
      change (fsm c (st c ins n) (ins n)).ph = _ at h
      show (fsm c (st c ins n) (ins n)).tq = (ins n).tbl (2 * (fsm c (st c ins n) (ins n)).idx)
      unfold fsm at h ⊢
      cases hph : (st c ins n).ph <;> rw [hph] at h <;> simp only at h ⊢
      · split at h
        · rename_i hc; simp only [hc, if_true]
        · rename_i hc
          split at h
          · rename_i hc'
            split at h
            · rename_i hc''; simp only [hc, hc', hc'', if_true, Bool.false_eq_true, if_false]
            · cases h
          · cases h
      · cases h
      · split at h <;> cases h
      · split at h <;> cases h
    · change (fsm c (st c ins n) (ins n)).ph = _ at h
      unfold fsm at h
      cases hph : (st c ins n).ph <;> rw [hph] at h <;> simp only at h
      · split at h
        · cases h
        · split at h
          · split at h <;> cases h
          · cases h
      · obtain ⟨k, hk, ht⟩ := i1 hph
        refine ⟨k, by omega, ?_⟩
        show (fsm c (st c ins n) (ins n)).vaddr = _ ∧ (fsm c (st c ins n) (ins n)).tq = _ ∧ (ins n).en = _ ∧ (ins n).gm = _
        have ei : (st c ins (n + 1)).idx = (st c ins n).idx := by
          show (fsm c (st c ins n) (ins n)).idx = _
          unfold fsm; rw [hph]
        rw [ei, hk, ← ht]
        unfold fsm; rw [hph]
        exact ⟨rfl, rfl, rfl, rfl⟩
      · split at h <;> cases h
      · split at h <;> cases h
    · change (fsm c (st c ins n) (ins n)).ph = _ at h
      have hph : ((st c ins n).ph = .rd2 ∧ ((st c ins n).en && !(st c ins n).gm && !(st c ins n).tq.testBit 32) = true) ∨ ((st c ins n).ph = .send ∧ load (st c ins n) (ins n) = false) := by
        unfold fsm at h
        cases hph : (st c ins n).ph <;> rw [hph] at h <;> simp only at h
        · split at h
          · cases h
          · split at h
            · split at h <;> cases h
            · cases h
        · cases h
        · split at h
          · rename_i hc; exact Or.inl ⟨rfl, hc⟩
          · cases h
        · split at h
          · cases h
          · rename_i hc; exact Or.inr ⟨rfl, by simpa using hc⟩
      rcases hph with ⟨hp, hc⟩ | ⟨hp, hc⟩
      · obtain ⟨k, hk, q1, q2, q3, q4⟩ := i2 hp
        have e1 : (st c ins (n + 1)).idx = (st c ins n).idx ∧ (st c ins (n + 1)).vaddr = (st c ins n).vaddr ∧ (st c ins (n + 1)).vdata = (st c ins n).tq % 2 ^ 32 := by
          show (fsm c (st c ins n) (ins n)).idx = _ ∧ (fsm c (st c ins n) (ins n)).vaddr = _ ∧ (fsm c (st c ins n) (ins n)).vdata = _
          unfold fsm; rw [hp]; simp only [hc, if_true, and_self]
        refine ⟨k, by omega, ?_⟩
        rw [e1.1, e1.2.1, e1.2.2, q1, q2]
        rw [q2, q3, q4] at hc
        simp only [Bool.and_eq_true, Bool.not_eq_true'] at hc
        exact ⟨rfl, rfl, hc.2, hc.1.1, hc.1.2⟩
      · obtain ⟨k, hk, q⟩ := i3 hp
        have e1 : (st c ins (n + 1)).idx = (st c ins n).idx ∧ (st c ins (n + 1)).vaddr = (st c ins n).vaddr ∧ (st c ins (n + 1)).vdata = (st c ins n).vdata := by
          show (fsm c (st c ins n) (ins n)).idx = _ ∧ (fsm c (st c ins n) (ins n)).vaddr = _ ∧ (fsm c (st c ins n) (ins n)).vdata = _
          unfold fsm; rw [hp]; simp only [hc, Bool.false_eq_true, if_false, and_self]
        refine ⟨k, by omega, ?_⟩
        rw [e1.1, e1.2.1, e1.2.2]; exact q

end Corundum.Msix
