import Verif.Spec.IrqRate

namespace Corundum.IrqRate

theorem expired_iff {dl t : Nat} (h1 : dl < 2 ^ 17) (h2 : t < 2 ^ 17) : expired dl t = true ↔ dl < t ∨ t + 2 ^ 16 ≤ dl := by
  unfold expired
  rw [bne_iff_ne]
  constructor
  · intro h
    by_cases hc : dl < t
    · exact Or.inl hc
    · right
      rw [show dl + 2 ^ 32 - t = (dl - t) + 2 ^ 32 by omega, Nat.add_mod_right, Nat.mod_eq_of_lt (by omega)] at h
      omega
  · rintro (h | h)
    · rw [Nat.mod_eq_of_lt (by omega)]; omega
    · rw [show dl + 2 ^ 32 - t = (dl - t) + 2 ^ 32 by omega, Nat.add_mod_right, Nat.mod_eq_of_lt (by omega)]
      omega

theorem upd_same (f : Nat → Ent) (a : Nat) (x : Ent) : upd f a x a = x := if_pos rfl

theorem upd_ne {f : Nat → Ent} {a b : Nat} {x : Ent} (h : b ≠ a) : upd f a x b = f b := if_neg h

/-- word `i` has been cleared since reset -/
def Clear (s : St) (i : Nat) : Prop := s.ph ≠ .init ∨ i < s.cur

structure Inv (w : Nat) (s : St) : Prop where
  rdy : s.rdy = true → s.ph = .idle
  rdy0 : s.ph = .init → s.rdv = false
  rd1 : s.ph = .irqIn ∨ s.ph = .irqOut ∨ s.rdv = true → s.rd = s.mem s.idx
  run : s.ph = .irqOut → s.rd.run = true
  idx : s.idx < 2 ^ w
  cur : s.cur < 2 ^ w
  time : s.time = s.ticks % 2 ^ 17
  dl : ∀ i, i < 2 ^ w → Clear s i → (s.mem i).dl < 2 ^ 17
  pr : ∀ i, i < 2 ^ w → Clear s i → (s.mem i).pend = true → (s.mem i).run = true

theorem inv_init (w : Nat) (m : Nat → Ent) : Inv w (init m) where
  rdy := by intro h; cases h
  rdy0 := by intro _; rfl
  rd1 := by rintro (h | h | h) <;> cases h
  run := by intro h; cases h
  idx := Nat.pow_pos (by omega)
  cur := Nat.pow_pos (by omega)
  time := rfl
  dl := by rintro i _ (h | h); exact absurd rfl h; exact absurd h (Nat.not_lt_zero _)
  pr := by rintro i _ (h | h); exact absurd rfl h; exact absurd h (Nat.not_lt_zero _)

theorem started_dl (s : St) (i : In) : (started s i).dl < 2 ^ 17 := Nat.mod_lt _ (by omega)

theorem inv_fsm {w : Nat} {s : St} {i : In} (I : Inv w s) (hi : i.ii < 2 ^ w) : Inv w (fsm w s i) := by
  have hp : 0 < 2 ^ w := Nat.pow_pos (by omega)
  unfold fsm
  cases hph : s.ph with
  | init =>
    simp only
    have hw : ∀ j, j < 2 ^ w → ((if (s.cur + 1) % 2 ^ w = 0 then Ph.idle else Ph.init) ≠ .init ∨ j < (s.cur + 1) % 2 ^ w) → j = s.cur ∨ (j ≠ s.cur ∧ Clear s j) := by
      intro j hj h
      by_cases hjc : j = s.cur
      · exact Or.inl hjc
      · refine Or.inr ⟨hjc, Or.inr ?_⟩
        have hc := I.cur
        by_cases hz : s.cur + 1 = 2 ^ w
        · omega
        · have hm : (s.cur + 1) % 2 ^ w = s.cur + 1 := Nat.mod_eq_of_lt (by omega)
          rw [hm] at h
          simp only [Nat.succ_ne_zero, if_false, ne_eq, not_true, false_or] at h
          omega
    refine { I with rdy := ?_, rdy0 := fun _ => I.rdy0 hph, rd1 := ?_, run := ?_, cur := Nat.mod_lt _ hp, dl := ?_, pr := ?_ }
    · intro h; cases h
    · rintro (h | h | h)
      · dsimp only at h; split at h <;> cases h
      · dsimp only at h; split at h <;> cases h
      · exact absurd h (by rw [show s.rdv = false from I.rdy0 hph]; decide)
    · intro h; dsimp only at h; split at h <;> cases h
    · intro j hj h
      rcases hw j hj h with h | ⟨h, h'⟩
      · subst h; dsimp only; rw [upd_same]; exact Nat.pow_pos (by omega)
      · dsimp only; rw [upd_ne h]; exact I.dl j hj h'
    · intro j hj h
      rcases hw j hj h with h | ⟨h, h'⟩
      · subst h; dsimp only; rw [upd_same]; intro h; cases h
      · dsimp only; rw [upd_ne h]; exact I.pr j hj h'
  | idle =>
    have hc : ∀ j, Clear s j := fun j => Or.inl (by rw [hph]; decide)
    simp only
    split
    · exact { I with rdy := by intro h; cases h
                     rdy0 := by intro h; cases h
                     rd1 := fun _ => rfl, run := by intro h; cases h
                     idx := hi, dl := fun j hj _ => I.dl j hj (hc j), pr := fun j hj _ => I.pr j hj (hc j) }
    · split
      · rename_i h
        simp only [Bool.and_eq_true] at h
        exact { I with rdy := by intro h; cases h
                       rdy0 := by intro h; cases h
                       rd1 := fun _ => I.rd1 (Or.inr (Or.inr h.1.1))
                       run := fun _ => h.1.2, dl := fun j hj _ => I.dl j hj (hc j), pr := fun j hj _ => I.pr j hj (hc j) }
      · exact { I with rdy := fun _ => rfl
                       rdy0 := by intro h; cases h
                       rd1 := fun _ => rfl, run := by intro h; cases h
                       idx := I.cur, cur := Nat.mod_lt _ hp, dl := fun j hj _ => I.dl j hj (hc j), pr := fun j hj _ => I.pr j hj (hc j) }
  | irqIn =>
    have hc : ∀ j, Clear s j := fun j => Or.inl (by rw [hph]; decide)
    have hrd := I.rd1 (Or.inl hph)
    simp only
    split
    · refine { I with rdy := fun _ => rfl, rdy0 := by intro h; cases h
                      rd1 := by rintro (h | h | h) <;> cases h
                      run := by intro h; cases h
                      dl := ?_, pr := ?_ }
      · intro j hj _
        by_cases h : j = s.idx
        · subst h; dsimp only; rw [upd_same, hrd]; exact I.dl _ hj (hc _)
        · dsimp only; rw [upd_ne h]; exact I.dl j hj (hc j)
      · intro j hj _
        by_cases h : j = s.idx
        · subst h; dsimp only; rw [upd_same]; intro _; rfl
        · dsimp only; rw [upd_ne h]; exact I.pr j hj (hc j)
    · split
      · refine { I with rdy := fun _ => rfl, rdy0 := by intro h; cases h
                        rd1 := by rintro (h | h | h) <;> cases h
                        run := by intro h; cases h
                        dl := ?_, pr := ?_ }
        · intro j hj _
          by_cases h : j = s.idx
          · subst h; dsimp only; rw [upd_same]; exact started_dl s i
          · dsimp only; rw [upd_ne h]; exact I.dl j hj (hc j)
        · intro j hj _
          by_cases h : j = s.idx
          · subst h; dsimp only; rw [upd_same]; intro h; cases h
          · dsimp only; rw [upd_ne h]; exact I.pr j hj (hc j)
      · exact { I with rdy := by intro h; cases h
                       rdy0 := by intro h; cases h
                       rd1 := fun _ => hrd
                       run := by intro h; cases h
                       dl := fun j hj _ => I.dl j hj (hc j), pr := fun j hj _ => I.pr j hj (hc j) }
  | irqOut =>
    have hc : ∀ j, Clear s j := fun j => Or.inl (by rw [hph]; decide)
    have hrd := I.rd1 (Or.inr (Or.inl hph))
    simp only
    split
    · split
      · refine { I with rdy := fun _ => rfl, rdy0 := by intro h; cases h
                        rd1 := by rintro (h | h | h) <;> cases h
                        run := by intro h; cases h
                        dl := ?_, pr := ?_ }
        · intro j hj _
          by_cases h : j = s.idx
          · subst h; dsimp only; rw [upd_same]; exact started_dl s i
          · dsimp only; rw [upd_ne h]; exact I.dl j hj (hc j)
        · intro j hj _
          by_cases h : j = s.idx
          · subst h; dsimp only; rw [upd_same]; intro h; cases h
          · dsimp only; rw [upd_ne h]; exact I.pr j hj (hc j)
      · exact { I with rdy := by intro h; cases h
                       rdy0 := by intro h; cases h
                       rd1 := fun _ => hrd
                       run := fun _ => I.run hph
                       dl := fun j hj _ => I.dl j hj (hc j), pr := fun j hj _ => I.pr j hj (hc j) }
    · refine { I with rdy := fun _ => rfl, rdy0 := by intro h; cases h
                      rd1 := by rintro (h | h | h) <;> cases h
                      run := by intro h; cases h
                      dl := ?_, pr := ?_ }
      · intro j hj _
        by_cases h : j = s.idx
        · subst h; dsimp only; rw [upd_same]; exact Nat.pow_pos (by omega)
        · dsimp only; rw [upd_ne h]; exact I.dl j hj (hc j)
      · intro j hj _
        by_cases h : j = s.idx
        · subst h; dsimp only; rw [upd_same]; intro h; cases h
        · dsimp only; rw [upd_ne h]; exact I.pr j hj (hc j)

theorem fsm_time (w : Nat) (s : St) (i : In) : (fsm w s i).time = s.time ∧ (fsm w s i).ticks = s.ticks ∧ (fsm w s i).pre = s.pre := by
  unfold fsm
  cases s.ph
  · exact ⟨rfl, rfl, rfl⟩
  · simp only; split
    · exact ⟨rfl, rfl, rfl⟩
    · split <;> exact ⟨rfl, rfl, rfl⟩
  · simp only; split
    · exact ⟨rfl, rfl, rfl⟩
    · split <;> exact ⟨rfl, rfl, rfl⟩
  · simp only; split
    · split <;> exact ⟨rfl, rfl, rfl⟩
    · exact ⟨rfl, rfl, rfl⟩

theorem inv_step {w : Nat} {s : St} {i : In} (I : Inv w s) (hi : i.ii < 2 ^ w) : Inv w (step w s i) := by
  have J := inv_fsm I hi
  refine { J with time := ?_ }
  show (if s.pre = 0 then (s.time + 1) % 2 ^ 17 else s.time) = (if s.pre = 0 then s.ticks + 1 else s.ticks) % 2 ^ 17
  have h := I.time
  split <;> omega

theorem inv_st {w : Nat} {m : Nat → Ent} {ins : Nat → In} (h : Legal w ins) : ∀ n, Inv w (st w m ins n)
  | 0 => inv_init w m
  | n + 1 => inv_step (inv_st h n) (h n).1

/-! ### what a step does -/

theorem load_ph {s : St} {i : In} {a : Nat} (h : load s i = some a) : a = s.idx ∧ ((s.ph = .irqIn ∧ s.rd.run = false) ∨ (s.ph = .irqOut ∧ s.rd.pend = true)) ∧ (s.ov = false ∨ i.ordy = true) := by
  unfold load at h
  cases hp : s.ph <;> rw [hp] at h <;> simp only at h
  · cases h
  · cases h
  · split at h
    · rename_i hc
      simp only [Bool.and_eq_true, Bool.or_eq_true, Bool.not_eq_true'] at hc
      injection h with h
      exact ⟨h.symm, Or.inl ⟨rfl, hc.1⟩, hc.2⟩
    · cases h
  · split at h
    · rename_i hc
      simp only [Bool.and_eq_true, Bool.or_eq_true, Bool.not_eq_true'] at hc
      injection h with h
      exact ⟨h.symm, Or.inr ⟨rfl, hc.1⟩, hc.2⟩
    · cases h

/-- the word of an interrupt that is put out -/
theorem load_mem {w : Nat} {s : St} {i : In} {a : Nat} (h : load s i = some a) : (step w s i).mem = upd s.mem a (started s i) ∧ (step w s i).ph = .idle := by
  obtain ⟨rfl, h1, h2⟩ := load_ph h
  show (fsm w s i).mem = _ ∧ (fsm w s i).ph = _
  unfold fsm
  rcases h1 with ⟨hp, hr⟩ | ⟨hp, hr⟩ <;> rw [hp] <;> simp only [hr, h, Option.isSome_some, if_true, Bool.false_eq_true, if_false, and_self]

/-- `i` is owed: it has been taken and has not been handed on since -/
def Owed (s : St) (a : Nat) : Prop := (s.ph ≠ .init ∧ (s.mem a).pend = true) ∨ (s.ph = .irqIn ∧ s.idx = a) ∨ (s.ov = true ∧ s.oidx = a)

theorem step_ov {w : Nat} {s : St} {i : In} (h : load s i = none) : (step w s i).ov = (s.ov && !i.ordy) ∧ (step w s i).oidx = s.oidx := by
  show ((load s i).isSome || (s.ov && !i.ordy)) = _ ∧ (load s i).getD s.oidx = _
  rw [h]; exact ⟨Bool.false_or _, rfl⟩

theorem step_ov' {w : Nat} {s : St} {i : In} {a : Nat} (h : load s i = some a) : (step w s i).ov = true ∧ (step w s i).oidx = a := by
  show ((load s i).isSome || (s.ov && !i.ordy)) = _ ∧ (load s i).getD s.oidx = _
  rw [h]; exact ⟨Bool.true_or _, rfl⟩

theorem not_init {w : Nat} {s : St} {i : In} (h : s.ph ≠ .init) : (step w s i).ph ≠ .init := by
  show (fsm w s i).ph ≠ _
  unfold fsm
  cases hp : s.ph
  · exact absurd hp h
  · simp only; split
    · exact Ph.noConfusion
    · split
      · exact Ph.noConfusion
      · exact Ph.noConfusion
  · simp only; split
    · exact Ph.noConfusion
    · split
      · exact Ph.noConfusion
      · exact Ph.noConfusion
  · simp only; split
    · split
      · exact Ph.noConfusion
      · exact Ph.noConfusion
    · exact Ph.noConfusion

/-- a pending bit stays until its interrupt is put out -/
theorem pend_step {w : Nat} {s : St} {i : In} (I : Inv w s) {a : Nat} (hp : s.ph ≠ .init) (h : (s.mem a).pend = true) (hl : load s i ≠ some a) (hr : (s.mem a).run = true) :
    (step w s i).mem a = s.mem a := by
  show (fsm w s i).mem a = _
  cases hld : load s i with
  | some b =>
    rw [show (fsm w s i).mem = (step w s i).mem from rfl, (load_mem hld).1, upd_ne]
    rintro rfl; exact hl hld
  | none =>
    unfold fsm
    cases hph : s.ph
    · exact absurd hph hp
    · simp only; split
      · rfl
      · split <;> rfl
    · have hrd := I.rd1 (Or.inl hph)
      simp only [hld]; split
      · by_cases hc : a = s.idx
        · subst hc
          dsimp only; rw [upd_same, hrd]
          cases hm : s.mem s.idx with
          | mk p r d => rw [hm] at h hr; dsimp only at h hr; subst h; subst hr; rfl
        · exact upd_ne hc
      · rfl
    · have hrd := I.rd1 (Or.inr (Or.inl hph))
      simp only [hld]; split
      · rfl
      · rename_i hn
        have hc : a ≠ s.idx := by rintro rfl; rw [hrd] at hn; exact hn h
        exact upd_ne hc

theorem owed_step {w : Nat} {s : St} {i : In} (I : Inv w s) {a : Nat} (ha : a < 2 ^ w) (h : Owed s a) : (s.ov = true ∧ i.ordy = true ∧ s.oidx = a) ∨ Owed (step w s i) a := by
  by_cases hld : load s i = some a
  · exact Or.inr (Or.inr (Or.inr (step_ov' hld)))
  rcases h with ⟨h1, h2⟩ | ⟨h1, h2⟩ | ⟨h1, h2⟩
  · right; left
    refine ⟨not_init h1, ?_⟩
    rw [pend_step I h1 h2 hld (I.pr a ha (Or.inl h1) h2)]; exact h2
  · right
    have hn : load s i = none := by
      cases hl : load s i with
      | none => rfl
      | some b => rw [hl, (load_ph hl).1, h2] at hld; exact absurd rfl hld
    show ((fsm w s i).ph ≠ _ ∧ ((fsm w s i).mem a).pend = true) ∨ ((fsm w s i).ph = _ ∧ (fsm w s i).idx = a) ∨ _
    unfold fsm
    rw [h1]; simp only
    split
    · left; exact ⟨Ph.noConfusion, by subst h2; dsimp only; rw [upd_same]⟩
    · rw [hn]; simp only [Option.isSome_none, Bool.false_eq_true, if_false]
      right; left; exact ⟨trivial, h2⟩
  · by_cases ho : i.ordy = true
    · exact Or.inl ⟨h1, ho, h2⟩
    · right; right; right
      cases hl : load s i with
      | none =>
        obtain ⟨q1, q2⟩ := step_ov (w := w) hl
        rw [q1, q2, h1]
        refine ⟨?_, h2⟩
        cases hv : i.ordy
        · rfl
        · exact absurd hv ho
      | some b =>
        rcases (load_ph hl).2.2 with q | q
        · rw [h1] at q; cases q
        · exact absurd q ho

theorem taken_owed {w : Nat} {s : St} {i : In} (I : Inv w s) (h1 : i.iv = true) (h2 : s.rdy = true) : Owed (step w s i) i.ii := by
  right; left
  have hp := I.rdy h2
  show (fsm w s i).ph = _ ∧ (fsm w s i).idx = _
  unfold fsm
  rw [hp]; simp only [h1, h2, Bool.and_self, if_true, and_self]

/-! ### counting -/

def bit (p : Prop) [Decidable p] : Nat := if p then 1 else 0

def pw (s : St) (a : Nat) : Nat := if s.ph = .init then 0 else (s.mem a).pend.toNat
def qw (s : St) (a : Nat) : Nat := bit (s.ph = .irqIn ∧ s.idx = a)
def ow (s : St) (a : Nat) : Nat := bit (s.ov = true ∧ s.oidx = a)

theorem toNat_le (b : Bool) : b.toNat ≤ 1 := by cases b <;> decide

/-- words cleared after reset -/
theorem cleared {w : Nat} {m : Nat → Ent} {ins : Nat → In} (h : Legal w ins) : ∀ n, (st w m ins n).ph = .init → ∀ j, j < (st w m ins n).cur → ((st w m ins n).mem j).pend = false
  | 0, _, j, hj => absurd hj (Nat.not_lt_zero _)
  | n + 1, hp, j, hj => by
    have ih := cleared h n (m := m)
    have hcur := (inv_st (m := m) h n).cur
    have hpn : (st w m ins n).ph = .init := by
      cases hq : (st w m ins n).ph
      · rfl
      all_goals exact absurd hp (not_init (by rw [hq]; exact Ph.noConfusion))
    generalize hS : st w m ins n = s at *
    change (step w (st w m ins n) (ins n)).ph = _ at hp
    change j < (step w (st w m ins n) (ins n)).cur at hj
    show ((step w (st w m ins n) (ins n)).mem j).pend = false
    rw [hS] at hp hj ⊢
    change (fsm w s (ins n)).ph = _ at hp
    change j < (fsm w s (ins n)).cur at hj
    show ((fsm w s (ins n)).mem j).pend = false
    unfold fsm at hp hj ⊢
    rw [hpn] at hp hj ⊢
    simp only at hp hj ⊢
    by_cases hz : (s.cur + 1) % 2 ^ w = 0
    · rw [if_pos hz] at hp; cases hp
    · by_cases hc : j = s.cur
      · subst hc; rw [upd_same]
      · rw [upd_ne hc]
        apply ih hpn
        have := Nat.mod_le (s.cur + 1) (2 ^ w)
        omega

theorem out_step (w : Nat) (s : St) (i : In) (a : Nat) : ow (step w s i) a + bit (s.ov = true ∧ i.ordy = true ∧ s.oidx = a) ≤ ow s a + bit (load s i = some a) := by
  cases hl : load s i with
  | none =>
    obtain ⟨h1, h2⟩ := step_ov (w := w) hl
    unfold ow bit; rw [h1, h2]
    cases s.ov <;> cases i.ordy <;> by_cases hc : s.oidx = a <;> simp [hc]
  | some b =>
    obtain ⟨h1, h2⟩ := step_ov' (w := w) hl
    have h3 := (load_ph hl).2.2
    unfold ow bit; rw [h1, h2]
    cases hov : s.ov
    · by_cases hb : b = a <;> simp [hb]
    · rw [hov] at h3
      have : i.ordy = true := by rcases h3 with h3 | h3 <;> first | cases h3 | exact h3
      rw [this]
      by_cases hb : b = a <;> by_cases hc : s.oidx = a <;> simp [hb, hc]

theorem fsm_step {w : Nat} {s : St} {i : In} (I : Inv w s) (hcl : s.ph = .init → ∀ j, j < s.cur → (s.mem j).pend = false) {a : Nat} (ha : a < 2 ^ w) :
    pw (step w s i) a + qw (step w s i) a + bit (load s i = some a) ≤ pw s a + qw s a + bit (i.iv = true ∧ s.rdy = true ∧ i.ii = a) := by
  cases hl : load s i with
  | some b =>
    obtain ⟨hm, hp⟩ := load_mem (w := w) hl
    obtain ⟨rfl, h1, _⟩ := load_ph hl
    unfold pw qw bit
    rw [hm, hp]
    simp only [reduceCtorEq, if_false, false_and, Option.some.injEq]
    have hni : s.ph ≠ .init := by rcases h1 with ⟨h, _⟩ | ⟨h, _⟩ <;> rw [h] <;> exact Ph.noConfusion
    rw [if_neg hni]
    by_cases hc : s.idx = a
    · subst hc
      rw [upd_same]
      rcases h1 with ⟨h, _⟩ | ⟨h, h'⟩
      · simp [h, started]; omega
      · rw [I.rd1 (Or.inr (Or.inl h))] at h'
        simp [started, h']; omega
    · rw [upd_ne (fun h => hc h.symm)]
      simp [hc]
  | none =>
    rw [show bit (none = some a) = 0 from rfl]
    show pw (fsm w s i) a + qw (fsm w s i) a + 0 ≤ _
    unfold fsm
    cases hph : s.ph
    · simp only
      have hcur := I.cur
      have e0 : bit (i.iv = true ∧ s.rdy = true ∧ i.ii = a) = 0 := by
        unfold bit; rw [if_neg]; rintro ⟨_, h, _⟩; have := I.rdy h; rw [hph] at this; cases this
      by_cases hz : (s.cur + 1) % 2 ^ w = 0
      · have hc1 : s.cur + 1 = 2 ^ w := by
          by_cases hlt : s.cur + 1 < 2 ^ w
          · rw [Nat.mod_eq_of_lt hlt] at hz; omega
          · omega
        have : (upd s.mem s.cur ⟨false, false, 0⟩ a).pend = false := by
          by_cases hc : a = s.cur
          · subst hc; rw [upd_same]
          · rw [upd_ne hc]; exact hcl hph a (by omega)
        simp only [pw, qw, bit, hz, if_true, this]
        simp
      · simp [pw, qw, bit, hz]
    · simp only
      split
      · rename_i hc
        simp only [Bool.and_eq_true] at hc
        simp [pw, qw, bit, hph, hc.1, hc.2]
      · split <;> simp [pw, qw, bit, hph]
    · simp only
      split
      · by_cases hc : a = s.idx
        · subst hc; simp [pw, qw, bit, hph, upd_same]; omega
        · have hc' : ¬s.idx = a := fun h => hc h.symm
          simp [pw, qw, bit, hph, upd_ne hc, hc']
      · rw [hl]; simp [pw, qw, bit, hph]
    · simp only
      split
      · rw [hl]; simp [pw, qw, bit, hph]
      · by_cases hc : a = s.idx
        · subst hc; simp [pw, qw, bit, hph, upd_same]
        · simp [pw, qw, bit, hph, upd_ne hc]

theorem count_le {w : Nat} {m : Nat → Ent} {ins : Nat → In} (h : Legal w ins) {a : Nat} (ha : a < 2 ^ w) :
    ∀ n, gives w m ins n a + (pw (st w m ins n) a + qw (st w m ins n) a + ow (st w m ins n) a) ≤ takes w m ins n a
  | 0 => by simp [gives, takes, pw, qw, ow, st, init, bit]
  | n + 1 => by
    have ih := count_le h ha n (m := m)
    have h1 := out_step w (st w m ins n) (ins n) a
    have h2 := fsm_step (i := ins n) (inv_st (m := m) h n) (cleared h n) ha
    have e1 : gives w m ins (n + 1) a = gives w m ins n a + bit ((st w m ins n).ov = true ∧ (ins n).ordy = true ∧ (st w m ins n).oidx = a) := by
      unfold gives
      rw [List.range_succ, List.countP_append, List.countP_cons, List.countP_nil]
      by_cases hq : Given w m ins n a
      · rw [show bit ((st w m ins n).ov = true ∧ (ins n).ordy = true ∧ (st w m ins n).oidx = a) = 1 from if_pos hq]; simp [hq]
      · rw [show bit ((st w m ins n).ov = true ∧ (ins n).ordy = true ∧ (st w m ins n).oidx = a) = 0 from if_neg hq]; simp [hq]
    have e2 : takes w m ins (n + 1) a = takes w m ins n a + bit ((ins n).iv = true ∧ (st w m ins n).rdy = true ∧ (ins n).ii = a) := by
      unfold takes
      rw [List.range_succ, List.countP_append, List.countP_cons, List.countP_nil]
      by_cases hq : Taken w m ins n a
      · rw [show bit ((ins n).iv = true ∧ (st w m ins n).rdy = true ∧ (ins n).ii = a) = 1 from if_pos hq]; simp [hq]
      · rw [show bit ((ins n).iv = true ∧ (st w m ins n).rdy = true ∧ (ins n).ii = a) = 0 from if_neg hq]; simp [hq]
    rw [e1, e2]
    show _ + (pw (step w (st w m ins n) (ins n)) a + qw (step w (st w m ins n) (ins n)) a + ow (step w (st w m ins n) (ins n)) a) ≤ _
    omega

end Corundum.IrqRate
