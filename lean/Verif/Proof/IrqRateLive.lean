import Verif.Proof.IrqRate

namespace Corundum.IrqRate

variable {w : Nat} {m : Nat → Ent} {ins : Nat → In}

/-- from cycle `n0` on there are no requests, and the output is taken -/
def Quiet (ins : Nat → In) (n0 : Nat) : Prop := ∀ n, n0 ≤ n → (ins n).iv = false ∧ (ins n).ordy = true

/-! ### time -/

theorem ticks_step (n : Nat) : (st w m ins (n + 1)).ticks = if (st w m ins n).pre = 0 then (st w m ins n).ticks + 1 else (st w m ins n).ticks := rfl

theorem pre_step (n : Nat) : (st w m ins (n + 1)).pre = if (st w m ins n).pre = 0 then (ins n).pre else (st w m ins n).pre - 1 := rfl

theorem ticks_le (n : Nat) : ∀ k, (st w m ins n).ticks ≤ (st w m ins (n + k)).ticks ∧ (st w m ins (n + k)).ticks ≤ (st w m ins n).ticks + k
  | 0 => ⟨Nat.le_refl _, Nat.le_refl _⟩
  | k + 1 => by
    have ih := ticks_le n k
    rw [← Nat.add_assoc, ticks_step]
    split <;> omega

theorem ticks_mono {a b : Nat} (h : a ≤ b) : (st w m ins a).ticks ≤ (st w m ins b).ticks := by
  have := (ticks_le (w := w) (m := m) (ins := ins) a (b - a)).1
  rwa [show a + (b - a) = b by omega] at this

theorem pre_le {P : Nat} (hP : ∀ n, (ins n).pre ≤ P) : ∀ n, (st w m ins n).pre ≤ P
  | 0 => Nat.zero_le _
  | n + 1 => by
    have ih := pre_le hP n
    have := hP n
    rw [pre_step]; split <;> omega

theorem tick_one : ∀ (p n : Nat), (st w m ins n).pre = p → (st w m ins (n + (p + 1))).ticks = (st w m ins n).ticks + 1
  | 0, n, h => by rw [ticks_step, if_pos h]
  | p + 1, n, h => by
    have h1 : (st w m ins (n + 1)).pre = p := by rw [pre_step, h]; rfl
    have h2 : (st w m ins (n + 1)).ticks = (st w m ins n).ticks := by rw [ticks_step, h]; rfl
    have := tick_one p (n + 1) h1
    rw [h2] at this
    rw [← this]; congr 2; omega

theorem tick_many {P : Nat} (hP : ∀ n, (ins n).pre ≤ P) (n : Nat) : ∀ j, ∃ k, k ≤ j * (P + 1) ∧ (st w m ins (n + k)).ticks = (st w m ins n).ticks + j
  | 0 => ⟨0, Nat.zero_le _, rfl⟩
  | j + 1 => by
    obtain ⟨k, hk, he⟩ := tick_many hP n j
    refine ⟨k + ((st w m ins (n + k)).pre + 1), ?_, ?_⟩
    · have := pre_le hP (n + k) (w := w) (m := m)
      rw [Nat.add_mul]; omega
    · rw [← Nat.add_assoc, tick_one _ _ rfl, he]; omega

/-! ### the scan -/

theorem q_out {s : St} {i : In} (hr : i.ordy = true) (hp : s.ph = .irqIn ∨ s.ph = .irqOut) :
    (step w s i).ph = .idle ∧ (step w s i).rdv = false ∧ (step w s i).cur = s.cur := by
  show (fsm w s i).ph = _ ∧ (fsm w s i).rdv = _ ∧ (fsm w s i).cur = _
  rcases hp with hp | hp
  · cases hrun : s.rd.run
    · have hl : load s i = some s.idx := by unfold load; rw [hp]; simp [hrun, hr]
      unfold fsm; rw [hp]; simp [hrun, hl]
    · unfold fsm; rw [hp]; simp [hrun]
  · cases hpe : s.rd.pend
    · unfold fsm; rw [hp]; simp [hpe]
    · have hl : load s i = some s.idx := by unfold load; rw [hp]; simp [hpe, hr]
      unfold fsm; rw [hp]; simp [hpe, hl]

theorem q_read {s : St} {i : In} (hv : i.iv = false) (hp : s.ph = .idle) (hn : (s.rdv && s.rd.run && expired s.rd.dl s.time) = false) :
    (step w s i).ph = .idle ∧ (step w s i).rdv = true ∧ (step w s i).idx = s.cur ∧ (step w s i).cur = (s.cur + 1) % 2 ^ w := by
  show (fsm w s i).ph = _ ∧ (fsm w s i).rdv = _ ∧ (fsm w s i).idx = _ ∧ (fsm w s i).cur = _
  unfold fsm; rw [hp]; simp [hv, hn]

theorem q_exp {s : St} {i : In} (hv : i.iv = false) (hp : s.ph = .idle) (hn : (s.rdv && s.rd.run && expired s.rd.dl s.time) = true) :
    (step w s i).ph = .irqOut ∧ (step w s i).idx = s.idx ∧ (step w s i).cur = s.cur ∧ (step w s i).rd = s.rd := by
  show (fsm w s i).ph = _ ∧ (fsm w s i).idx = _ ∧ (fsm w s i).cur = _ ∧ (fsm w s i).rd = _
  unfold fsm; rw [hp]; simp [hv, hn]

theorem read_next {n0 : Nat} (hq : Quiet ins n0) {n : Nat} (hn : n0 ≤ n) (hp : (st w m ins n).ph ≠ .init) :
    ∃ k, k ≤ 3 ∧ (st w m ins (n + k)).ph = .idle ∧ (st w m ins (n + k)).rdv = true ∧ (st w m ins (n + k)).idx = (st w m ins n).cur ∧
      (st w m ins (n + k)).cur = ((st w m ins n).cur + 1) % 2 ^ w := by
  have fin : ∀ n, n0 ≤ n → (st w m ins n).ph = .idle → (st w m ins n).rdv = false → (st w m ins (n + 1)).ph = .idle ∧ (st w m ins (n + 1)).rdv = true ∧
      (st w m ins (n + 1)).idx = (st w m ins n).cur ∧ (st w m ins (n + 1)).cur = ((st w m ins n).cur + 1) % 2 ^ w := by
    intro n hn h1 h2
    exact q_read (hq n hn).1 h1 (by rw [h2]; rfl)
  have out : ∀ n, n0 ≤ n → ((st w m ins n).ph = .irqIn ∨ (st w m ins n).ph = .irqOut) → (st w m ins (n + 2)).ph = .idle ∧ (st w m ins (n + 2)).rdv = true ∧
      (st w m ins (n + 2)).idx = (st w m ins n).cur ∧ (st w m ins (n + 2)).cur = ((st w m ins n).cur + 1) % 2 ^ w := by
    intro n hn h
    obtain ⟨h1, h2, h3⟩ := q_out (w := w) (hq n hn).2 h
    have := fin (n + 1) (by omega) h1 h2
    rw [show (st w m ins (n + 1)).cur = (st w m ins n).cur from h3] at this
    exact this
  cases hph : (st w m ins n).ph with
  | init => exact absurd hph hp
  | irqIn => exact ⟨2, by omega, out n hn (Or.inl hph)⟩
  | irqOut => exact ⟨2, by omega, out n hn (Or.inr hph)⟩
  | idle =>
    cases hx : ((st w m ins n).rdv && (st w m ins n).rd.run && expired (st w m ins n).rd.dl (st w m ins n).time) with
    | false => exact ⟨1, by omega, q_read (hq n hn).1 hph hx⟩
    | true =>
      obtain ⟨h1, _, h3, _⟩ := q_exp (w := w) (hq n hn).1 hph hx
      have := out (n + 1) (by omega) (Or.inr h1)
      rw [show (st w m ins (n + 1)).cur = (st w m ins n).cur from h3] at this
      exact ⟨3, by omega, this⟩

theorem ni_mono {n : Nat} (hp : (st w m ins n).ph ≠ .init) : ∀ k, (st w m ins (n + k)).ph ≠ .init
  | 0 => hp
  | k + 1 => not_init (ni_mono hp k)

theorem scan_to {n0 : Nat} (hq : Quiet ins n0) {a : Nat} : ∀ (d n : Nat), n0 ≤ n → (st w m ins n).ph ≠ .init → (st w m ins n).cur < 2 ^ w → ((st w m ins n).cur + d) % 2 ^ w = a →
    ∃ k, k ≤ 3 * (d + 1) ∧ (st w m ins (n + k)).ph = .idle ∧ (st w m ins (n + k)).rdv = true ∧ (st w m ins (n + k)).idx = a
  | 0, n, hn, hp, hc, ha => by
    obtain ⟨k, hk, h1, h2, h3, _⟩ := read_next hq hn hp
    rw [Nat.add_zero, Nat.mod_eq_of_lt hc] at ha
    exact ⟨k, by omega, h1, h2, by rw [h3, ha]⟩
  | d + 1, n, hn, hp, hc, ha => by
    obtain ⟨k, hk, h1, h2, h3, h4⟩ := read_next hq hn hp
    obtain ⟨k', hk', r⟩ := scan_to hq d (n + k) (by omega) (by rw [h1]; exact Ph.noConfusion) (by rw [h4]; exact Nat.mod_lt _ (by omega))
      (by rw [h4, Nat.mod_add_mod]; rw [← ha]; congr 1; omega) (a := a)
    exact ⟨k + k', by omega, by rw [← Nat.add_assoc]; exact r⟩

/-! ### a pending interrupt is put out -/

theorem keep {n : Nat} (hL : Legal w ins) {a : Nat} {e : Ent} (hp : (st w m ins n).ph ≠ .init) (h1 : e.pend = true) (h2 : e.run = true) (he : (st w m ins n).mem a = e) :
    ∀ k, (∀ l, l < k → load (st w m ins (n + l)) (ins (n + l)) ≠ some a) → (st w m ins (n + k)).mem a = e
  | 0, _ => he
  | k + 1, h => by
    have ih := keep hL hp h1 h2 he k (fun l hl => h l (by omega))
    have g1 : ((st w m ins (n + k)).mem a).pend = true := by rw [ih]; exact h1
    have g2 : ((st w m ins (n + k)).mem a).run = true := by rw [ih]; exact h2
    exact (pend_step (inv_st hL _) (ni_mono hp k) g1 (h k (by omega)) g2).trans ih

theorem pend_out {P n0 : Nat} (hL : Legal w ins) (hw : w ≤ 14) (hP : ∀ n, (ins n).pre ≤ P) (hq : Quiet ins n0) {n a : Nat} (ha : a < 2 ^ w) (hn : n0 ≤ n) (hp : (st w m ins n).ph ≠ .init)
    (h1 : ((st w m ins n).mem a).pend = true) : ∃ k, k ≤ 2 ^ 17 * (P + 1) + 3 * 2 ^ w + 1 ∧ load (st w m ins (n + k)) (ins (n + k)) = some a := by
  apply Classical.byContradiction
  intro hno
  have hno' : ∀ k, k ≤ 2 ^ 17 * (P + 1) + 3 * 2 ^ w + 1 → load (st w m ins (n + k)) (ins (n + k)) ≠ some a := fun k hk h => hno ⟨k, hk, h⟩
  have I := fun n => inv_st (m := m) hL n
  have hr := (I n).pr a ha (Or.inl hp) h1
  have hdl := (I n).dl a ha (Or.inl hp)
  have kp := keep hL (a := a) hp h1 hr rfl
  -- the first moment with the timer expired
  have hj : ∃ j, j < 2 ^ 17 ∧ ((st w m ins n).ticks + j) % 2 ^ 17 = (((st w m ins n).mem a).dl + 1) % 2 ^ 17 :=
    ⟨(((st w m ins n).mem a).dl + 1 + 2 ^ 17 - (st w m ins n).ticks % 2 ^ 17) % 2 ^ 17, by omega, by omega⟩
  obtain ⟨j, hj1, hj2⟩ := hj
  obtain ⟨k1, hk1, ht1⟩ := tick_many (w := w) (m := m) hP n j
  have hk1' : k1 ≤ 2 ^ 17 * (P + 1) := Nat.le_trans hk1 (Nat.mul_le_mul_right _ (by omega))
  have hc := (I (n + k1)).cur
  obtain ⟨k2, hk2, s1, s2, s3⟩ := scan_to hq (a := a) ((a + 2 ^ w - (st w m ins (n + k1)).cur) % 2 ^ w) (n + k1) (by omega) (ni_mono hp k1) hc
    (by rw [Nat.add_mod_mod, show (st w m ins (n + k1)).cur + (a + 2 ^ w - (st w m ins (n + k1)).cur) = a + 2 ^ w by omega, Nat.add_mod_right, Nat.mod_eq_of_lt ha])
  have hlt : (a + 2 ^ w - (st w m ins (n + k1)).cur) % 2 ^ w < 2 ^ w := Nat.mod_lt _ (by omega)
  have hw14 : 2 ^ w ≤ 2 ^ 14 := Nat.pow_le_pow_right (by omega) hw
  have hmem := kp (k1 + k2) (fun l hl => hno' l (by omega))
  have hrd := (I (n + k1 + k2)).rd1 (Or.inr (Or.inr s2))
  rw [s3] at hrd
  rw [← Nat.add_assoc] at hmem
  have htime := (I (n + k1 + k2)).time
  have hle := ticks_le (w := w) (m := m) (ins := ins) (n + k1) k2
  have hexp : expired (st w m ins (n + k1 + k2)).rd.dl (st w m ins (n + k1 + k2)).time = true := by
    rw [hrd, hmem, expired_iff hdl (by rw [htime]; exact Nat.mod_lt _ (by omega)), htime]
    generalize ((st w m ins n).mem a).dl = dl at *
    generalize (st w m ins (n + k1 + k2)).ticks = t2 at *
    rw [ht1] at hle
    generalize (st w m ins n).ticks = t0 at *
    have : t2 < t0 + j + 2 ^ 16 := by omega
    omega
  obtain ⟨e1, e2, _, e4⟩ := q_exp (w := w) (s := st w m ins (n + k1 + k2)) (i := ins (n + k1 + k2)) (hq _ (by omega)).1 s1 (by rw [s2, hexp, hrd, hmem, hr]; rfl)
  refine hno' (k1 + k2 + 1) (by omega) ?_
  show load (step w (st w m ins (n + (k1 + k2))) (ins (n + (k1 + k2)))) (ins (n + (k1 + k2 + 1))) = some a
  rw [← Nat.add_assoc n k1 k2]
  unfold load
  rw [e1, e2, e4, hrd, hmem, h1, s3, (hq (n + (k1 + k2 + 1)) (by omega)).2]
  simp

theorem given_of_load {n0 : Nat} (hq : Quiet ins n0) {n a : Nat} (hn : n0 ≤ n) (h : load (st w m ins n) (ins n) = some a) : Given w m ins (n + 1) a := by
  obtain ⟨h1, h2⟩ := step_ov' (w := w) h
  exact ⟨h1, (hq (n + 1) (by omega)).2, h2⟩

theorem owed_given {P n0 : Nat} (hL : Legal w ins) (hw : w ≤ 14) (hP : ∀ n, (ins n).pre ≤ P) (hq : Quiet ins n0) {n a : Nat} (ha : a < 2 ^ w) (hn : n0 ≤ n) (h : Owed (st w m ins n) a) :
    ∃ k, k ≤ 2 ^ 17 * (P + 1) + 3 * 2 ^ w + 3 ∧ Given w m ins (n + k) a := by
  rcases h with ⟨h1, h2⟩ | ⟨h1, h2⟩ | ⟨h1, h2⟩
  · obtain ⟨k, hk, hl⟩ := pend_out hL hw hP hq ha hn h1 h2
    exact ⟨k + 1, by omega, given_of_load hq (show n0 ≤ n + k by omega) hl⟩
  · cases hrun : (st w m ins n).rd.run with
    | false =>
      refine ⟨1, by omega, given_of_load hq hn ?_⟩
      unfold load; rw [h1]; simp [hrun, (hq n hn).2, h2]
    | true =>
      have hp1 : (st w m ins (n + 1)).ph ≠ .init := not_init (by rw [h1]; exact Ph.noConfusion)
      have hm : ((st w m ins (n + 1)).mem a).pend = true := by
        show ((fsm w (st w m ins n) (ins n)).mem a).pend = true
        unfold fsm; rw [h1]; simp only [hrun, if_true, h2, upd_same]
      obtain ⟨k, hk, hl⟩ := pend_out hL hw hP hq ha (show n0 ≤ n + 1 by omega) hp1 hm
      have := given_of_load hq (show n0 ≤ n + 1 + k by omega) hl
      exact ⟨1 + k + 1, by omega, by rw [show n + (1 + k + 1) = n + 1 + k + 1 by omega]; exact this⟩
  · exact ⟨0, by omega, h1, (hq n hn).2, h2⟩

/-- what has been taken is handed on, or still owed -/
theorem owed_until (hL : Legal w ins) {n a : Nat} (ht : Taken w m ins n a) : ∀ k, (∃ l, l < k ∧ Given w m ins (n + 1 + l) a) ∨ Owed (st w m ins (n + 1 + k)) a
  | 0 => Or.inr (by have := taken_owed (inv_st (m := m) hL n) ht.1 ht.2.1; rw [ht.2.2] at this; exact this)
  | k + 1 => by
    rcases owed_until hL ht k with ⟨l, h1, h2⟩ | h
    · exact Or.inl ⟨l, by omega, h2⟩
    · have ha : a < 2 ^ w := by rw [← ht.2.2]; exact (hL n).1
      rcases owed_step (i := ins (n + 1 + k)) (inv_st hL _) ha h with h | h
      · exact Or.inl ⟨k, by omega, h⟩
      · exact Or.inr h

/-! ### the interval -/

theorem shown_load {n a : Nat} (h : Shown w m ins n a) : load (st w m ins n) (ins n) = some a := by
  obtain ⟨h1, h2, h3⟩ := h
  cases hl : load (st w m ins n) (ins n) with
  | none =>
    rw [show (st w m ins (n + 1)).ov = _ from (step_ov (w := w) hl).1] at h1
    rcases h3 with h3 | h3 <;> rw [h3] at h1 <;> simp at h1
  | some b => rw [show (st w m ins (n + 1)).oidx = _ from (step_ov' (w := w) hl).2] at h2; rw [h2]

theorem load_shown {n a : Nat} (h : load (st w m ins n) (ins n) = some a) : Shown w m ins n a :=
  ⟨(step_ov' h).1, (step_ov' h).2, (load_ph h).2.2⟩

theorem timer (hL : Legal w ins) {n1 a M : Nat} (hl : load (st w m ins n1) (ins n1) = some a) (hM : (ins n1).min = M) (hM0 : M ≠ 0)
    (hw : (st w m ins n1).ticks % 2 ^ 17 + M < 2 ^ 17) : ∀ k,
      (st w m ins n1).ticks + M < (st w m ins (n1 + 1 + k)).ticks ∨
        (((st w m ins (n1 + 1 + k)).mem a).run = true ∧ ((st w m ins (n1 + 1 + k)).mem a).dl = (st w m ins n1).ticks % 2 ^ 17 + M ∧
          ¬((st w m ins (n1 + 1 + k)).ph = .irqOut ∧ (st w m ins (n1 + 1 + k)).idx = a))
  | 0 => by
    right
    obtain ⟨hm, hp⟩ := load_mem (w := w) hl
    have htime := (inv_st (m := m) hL n1).time
    refine ⟨?_, ?_, ?_⟩
    · rw [show (st w m ins (n1 + 1 + 0)).mem = _ from hm, upd_same]; simp [started, hM, hM0]
    · rw [show (st w m ins (n1 + 1 + 0)).mem = _ from hm, upd_same]
      show ((st w m ins n1).time + (ins n1).min) % 2 ^ 17 = _
      rw [hM, htime, Nat.mod_eq_of_lt hw]
    · rw [show (st w m ins (n1 + 1 + 0)).ph = _ from hp]; rintro ⟨h, _⟩; cases h
  | k + 1 => by
    have hmono := ticks_mono (w := w) (m := m) (ins := ins) (show n1 + 1 + k ≤ n1 + 1 + (k + 1) by omega)
    rcases timer hL hl hM hM0 hw k with h | ⟨h1, h2, h3⟩
    · left; omega
    have I := inv_st (m := m) hL (n1 + 1 + k)
    have hni : (st w m ins (n1 + 1 + k)).ph ≠ .init := ni_mono (by rw [show (st w m ins (n1 + 1)).ph = _ from (load_mem (w := w) hl).2]; exact Ph.noConfusion) k
    have hge := ticks_mono (w := w) (m := m) (ins := ins) (show n1 ≤ n1 + 1 + k by omega)
    have hMl := (hL n1).2.2
    rw [hM] at hMl
    have hexp : expired ((st w m ins (n1 + 1 + k)).mem a).dl (st w m ins (n1 + 1 + k)).time = true → (st w m ins n1).ticks + M < (st w m ins (n1 + 1 + k)).ticks := by
      rw [h2, expired_iff hw (by rw [I.time]; exact Nat.mod_lt _ (by omega)), I.time]
      generalize (st w m ins (n1 + 1 + k)).ticks = t2 at *
      generalize (st w m ins n1).ticks = t1 at *
      omega
    show _ < (st w m ins (n1 + 1 + (k + 1))).ticks ∨ (((fsm w (st w m ins (n1 + 1 + k)) (ins (n1 + 1 + k))).mem a).run = true ∧ ((fsm w (st w m ins (n1 + 1 + k)) (ins (n1 + 1 + k))).mem a).dl = _ ∧
      ¬((fsm w (st w m ins (n1 + 1 + k)) (ins (n1 + 1 + k))).ph = _ ∧ (fsm w (st w m ins (n1 + 1 + k)) (ins (n1 + 1 + k))).idx = _))
    generalize (st w m ins n1).ticks = t1 at *
    generalize (st w m ins (n1 + 1 + (k + 1))).ticks = t3 at *
    generalize st w m ins (n1 + 1 + k) = s at *
    generalize ins (n1 + 1 + k) = i at *
    unfold fsm
    cases hph : s.ph with
    | init =>
      exact absurd hph hni
    | idle =>
      simp only
      split
      · exact Or.inr ⟨h1, h2, by rintro ⟨h, _⟩; cases h⟩
      · split
        · rename_i hc
          simp only [Bool.and_eq_true] at hc
          by_cases hi : s.idx = a
          · left
            have := hexp (by rw [← hi, ← I.rd1 (Or.inr (Or.inr hc.1.1))]; exact hc.2)
            omega
          · exact Or.inr ⟨h1, h2, by rintro ⟨_, h⟩; exact hi h⟩
        · exact Or.inr ⟨h1, h2, by rintro ⟨h, _⟩; cases h⟩
    | irqIn =>
      have hrd := I.rd1 (Or.inl hph)
      simp only
      split
      · right
        by_cases hi : a = s.idx
        · subst hi; simp only [upd_same]; rw [hrd]; exact ⟨trivial, h2, by rintro ⟨h, _⟩; cases h⟩
        · simp only [upd_ne hi]; exact ⟨h1, h2, by rintro ⟨h, _⟩; cases h⟩
      · rename_i hr
        have hi : a ≠ s.idx := by rintro rfl; rw [hrd] at hr; exact hr h1
        right
        split
        · simp only [upd_ne hi]; exact ⟨h1, h2, by rintro ⟨h, _⟩; cases h⟩
        · exact ⟨h1, h2, by rintro ⟨h, _⟩; cases h⟩
    | irqOut =>
      have hi : a ≠ s.idx := fun h => h3 ⟨hph, h.symm⟩
      right
      simp only
      split
      · split
        · simp only [upd_ne hi]; exact ⟨h1, h2, by rintro ⟨h, _⟩; cases h⟩
        · exact ⟨h1, h2, by rintro ⟨_, h⟩; exact hi h.symm⟩
      · simp only [upd_ne hi]; exact ⟨h1, h2, by rintro ⟨h, _⟩; cases h⟩

theorem interval (hL : Legal w ins) {n1 n2 a : Nat} (h1 : load (st w m ins n1) (ins n1) = some a) (h2 : load (st w m ins n2) (ins n2) = some a) (h12 : n1 < n2) (hM0 : (ins n1).min ≠ 0)
    (hw : (st w m ins n1).ticks % 2 ^ 17 + (ins n1).min < 2 ^ 17) : (st w m ins n1).ticks + (ins n1).min < (st w m ins n2).ticks := by
  have := timer hL h1 rfl hM0 hw (n2 - (n1 + 1))
  rw [show n1 + 1 + (n2 - (n1 + 1)) = n2 by omega] at this
  rcases this with h | ⟨h3, _, h5⟩
  · exact h
  · obtain ⟨rfl, h, _⟩ := load_ph h2
    rcases h with ⟨hp, hr⟩ | ⟨hp, _⟩
    · rw [(inv_st hL n2).rd1 (Or.inl hp), h3] at hr; cases hr
    · exact absurd ⟨hp, rfl⟩ h5

end Corundum.IrqRate
