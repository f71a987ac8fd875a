import Verif.Spec.Perout

namespace Corundum.Perout

/-! ### arithmetic of times -/

theorem mul_next {s s' : Nat} (h : s < s') (q : Nat) : s * q + q ≤ s' * q := by
  have := Nat.mul_le_mul_right q (show s + 1 ≤ s' from h)
  rwa [Nat.add_mul, Nat.one_mul] at this

theorem after_q {q : Nat} {s s' x x' : Nat} (h1 : x < q) (h2 : x' < q) :
    (s' * q + x' < s * q + x) ↔ (s' < s ∨ s = s' ∧ x' < x) := by
  rcases Nat.lt_trichotomy s s' with h | h | h
  · have := mul_next h q
    omega
  · subst h
    omega
  · have := mul_next h q
    omega

theorem after_iff {a b : Tm} (ha : a.Ok) (hb : b.Ok) : after a b = decide (b.tot < a.tot) := by
  obtain ⟨s, x⟩ := a
  obtain ⟨s', x'⟩ := b
  obtain ⟨h1, h2⟩ := ha
  obtain ⟨h3, h4⟩ := hb
  rw [Bool.eq_iff_iff, decide_eq_true_eq]
  refine Iff.trans ?_ (after_q h2 h4).symm
  simp [after]

theorem sum_q {q M s s' x x' : Nat} (h1 : x < q) (h2 : x' < q) (h : s * q + x + (s' * q + x') < M * q) :
    (x + x' < q → s + s' < M) ∧ (¬ x + x' < q → s + s' + 1 < M) := by
  rw [show s * q + x + (s' * q + x') = (s + s') * q + (x + x') by rw [Nat.add_mul]; omega] at h
  constructor
  · intro _
    apply Classical.byContradiction
    intro hc
    have := Nat.mul_le_mul_right q (show M ≤ s + s' by omega)
    omega
  · intro _
    apply Classical.byContradiction
    intro hc
    have := Nat.mul_le_mul_right q (show M ≤ s + s' + 1 by omega)
    rw [Nat.add_mul (s + s') 1, Nat.one_mul] at this
    omega

theorem add_q (s s' x x' q : Nat) : (s + s') * q + (x + x') = s * q + x + (s' * q + x') := by
  rw [Nat.add_mul]; omega

theorem add_q' (s s' x x' q : Nat) (h : q ≤ x + x') : (s + s' + 1) * q + (x + x' - q) = s * q + x + (s' * q + x') := by
  rw [Nat.add_mul, Nat.add_mul, Nat.one_mul]; omega

theorem sum_spec {a b : Tm} (ha : a.Ok) (hb : b.Ok) (h : a.tot + b.tot < 2 ^ 48 * (1000000000 * 2 ^ 16)) :
    (sum a.s b.s (incOf a.x b.x) (ovfOf a.x b.x)).Ok ∧ (sum a.s b.s (incOf a.x b.x) (ovfOf a.x b.x)).tot = a.tot + b.tot := by
  obtain ⟨s, x⟩ := a
  obtain ⟨s', x'⟩ := b
  obtain ⟨h1, h2⟩ := ha
  obtain ⟨h3, h4⟩ := hb
  obtain ⟨c1, c2⟩ := sum_q h2 h4 h
  clear h
  simp only [Tm.tot, sum, incOf, ovfOf, Tm.Ok] at *
  by_cases hlt : x + x' < 1000000000 * 2 ^ 16
  · have e1 : (x + x' + 2 ^ 47 - 1000000000 * 2 ^ 16) % 2 ^ 47 = x + x' + 2 ^ 47 - 1000000000 * 2 ^ 16 := Nat.mod_eq_of_lt (by omega)
    have hs := c1 hlt
    have e2 : (s + s') % 2 ^ 48 = s + s' := Nat.mod_eq_of_lt hs
    have e3 : (x + x') % 2 ^ 46 = x + x' := Nat.mod_eq_of_lt (by omega)
    have e4 : ¬ (x + x' + 2 ^ 47 - 1000000000 * 2 ^ 16) / 2 ^ 46 % 2 = 0 := by omega
    simp only [e1, e4, if_false, e2, e3]
    refine ⟨⟨hs, hlt⟩, ?_⟩
    exact add_q s s' x x' _
  · have e1 : (x + x' + 2 ^ 47 - 1000000000 * 2 ^ 16) % 2 ^ 47 = x + x' - 1000000000 * 2 ^ 16 := by omega
    have hs := c2 hlt
    have e2 : (s + s' + 1) % 2 ^ 48 = s + s' + 1 := Nat.mod_eq_of_lt hs
    have e4 : (x + x' - 1000000000 * 2 ^ 16) / 2 ^ 46 % 2 = 0 := by omega
    simp only [e1, e4, if_true, e2]
    refine ⟨⟨hs, by omega⟩, ?_⟩
    exact add_q' s s' x x' _ (by omega)

/-! ### the machine with plain numbers -/

structure A where
  fsm : Fsm
  r : Nat
  f : Nat
  level : Bool
  locked : Bool
  out : Bool

def A.step (S P W t : Nat) (a : A) : A :=
  match a.fsm with
  | .idle => { a with r := S, level := false, locked := false, out := false, fsm := .fall1 }
  | .rise1 => { a with fsm := .rise2 }
  | .rise2 => { a with r := a.r + P, fsm := .wait }
  | .fall1 => { a with fsm := .fall2 }
  | .fall2 => { a with f := a.r + W, fsm := .wait }
  | .wait =>
    if a.r < t then { a with level := true, out := a.locked, fsm := .rise1 }
    else if a.f < t then { a with level := false, out := false, fsm := .fall1 }
    else { a with locked := a.locked || a.level }

structure Rep (S P W : Nat) (k : Reg) (a : A) : Prop where
  fsm : k.fsm = a.fsm
  level : k.fsm ≠ .idle → k.level = a.level
  locked : k.fsm ≠ .idle → k.locked = a.locked
  out : k.fsm ≠ .idle → k.out = a.out
  start : k.start.Ok ∧ k.start.tot = S
  period : k.period.Ok ∧ k.period.tot = P
  width : k.width.Ok ∧ k.width.tot = W
  rise : k.fsm ≠ .idle → k.rise.Ok ∧ k.rise.tot = a.r
  fall : k.fsm = .wait ∨ k.fsm = .rise1 ∨ k.fsm = .rise2 → k.fall.Ok ∧ k.fall.tot = a.f
  r2 : k.fsm = .rise2 → k.inc = incOf k.rise.x k.period.x ∧ k.ovf = ovfOf k.rise.x k.period.x
  f2 : k.fsm = .fall2 → k.inc = incOf k.rise.x k.width.x ∧ k.ovf = ovfOf k.rise.x k.width.x

theorem ofTs_time (i : In) : (ofTs i.ts).tot = i.time := rfl

theorem rep_step {S P W : Nat} {c : Cfg} {k : Reg} {a : A} (h : Rep S P W k a) (ht : k.time.Ok) {i : In}
    (hi : i.rst = false ∧ i.step = false ∧ i.start = none ∧ i.period = none ∧ i.width = none) (he : i.enable = true)
    (b1 : a.fsm = .rise2 → a.r + P < 2 ^ 48 * (1000000000 * 2 ^ 16)) (b2 : a.fsm = .fall2 → a.r + W < 2 ^ 48 * (1000000000 * 2 ^ 16)) :
    Rep S P W (k.tick c i) (a.step S P W k.time.tot) := by
  obtain ⟨h1, h2, h3, h4, h5, h6, h7, h8, h9, h10, h11⟩ := h
  obtain ⟨i1, i2, i3, i4, i5⟩ := hi
  obtain ⟨fsm, time, rise, fall, start, period, width, inc, ovf, locked, error, level, out⟩ := k
  obtain ⟨fsm', r, f, level', locked', out'⟩ := a
  dsimp only at *
  subst h1
  cases fsm with
  | idle =>
    simp only [Reg.tick, Reg.next, A.step, i1, i2, i3, i4, i5, Option.isSome_none, Bool.or_false, Bool.false_eq_true, if_false]
    exact ⟨rfl, fun _ => rfl, fun _ => rfl, fun _ => rfl, h5, h6, h7, fun _ => h5, fun h => (by simp at h), fun h => (by cases h), fun h => (by cases h)⟩
  | rise1 =>
    simp only [Reg.tick, Reg.next, A.step, i1, i2, i3, i4, i5, Option.isSome_none, Bool.or_false, Bool.false_eq_true, if_false]
    exact ⟨rfl, fun _ => h2 (by simp), fun _ => h3 (by simp), fun _ => h4 (by simp), h5, h6, h7, fun _ => h8 (by simp), fun _ => h9 (by simp),
      fun _ => ⟨rfl, rfl⟩, fun h => (by cases h)⟩
  | rise2 =>
    simp only [Reg.tick, Reg.next, A.step, i1, i2, i3, i4, i5, Option.isSome_none, Bool.or_false, Bool.false_eq_true, if_false]
    obtain ⟨q1, q2⟩ := h8 (by simp)
    obtain ⟨e1, e2⟩ := h10 rfl
    refine ⟨rfl, fun _ => h2 (by simp), fun _ => h3 (by simp), fun _ => h4 (by simp), h5, h6, h7, fun _ => ?_, fun _ => h9 (by simp),
      fun h => (by cases h), fun h => (by cases h)⟩
    have := sum_spec q1 h6.1 (by rw [q2, h6.2]; exact b1 rfl)
    rw [q2, h6.2] at this
    dsimp only
    rw [e1, e2]
    exact this
  | fall1 =>
    simp only [Reg.tick, Reg.next, A.step, i1, i2, i3, i4, i5, Option.isSome_none, Bool.or_false, Bool.false_eq_true, if_false]
    exact ⟨rfl, fun _ => h2 (by simp), fun _ => h3 (by simp), fun _ => h4 (by simp), h5, h6, h7, fun _ => h8 (by simp), fun h => (by simp at h),
      fun h => (by cases h), fun _ => ⟨rfl, rfl⟩⟩
  | fall2 =>
    simp only [Reg.tick, Reg.next, A.step, i1, i2, i3, i4, i5, Option.isSome_none, Bool.or_false, Bool.false_eq_true, if_false]
    obtain ⟨q1, q2⟩ := h8 (by simp)
    obtain ⟨e1, e2⟩ := h11 rfl
    refine ⟨rfl, fun _ => h2 (by simp), fun _ => h3 (by simp), fun _ => h4 (by simp), h5, h6, h7, fun _ => ⟨q1, q2⟩, fun _ => ?_,
      fun h => (by cases h), fun h => (by cases h)⟩
    have := sum_spec q1 h7.1 (by rw [q2, h7.2]; exact b2 rfl)
    rw [q2, h7.2] at this
    dsimp only
    rw [e1, e2]
    exact this
  | wait =>
    have h2 := h2 (by simp)
    have h3 := h3 (by simp)
    have h4 := h4 (by simp)
    obtain ⟨q1, q2⟩ := h8 (by simp)
    obtain ⟨q3, q4⟩ := h9 (by simp)
    subst h2 h3 h4
    simp only [Reg.tick, Reg.next, A.step, i1, i2, i3, i4, i5, he, Option.isSome_none, Bool.or_false, Bool.false_eq_true, if_false, Bool.true_and,
      after_iff ht q1, after_iff ht q3, decide_eq_true_eq, q2, q4]
    split
    · exact ⟨rfl, fun _ => rfl, fun _ => rfl, fun _ => rfl, h5, h6, h7, fun _ => ⟨q1, q2⟩, fun _ => ⟨q3, q4⟩, fun h => (by cases h), fun h => (by cases h)⟩
    · split
      · exact ⟨rfl, fun _ => rfl, fun _ => rfl, fun _ => rfl, h5, h6, h7, fun _ => ⟨q1, q2⟩, fun h => (by simp at h), fun h => (by cases h), fun h => (by cases h)⟩
      · exact ⟨rfl, fun _ => rfl, fun _ => rfl, fun _ => rfl, h5, h6, h7, fun _ => ⟨q1, q2⟩, fun _ => ⟨q3, q4⟩, fun h => (by cases h), fun h => (by cases h)⟩

/-! ### phases, `u` being the time looked at last -/

/-- in step with the clock -/
def Steady (S P W d u j : Nat) (a : A) : Prop :=
  match a.fsm with
  | .idle => False
  | .rise1 => a.level = true ∧ a.r = S + j * P ∧ a.f = a.r + W ∧ a.r < u ∧ u ≤ a.r + d
  | .rise2 => a.level = true ∧ a.r = S + j * P ∧ a.f = a.r + W ∧ a.r < u ∧ u ≤ a.r + 2 * d
  | .fall1 => a.level = false ∧ a.r = S + (j + 1) * P ∧ a.r + W = a.f + P ∧ a.f < u ∧ u ≤ a.f + d
  | .fall2 => a.level = false ∧ a.r = S + (j + 1) * P ∧ a.r + W = a.f + P ∧ a.f < u ∧ u ≤ a.f + 2 * d
  | .wait =>
    if a.level then a.r = S + (j + 1) * P ∧ a.r + W = a.f + P ∧ a.r < u + P ∧ u ≤ a.f
    else a.r = S + j * P ∧ a.f = a.r + W ∧ (j = 0 ∨ a.r + W < u + P) ∧ u ≤ a.r

theorem steady_step {S P W d u t j : Nat} {a : A} (h : Steady S P W d u j a) (h1 : u ≤ t) (h2 : t ≤ u + d) (hw : 4 * d ≤ W) (hg : W + 4 * d ≤ P) :
    ∃ j', Steady S P W d t j' (a.step S P W t) ∧
      ((a.fsm = .wait ∧ a.level = false ∧ a.r < t ∧ j' = j) ∨ (a.fsm = .fall2 ∧ j' = j + 1) ∨
        (¬ (a.fsm = .wait ∧ a.level = false ∧ a.r < t) ∧ a.fsm ≠ .fall2 ∧ j' = j)) := by
  obtain ⟨fsm, r, f, level, locked, out⟩ := a
  have e1 : (j + 1) * P = j * P + P := by rw [Nat.add_mul, Nat.one_mul]
  have e2 : (j + 1 + 1) * P = j * P + P + P := by rw [Nat.add_mul, Nat.one_mul, e1]
  cases fsm with
  | idle => exact h.elim
  | rise1 => 
    obtain ⟨g1, g2, g3, g4, g5⟩ := h
    dsimp only at *
    exact ⟨j, ⟨g1, g2, g3, show r < t by omega, show t ≤ r + 2 * d by omega⟩, Or.inr (Or.inr ⟨by simp, by simp, rfl⟩)⟩
  | rise2 =>
    obtain ⟨g1, g2, g3, g4, g5⟩ := h
    dsimp only at *
    subst g1
    refine ⟨j, ?_, Or.inr (Or.inr ⟨by simp, by simp, rfl⟩)⟩
    simp only [Steady, A.step, if_true]
    omega
  | fall1 =>
    obtain ⟨g1, g2, g3, g4, g5⟩ := h
    dsimp only at *
    exact ⟨j, ⟨g1, g2, g3, show f < t by omega, show t ≤ f + 2 * d by omega⟩, Or.inr (Or.inr ⟨by simp, by simp, rfl⟩)⟩
  | fall2 =>
    obtain ⟨g1, g2, g3, g4, g5⟩ := h
    dsimp only at *
    subst g1
    refine ⟨j + 1, ?_, Or.inr (Or.inl ⟨rfl, rfl⟩)⟩
    simp only [Steady, A.step, Bool.false_eq_true, if_false]
    exact ⟨g2, trivial, Or.inr (by omega), by omega⟩
  | wait =>
    cases level with
    | true =>
      simp only [Steady, if_true] at h
      obtain ⟨g1, g2, g3, g4⟩ := h
      refine ⟨j, ?_, Or.inr (Or.inr ⟨by simp, by simp, rfl⟩)⟩
      simp only [A.step]
      rw [if_neg (by omega)]
      split
      · simp only [Steady]; refine ⟨trivial, ?_⟩; omega
      · simp only [Steady, if_true]; omega
    | false =>
      simp only [Steady, Bool.false_eq_true, if_false] at h
      obtain ⟨g1, g2, g3, g4⟩ := h
      by_cases hr : r < t
      · refine ⟨j, ?_, Or.inl ⟨rfl, rfl, hr, rfl⟩⟩
        simp only [A.step]
        rw [if_pos hr]
        simp only [Steady]
        refine ⟨trivial, ?_⟩
        omega
      · refine ⟨j, ?_, Or.inr (Or.inr ⟨by simp [hr], by simp, rfl⟩)⟩
        simp only [A.step]
        rw [if_neg hr, if_neg (by omega)]
        simp only [Steady, Bool.false_eq_true, if_false]
        omega

theorem pulse_unique {S P W j u : Nat} (h1 : S + j * P + W < u) (h2 : u ≤ S + (j + 1) * P) : ¬ Pulse S P W u := by
  rintro ⟨i, i1, i2⟩
  rcases Nat.lt_or_ge j i with h | h
  · have := Nat.mul_le_mul_right P (show j + 1 ≤ i by omega)
    omega
  · have := Nat.mul_le_mul_right P h
    omega

/-- in step with the clock the level is the wanted one -/
theorem steady_level {S P W d u j : Nat} {a : A} (h : Steady S P W d u j a) (hw : 4 * d ≤ W) (hg : W + 4 * d ≤ P) :
    (a.level = true → Pulse S P W u ∧ S + j * P < u ∧ u ≤ S + j * P + W) ∧ (a.level = false → ¬ Pulse S P W u) := by
  obtain ⟨fsm, r, f, level, locked, out⟩ := a
  have e1 : (j + 1) * P = j * P + P := by rw [Nat.add_mul, Nat.one_mul]
  have yes : S + j * P < u → u ≤ S + j * P + W → Pulse S P W u ∧ S + j * P < u ∧ u ≤ S + j * P + W := fun h h' => ⟨⟨j, h, h'⟩, h, h'⟩
  cases fsm with
  | idle => exact h.elim
  | rise1 =>
    obtain ⟨g1, g2, g3, g4, g5⟩ := h
    dsimp only at *
    exact ⟨fun _ => yes (by omega) (by omega), fun e => (by rw [g1] at e; cases e)⟩
  | rise2 =>
    obtain ⟨g1, g2, g3, g4, g5⟩ := h
    dsimp only at *
    exact ⟨fun _ => yes (by omega) (by omega), fun e => (by rw [g1] at e; cases e)⟩
  | fall1 =>
    obtain ⟨g1, g2, g3, g4, g5⟩ := h
    dsimp only at *
    exact ⟨fun e => (by rw [g1] at e; cases e), fun _ => pulse_unique (j := j) (by omega) (by omega)⟩
  | fall2 =>
    obtain ⟨g1, g2, g3, g4, g5⟩ := h
    dsimp only at *
    exact ⟨fun e => (by rw [g1] at e; cases e), fun _ => pulse_unique (j := j) (by omega) (by omega)⟩
  | wait =>
    cases level with
    | true =>
      simp only [Steady, if_true] at h
      exact ⟨fun _ => yes (by omega) (by omega), fun e => (by cases e)⟩
    | false =>
      simp only [Steady, Bool.false_eq_true, if_false] at h
      refine ⟨fun e => (by cases e), fun _ => ?_⟩
      obtain ⟨g1, g2, g3, g4⟩ := h
      cases j with
      | zero =>
        rintro ⟨i, i1, i2⟩
        have := Nat.zero_le (i * P)
        omega
      | succ j =>
        have e1 : (j + 1) * P = j * P + P := by rw [Nat.add_mul, Nat.one_mul]
        exact pulse_unique (j := j) (by omega) (by omega)

/-- not yet in step: nothing is put out -/
def Unl (S P W u : Nat) (a : A) : Prop :=
  a.locked = false ∧ a.out = false ∧ ∃ j, a.r = S + j * P ∧
  match a.fsm with
  | .idle => False
  | .fall1 | .fall2 => a.level = false
  | .rise1 | .rise2 => a.level = true ∧ a.r < u ∧ ∃ g, g ≤ j ∧ a.f = S + g * P + W
  | .wait => if a.level then a.r < u + P ∧ ∃ g, g + 1 ≤ j ∧ a.f = S + g * P + W else a.f = a.r + W

def Loc (S P W d u : Nat) (a : A) : Prop :=
  a.locked = true ∧ (∃ j, Steady S P W d u j a) ∧ (a.fsm = .rise1 ∨ a.fsm = .rise2 → a.out = true) ∧ (a.level = false → a.out = false)

theorem unl_step {S P W d u t : Nat} {a : A} (h : Unl S P W u a) (h1 : u ≤ t) (hw : W ≤ P) :
    Unl S P W t (a.step S P W t) ∨ Loc S P W d t (a.step S P W t) := by
  obtain ⟨fsm, r, f, level, locked, out⟩ := a
  obtain ⟨g1, g2, j, g3, g4⟩ := h
  dsimp only at g1 g2 g3 g4
  subst g1 g2
  have e1 : (j + 1) * P = j * P + P := by rw [Nat.add_mul, Nat.one_mul]
  cases fsm with
  | idle => exact g4.elim
  | fall1 => exact Or.inl ⟨rfl, rfl, j, g3, g4⟩
  | fall2 =>
    dsimp only at g4
    subst g4
    exact Or.inl ⟨rfl, rfl, j, g3, rfl⟩
  | rise1 =>
    obtain ⟨g4, g5, g, g6, g7⟩ := g4
    exact Or.inl ⟨rfl, rfl, j, g3, g4, show r < t by omega, g, g6, g7⟩
  | rise2 =>
    obtain ⟨g4, g5, g, g6, g7⟩ := g4
    subst g4
    refine Or.inl ⟨rfl, rfl, j + 1, show r + P = S + (j + 1) * P by omega, ?_⟩
    show (if true = true then r + P < t + P ∧ ∃ g, g + 1 ≤ j + 1 ∧ f = S + g * P + W else _)
    rw [if_pos rfl]
    exact ⟨by omega, g, by omega, g7⟩
  | wait =>
    simp only [A.step]
    cases level with
    | false =>
      simp only [Bool.false_eq_true, if_false] at g4
      split
      · next hr => exact Or.inl ⟨rfl, rfl, j, g3, rfl, hr, j, Nat.le_refl _, by dsimp only; omega⟩
      · split
        · exact Or.inl ⟨rfl, rfl, j, g3, rfl⟩
        · exact Or.inl ⟨rfl, rfl, j, g3, g4⟩
    | true =>
      simp only [if_true] at g4
      obtain ⟨g5, g, g6, g7⟩ := g4
      split
      · next hr => exact Or.inl ⟨rfl, rfl, j, g3, rfl, hr, g, by omega, g7⟩
      · split
        · exact Or.inl ⟨rfl, rfl, j, g3, rfl⟩
        · have hj : j = g + 1 := by
            apply Classical.byContradiction
            intro hc
            have := Nat.mul_le_mul_right P (show g + 1 + 1 ≤ j by omega)
            rw [Nat.add_mul, Nat.add_mul, Nat.one_mul] at this
            omega
          subst hj
          rw [Nat.add_mul, Nat.one_mul] at g3
          refine Or.inr ⟨rfl, ⟨g, ?_⟩, by simp, by simp⟩
          simp only [Steady, if_true, Nat.add_mul, Nat.one_mul]
          omega

theorem loc_step {S P W d u t : Nat} {a : A} (h : Loc S P W d u a) (h1 : u ≤ t) (h2 : t ≤ u + d) (hw : 4 * d ≤ W) (hg : W + 4 * d ≤ P) :
    Loc S P W d t (a.step S P W t) := by
  obtain ⟨g1, ⟨j, g2⟩, g3, g4⟩ := h
  obtain ⟨j', k1, -⟩ := steady_step g2 h1 h2 hw hg
  obtain ⟨fsm, r, f, level, locked, out⟩ := a
  dsimp only at g1 g3 g4
  subst g1
  refine ⟨?_, ⟨j', k1⟩, ?_, ?_⟩
  · cases fsm <;> simp only [A.step]
    · exact g2.elim
    · split
      · rfl
      · split
        · rfl
        · rfl
  · cases fsm <;> simp only [A.step]
    · simp
    · simpa using g3
    · simp
    · simp
    · simp
    · split
      · simp
      · split
        · simp
        · simp
  · cases fsm <;> simp only [A.step]
    · simp
    · exact g4
    · exact g4
    · exact g4
    · exact g4
    · split
      · simp
      · split
        · simp
        · exact g4

/-- the machine from the first cycle on, `T n` being the time it looks at in the `n`th -/
def aseq (S P W : Nat) (T : Nat → Nat) : Nat → A
  | 0 => ⟨.fall1, S, 0, false, false, false⟩
  | n + 1 => (aseq S P W T n).step S P W (T n)

theorem aseq_bound (S P W : Nat) {T : Nat → Nat} (hT : ∀ n, T n ≤ T (n + 1)) (n : Nat) :
    (aseq S P W T n).fsm ≠ .idle ∧ (aseq S P W T n).r ≤ max S (T n) + P ∧
    ((aseq S P W T n).fsm = .rise1 ∨ (aseq S P W T n).fsm = .rise2 → (aseq S P W T n).r ≤ max S (T n)) := by
  induction n with
  | zero => simp [aseq]; omega
  | succ n ih =>
    have ht := hT n
    rw [aseq]
    generalize aseq S P W T n = a at ih
    obtain ⟨fsm, r, f, level, locked, out⟩ := a
    obtain ⟨i1, i2, i3⟩ := ih
    dsimp only at i1 i2 i3
    cases fsm with
    | idle => exact absurd rfl i1
    | rise1 => have := i3 (by simp); simp only [A.step]; refine ⟨by simp, ?_, fun _ => ?_⟩ <;> omega
    | rise2 => have := i3 (by simp); simp only [A.step]; refine ⟨by simp, ?_, by simp⟩; omega
    | fall1 => simp only [A.step]; refine ⟨by simp, ?_, by simp⟩; omega
    | fall2 => simp only [A.step]; refine ⟨by simp, ?_, by simp⟩; omega
    | wait =>
      simp only [A.step]
      split
      · refine ⟨by simp, ?_, fun _ => ?_⟩ <;> (dsimp only; omega)
      · split
        · refine ⟨by simp, ?_, by simp⟩; dsimp only; omega
        · refine ⟨by simp, ?_, by simp⟩; dsimp only; omega

theorem tick_time {c : Cfg} {k : Reg} {i : In} : (k.tick c i).time = ofTs i.ts := by
  simp only [Reg.tick]
  split <;> rfl

/-- the registers follow the machine with plain numbers -/
theorem rep_run {S P W d : Nat} {c : Cfg} {k : Reg} {ins : Nat → In} (hR : Running S P W d ins) (hk : k.fsm = .idle)
    (hS : k.start.Ok ∧ k.start.tot = S) (hP : k.period.Ok ∧ k.period.tot = P) (hW : k.width.Ok ∧ k.width.tot = W) (n : Nat) :
    Rep S P W (at' c k ins (n + 1)) (aseq S P W (fun n => (ins n).time) n) := by
  have hT := fun n => (hR.up n).1
  induction n with
  | zero =>
    obtain ⟨i1, i2, i3, i4, i5⟩ := hR.quiet 0
    simp only [at', aseq, Reg.tick, Reg.next, hk, i1, i2, i3, i4, i5, Option.isSome_none, Bool.or_false, Bool.false_eq_true, if_false]
    exact ⟨rfl, fun _ => rfl, fun _ => rfl, fun _ => rfl, hS, hP, hW, fun _ => hS, fun h => (by simp at h), fun h => (by cases h), fun h => (by cases h)⟩
  | succ n ih =>
    have hb := aseq_bound S P W hT n
    have hroom := hR.room n
    have ht : (at' c k ins (n + 1)).time = ofTs (ins n).ts := tick_time
    have hok : (at' c k ins (n + 1)).time.Ok := by
      rw [ht]
      exact ⟨Nat.mod_lt _ (by decide), hR.proper n⟩
    have := rep_step ih hok (hR.quiet (n + 1)) (hR.on (n + 1)) (c := c) (fun h => by have := hb.2.2 (Or.inr h); omega) (fun h => by have := hb.2.1; omega)
    rw [ht] at this
    exact this

theorem good_seq {S P W d : Nat} {T : Nat → Nat} (hT : ∀ n, T n ≤ T (n + 1) ∧ T (n + 1) ≤ T n + d) (hw : 4 * d ≤ W) (hg : W + 4 * d ≤ P) (n : Nat) :
    Unl S P W (T n) (aseq S P W T (n + 1)) ∨ Loc S P W d (T n) (aseq S P W T (n + 1)) := by
  induction n with
  | zero => exact Or.inl ⟨rfl, rfl, 0, (Nat.zero_mul P).symm ▸ rfl, rfl⟩
  | succ n ih =>
    rw [aseq]
    rcases ih with ih | ih
    · exact unl_step ih (hT n).1 (by omega)
    · exact Or.inr (loc_step ih (hT n).1 (hT n).2 hw hg)

/-- once locked -/
theorem late_seq {S P W d : Nat} {T : Nat → Nat} (hT : ∀ n, T n ≤ T (n + 1) ∧ T (n + 1) ≤ T n + d) (hw : 4 * d ≤ W) (hg : W + 4 * d ≤ P) {n : Nat}
    (hn : (aseq S P W T (n + 1)).locked = true) (m : Nat) :
    Loc S P W d (T (n + m)) (aseq S P W T (n + m + 1)) ∧
    ((aseq S P W T (n + m + 1)).out = (aseq S P W T (n + m + 1)).level ∨
      ((aseq S P W T (n + m + 1)).fsm = .wait ∧ (aseq S P W T (n + m + 1)).level = true ∧ (aseq S P W T (n + m + 1)).f ≤ T n + P)) := by
  induction m with
  | zero =>
    rcases good_seq (S := S) hT hw hg n with h | h
    · rw [h.1] at hn; cases hn
    · refine ⟨h, ?_⟩
      rw [Nat.add_zero]
      obtain ⟨g1, ⟨j, g2⟩, g3, g4⟩ := h
      generalize aseq S P W T (n + 1) = a at *
      obtain ⟨fsm, r, f, level, locked, out⟩ := a
      dsimp only at g1 g3 g4 hn
      cases level with
      | false => exact Or.inl (g4 rfl)
      | true =>
        cases fsm with
        | idle => exact g2.elim
        | rise1 => exact Or.inl (g3 (by simp))
        | rise2 => exact Or.inl (g3 (by simp))
        | fall1 => exact absurd g2.1 (by simp)
        | fall2 => exact absurd g2.1 (by simp)
        | wait =>
          simp only [Steady, if_true] at g2
          exact Or.inr ⟨rfl, rfl, by dsimp only; omega⟩
  | succ m ih =>
    obtain ⟨h, h'⟩ := ih
    have hs := loc_step h (hT (n + m)).1 (hT (n + m)).2 hw hg
    refine ⟨hs, ?_⟩
    show ((aseq S P W T (n + m + 1)).step S P W (T (n + m + 1))).out = ((aseq S P W T (n + m + 1)).step S P W (T (n + m + 1))).level ∨
      (((aseq S P W T (n + m + 1)).step S P W (T (n + m + 1))).fsm = .wait ∧ ((aseq S P W T (n + m + 1)).step S P W (T (n + m + 1))).level = true ∧
        ((aseq S P W T (n + m + 1)).step S P W (T (n + m + 1))).f ≤ T n + P)
    obtain ⟨g1, ⟨j, g2⟩, g3, g4⟩ := h
    clear hs
    generalize aseq S P W T (n + m + 1) = a at *
    generalize T (n + m + 1) = t at *
    obtain ⟨fsm, r, f, level, locked, out⟩ := a
    dsimp only at g1 g3 g4 h'
    subst g1
    cases fsm with
    | idle => exact g2.elim
    | rise1 => rcases h' with h' | h'; exact Or.inl h'; cases h'.1
    | rise2 => rcases h' with h' | h'; exact Or.inl h'; cases h'.1
    | fall1 => rcases h' with h' | h'; exact Or.inl h'; cases h'.1
    | fall2 => rcases h' with h' | h'; exact Or.inl h'; cases h'.1
    | wait =>
      simp only [A.step]
      split
      · exact Or.inl rfl
      · split
        · exact Or.inl rfl
        · rcases h' with h' | h'
          · exact Or.inl h'
          · exact Or.inr h'

/-! ### a start in the future -/

def Fut (S P W d u : Nat) (a : A) : Prop :=
  ∃ j, Steady S P W d u j a ∧
  match a.fsm with
  | .idle => False
  | .fall1 | .fall2 => a.locked = true ∧ a.out = false
  | .rise1 | .rise2 => a.locked = decide (1 ≤ j) ∧ a.out = decide (1 ≤ j)
  | .wait => if a.level then a.out = decide (1 ≤ j) ∧ (a.locked = true ∨ (j = 0 ∧ u ≤ S + 3 * d)) else a.locked = decide (1 ≤ j) ∧ a.out = false

theorem fut_step {S P W d u t : Nat} {a : A} (h : Fut S P W d u a) (h1 : u ≤ t) (h2 : t ≤ u + d) (hw : 4 * d ≤ W) (hg : W + 4 * d ≤ P) :
    Fut S P W d t (a.step S P W t) := by
  obtain ⟨j, g, g'⟩ := h
  obtain ⟨j', k1, k2⟩ := steady_step g h1 h2 hw hg
  refine ⟨j', k1, ?_⟩
  obtain ⟨fsm, r, f, level, locked, out⟩ := a
  dsimp only at k2
  cases fsm with
  | idle => exact g.elim
  | rise1 =>
    have : j' = j := by rcases k2 with h | h | h; cases h.1; cases h.1; exact h.2.2
    subst this
    exact g'
  | rise2 =>
    have : j' = j := by rcases k2 with h | h | h; cases h.1; cases h.1; exact h.2.2
    subst this
    simp only [Steady] at g
    obtain ⟨s1, s2, s3, s4, s5⟩ := g
    obtain ⟨g1, g2⟩ := g'
    dsimp only at g1 g2
    subst s1 g1 g2
    simp only [A.step, if_true]
    refine ⟨trivial, ?_⟩
    cases j' with
    | zero => refine Or.inr ⟨rfl, ?_⟩; rw [Nat.zero_mul] at s2; omega
    | succ j => simp
  | fall1 => exact g'
  | fall2 =>
    have : j' = j + 1 := by rcases k2 with h | h | h; cases h.1; exact h.2; exact absurd rfl h.2.1
    subst this
    have := g.1
    dsimp only at this
    subst this
    obtain ⟨g1, g2⟩ := g'
    dsimp only at g1 g2
    subst g1 g2
    simp [A.step]
  | wait =>
    have : j' = j := by rcases k2 with h | h | h; exact h.2.2.2; cases h.1; exact h.2.2
    subst this
    cases level with
    | true =>
      simp only [Steady, if_true] at g g'
      obtain ⟨s1, s2, s3, s4⟩ := g
      obtain ⟨g1, g2⟩ := g'
      simp only [A.step]
      rw [if_neg (by omega)]
      by_cases hf : f < t
      · rw [if_pos hf]
        simp only
        rcases g2 with g2 | ⟨g2, g3⟩
        · exact ⟨g2, trivial⟩
        · subst g2
          rw [Nat.zero_add, Nat.one_mul] at s1
          omega
      · rw [if_neg hf]
        simp only [if_true]
        exact ⟨g1, Or.inl (by simp)⟩
    | false =>
      simp only [Bool.false_eq_true, if_false] at g'
      simp only [Steady, Bool.false_eq_true, if_false] at g
      obtain ⟨g1, g2⟩ := g'
      subst g1 g2
      simp only [A.step]
      by_cases hr : r < t
      · rw [if_pos hr]
        simp
      · rw [if_neg hr, if_neg (by omega)]
        simp

theorem fut_out {S P W d u : Nat} {a : A} (h : Fut S P W d u a) (hw : 4 * d ≤ W) (hg : W + 4 * d ≤ P) :
    (a.out = true ↔ Pulse S P W u ∧ S + P < u) := by
  obtain ⟨j, g, g'⟩ := h
  obtain ⟨l1, l2⟩ := steady_level g hw hg
  have hlow : a.level = false → a.out = false → (a.out = true ↔ Pulse S P W u ∧ S + P < u) := fun e e' => by
    rw [e']
    exact ⟨fun h => (by cases h), fun h => absurd h.1 (l2 e)⟩
  have hhigh : a.level = true → a.out = decide (1 ≤ j) → (a.out = true ↔ Pulse S P W u ∧ S + P < u) := fun e e' => by
    obtain ⟨p1, p2, p3⟩ := l1 e
    rw [e', decide_eq_true_eq]
    constructor
    · intro hj
      have := Nat.mul_le_mul_right P hj
      exact ⟨p1, by omega⟩
    · rintro ⟨-, q⟩
      cases j with
      | zero => omega
      | succ j => omega
  obtain ⟨fsm, r, f, level, locked, out⟩ := a
  cases fsm with
  | idle => exact g.elim
  | rise1 => exact hhigh g.1 g'.2
  | rise2 => exact hhigh g.1 g'.2
  | fall1 => exact hlow g.1 g'.2
  | fall2 => exact hlow g.1 g'.2
  | wait =>
    cases level with
    | true => simp only [if_true] at g'; exact hhigh rfl g'.1
    | false => simp only [Bool.false_eq_true, if_false] at g'; exact hlow rfl g'.2

theorem fut_seq {S P W d : Nat} {T : Nat → Nat} (hT : ∀ n, T n ≤ T (n + 1) ∧ T (n + 1) ≤ T n + d) (hw : 4 * d ≤ W) (hg : W + 4 * d ≤ P)
    (hS : T 1 ≤ S) (n : Nat) : Fut S P W d (T (n + 1)) (aseq S P W T (n + 2)) := by
  induction n with
  | zero =>
    refine ⟨0, ?_, ?_⟩
    · simp only [aseq, A.step, Steady, Bool.false_eq_true, if_false]
      exact ⟨by omega, trivial, by simp, hS⟩
    · simp only [aseq, A.step, Bool.false_eq_true, if_false]
      exact ⟨rfl, trivial⟩
  | succ n ih => exact fut_step ih (hT (n + 1)).1 (hT (n + 1)).2 hw hg

end Corundum.Perout
