import Verif.Spec.TdmaSched
import Verif.Proof.Perout
/-! Proofs about the slots of a TDMA schedule. -/
namespace Corundum.TdmaSched

theorem after_iff {a b : Tm} (ha : a.Ok) (hb : b.Ok) : after a b = decide (b.tot < a.tot) := by
  have := Perout.after_q (s := a.s) (s' := b.s) ha.2 hb.2
  have e : decide (b.tot < a.tot) = decide (b.s < a.s ∨ a.s = b.s ∧ b.x < a.x) := decide_eq_decide.2 this
  rw [e]
  simp [after, Bool.decide_or, Bool.decide_and]
  rfl

theorem sum_spec {a b : Tm} (ha : a.Ok) (hb : b.Ok) (h : a.tot + b.tot < 2 ^ 48 * 1000000000) :
    (sum a.s b.s (incOf a.x b.x) (ovfOf a.x b.x)).Ok ∧ (sum a.s b.s (incOf a.x b.x) (ovfOf a.x b.x)).tot = a.tot + b.tot := by
  obtain ⟨s, x⟩ := a
  obtain ⟨s', x'⟩ := b
  obtain ⟨h1, h2⟩ := ha
  obtain ⟨h3, h4⟩ := hb
  obtain ⟨c1, c2⟩ := Perout.sum_q h2 h4 h
  clear h
  simp only [Tm.tot, sum, incOf, ovfOf, Tm.Ok] at *
  by_cases hlt : x + x' < 1000000000
  · have e1 : (x + x' + 2 ^ 31 - 1000000000) % 2 ^ 31 = x + x' + 2 ^ 31 - 1000000000 := Nat.mod_eq_of_lt (by omega)
    have hs := c1 hlt
    have e2 : (s + s') % 2 ^ 48 = s + s' := Nat.mod_eq_of_lt hs
    have e3 : (x + x') % 2 ^ 30 = x + x' := Nat.mod_eq_of_lt (by omega)
    have e4 : ¬ (x + x' + 2 ^ 31 - 1000000000) / 2 ^ 30 % 2 = 0 := by omega
    simp only [e1, e4, if_false, e2, e3]
    exact ⟨⟨hs, hlt⟩, Perout.add_q s s' x x' _⟩
  · have e1 : (x + x' + 2 ^ 31 - 1000000000) % 2 ^ 31 = x + x' - 1000000000 := by omega
    have hs := c2 hlt
    have e2 : (s + s' + 1) % 2 ^ 48 = s + s' + 1 := Nat.mod_eq_of_lt hs
    have e4 : (x + x' - 1000000000) / 2 ^ 30 % 2 = 0 := by omega
    simp only [e1, e4, if_true, e2]
    exact ⟨⟨hs, by omega⟩, Perout.add_q' s s' x x' _ (by omega)⟩

/-! ### the machine with plain numbers -/

structure A where
  fsm : Fsm
  first : Nat
  next : Nat
  aend : Nat
  index : Nat
  lockedInt : Bool
  locked : Bool
  running : Bool
  sched : Bool
  start : Bool
  stop : Bool
  active : Bool

def A.onWait (N t : Nat) (a : A) : A :=
  if a.first < t then
    { a with
      sched := a.lockedInt, index := 0, start := a.lockedInt, stop := a.active, active := a.lockedInt, running := true, locked := a.lockedInt
      fsm := .sched1 }
  else if a.next < t then
    { a with sched := false, index := (a.index + 1) % N, start := a.locked, stop := a.active, active := a.locked, fsm := .slot1 }
  else if a.active = true ∧ a.aend < t then { a with sched := false, start := false, stop := true, active := false }
  else { a with sched := false, start := false, stop := false, lockedInt := a.running }

def A.step (P T L N t : Nat) (a : A) : A :=
  let z := { a with sched := false, start := false, stop := false }
  match a.fsm with
  | .idle => a
  | .sched1 => { z with fsm := .sched2 }
  | .sched2 => { z with first := a.first + P, next := a.first, fsm := .slot1 }
  | .slot1 => { z with fsm := .slot2 }
  | .slot2 => { z with aend := a.next + L, fsm := .slot3 }
  | .slot3 => { z with next := a.next + T, fsm := .wait }
  | .wait => a.onWait N t

structure Rep (P T L : Nat) (k : Reg) (a : A) : Prop where
  fsm : k.fsm = a.fsm
  flags : k.index = a.index ∧ k.lockedInt = a.lockedInt ∧ k.locked = a.locked ∧ k.running = a.running ∧ k.schedStart = a.sched ∧
    k.slotStart = a.start ∧ k.slotEnd = a.stop ∧ k.slotActive = a.active
  period : k.period.Ok ∧ k.period.tot = P
  slot : k.slot.Ok ∧ k.slot.tot = T
  active : k.active.Ok ∧ k.active.tot = L
  first : k.first.Ok ∧ k.first.tot = a.first
  next : k.next.Ok ∧ k.next.tot = a.next
  aend : k.fsm = .wait → k.slotActive = true → k.aend.Ok ∧ k.aend.tot = a.aend
  aend3 : k.fsm = .slot3 → k.aend.Ok ∧ k.aend.tot = a.aend
  s2 : k.fsm = .sched2 → k.inc = incOf k.first.x k.period.x ∧ k.ovf = ovfOf k.first.x k.period.x
  l2 : k.fsm = .slot2 → k.inc = incOf k.next.x k.active.x ∧ k.ovf = ovfOf k.next.x k.active.x
  l3 : k.fsm = .slot3 → k.inc = incOf k.next.x k.slot.x ∧ k.ovf = ovfOf k.next.x k.slot.x

theorem rep_step {P T L : Nat} {c : Cfg} {k : Reg} {a : A} (h : Rep P T L k a) (ht : k.time.Ok) {i : In}
    (hi : i.rst = false ∧ i.step = false ∧ i.start = none ∧ i.period = none ∧ i.slot = none ∧ i.active = none) (he : i.enable = true) (hn : a.fsm ≠ .idle)
    (b1 : a.fsm = .sched2 → a.first + P < 2 ^ 48 * 1000000000) (b2 : a.fsm = .slot2 → a.next + L < 2 ^ 48 * 1000000000)
    (b3 : a.fsm = .slot3 → a.next + T < 2 ^ 48 * 1000000000) :
    Rep P T L (k.tick c i) (a.step P T L (2 ^ c.iw) k.time.tot) := by
  obtain ⟨h1, ⟨f1, f2, f3, f4, f5, f6, f7, f8⟩, h2, h3, h4, h5, h6, h7, h7', h8, h9, h10⟩ := h
  obtain ⟨i1, i2, i3, i4, i5, i6⟩ := hi
  obtain ⟨fsm, time, first, next, aend, start, period, slot, active, inc, ovf, locked, lockedInt, error, running, sch, idx, st, en, act⟩ := k
  obtain ⟨fsm', first', next', aend', index', lockedInt', locked', running', sched', start', stop', active'⟩ := a
  dsimp only at *
  subst h1 f1 f2 f3 f4 f5 f6 f7 f8
  cases fsm with
  | idle => exact absurd rfl hn
  | sched1 =>
    simp only [Reg.tick, Reg.next', A.step, i1, i2, i3, i4, i5, i6, Option.isSome_none, Bool.or_false, Bool.false_eq_true, if_false]
    exact ⟨rfl, ⟨rfl, rfl, rfl, rfl, rfl, rfl, rfl, rfl⟩, h2, h3, h4, h5, h6, (fun h => by cases h), (fun h => by cases h), fun _ => ⟨rfl, rfl⟩,
      (fun h => by cases h), (fun h => by cases h)⟩
  | sched2 =>
    simp only [Reg.tick, Reg.next', A.step, i1, i2, i3, i4, i5, i6, Option.isSome_none, Bool.or_false, Bool.false_eq_true, if_false]
    obtain ⟨e1, e2⟩ := h8 rfl
    refine ⟨rfl, ⟨rfl, rfl, rfl, rfl, rfl, rfl, rfl, rfl⟩, h2, h3, h4, ?_, h5, (fun h => by cases h), (fun h => by cases h), (fun h => by cases h),
      (fun h => by cases h), (fun h => by cases h)⟩
    have := sum_spec h5.1 h2.1 (by rw [h5.2, h2.2]; exact b1 rfl)
    rw [h5.2, h2.2] at this
    dsimp only
    rw [e1, e2]
    exact this
  | slot1 =>
    simp only [Reg.tick, Reg.next', A.step, i1, i2, i3, i4, i5, i6, Option.isSome_none, Bool.or_false, Bool.false_eq_true, if_false]
    exact ⟨rfl, ⟨rfl, rfl, rfl, rfl, rfl, rfl, rfl, rfl⟩, h2, h3, h4, h5, h6, (fun h => by cases h), (fun h => by cases h), (fun h => by cases h),
      fun _ => ⟨rfl, rfl⟩, (fun h => by cases h)⟩
  | slot2 =>
    simp only [Reg.tick, Reg.next', A.step, i1, i2, i3, i4, i5, i6, Option.isSome_none, Bool.or_false, Bool.false_eq_true, if_false]
    obtain ⟨e1, e2⟩ := h9 rfl
    refine ⟨rfl, ⟨rfl, rfl, rfl, rfl, rfl, rfl, rfl, rfl⟩, h2, h3, h4, h5, h6, (fun h => by cases h), fun _ => ?_, (fun h => by cases h),
      (fun h => by cases h), fun _ => ⟨rfl, rfl⟩⟩
    have := sum_spec h6.1 h4.1 (by rw [h6.2, h4.2]; exact b2 rfl)
    rw [h6.2, h4.2] at this
    dsimp only
    rw [e1, e2]
    exact this
  | slot3 =>
    simp only [Reg.tick, Reg.next', A.step, i1, i2, i3, i4, i5, i6, Option.isSome_none, Bool.or_false, Bool.false_eq_true, if_false]
    obtain ⟨e1, e2⟩ := h10 rfl
    refine ⟨rfl, ⟨rfl, rfl, rfl, rfl, rfl, rfl, rfl, rfl⟩, h2, h3, h4, h5, ?_, fun _ _ => h7' rfl, (fun h => by cases h), (fun h => by cases h),
      (fun h => by cases h), (fun h => by cases h)⟩
    have := sum_spec h6.1 h3.1 (by rw [h6.2, h3.2]; exact b3 rfl)
    rw [h6.2, h3.2] at this
    dsimp only
    rw [e1, e2]
    exact this
  | wait =>
    have h7 := h7 rfl
    simp only [Reg.tick, Reg.next', A.step, Reg.onWait, A.onWait, i1, i2, i3, i4, i5, i6, he, Option.isSome_none, Bool.or_false, Bool.false_eq_true, if_false,
      Bool.true_and, after_iff ht h5.1, after_iff ht h6.1, decide_eq_true_eq, h5.2, h6.2]
    split
    · exact ⟨rfl, ⟨rfl, rfl, rfl, rfl, rfl, rfl, rfl, rfl⟩, h2, h3, h4, h5, h6, (fun h => by cases h), (fun h => by cases h), (fun h => by cases h),
        (fun h => by cases h), (fun h => by cases h)⟩
    · split
      · exact ⟨rfl, ⟨rfl, rfl, rfl, rfl, rfl, rfl, rfl, rfl⟩, h2, h3, h4, h5, h6, (fun h => by cases h), (fun h => by cases h), (fun h => by cases h),
          (fun h => by cases h), (fun h => by cases h)⟩
      · cases hact : act with
        | false =>
          simp only [Bool.false_and, Bool.false_eq_true, false_and, if_false]
          exact ⟨rfl, ⟨rfl, rfl, rfl, rfl, rfl, rfl, rfl, rfl⟩, h2, h3, h4, h5, h6, (fun _ h => by cases h), (fun h => by cases h), (fun h => by cases h),
            (fun h => by cases h), (fun h => by cases h)⟩
        | true =>
          have h7 := h7 hact
          simp only [Bool.true_and, after_iff ht h7.1, decide_eq_true_eq, true_and, h7.2]
          split
          · exact ⟨rfl, ⟨rfl, rfl, rfl, rfl, rfl, rfl, rfl, rfl⟩, h2, h3, h4, h5, h6, (fun _ h => by cases h), (fun h => by cases h), (fun h => by cases h),
              (fun h => by cases h), (fun h => by cases h)⟩
          · exact ⟨rfl, ⟨rfl, rfl, rfl, rfl, rfl, rfl, rfl, rfl⟩, h2, h3, h4, h5, h6, (fun _ _ => h7), (fun h => by cases h), (fun h => by cases h),
              (fun h => by cases h), (fun h => by cases h)⟩

/-! ### the grid of slots; `u` is the time looked at last -/

/-- beginning of slot `j` -/
def B (S T j : Nat) : Nat := S + j * T

theorem B_succ (S T j : Nat) : B S T (j + 1) = B S T j + T := by unfold B; rw [Nat.add_mul]; omega
theorem B_add (S T j n : Nat) : B S T (j + n) = B S T j + n * T := by unfold B; rw [Nat.add_mul]; omega
theorem B_mono (S T : Nat) {i j : Nat} (h : i ≤ j) : B S T i ≤ B S T j := by
  have := Nat.mul_le_mul_right T h
  unfold B
  omega
theorem B_lt {S T i j : Nat} (h : B S T i < B S T j) : i < j := by
  apply Classical.byContradiction
  intro hn
  have := B_mono S T (Nat.le_of_not_lt hn)
  omega

theorem B_slot {S T j u : Nat} (h1 : B S T j < u) (h2 : u ≤ B S T (j + 1)) : slotNo S T u = j ∧ u - S - 1 = j * T + (u - B S T j - 1) := by
  have e : u - S - 1 = j * T + (u - B S T j - 1) := by unfold B at *; omega
  refine ⟨?_, e⟩
  rw [B_succ] at h2
  unfold slotNo
  rw [e]
  have : u - B S T j - 1 < T := by omega
  have hT : 0 < T := by omega
  rw [Nat.mul_comm, Nat.mul_add_div hT, Nat.div_eq_of_lt this, Nat.add_zero]

theorem B_active {S T L j u : Nat} (h1 : B S T j < u) (h2 : u ≤ B S T (j + 1)) : isActive S T L u = decide (u ≤ B S T j + L) := by
  obtain ⟨-, e⟩ := B_slot h1 h2
  rw [B_succ] at h2
  unfold isActive
  rw [e, Nat.mul_comm, Nat.mul_add_mod, Nat.mod_eq_of_lt (by omega)]
  exact decide_eq_decide.2 (by omega)

/-- the slot that begins the period after that of slot `j` -/
def nextFirst (n j : Nat) : Nat := (j / n + 1) * n

theorem nextFirst_gt {n j : Nat} (hn : 0 < n) : j + 1 ≤ nextFirst n j := by
  have h1 := Nat.div_add_mod j n
  have h2 := Nat.mod_lt j hn
  unfold nextFirst
  rw [Nat.add_mul, Nat.one_mul, Nat.mul_comm]
  omega

theorem nextFirst_mod {n j : Nat} (h : j % n = 0) : nextFirst n j = j + n := by
  have h1 := Nat.div_add_mod j n
  unfold nextFirst
  rw [Nat.add_mul, Nat.one_mul, Nat.mul_comm]
  omega

theorem nextFirst_next {n j : Nat} (hn : 0 < n) (h : j + 1 < nextFirst n j) : nextFirst n (j + 1) = nextFirst n j ∧ (j + 1) % n = j % n + 1 := by
  have h1 := Nat.div_add_mod j n
  unfold nextFirst at *
  rw [Nat.add_mul, Nat.one_mul, Nat.mul_comm] at h
  have e : j + 1 = n * (j / n) + (j % n + 1) := by omega
  have hlt : j % n + 1 < n := by omega
  constructor
  · have : (j + 1) / n = j / n := by rw [e, Nat.mul_add_div hn, Nat.div_eq_of_lt hlt]; omega
    rw [this]
  · rw [e, Nat.mul_add_mod, Nat.mod_eq_of_lt hlt]

/-- the times belong to slot `j` -/
def Grid (S T L n u j : Nat) (a : A) : Prop :=
  B S T j < u ∧ a.index = j % n ∧ match a.fsm with
    | .idle => False
    | .sched1 | .sched2 => a.first = B S T j ∧ j % n = 0
    | .slot1 | .slot2 => a.next = B S T j ∧ a.first = B S T (nextFirst n j)
    | .slot3 => a.next = B S T j ∧ a.first = B S T (nextFirst n j) ∧ a.aend = B S T j + L
    | .wait => a.next = B S T (j + 1) ∧ a.first = B S T (nextFirst n j) ∧ a.aend = B S T j + L

/-- not late -/
def Near (S T d u j : Nat) (a : A) : Prop :=
  match a.fsm with
  | .idle => False
  | .sched1 => u ≤ B S T j + d
  | .sched2 => u ≤ B S T j + 2 * d
  | .slot1 => u ≤ B S T j + 3 * d
  | .slot2 => u ≤ B S T j + 4 * d
  | .slot3 => u ≤ B S T j + 5 * d
  | .wait => u ≤ B S T (j + 1)

/-- the slot that begins at time `t` -/
def newSlot (n t j : Nat) (a : A) : Nat :=
  if a.fsm = .wait then if a.first < t then nextFirst n j else if a.next < t then j + 1 else j else j

theorem grid_step {S T L n N u t j : Nat} {a : A} (h : Grid S T L n u j a) (hn : 0 < n) (hN : n ≤ N) (h1 : u ≤ t) :
    Grid S T L n t (newSlot n t j a) (a.step (n * T) T L N t) := by
  obtain ⟨fsm, first, next, aend, index, lockedInt, locked, running, sched, start, stop, active⟩ := a
  obtain ⟨g1, g2, g3⟩ := h
  dsimp only at g2 g3
  cases fsm with
  | idle => exact g3.elim
  | sched1 => exact ⟨by simp [newSlot]; omega, by simpa [newSlot, A.step] using g2, by simpa [newSlot, A.step] using g3⟩
  | sched2 =>
    refine ⟨by simp [newSlot]; omega, by simpa [newSlot, A.step] using g2, ?_⟩
    simp only [newSlot, A.step, reduceCtorEq, if_false]
    rw [nextFirst_mod g3.2, B_add, g3.1]
    exact ⟨rfl, rfl⟩
  | slot1 => exact ⟨by simp [newSlot]; omega, by simpa [newSlot, A.step] using g2, by simpa [newSlot, A.step] using g3⟩
  | slot2 =>
    refine ⟨by simp [newSlot]; omega, by simpa [newSlot, A.step] using g2, ?_⟩
    simp only [newSlot, A.step, reduceCtorEq, if_false]
    exact ⟨g3.1, g3.2, by rw [g3.1]⟩
  | slot3 =>
    refine ⟨by simp [newSlot]; omega, by simpa [newSlot, A.step] using g2, ?_⟩
    simp only [newSlot, A.step, reduceCtorEq, if_false]
    exact ⟨by rw [g3.1, B_succ], g3.2⟩
  | wait =>
    obtain ⟨e1, e2, e3⟩ := g3
    have hf := nextFirst_gt (j := j) hn
    by_cases c1 : first < t
    · simp only [newSlot, A.step, A.onWait, c1, if_true]
      exact ⟨by rw [← e2]; exact c1, by simp [nextFirst], e2, by simp [nextFirst]⟩
    · by_cases c2 : next < t
      · have hlt : j + 1 < nextFirst n j := B_lt (S := S) (T := T) (by omega)
        obtain ⟨k1, k2⟩ := nextFirst_next hn hlt
        have hm := Nat.mod_lt (j + 1) hn
        simp only [newSlot, A.step, A.onWait, c1, c2, if_true, if_false]
        refine ⟨by rw [← e1]; exact c2, ?_, e1, by rw [k1]; exact e2⟩
        dsimp only
        rw [g2, k2, Nat.mod_eq_of_lt]
        omega
      · simp only [newSlot, A.step, A.onWait, c1, c2, if_true, if_false]
        split
        · exact ⟨by omega, g2, e1, e2, e3⟩
        · exact ⟨by omega, g2, e1, e2, e3⟩

theorem newSlot_near {S T L n d u t j : Nat} {a : A} (h : Grid S T L n u j a) (hr : Near S T d u j a) (hn : 0 < n) (hd : 7 * d < T) (h2 : t ≤ u + d) :
    newSlot n t j a = if B S T (j + 1) < t then j + 1 else j := by
  obtain ⟨fsm, first, next, aend, index, lockedInt, locked, running, sched, start, stop, active⟩ := a
  obtain ⟨g1, g2, g3⟩ := h
  have hb := B_succ S T j
  unfold newSlot
  dsimp only at g3 ⊢
  by_cases hf : fsm = .wait
  · subst hf
    obtain ⟨e1, e2, e3⟩ := g3
    simp only [Near] at hr
    have hge := B_mono S T (nextFirst_gt (j := j) hn)
    simp only [if_true]
    rw [← e1]
    by_cases c1 : first < t
    · have c2 : next < t := by omega
      simp only [c1, c2, if_true]
      apply Classical.byContradiction
      intro hne
      have hge2 : j + 2 ≤ nextFirst n j := by have := nextFirst_gt (j := j) hn; omega
      have := B_mono S T hge2
      have hb2 := B_succ S T (j + 1)
      have e : j + 1 + 1 = j + 2 := rfl
      rw [e] at hb2
      omega
    · simp only [c1, if_false]
  · rw [if_neg hf, if_neg]
    cases fsm <;> simp only [Near] at hr <;> first | exact absurd rfl hf | exact hr.elim | omega

theorem near_step {S T L n N d u t j : Nat} {a : A} (h : Grid S T L n u j a) (hr : Near S T d u j a) (hn : 0 < n) (hd : 7 * d < T) (h2 : t ≤ u + d) :
    Near S T d t (newSlot n t j a) (a.step (n * T) T L N t) := by
  have hs := newSlot_near h hr hn hd h2
  obtain ⟨fsm, first, next, aend, index, lockedInt, locked, running, sched, start, stop, active⟩ := a
  obtain ⟨g1, g2, g3⟩ := h
  have hb := B_succ S T j
  dsimp only at g3
  cases fsm with
  | idle => exact g3.elim
  | sched1 => simp only [Near] at hr; simp only [newSlot, A.step, Near, reduceCtorEq, if_false]; omega
  | sched2 => simp only [Near] at hr; simp only [newSlot, A.step, Near, reduceCtorEq, if_false]; omega
  | slot1 => simp only [Near] at hr; simp only [newSlot, A.step, Near, reduceCtorEq, if_false]; omega
  | slot2 => simp only [Near] at hr; simp only [newSlot, A.step, Near, reduceCtorEq, if_false]; omega
  | slot3 => simp only [Near] at hr; simp only [newSlot, A.step, Near, reduceCtorEq, if_false]; omega
  | wait =>
    obtain ⟨e1, e2, e3⟩ := g3
    simp only [Near] at hr
    rw [hs]
    by_cases c1 : first < t
    · have hge := B_mono S T (nextFirst_gt (j := j) hn)
      rw [if_pos (by omega)]
      simp only [A.step, A.onWait, c1, if_true, Near]
      omega
    · by_cases c2 : next < t
      · rw [if_pos (by omega)]
        simp only [A.step, A.onWait, c1, c2, if_true, if_false, Near]
        omega
      · rw [if_neg (by omega)]
        simp only [A.step, A.onWait, c1, c2, if_false]
        split <;> (simp only [Near]; omega)

/-! ### stages -/

/-- nothing is put out -/
def Silent (a : A) : Prop := a.sched = false ∧ a.start = false ∧ a.stop = false ∧ a.active = false

/-- locked -/
structure On (S T L n d u j : Nat) (a : A) : Prop where
  grid : Grid S T L n u j a
  near : Near S T d u j a
  locked : a.lockedInt = true ∧ a.locked = true ∧ a.running = true
  active : a.active = decide (u ≤ B S T j + L)

/-- in step, but not yet locked -/
structure Pre (S T L n d u j : Nat) (a : A) : Prop where
  grid : Grid S T L n u j a
  near : Near S T d u j a
  locked : a.locked = false ∧ a.running = true
  soon : a.fsm = .wait → a.lockedInt = true ∨ u ≤ B S T j + 6 * d
  silent : Silent a

/-- too late, catching up -/
structure Catch (S T L n u j : Nat) (a : A) : Prop where
  grid : Grid S T L n u j a
  locked : a.locked = false ∧ a.running = true ∧ a.lockedInt = false
  silent : Silent a

/-- before the start -/
structure Ahead (S u : Nat) (a : A) : Prop where
  fsm : a.fsm = .wait
  first : a.first = S ∧ a.next = S
  time : u ≤ S
  locked : a.locked = false ∧ a.running = false ∧ a.lockedInt = false
  silent : Silent a

section
variable {S T L n N d u t j : Nat} {a : A}

theorem On.range (h : On S T L n d u j a) (hd : 7 * d < T) : B S T j < u ∧ u ≤ B S T (j + 1) := by
  refine ⟨h.grid.1, ?_⟩
  have hr := h.near
  rw [B_succ] at *
  unfold Near at hr
  split at hr <;> first | exact hr.elim | omega | (rw [B_succ] at hr; omega)

theorem On.step (h : On S T L n d u j a) (hn : 0 < n) (hN : n ≤ N) (hd : 7 * d < T) (hL : 6 * d ≤ L) (h1 : u ≤ t) (h2 : t ≤ u + d) :
    ∃ j', On S T L n d t j' (a.step (n * T) T L N t) ∧ (a.step (n * T) T L N t).index = j' % n ∧
      (a.step (n * T) T L N t).start = decide (j' ≠ j) ∧ (a.step (n * T) T L N t).sched = (decide (j' ≠ j) && decide (j' % n = 0)) ∧
      (a.step (n * T) T L N t).stop = (a.active && (decide (j' ≠ j) || !(a.step (n * T) T L N t).active)) := by
  have hs := newSlot_near h.grid h.near hn hd h2
  have hg := grid_step (N := N) h.grid hn hN h1
  have hr := near_step (N := N) h.grid h.near hn hd h2
  have hrange := h.range hd
  obtain ⟨grid, near, ⟨l1, l2, l3⟩, act⟩ := h
  have hb := B_succ S T j
  suffices hh : ((a.step (n * T) T L N t).lockedInt = true ∧ (a.step (n * T) T L N t).locked = true ∧ (a.step (n * T) T L N t).running = true) ∧
      (a.step (n * T) T L N t).active = decide (t ≤ B S T (newSlot n t j a) + L) ∧
      (a.step (n * T) T L N t).start = decide (newSlot n t j a ≠ j) ∧
      (a.step (n * T) T L N t).sched = (decide (newSlot n t j a ≠ j) && decide (newSlot n t j a % n = 0)) ∧
      (a.step (n * T) T L N t).stop = (a.active && (decide (newSlot n t j a ≠ j) || !(a.step (n * T) T L N t).active)) by
    exact ⟨_, ⟨hg, hr, hh.1, hh.2.1⟩, hg.2.1, hh.2.2.1, hh.2.2.2.1, hh.2.2.2.2⟩
  clear hr
  have hg3 := hg.2
  obtain ⟨fsm, first, next, aend, index, lockedInt, locked, running, sched, start, stop, active⟩ := a
  dsimp only at l1 l2 l3 act
  subst l1 l2 l3
  obtain ⟨-, g2, g3⟩ := grid
  dsimp only at g2 g3
  cases fsm with
  | idle => exact g3.elim
  | wait =>
    obtain ⟨e1, e2, e3⟩ := g3
    simp only [Near] at near
    by_cases c1 : first < t
    · have hge := B_mono S T (nextFirst_gt (j := j) hn)
      have hns : newSlot n t j ⟨.wait, first, next, aend, index, true, true, true, sched, start, stop, active⟩ = j + 1 := by rw [hs, if_pos (by omega)]
      rw [hns] at hg3 ⊢
      simp only [A.step, A.onWait, c1, if_true] at hg3 ⊢
      refine ⟨by simp, (decide_eq_true (by omega)).symm, by simp, by simp [hg3.2.2], by simp⟩
    · by_cases c2 : next < t
      · have hns : newSlot n t j ⟨.wait, first, next, aend, index, true, true, true, sched, start, stop, active⟩ = j + 1 := by rw [hs, if_pos (by omega)]
        have hlt : j + 1 < nextFirst n j := B_lt (S := S) (T := T) (by omega)
        obtain ⟨k1, k2⟩ := nextFirst_next hn hlt
        rw [hns]
        simp only [A.step, A.onWait, c1, c2, if_true, if_false]
        refine ⟨by simp, (decide_eq_true (by omega)).symm, by simp, by simp [k2], by simp⟩
      · have hns : newSlot n t j ⟨.wait, first, next, aend, index, true, true, true, sched, start, stop, active⟩ = j := by rw [hs, if_neg (by omega)]
        rw [hns]
        simp only [A.step, A.onWait, c1, c2, if_false]
        by_cases c3 : active = true ∧ aend < t
        · simp only [c3, and_self, if_true]
          exact ⟨by simp, (decide_eq_false (by omega)).symm, by simp, by simp, by simp⟩
        · simp only [c3, if_false]
          refine ⟨by simp, ?_, by simp, by simp, by cases active <;> simp⟩
          cases ha : active with
          | false => 
            rw [ha] at act
            have := of_decide_eq_false act.symm
            exact (decide_eq_false (by omega)).symm
          | true =>
            simp only [ha, true_and] at c3
            exact (decide_eq_true (by omega)).symm
  | sched1 =>
    simp only [Near] at near
    have ha : active = true := by rw [act]; exact decide_eq_true (by omega)
    subst ha
    simp only [newSlot, A.step, reduceCtorEq, if_false]
    exact ⟨by simp, (decide_eq_true (by omega)).symm, by simp, by simp, by simp⟩
  | sched2 =>
    simp only [Near] at near
    have ha : active = true := by rw [act]; exact decide_eq_true (by omega)
    subst ha
    simp only [newSlot, A.step, reduceCtorEq, if_false]
    exact ⟨by simp, (decide_eq_true (by omega)).symm, by simp, by simp, by simp⟩
  | slot1 =>
    simp only [Near] at near
    have ha : active = true := by rw [act]; exact decide_eq_true (by omega)
    subst ha
    simp only [newSlot, A.step, reduceCtorEq, if_false]
    exact ⟨by simp, (decide_eq_true (by omega)).symm, by simp, by simp, by simp⟩
  | slot2 =>
    simp only [Near] at near
    have ha : active = true := by rw [act]; exact decide_eq_true (by omega)
    subst ha
    simp only [newSlot, A.step, reduceCtorEq, if_false]
    exact ⟨by simp, (decide_eq_true (by omega)).symm, by simp, by simp, by simp⟩
  | slot3 =>
    simp only [Near] at near
    have ha : active = true := by rw [act]; exact decide_eq_true (by omega)
    subst ha
    simp only [newSlot, A.step, reduceCtorEq, if_false]
    exact ⟨by simp, (decide_eq_true (by omega)).symm, by simp, by simp, by simp⟩

theorem Pre.range (h : Pre S T L n d u j a) (hd : 7 * d < T) : B S T j < u ∧ u ≤ B S T (j + 1) := by
  refine ⟨h.grid.1, ?_⟩
  have hr := h.near
  rw [B_succ] at *
  unfold Near at hr
  split at hr <;> first | exact hr.elim | omega | (rw [B_succ] at hr; omega)

/-- the next period is put out -/
theorem Pre.step (h : Pre S T L n d u j a) (hn : 0 < n) (hN : n ≤ N) (hd : 7 * d < T) (hL : 6 * d ≤ L) (h1 : u ≤ t) (h2 : t ≤ u + d) :
    (∃ j', Pre S T L n d t j' (a.step (n * T) T L N t) ∧ j' / n = j / n ∧ j ≤ j') ∨
    (On S T L n d t (nextFirst n j) (a.step (n * T) T L N t) ∧ nextFirst n j = j + 1 ∧ (a.step (n * T) T L N t).index = 0 ∧
      (a.step (n * T) T L N t).start = true ∧ (a.step (n * T) T L N t).sched = true ∧ (a.step (n * T) T L N t).stop = false) := by
  have hs := newSlot_near h.grid h.near hn hd h2
  have hg := grid_step (N := N) h.grid hn hN h1
  have hr := near_step (N := N) h.grid h.near hn hd h2
  have hrange := h.range hd
  obtain ⟨grid, near, ⟨l2, l3⟩, soon, ⟨s1, s2, s3, s4⟩⟩ := h
  have hb := B_succ S T j
  obtain ⟨fsm, first, next, aend, index, lockedInt, locked, running, sched, start, stop, active⟩ := a
  dsimp only at l2 l3 soon s1 s2 s3 s4
  subst l2 l3 s1 s2 s3 s4
  obtain ⟨-, g2, g3⟩ := grid
  dsimp only at g2 g3
  cases fsm with
  | idle => exact g3.elim
  | wait =>
    obtain ⟨e1, e2, e3⟩ := g3
    simp only [Near] at near
    have soon := soon rfl
    by_cases c1 : first < t
    · right
      have hge := B_mono S T (nextFirst_gt (j := j) hn)
      have hli : lockedInt = true := by
        rcases soon with h | h
        · exact h
        · omega
      subst hli
      have hns : newSlot n t j ⟨.wait, first, next, aend, index, true, false, true, false, false, false, false⟩ = nextFirst n j := by
        simp only [newSlot, c1, if_true]
      have hnf : nextFirst n j = j + 1 := by rw [← hns, hs, if_pos (by omega)]
      rw [hns] at hg hr
      refine ⟨⟨hg, hr, ?_, ?_⟩, hnf, ?_, ?_, ?_, ?_⟩ <;> simp only [A.step, A.onWait, c1, if_true]
      · exact ⟨trivial, trivial, trivial⟩
      · rw [hnf]
        exact (decide_eq_true (by omega)).symm
    · left
      by_cases c2 : next < t
      · have hns : newSlot n t j ⟨.wait, first, next, aend, index, lockedInt, false, true, false, false, false, false⟩ = j + 1 := by rw [hs, if_pos (by omega)]
        have hlt : j + 1 < nextFirst n j := B_lt (S := S) (T := T) (by omega)
        rw [hns] at hg hr
        have hq : (j + 1) / n = j / n := by
          have h1 := Nat.div_add_mod j n
          unfold nextFirst at hlt
          rw [Nat.add_mul, Nat.one_mul, Nat.mul_comm] at hlt
          have e : j + 1 = n * (j / n) + (j % n + 1) := by omega
          have hl2 : j % n + 1 < n := by omega
          rw [e, Nat.mul_add_div hn, Nat.div_eq_of_lt hl2]
          omega
        refine ⟨j + 1, ⟨hg, hr, ?_, ?_, ?_⟩, hq, by omega⟩ <;> simp only [A.step, A.onWait, c1, c2, if_true, if_false]
        · exact ⟨trivial, trivial⟩
        · simp
        · exact ⟨rfl, rfl, rfl, rfl⟩
      · have hns : newSlot n t j ⟨.wait, first, next, aend, index, lockedInt, false, true, false, false, false, false⟩ = j := by rw [hs, if_neg (by omega)]
        rw [hns] at hg hr
        refine ⟨j, ⟨hg, hr, ?_, ?_, ?_⟩, rfl, by omega⟩ <;> simp only [A.step, A.onWait, c1, c2, Bool.false_eq_true, false_and, if_false]
        · exact ⟨trivial, trivial⟩
        · exact fun _ => .inl trivial
        · exact ⟨rfl, rfl, rfl, rfl⟩
  | slot3 =>
    simp only [newSlot, reduceCtorEq, if_false] at hg hr
    simp only [Near] at near
    exact .inl ⟨j, ⟨hg, hr, ⟨rfl, rfl⟩, fun _ => .inr (by omega), rfl, rfl, rfl, rfl⟩, rfl, by omega⟩
  | sched1 =>
    simp only [newSlot, reduceCtorEq, if_false] at hg hr
    exact .inl ⟨j, ⟨hg, hr, ⟨rfl, rfl⟩, (fun h => by simp [A.step] at h), rfl, rfl, rfl, rfl⟩, rfl, by omega⟩
  | sched2 =>
    simp only [newSlot, reduceCtorEq, if_false] at hg hr
    exact .inl ⟨j, ⟨hg, hr, ⟨rfl, rfl⟩, (fun h => by simp [A.step] at h), rfl, rfl, rfl, rfl⟩, rfl, by omega⟩
  | slot1 =>
    simp only [newSlot, reduceCtorEq, if_false] at hg hr
    exact .inl ⟨j, ⟨hg, hr, ⟨rfl, rfl⟩, (fun h => by simp [A.step] at h), rfl, rfl, rfl, rfl⟩, rfl, by omega⟩
  | slot2 =>
    simp only [newSlot, reduceCtorEq, if_false] at hg hr
    exact .inl ⟨j, ⟨hg, hr, ⟨rfl, rfl⟩, (fun h => by simp [A.step] at h), rfl, rfl, rfl, rfl⟩, rfl, by omega⟩

/-- edges until the next comparison -/
def hops : Fsm → Nat
  | .idle | .wait => 0
  | .sched1 => 5
  | .sched2 => 4
  | .slot1 => 3
  | .slot2 => 2
  | .slot3 => 1

/-- how far behind -/
def late (S T d u j : Nat) (a : A) : Nat := 6 * (u - B S T j) + (6 * d + 1) * hops a.fsm

theorem Catch.step (h : Catch S T L n u j a) (hn : 0 < n) (hN : n ≤ N) (hd : 7 * d < T) (h1 : u ≤ t) (h2 : t ≤ u + d) :
    (∃ j', Catch S T L n t j' (a.step (n * T) T L N t) ∧ late S T d t j' (a.step (n * T) T L N t) < late S T d u j a) ∨
    Pre S T L n d t j (a.step (n * T) T L N t) := by
  have hg := grid_step (N := N) h.grid hn hN h1
  obtain ⟨grid, ⟨l1, l2, l3⟩, ⟨s1, s2, s3, s4⟩⟩ := h
  have hb := B_succ S T j
  obtain ⟨fsm, first, next, aend, index, lockedInt, locked, running, sched, start, stop, active⟩ := a
  dsimp only at l1 l2 l3 s1 s2 s3 s4
  subst l1 l2 l3 s1 s2 s3 s4
  obtain ⟨g1, g2, g3⟩ := grid
  dsimp only at g2 g3
  cases fsm with
  | idle => exact g3.elim
  | wait =>
    obtain ⟨e1, e2, e3⟩ := g3
    by_cases c1 : first < t
    · have hge := B_mono S T (nextFirst_gt (j := j) hn)
      simp only [newSlot, c1, if_true] at hg
      left
      refine ⟨_, ⟨hg, ?_, ?_⟩, ?_⟩
      · simp only [A.step, A.onWait, c1, if_true, and_self]
      · simp only [A.step, A.onWait, c1, if_true, Silent, and_self]
      · simp only [A.step, A.onWait, c1, if_true, late, hops]
        omega
    · by_cases c2 : next < t
      · simp only [newSlot, c1, c2, if_true, if_false] at hg
        left
        refine ⟨_, ⟨hg, ?_, ?_⟩, ?_⟩
        · simp only [A.step, A.onWait, c1, c2, if_true, if_false, and_self]
        · simp only [A.step, A.onWait, c1, c2, if_true, if_false, Silent, and_self]
        · simp only [A.step, A.onWait, c1, c2, if_true, if_false, late, hops]
          omega
      · simp only [newSlot, c1, c2, if_true, if_false] at hg
        right
        refine ⟨hg, ?_, ?_, ?_, ?_⟩ <;> simp only [A.step, A.onWait, c1, c2, Bool.false_eq_true, false_and, if_false, Near]
        · omega
        · exact ⟨trivial, trivial⟩
        · exact fun _ => .inl trivial
        · exact ⟨rfl, rfl, rfl, rfl⟩
  | slot3 =>
    simp only [newSlot, reduceCtorEq, if_false] at hg
    exact .inl ⟨j, ⟨hg, ⟨rfl, rfl, rfl⟩, rfl, rfl, rfl, rfl⟩, by simp only [A.step, late, hops]; omega⟩
  | sched1 =>
    simp only [newSlot, reduceCtorEq, if_false] at hg
    exact .inl ⟨j, ⟨hg, ⟨rfl, rfl, rfl⟩, rfl, rfl, rfl, rfl⟩, by simp only [A.step, late, hops]; omega⟩
  | sched2 =>
    simp only [newSlot, reduceCtorEq, if_false] at hg
    exact .inl ⟨j, ⟨hg, ⟨rfl, rfl, rfl⟩, rfl, rfl, rfl, rfl⟩, by simp only [A.step, late, hops]; omega⟩
  | slot1 =>
    simp only [newSlot, reduceCtorEq, if_false] at hg
    exact .inl ⟨j, ⟨hg, ⟨rfl, rfl, rfl⟩, rfl, rfl, rfl, rfl⟩, by simp only [A.step, late, hops]; omega⟩
  | slot2 =>
    simp only [newSlot, reduceCtorEq, if_false] at hg
    exact .inl ⟨j, ⟨hg, ⟨rfl, rfl, rfl⟩, rfl, rfl, rfl, rfl⟩, by simp only [A.step, late, hops]; omega⟩

theorem Ahead.step (h : Ahead S u a) (hn : 0 < n) (h2 : t ≤ u + d) :
    Ahead S t (a.step (n * T) T L N t) ∨ Pre S T L n d t 0 (a.step (n * T) T L N t) := by
  obtain ⟨f, ⟨e1, e2⟩, hu, ⟨l1, l2, l3⟩, ⟨s1, s2, s3, s4⟩⟩ := h
  obtain ⟨fsm, first, next, aend, index, lockedInt, locked, running, sched, start, stop, active⟩ := a
  dsimp only at f e1 e2 l1 l2 l3 s1 s2 s3 s4
  subst f e1 e2 l1 l2 l3 s1 s2 s3 s4
  have hB : B next T 0 = next := by simp [B]
  by_cases c1 : next < t
  · right
    simp only [A.step, A.onWait, c1, if_true]
    refine ⟨⟨by rw [hB]; exact c1, by simp, by rw [hB]; exact ⟨rfl, by simp⟩⟩, ?_, ⟨rfl, rfl⟩, (fun h => by cases h), rfl, rfl, rfl, rfl⟩
    simp only [Near, hB]
    omega
  · left
    simp only [A.step, A.onWait, c1, Bool.false_eq_true, false_and, if_false]
    exact ⟨rfl, ⟨rfl, rfl⟩, by omega, ⟨rfl, rfl, rfl⟩, rfl, rfl, rfl, rfl⟩

end

/-- the machine with plain numbers from the start on -/
def aseq (S T L n N : Nat) (tm : Nat → Nat) : Nat → A
  | 0 => ⟨.wait, S, S, 0, 0, false, false, false, false, false, false, false⟩
  | m + 1 => (aseq S T L n N tm m).step (n * T) T L N (tm m)

/-- one of the stages -/
def Good (S T L n d u : Nat) (a : A) : Prop := Ahead S u a ∨ ∃ j, Catch S T L n u j a ∨ Pre S T L n d u j a ∨ On S T L n d u j a

section
variable {S T L n N d : Nat} {tm : Nat → Nat}

theorem first_catch (h : S < tm 0) : Catch S T L n (tm 0) 0 (aseq S T L n N tm 1) ∧ late S T d (tm 0) 0 (aseq S T L n N tm 1) = 6 * (tm 0 - S) + (6 * d + 1) * 5 := by
  have hB : B S T 0 = S := by simp [B]
  simp only [aseq, A.step, A.onWait, h, if_true]
  exact ⟨⟨⟨by rw [hB]; exact h, by simp, by rw [hB]; exact ⟨rfl, by simp⟩⟩, ⟨rfl, rfl, rfl⟩, rfl, rfl, rfl, rfl⟩, by simp only [late, hops, hB]⟩

theorem first_ahead (h : tm 0 ≤ S) : Ahead S (tm 0) (aseq S T L n N tm 1) := by
  have h' : ¬ S < tm 0 := by omega
  simp only [aseq, A.step, A.onWait, h', Bool.false_eq_true, false_and, if_false]
  exact ⟨rfl, ⟨rfl, rfl⟩, h, ⟨rfl, rfl, rfl⟩, rfl, rfl, rfl, rfl⟩

theorem good_seq (hT : ∀ m, tm m ≤ tm (m + 1) ∧ tm (m + 1) ≤ tm m + d) (hn : 0 < n) (hN : n ≤ N) (hd : 7 * d < T) (hL : 6 * d ≤ L) (m : Nat) :
    Good S T L n d (tm m) (aseq S T L n N tm (m + 1)) := by
  induction m with
  | zero =>
    by_cases h : S < tm 0
    · exact .inr ⟨0, .inl (first_catch (d := d) h).1⟩
    · exact .inl (first_ahead (by omega))
  | succ m ih =>
    rw [aseq]
    obtain ⟨h1, h2⟩ := hT m
    rcases ih with ih | ⟨j, ih | ih | ih⟩
    · rcases ih.step (T := T) (L := L) (N := N) hn h2 with h | h
      · exact .inl h
      · exact .inr ⟨0, .inr (.inl h)⟩
    · rcases ih.step hn hN hd h1 h2 with ⟨j', h, -⟩ | h
      · exact .inr ⟨j', .inl h⟩
      · exact .inr ⟨j, .inr (.inl h)⟩
    · rcases ih.step hn hN hd hL h1 h2 with ⟨j', h, -⟩ | ⟨h, -⟩
      · exact .inr ⟨j', .inr (.inl h)⟩
      · exact .inr ⟨_, .inr (.inr h)⟩
    · obtain ⟨j', h, -⟩ := ih.step hn hN hd hL h1 h2
      exact .inr ⟨j', .inr (.inr h)⟩

theorem good_bound {u : Nat} {a : A} (h : Good S T L n d u a) :
    a.fsm ≠ .idle ∧ (a.fsm = .sched2 → a.first ≤ u) ∧ (a.fsm = .slot2 → a.next ≤ u) ∧ (a.fsm = .slot3 → a.next ≤ u) := by
  have key : ∀ j, Grid S T L n u j a → a.fsm ≠ .idle ∧ (a.fsm = .sched2 → a.first ≤ u) ∧ (a.fsm = .slot2 → a.next ≤ u) ∧ (a.fsm = .slot3 → a.next ≤ u) := by
    rintro j ⟨g1, -, g3⟩
    refine ⟨?_, ?_, ?_, ?_⟩ <;> intro h <;> simp only [h] at g3 <;> omega
  rcases h with h | ⟨j, h | h | h⟩
  · rw [h.fsm]; simp
  · exact key j h.grid
  · exact key j h.grid
  · exact key j h.grid

end

theorem tick_time {c : Cfg} {k : Reg} {i : In} (h : i.rst = false) : (k.tick c i).time = ofTs i.ts := by simp [Reg.tick, h]

/-- the registers follow the machine with plain numbers -/
theorem rep_run {S T L n d : Nat} {c : Cfg} {k : Reg} {ins : Nat → In} (hR : Running S T L n d c.iw ins) (hk : Ready S (n * T) T L k) (m : Nat) :
    Rep (n * T) T L (at' c k ins (m + 1)) (aseq S T L n (2 ^ c.iw) (fun m => (ins m).time) m) := by
  induction m with
  | zero =>
    obtain ⟨i1, i2, i3, i4, i5, i6⟩ := hR.quiet 0
    obtain ⟨k1, k2, k3, k4, k5, k6⟩ := hk
    simp only [at', aseq, Reg.tick, Reg.next', k1, k2, i1, i2, i3, i4, i5, i6, Option.isSome_none, Bool.or_false, Bool.false_eq_true, if_false]
    exact ⟨rfl, ⟨rfl, rfl, rfl, rfl, rfl, rfl, rfl, rfl⟩, k4, k5, k6, k3, k3, (fun _ h => by cases h), (fun h => by cases h), (fun h => by cases h),
      (fun h => by cases h), (fun h => by cases h)⟩
  | succ m ih =>
    have hb : (aseq S T L n (2 ^ c.iw) (fun m => (ins m).time) m).fsm ≠ .idle ∧
        ((aseq S T L n (2 ^ c.iw) (fun m => (ins m).time) m).fsm = .sched2 → (aseq S T L n (2 ^ c.iw) (fun m => (ins m).time) m).first ≤ (ins m).time) ∧
        ((aseq S T L n (2 ^ c.iw) (fun m => (ins m).time) m).fsm = .slot2 → (aseq S T L n (2 ^ c.iw) (fun m => (ins m).time) m).next ≤ (ins m).time) ∧
        ((aseq S T L n (2 ^ c.iw) (fun m => (ins m).time) m).fsm = .slot3 → (aseq S T L n (2 ^ c.iw) (fun m => (ins m).time) m).next ≤ (ins m).time) := by
      cases m with
      | zero => simp [aseq]
      | succ m =>
        have := good_bound (good_seq (S := S) (L := L) (N := 2 ^ c.iw) (tm := fun m => (ins m).time) hR.up hR.pos hR.fit hR.slot hR.act m)
        have hu := (hR.up m).1
        exact ⟨this.1, fun h => by have := this.2.1 h; omega, fun h => by have := this.2.2.1 h; omega, fun h => by have := this.2.2.2 h; omega⟩
    have hroom := hR.room m
    have ht : (at' c k ins (m + 1)).time = ofTs (ins m).ts := tick_time (hR.quiet m).1
    have hok : (at' c k ins (m + 1)).time.Ok := by
      rw [ht]
      exact ⟨Nat.mod_lt _ (by decide), hR.proper m⟩
    have := rep_step ih hok (hR.quiet (m + 1)) (hR.on (m + 1)) hb.1 (c := c) (fun h => by have := hb.2.1 h; omega) (fun h => by have := hb.2.2.1 h; omega)
      (fun h => by have := hb.2.2.2 h; omega)
    rw [ht] at this
    exact this

end Corundum.TdmaSched
