import Verif.Proof.IrqRateLive

/-!
Theorems about the interrupt rate limiter.
-/
namespace Corundum.IrqRate

/-- Interrupts are not made up: at any time interrupt `i` has been handed on at most as often as it was taken. -/
theorem C78_none_made_up (w : Nat) (m : Nat → Ent) (ins : Nat → In) (h : Legal w ins) (n i : Nat) (hi : i < 2 ^ w) : gives w m ins n i ≤ takes w m ins n i := by
  have := count_le (m := m) h hi n
  omega

/-- Interrupts are not lost: once requests cease and the output is taken, every interrupt that was taken is handed on afterwards, within a bounded number of cycles.
`P` bounds the prescaler setting. -/
theorem C78_none_lost (w : Nat) (m : Nat → Ent) (ins : Nat → In) (h : Legal w ins) (hw : w ≤ 14) (P : Nat) (hP : ∀ n, (ins n).pre ≤ P) (n0 : Nat)
    (hq : ∀ n, n0 ≤ n → (ins n).iv = false ∧ (ins n).ordy = true) (n i : Nat) (hn : n < n0) (ht : Taken w m ins n i) :
    ∃ k, n < k ∧ k ≤ n0 + 2 ^ 17 * (P + 1) + 3 * 2 ^ w + 3 ∧ Given w m ins k i := by
  have hi : i < 2 ^ w := by rw [← ht.2.2]; exact (h n).1
  rcases owed_until h ht (n0 - (n + 1)) with ⟨l, h1, h2⟩ | ho
  · exact ⟨n + 1 + l, by omega, by omega, h2⟩
  · rw [show n + 1 + (n0 - (n + 1)) = n0 by omega] at ho
    obtain ⟨k, hk, hg⟩ := owed_given h hw hP hq hi (Nat.le_refl _) ho
    exact ⟨n0 + k, by omega, by omega, hg⟩

/-- Until then, also with further requests and a blocked output, it is either handed on or kept. -/
theorem C78_kept (w : Nat) (m : Nat → Ent) (ins : Nat → In) (h : Legal w ins) (n i n' : Nat) (hn : n < n') (ht : Taken w m ins n i) :
    (∃ k, n < k ∧ k < n' ∧ Given w m ins k i) ∨ ((st w m ins n').mem i).pend = true ∨ ((st w m ins n').ph = .irqIn ∧ (st w m ins n').idx = i) ∨
      ((st w m ins n').ov = true ∧ (st w m ins n').oidx = i) := by
  rcases owed_until h ht (n' - (n + 1)) with ⟨l, h1, h2⟩ | ho
  · exact Or.inl ⟨n + 1 + l, by omega, by omega, h2⟩
  · rw [show n + 1 + (n' - (n + 1)) = n' by omega] at ho
    rcases ho with ⟨_, h2⟩ | h2 | h2
    · exact Or.inr (Or.inl h2)
    · exact Or.inr (Or.inr (Or.inl h2))
    · exact Or.inr (Or.inr (Or.inr h2))

/-- The same interrupt does not appear again before the minimum interval set when it appeared last is over, unless the 17-bit time counter wraps within that interval. -/
theorem C79_min_interval (w : Nat) (m : Nat → Ent) (ins : Nat → In) (h : Legal w ins) (n1 n2 i : Nat) (h12 : n1 < n2) (s1 : Shown w m ins n1 i) (s2 : Shown w m ins n2 i)
    (hm : (ins n1).min ≠ 0) (hwrap : ticks w m ins n1 % 2 ^ 17 + (ins n1).min < 2 ^ 17) : ticks w m ins n1 + (ins n1).min < ticks w m ins n2 :=
  interval h (shown_load s1) (shown_load s2) h12 hm hwrap

/-- While requests come without pause the timers are not looked at, so an interrupt held back stays so: nothing follows without a pause. -/
theorem C78_needs_pause (w : Nat) (m : Nat → Ent) (ins : Nat → In) (h : Legal w ins) (n i : Nat) (hi : i < 2 ^ w) (hr : (st w m ins n).rdy = true) (hp : ((st w m ins n).mem i).pend = true)
    (hq : ∀ k, n ≤ k → (ins k).iv = true) : ∀ k, n ≤ k → ¬ Shown w m ins k i := by
  have key : ∀ k, ((st w m ins (n + k)).rdy = true ∨ (st w m ins (n + k)).ph = .irqIn) ∧ ((st w m ins (n + k)).mem i).pend = true := by
    intro k
    induction k with
    | zero => exact ⟨Or.inl hr, hp⟩
    | succ k ih =>
      obtain ⟨h1, h2⟩ := ih
      have I := inv_st (m := m) h (n + k)
      have hph : (st w m ins (n + k)).ph = .idle ∨ (st w m ins (n + k)).ph = .irqIn := h1.imp (fun h => I.rdy h) id
      have hni : (st w m ins (n + k)).ph ≠ .init := by rcases hph with q | q <;> rw [q] <;> exact Ph.noConfusion
      have hrun := I.pr i hi (Or.inl hni) h2
      have hl : load (st w m ins (n + k)) (ins (n + k)) ≠ some i := by
        intro hl
        obtain ⟨q0, q1, _⟩ := load_ph hl
        rcases q1 with ⟨q, q'⟩ | ⟨q, _⟩
        · rw [I.rd1 (Or.inl q), ← q0, hrun] at q'; cases q'
        · rcases hph with p | p <;> rw [p] at q <;> cases q
      refine ⟨?_, ?_⟩
      · have hv := hq (n + k) (by omega)
        show (fsm w (st w m ins (n + k)) (ins (n + k))).rdy = true ∨ (fsm w (st w m ins (n + k)) (ins (n + k))).ph = .irqIn
        unfold fsm
        rcases h1 with q | q
        · rw [I.rdy q]; right; simp [hv, q]
        · rw [q]; simp only
          split
          · left; rfl
          · split
            · left; rfl
            · right; rfl
      · have := pend_step I hni h2 hl hrun
        show ((step w (st w m ins (n + k)) (ins (n + k))).mem i).pend = true
        rw [this]; exact h2
  intro k hk hs
  obtain ⟨h1, h2⟩ := key (k - n)
  rw [show n + (k - n) = k by omega] at h1 h2
  have I := inv_st (m := m) h k
  have hph : (st w m ins k).ph = .idle ∨ (st w m ins k).ph = .irqIn := h1.imp (fun h => I.rdy h) id
  have hni : (st w m ins k).ph ≠ .init := by rcases hph with q | q <;> rw [q] <;> exact Ph.noConfusion
  obtain ⟨q0, q1, _⟩ := load_ph (shown_load hs)
  rcases q1 with ⟨q, q'⟩ | ⟨q, _⟩
  · rw [I.rd1 (Or.inl q), ← q0, I.pr i hi (Or.inl hni) h2] at q'; cases q'
  · rcases hph with p | p <;> rw [p] at q <;> cases q

/-! ### the wrap of the time counter -/

def z : Ent := ⟨false, false, 0⟩

/-- interrupt 0 is requested in three cycles from cycle `N` on -/
def lateIn (N n : Nat) : In := ⟨decide (N ≤ n ∧ n < N + 3), 0, true, 0, 1000⟩

/-- the state after `n` idle cycles, two vectors, no prescaler -/
def idleSt (n : Nat) : St :=
  { ph := .idle, cur := n % 2, idx := (n + 1) % 2, mem := fun _ => z, rd := z, rdv := true, rdy := true, oidx := 0, ov := false, pre := 0, time := n % 2 ^ 17, ticks := n }

theorem upd_z (a : Nat) : upd (fun _ => z) a z = fun _ => z := by
  funext b; unfold upd; split <;> rfl

theorem idle_run (N : Nat) (hN : 3 ≤ N) : ∀ k, 3 + k ≤ N → st 1 (fun _ => z) (lateIn N) (3 + k) = idleSt (3 + k)
  | 0, _ => by
    have h0 : ∀ j, j < 3 → lateIn N j = ⟨false, 0, true, 0, 1000⟩ := by
      intro j hj; unfold lateIn; rw [decide_eq_false (by omega)]
    have e0 : st 1 (fun _ => z) (lateIn N) 3 = step 1 (step 1 (step 1 (init fun _ => z) (lateIn N 0)) (lateIn N 1)) (lateIn N 2) := rfl
    rw [e0, h0 0 (by omega), h0 1 (by omega), h0 2 (by omega)]
    simp only [step, fsm, init, load, show (⟨false, false, 0⟩ : Ent) = z from rfl, upd_z]
    rfl
  | k + 1, h => by
    have ih := idle_run N hN k (by omega)
    have hi : lateIn N (3 + k) = ⟨false, 0, true, 0, 1000⟩ := by unfold lateIn; rw [decide_eq_false (by omega)]
    show step 1 (st 1 (fun _ => z) (lateIn N) (3 + k)) (lateIn N (3 + k)) = _
    rw [ih, hi]
    rw [show 3 + (k + 1) = 3 + k + 1 by omega]
    generalize 3 + k = n
    simp only [step, fsm, idleSt, load, z, Bool.false_and, Bool.and_false, Bool.false_eq_true, if_false, Option.isSome_none, Option.getD_none, if_true, Bool.or_false]
    simp only [show (n + 1 + 1) % 2 = n % 2 by omega, show (n % 2 + 1) % 2 ^ 1 = (n + 1) % 2 by omega, show (n % 2 ^ 17 + 1) % 2 ^ 17 = (n + 1) % 2 ^ 17 by omega]

/-- the states after cycle `N` -/
def late : Nat → St
  | 0 => idleSt 131000
  | k + 1 => step 1 (late k) ⟨decide (k < 3), 0, true, 0, 1000⟩

theorem late_st (N : Nat) (hN : N = 131000) : ∀ k, st 1 (fun _ => z) (lateIn N) (N + k) = late k
  | 0 => by
    have := idle_run N (by omega) (N - 3) (by omega)
    rw [show 3 + (N - 3) = N by omega] at this
    rw [Nat.add_zero, this, hN]; rfl
  | k + 1 => by
    show step 1 (st 1 (fun _ => z) (lateIn N) (N + k)) (lateIn N (N + k)) = _
    rw [late_st N hN k]
    unfold lateIn
    rw [show decide (N ≤ N + k ∧ N + k < N + 3) = decide (k < 3) from decide_eq_decide.2 (by omega)]
    rfl

/-- The exception is real: the difference of deadline and time is formed with 32 bits, so a deadline behind the wrap counts as expired.  There are two vectors, no prescaler, and a minimum
interval of 1000; an interrupt that appears at time 131001 appears again 5 cycles later. -/
theorem C79_wrap_breaks_interval : ∃ (ins : Nat → In) (n : Nat), Legal 1 ins ∧ (∀ k, (ins k).min = 1000) ∧ Shown 1 (fun _ => z) ins n 0 ∧ Shown 1 (fun _ => z) ins (n + 5) 0 ∧
    ticks 1 (fun _ => z) ins n = 131001 ∧ ticks 1 (fun _ => z) ins (n + 5) = 131006 := by
  obtain ⟨N, hN⟩ : ∃ N, N = 131000 := ⟨_, rfl⟩
  have hs := late_st N hN
  refine ⟨lateIn N, N + 1, fun n => ⟨show 0 < 2 ^ 1 by decide, show 0 < 2 ^ 16 by decide, show 1000 < 2 ^ 16 by decide⟩, fun _ => rfl, ⟨?_, ?_, Or.inr rfl⟩, ⟨?_, ?_, Or.inr rfl⟩, ?_, ?_⟩
  · rw [show N + 1 + 1 = N + 2 from rfl, hs 2]; decide
  · rw [show N + 1 + 1 = N + 2 from rfl, hs 2]; decide
  · rw [show N + 1 + 5 + 1 = N + 7 from rfl, hs 7]; decide
  · rw [show N + 1 + 5 + 1 = N + 7 from rfl, hs 7]; decide
  · unfold ticks; rw [hs 1]; decide
  · unfold ticks; rw [show N + 1 + 5 = N + 6 from rfl, hs 6]; decide

/-! ### a run -/

/-- two vectors; interrupt 1 is requested in cycles 4 and 6, the output is blocked before cycle 8, the minimum interval is 5, the prescaler 1 -/
def exIn (n : Nat) : In := ⟨decide (n = 4 ∨ n = 6), 1, decide (8 ≤ n), 1, 5⟩

theorem exIn_legal : Legal 1 exIn := fun _ => ⟨show 1 < 2 ^ 1 by decide, show 1 < 2 ^ 16 by decide, show 5 < 2 ^ 16 by decide⟩

/-- both are taken, both appear, at times 3 and 10, and both are handed on -/
example : Taken 1 (fun _ => ⟨true, true, 7⟩) exIn 4 1 ∧ Taken 1 (fun _ => ⟨true, true, 7⟩) exIn 6 1 ∧ gives 1 (fun _ => ⟨true, true, 7⟩) exIn 30 1 = 2 ∧
    takes 1 (fun _ => ⟨true, true, 7⟩) exIn 30 1 = 2 := by decide

example : ((List.range 40).filter fun n => decide ((st 1 (fun _ => ⟨true, true, 7⟩) exIn (n + 1)).ov = true ∧ ((st 1 (fun _ => ⟨true, true, 7⟩) exIn n).ov = false ∨ (exIn n).ordy = true))).map
    (fun n => (n, ticks 1 (fun _ => ⟨true, true, 7⟩) exIn n, (st 1 (fun _ => ⟨true, true, 7⟩) exIn (n + 1)).oidx)) = [(5, 3, 1), (19, 10, 1)] := by decide

/-- it is held back in between -/
example : ((st 1 (fun _ => ⟨true, true, 7⟩) exIn 8).mem 1).pend = true ∧ (st 1 (fun _ => ⟨true, true, 7⟩) exIn 8).rdy = true := by decide

end Corundum.IrqRate
