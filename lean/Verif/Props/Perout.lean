import Verif.Proof.Perout

/-! C115: the periodic output. -/
namespace Corundum.Perout

/-- C115: a new start or period, a step of the clock or a reset begins anew, with the output low, and with the parameters given. -/
theorem C115_restart (c : Cfg) (k : Reg) (i : In) (h : i.start.isSome ∨ i.period.isSome ∨ i.step = true ∨ i.rst = true) :
    (k.tick c i).fsm = .idle ∧ (k.tick c i).out = false ∧ (k.tick c i).locked = false ∧
    (i.rst = false → (∀ t, i.start = some t → (k.tick c i).start = ofTs t) ∧ (∀ t, i.period = some t → (k.tick c i).period = ofTs t) ∧
      (∀ t, i.width = some t → (k.tick c i).width = ofTs t) ∧ ((k.tick c i).error = i.step)) := by
  cases hr : i.rst with
  | true => simp [Reg.tick, hr]
  | false =>
    have h' : (i.start.isSome || i.period.isSome || i.step) = true := by
      rcases h with h | h | h | h
      · simp [h]
      · simp [h]
      · simp [h]
      · rw [hr] at h; cases h
    refine ⟨?_, ?_, ?_, fun _ => ⟨?_, ?_, ?_, ?_⟩⟩
    · simp [Reg.tick, Reg.next, hr, h']
    · simp [Reg.tick, Reg.next, hr, h']
    · simp [Reg.tick, Reg.next, hr, h']
    · intro t ht; simp [Reg.tick, hr, ht]
    · intro t ht; simp [Reg.tick, hr, ht]
    · intro t ht; simp [Reg.tick, hr, ht]
    · simp [Reg.tick, Reg.next, hr, h']

section
variable {S P W d : Nat} {c : Cfg} {k : Reg} {ins : Nat → In}

/-- C115: the output is high only within pulses, two cycles late. -/
theorem C115_never (hR : Running S P W d ins) (hk : k.fsm = .idle) (hS : k.start.Ok ∧ k.start.tot = S) (hP : k.period.Ok ∧ k.period.tot = P)
    (hW : k.width.Ok ∧ k.width.tot = W) :
    (at' c k ins 1).out = false ∧ ∀ n, (at' c k ins (n + 2)).out = true → Pulse S P W (ins n).time := by
  constructor
  · have := rep_run (c := c) hR hk hS hP hW 0
    rw [this.out (by rw [this.fsm]; simp [aseq])]
    rfl
  · intro n ho
    have hr := rep_run (c := c) hR hk hS hP hW (n + 1)
    have hb := aseq_bound S P W (T := fun n => (ins n).time) (fun n => (hR.up n).1) (n + 1)
    rw [hr.out (by rw [hr.fsm]; exact hb.1)] at ho
    rcases good_seq (S := S) hR.up hR.pulse hR.gap n with h | h
    · rw [h.2.1] at ho; cases ho
    · obtain ⟨-, ⟨j, g⟩, -, g4⟩ := h
      have hl := steady_level g hR.pulse hR.gap
      cases hlev : (aseq S P W (fun n => (ins n).time) (n + 1)).level with
      | true => exact (hl.1 hlev).1
      | false => rw [g4 hlev] at ho; cases ho

/-- C115: one period after `locked` has gone high, the output is high exactly within the pulses, for ever. -/
theorem C115_exact (hR : Running S P W d ins) (hk : k.fsm = .idle) (hS : k.start.Ok ∧ k.start.tot = S) (hP : k.period.Ok ∧ k.period.tot = P)
    (hW : k.width.Ok ∧ k.width.tot = W) {n m : Nat} (hl : (at' c k ins (n + 2)).locked = true) (hm : n ≤ m)
    (hT : (ins n).time + P < (ins m).time) :
    (at' c k ins (m + 2)).locked = true ∧ ((at' c k ins (m + 2)).out = true ↔ Pulse S P W (ins m).time) := by
  have hr := rep_run (c := c) hR hk hS hP hW (n + 1)
  have hb := aseq_bound S P W (T := fun n => (ins n).time) (fun n => (hR.up n).1) (n + 1)
  rw [hr.locked (by rw [hr.fsm]; exact hb.1)] at hl
  obtain ⟨q, rfl⟩ := Nat.le.dest hm
  obtain ⟨h1, h2⟩ := late_seq (S := S) (T := fun n => (ins n).time) hR.up hR.pulse hR.gap hl q
  have hr := rep_run (c := c) hR hk hS hP hW (n + q + 1)
  have hb := aseq_bound S P W (T := fun n => (ins n).time) (fun n => (hR.up n).1) (n + q + 1)
  have hid : (at' c k ins (n + q + 2)).fsm ≠ .idle := by rw [hr.fsm]; exact hb.1
  rw [hr.locked hid, hr.out hid]
  obtain ⟨g1, ⟨j, g2⟩, -, -⟩ := h1
  refine ⟨g1, ?_⟩
  obtain ⟨l1, l2⟩ := steady_level g2 hR.pulse hR.gap
  generalize aseq S P W (fun n => (ins n).time) (n + q + 1) = a at *
  rcases h2 with h2 | ⟨e1, e2, e3⟩
  · rw [h2]
    cases hlev : a.level with
    | true => exact ⟨fun _ => (l1 hlev).1, fun _ => rfl⟩
    | false => exact ⟨fun h => (by cases h), fun h => absurd h (l2 hlev)⟩
  · exfalso
    obtain ⟨fsm, r, f, level, locked, out⟩ := a
    dsimp only at e1 e2 e3
    subst e1 e2
    simp only [Steady, if_true] at g2
    omega

/-- C115: a start that lies ahead is kept: the output is high exactly within the pulses but the first. -/
theorem C115_future (hR : Running S P W d ins) (hk : k.fsm = .idle) (hS : k.start.Ok ∧ k.start.tot = S) (hP : k.period.Ok ∧ k.period.tot = P)
    (hW : k.width.Ok ∧ k.width.tot = W) (hf : (ins 1).time ≤ S) (n : Nat) :
    ((at' c k ins (n + 3)).out = true ↔ Pulse S P W (ins (n + 1)).time ∧ S + P < (ins (n + 1)).time) := by
  have hr := rep_run (c := c) hR hk hS hP hW (n + 2)
  have hb := aseq_bound S P W (T := fun n => (ins n).time) (fun n => (hR.up n).1) (n + 2)
  rw [hr.out (by rw [hr.fsm]; exact hb.1)]
  exact fut_out (fut_seq hR.up hR.pulse hR.gap hf n) hR.pulse hR.gap

/-- C115 fails for the first pulse: with the start ahead it is never put out. -/
theorem C115_first_counterexample (hR : Running S P W d ins) (hk : k.fsm = .idle) (hS : k.start.Ok ∧ k.start.tot = S)
    (hP : k.period.Ok ∧ k.period.tot = P) (hW : k.width.Ok ∧ k.width.tot = W) (hf : (ins 1).time ≤ S) {n : Nat} (h1 : S < (ins (n + 1)).time)
    (h2 : (ins (n + 1)).time ≤ S + W) :
    Pulse S P W (ins (n + 1)).time ∧ (at' c k ins (n + 3)).out = false := by
  refine ⟨⟨0, by omega, by omega⟩, ?_⟩
  have := C115_future (c := c) hR hk hS hP hW hf n
  have hg := hR.gap
  cases ho : (at' c k ins (n + 3)).out with
  | false => rfl
  | true => have := (this.1 ho).2; omega

/-! #### a start in the past -/

/-- the machine is behind the clock -/
def Late (P u : Nat) (a : A) : Prop :=
  a.level = true ∧ match a.fsm with
    | .rise1 | .rise2 => a.r < u
    | .wait => a.r < u + P
    | _ => False

/-- how far behind -/
def lag (P d u : Nat) (a : A) : Nat :=
  match a.fsm with
  | .rise1 => 3 * (u - a.r) + 2 * (3 * d + 1)
  | .rise2 => 3 * (u - a.r) + (3 * d + 1)
  | _ => 3 * (u + P - a.r)

/-- close to the clock: `e` says how close, `R` is the last pulse before lock -/
def Two (P W d e R u : Nat) (a : A) : Prop :=
  match a.fsm with
  | .idle => False
  | .fall1 => a.level = false ∧ u + e ≤ a.r ∧ a.r ≤ R
  | .fall2 => a.level = false ∧ u + e ≤ a.r + d ∧ a.r ≤ R
  | .rise1 => a.level = true ∧ u + e ≤ a.r + 3 * d ∧ a.r ≤ R ∧ a.f = a.r + W
  | .rise2 => a.level = true ∧ u + e ≤ a.r + 4 * d ∧ a.r ≤ R ∧ a.f = a.r + W
  | .wait =>
    if a.level then a.f + P = a.r + W ∧ u + e + P ≤ a.r + 5 * d ∧ a.r ≤ R + P
    else a.f = a.r + W ∧ u + e ≤ a.r + 2 * d ∧ a.r ≤ R

theorem late_step {S P W d u t R : Nat} {a : A} (h : Late P u a) (h1 : u ≤ t) (h2 : t ≤ u + d) (hP : 3 * d < P) (hR : t + P ≤ R) :
    (a.step S P W t).locked = true ∨ (Late P t (a.step S P W t) ∧ lag P d t (a.step S P W t) < lag P d u a) ∨ Two P W d 0 R t (a.step S P W t) := by
  obtain ⟨fsm, r, f, level, locked, out⟩ := a
  obtain ⟨g1, g2⟩ := h
  dsimp only at g1 g2
  subst g1
  cases fsm with
  | idle => exact g2.elim
  | fall1 => exact g2.elim
  | fall2 => exact g2.elim
  | rise1 =>
    refine .inr (.inl ⟨⟨rfl, ?_⟩, ?_⟩)
    · simp only [A.step]; omega
    · simp only [A.step, lag]; omega
  | rise2 =>
    refine .inr (.inl ⟨⟨rfl, ?_⟩, ?_⟩)
    · simp only [A.step]; omega
    · simp only [A.step, lag]; omega
  | wait =>
    by_cases c1 : r < t
    · refine .inr (.inl ?_)
      simp only [A.step, c1, if_true]
      exact ⟨⟨rfl, c1⟩, by simp only [lag]; omega⟩
    · by_cases c2 : f < t
      · refine .inr (.inr ?_)
        simp only [A.step, c1, c2, if_true, if_false, Two]
        exact ⟨trivial, by omega, by omega⟩
      · left
        simp [A.step, c1, c2]

theorem two_step {S P W d u t e R : Nat} {a : A} (h : Two P W d e R u a) (h2 : t ≤ u + d) (hw : 4 * d ≤ W) (hg : W + 4 * d ≤ P)
    (he : e = 0 ∨ e = 2 * d) :
    (a.step S P W t).locked = true ∨ Two P W d e R t (a.step S P W t) ∨ (e = 0 ∧ 0 < d ∧ Two P W d (2 * d) (R + P) t (a.step S P W t)) := by
  obtain ⟨fsm, r, f, level, locked, out⟩ := a
  cases fsm with
  | idle => exact h.elim
  | fall1 => simp only [Two] at h; refine .inr (.inl ?_); simp only [A.step, Two]; exact ⟨h.1, by omega, h.2.2⟩
  | fall2 =>
    simp only [Two] at h
    refine .inr (.inl ?_)
    simp only [A.step, Two, h.1]
    exact ⟨trivial, by omega, h.2.2⟩
  | rise1 => simp only [Two] at h; refine .inr (.inl ?_); simp only [A.step, Two]; exact ⟨h.1, by omega, h.2.2⟩
  | rise2 =>
    simp only [Two] at h
    refine .inr (.inl ?_)
    simp only [A.step, Two, h.1, if_true]
    exact ⟨by omega, by omega, by omega⟩
  | wait =>
    cases level with
    | false =>
      simp only [Two, Bool.false_eq_true, if_false] at h
      obtain ⟨k1, k2, k3⟩ := h
      refine .inr (.inl ?_)
      by_cases c1 : r < t
      · simp only [A.step, c1, if_true, Two]
        exact ⟨trivial, by omega, k3, k1⟩
      · have c2 : ¬ f < t := by omega
        simp only [A.step, c1, c2, if_false, Two, Bool.false_eq_true]
        exact ⟨k1, by omega, k3⟩
    | true =>
      simp only [Two, if_true] at h
      obtain ⟨k1, k2, k3⟩ := h
      have c1 : ¬ r < t := by omega
      by_cases c2 : f < t
      · simp only [A.step, c1, c2, if_true, if_false]
        rcases he with rfl | rfl
        · refine .inr (.inr ⟨rfl, by omega, ?_⟩)
          simp only [Two]
          exact ⟨trivial, by omega, k3⟩
        · omega
      · left
        simp [A.step, c1, c2]

/-- C115: a start in the past, however long ago, is caught up with: the output is locked three periods after `3 * (time - start) + 12 * d + 7` cycles, or
earlier. -/
theorem C115_past (hR : Running S P W d ins) (hk : k.fsm = .idle) (hS : k.start.Ok ∧ k.start.tot = S) (hP : k.period.Ok ∧ k.period.tot = P)
    (hW : k.width.Ok ∧ k.width.tot = W) (hp : S < (ins 0).time) {m K : Nat} (hK : K = 3 * ((ins 0).time - S) + 12 * d + 7) (hm : K ≤ m)
    (ht : (ins K).time + 3 * P ≤ (ins m).time) : (at' c k ins (m + 2)).locked = true := by
  have hr := rep_run (c := c) hR hk hS hP hW (m + 1)
  have hb := aseq_bound S P W (T := fun n => (ins n).time) (fun n => (hR.up n).1) (m + 1)
  rw [hr.locked (by rw [hr.fsm]; exact hb.1)]
  have hw := hR.pulse
  have hg := hR.gap
  have hpos := hR.pos
  have stay : ∀ m, (aseq S P W (fun n => (ins n).time) (m + 1)).locked = true → (aseq S P W (fun n => (ins n).time) (m + 1 + 1)).locked = true := by
    intro m h
    have hl := late_seq (S := S) (T := fun n => (ins n).time) hR.up hw hg h 1
    exact hl.1.1
  have key : ∀ q, (aseq S P W (fun n => (ins n).time) (q + 2 + 1)).locked = true ∨
      (Late P (ins (q + 2)).time (aseq S P W (fun n => (ins n).time) (q + 2 + 1)) ∧
        lag P d (ins (q + 2)).time (aseq S P W (fun n => (ins n).time) (q + 2 + 1)) + q + 3 ≤ K) ∨
      (∃ e R, (e = 0 ∧ R ≤ (ins (q + 2)).time + P ∧ (K ≤ q + 2 → R ≤ (ins K).time + P) ∨
          e = 2 * d ∧ R ≤ (ins (q + 2)).time + 2 * P ∧ (K ≤ q + 2 → R ≤ (ins K).time + 2 * P)) ∧
        Two P W d e R (ins (q + 2)).time (aseq S P W (fun n => (ins n).time) (q + 2 + 1))) := by
    intro q
    have mono : ∀ a b, (ins a).time ≤ (ins (a + b)).time := by
      intro a b
      induction b with
      | zero => exact Nat.le_refl _
      | succ b ih => exact Nat.le_trans ih (hR.up (a + b)).1
    induction q with
    | zero =>
      have u0 := hR.up 0
      have u1 := hR.up 1
      have e : ∃ f out, aseq S P W (fun n => (ins n).time) 3 = ⟨.rise1, S, f, true, false, out⟩ := by
        have c1 : S < (ins 2).time := by simp only [Nat.zero_add, Nat.reduceAdd] at u0 u1; omega
        exact ⟨S + W, false, by simp [aseq, A.step, c1]⟩
      obtain ⟨f, out, e⟩ := e
      refine .inr (.inl ?_)
      simp only [Nat.zero_add, Nat.reduceAdd] at u0 u1 ⊢
      rw [e]
      refine ⟨⟨rfl, ?_⟩, ?_⟩
      · dsimp only; omega
      · simp only [lag]; omega
    | succ q ih =>
      obtain ⟨h1, h2⟩ := hR.up (q + 2)
      rw [show q + 1 + 2 = q + 2 + 1 by omega]
      rcases ih with ih | ⟨ih, hl⟩ | ⟨e, R, he, ih⟩
      · exact .inl (stay _ ih)
      · rw [aseq]
        rcases late_step (S := S) (W := W) ih h1 h2 (by omega) (R := (ins (q + 2 + 1)).time + P) (Nat.le_refl _) with h | ⟨h, hl'⟩ | h
        · exact .inl h
        · have cmp : ∀ X Y, X < Y → Y + q + 3 ≤ K → X + (q + 1) + 3 ≤ K := by intros; omega
          exact .inr (.inl ⟨h, cmp _ _ hl' hl⟩)
        · refine .inr (.inr ⟨0, _, .inl ⟨rfl, Nat.le_refl _, fun hK' => ?_⟩, h⟩)
          have : K = q + 2 + 1 := by omega
          rw [this]
          exact Nat.le_refl _
      · rw [aseq]
        have hmon : K ≤ q + 2 + 1 → K ≤ q + 2 ∨ K = q + 2 + 1 := by omega
        rcases two_step (S := S) ih h2 hw hg (he.imp (·.1) (·.1)) with h | h | ⟨h0, hd0, h⟩
        · exact .inl h
        · refine .inr (.inr ⟨e, R, ?_, h⟩)
          rcases he with ⟨e0, e1, e2⟩ | ⟨e0, e1, e2⟩
          · refine .inl ⟨e0, by omega, fun hk' => ?_⟩
            rcases hmon hk' with h | h
            · exact e2 h
            · rw [h]; omega
          · refine .inr ⟨e0, by omega, fun hk' => ?_⟩
            rcases hmon hk' with h | h
            · exact e2 h
            · rw [h]; omega
        · refine .inr (.inr ⟨2 * d, R + P, .inr ⟨rfl, ?_, fun hk' => ?_⟩, h⟩)
          · rcases he with ⟨e0, e1, e2⟩ | ⟨e0, e1, e2⟩ <;> omega
          · rcases he with ⟨e0, e1, e2⟩ | ⟨e0, e1, e2⟩
            · rcases hmon hk' with h | h
              · have := e2 h; omega
              · rw [h]; omega
            · rcases hmon hk' with h | h
              · have := e2 h; omega
              · rw [h]; omega
  obtain ⟨q, rfl⟩ : ∃ q, m = q + 2 := ⟨m - 2, by omega⟩
  rcases key q with h | ⟨-, h⟩ | ⟨e, R, he, h⟩
  · exact h
  · omega
  · exfalso
    have hR2 : R ≤ (ins K).time + 2 * P := by
      rcases he with ⟨-, -, e2⟩ | ⟨-, -, e2⟩ <;> have := e2 hm <;> omega
    generalize aseq S P W (fun n => (ins n).time) (q + 2 + 1) = a at h
    unfold Two at h
    split at h
    · exact h
    · omega
    · omega
    · omega
    · omega
    · split at h <;> omega

end

/-- C115: no pulse begins while the output is disabled. -/
theorem C115_disabled (c : Cfg) (k : Reg) (i : In) (he : i.enable = false) (h : (k.tick c i).out = true) : k.out = true := by
  cases hr : i.rst with
  | true => simp [Reg.tick, hr] at h
  | false =>
    have h : (k.next i).out = true := by simpa [Reg.tick, hr] using h
    unfold Reg.next at h
    split at h
    · cases h
    · split at h
      · cases h
      · exact h
      · exact h
      · exact h
      · exact h
      · split at h
        · simp [he] at h
        · split at h
          · cases h
          · exact h

/-- C115 fails for a pulse in progress: disabling does not end it. -/
theorem C115_disable_counterexample : ∃ (c : Cfg) (k : Reg) (i : In), k.fsm = .wait ∧ k.locked = true ∧ k.out = true ∧ i.enable = false ∧
    (k.tick c i).out = true :=
  ⟨⟨⟨0, 0⟩, ⟨1, 0⟩, ⟨0, 1000⟩⟩,
    { fsm := .wait, start := ⟨0, 0⟩, period := ⟨1, 0⟩, width := ⟨0, 1000⟩, locked := true, level := true, out := true, time := ⟨4, 10⟩, rise := ⟨5, 0⟩, fall := ⟨4, 1000⟩ }, { ts := 0, enable := false }, by decide⟩

/-! A run: period 100 ns, width 40 ns, 8 ns a cycle, for 1000 cycles, and then the clock stands. -/

def w : Nat → In := fun n => { ts := min n 1000 * 8 * 2 ^ 16 }

theorem w_time (n : Nat) : (w n).time = min n 1000 * 8 * 2 ^ 16 := by
  simp only [w, In.time]
  omega

theorem w_run : Running (100 * 2 ^ 16) (100 * 2 ^ 16) (40 * 2 ^ 16) (8 * 2 ^ 16) w := by
  refine ⟨fun n => ⟨rfl, rfl, rfl, rfl, rfl⟩, fun _ => rfl, fun n => ?_, fun n => ?_, by decide, by decide, by decide, fun n => ?_⟩
  · simp only [w]; omega
  · simp only [w_time]; omega
  · simp only [w_time]; omega

def k0 : Reg := { start := ⟨0, 100 * 2 ^ 16⟩, period := ⟨0, 100 * 2 ^ 16⟩, width := ⟨0, 40 * 2 ^ 16⟩ }

/-- the hypotheses hold -/
example : k0.fsm = .idle ∧ (k0.start.Ok ∧ k0.start.tot = 100 * 2 ^ 16) ∧ (k0.width.Ok ∧ k0.width.tot = 40 * 2 ^ 16) ∧ (w 1).time ≤ 100 * 2 ^ 16 := by
  unfold Tm.Ok; decide

/-- the first pulse is missing, the second is there -/
example : let c : Cfg := ⟨⟨0, 0⟩, ⟨1, 0⟩, ⟨0, 1000⟩⟩
    (at' c k0 w 18).out = false ∧ (at' c k0 w 18).locked = true ∧ (at' c k0 w 27).out = false ∧ (at' c k0 w 28).out = true ∧
    (at' c k0 w 32).out = true ∧ (at' c k0 w 33).out = false := by decide

/-- locked in time for the second pulse -/
example : (w 16).time + 100 * 2 ^ 16 < (w 29).time := by decide

/-- a start in the past: the clock begins 60 ns after it, and runs on for longer than it takes to catch up and three periods -/
def w2 : Nat → In := fun n => { ts := (160 + min n 400000000 * 8) * 2 ^ 16 }

example : 100 * 2 ^ 16 < (w2 0).time ∧
    ∃ m K, K = 3 * ((w2 0).time - 100 * 2 ^ 16) + 12 * (8 * 2 ^ 16) + 7 ∧ K ≤ m ∧ (w2 K).time + 3 * (100 * 2 ^ 16) ≤ (w2 m).time :=
  ⟨by decide, 18087936 + 60, _, rfl, by decide, by decide⟩

end Corundum.Perout
