import Verif.Spec.PhyRx

namespace Corundum.PhyRx

theorem good_iff {h : Nat} : good h = true ↔ h = 1 ∨ h = 2 := by simp [good]

theorem bads_append (a b : List Nat) : bads (a ++ b) = bads a + bads b := by simp [bads]

theorem bads_good {h : Nat} (hg : good h = true) : bads [h] = 0 := by
  have := good_iff.1 hg
  rcases this with rfl | rfl <;> rfl

theorem bads_bad {h : Nat} (hg : good h = false) : bads [h] = 1 := by
  have : ¬ (h = 1 ∨ h = 2) := by rw [← good_iff, hg]; simp
  simp [bads]
  omega

/-! ### frame sync: what the counters hold -/

structure SInv (hs : List Nat) (s : Sync) : Prop where
  hist : ∃ pre w, hs = pre ++ w ∧ w.length = s.count ∧ bads w = s.bad
  lim : s.count < 64 ∧ s.bad < 16
  unlocked : s.lock = false → s.bad = 0
  locked : s.lock = true → s.slip = false ∧ s.wait = 0
  busy : s.slip = true ∨ s.wait ≠ 0 → s.count = 0

theorem sinv_init : SInv [] {} := ⟨⟨[], [], rfl, rfl, rfl⟩, by decide, fun _ => rfl, fun h => (by cases h), fun _ => rfl⟩

theorem sinv_step {hi lo : Nat} {hs : List Nat} {s : Sync} (hi' : SInv hs s) (h : Nat) : SInv (hs ++ [h]) (s.step hi lo h) := by
  obtain ⟨⟨pre, w, h1, h2, h3⟩, ⟨h4, h4'⟩, h5, h6, h7⟩ := hi'
  obtain ⟨count, bad, wait, slip, lock⟩ := s
  dsimp only at h2 h3 h4 h4' h5 h6 h7
  have nil : ∃ pre w, hs ++ [h] = pre ++ w ∧ w.length = 0 ∧ bads w = 0 := ⟨hs ++ [h], [], by simp, rfl, rfl⟩
  by_cases hw : wait ≠ 0
  · obtain rfl := h7 (Or.inr hw)
    have hl : lock = false := by cases lock <;> simp_all
    subst hl
    obtain rfl := h5 rfl
    rw [Sync.step, if_pos hw]
    exact ⟨nil, ⟨by simp, by simp⟩, fun _ => rfl, fun e => (by cases e), fun _ => rfl⟩
  · have hw0 : wait = 0 := by omega
    subst hw0
    rw [Sync.step, if_neg hw]
    cases slip with
    | true =>
      obtain rfl := h7 (Or.inl rfl)
      have hl : lock = false := by cases lock <;> simp_all
      subst hl
      obtain rfl := h5 rfl
      rw [if_pos rfl]
      exact ⟨nil, ⟨by simp, by simp⟩, fun _ => rfl, fun e => (by cases e), fun _ => rfl⟩
    | false =>
      rw [if_neg (by simp)]
      have more : ∃ pre' w', hs ++ [h] = pre' ++ w' ∧ w'.length = count + 1 ∧ bads w' = bad + bads [h] :=
        ⟨pre, w ++ [h], by rw [h1, List.append_assoc], by simp [h2], by rw [bads_append, h3]⟩
      cases hg : good h with
      | true =>
        rw [bads_good hg] at more
        rw [if_pos rfl]
        dsimp only
        split
        · exact ⟨nil, ⟨by simp, by simp⟩, fun _ => rfl, fun _ => ⟨rfl, rfl⟩, fun _ => rfl⟩
        · rw [Nat.mod_eq_of_lt (by omega)]
          exact ⟨more, ⟨by simp only; omega, h4'⟩, h5, fun _ => ⟨rfl, rfl⟩, fun e => by simp at e⟩
      | false =>
        rw [bads_bad hg] at more
        rw [if_neg (by simp)]
        dsimp only
        split
        · exact ⟨nil, ⟨by simp, by simp⟩, fun _ => rfl, fun e => (by cases e), fun _ => rfl⟩
        · rename_i hn
          split
          · exact ⟨nil, ⟨by simp, by simp⟩, fun _ => rfl, fun _ => ⟨rfl, rfl⟩, fun _ => rfl⟩
          · have hb : bad ≠ 15 := fun e => hn (Or.inr e)
            rw [Nat.mod_eq_of_lt (show count + 1 < 64 by omega), Nat.mod_eq_of_lt (show bad + 1 < 16 by omega)]
            exact ⟨more, ⟨by simp only; omega, by simp only; omega⟩, fun e => (hn (Or.inl e)).elim, fun _ => ⟨rfl, rfl⟩, fun e => by simp at e⟩

theorem sinv_run {hi lo : Nat} : ∀ (hs : List Nat), SInv hs (Sync.run hi lo {} hs) := by
  have key : ∀ (hs pre : List Nat) (s : Sync), SInv pre s → SInv (pre ++ hs) (Sync.run hi lo s hs) := by
    intro hs
    induction hs with
    | nil => intro pre s h; rw [List.append_nil]; exact h
    | cons h hs ih =>
      intro pre s hi'
      have := ih (pre ++ [h]) _ (sinv_step (hi := hi) (lo := lo) hi' h)
      rw [List.append_assoc] at this
      exact this
  intro hs
  exact key hs [] {} sinv_init

/-! ### frame sync: finding the alignment -/

/-- looking for 64 good headers, `k` found -/
def Look (k : Nat) (s : Sync) : Prop := s.count = k ∧ s.bad = 0 ∧ s.wait = 0 ∧ s.slip = false ∧ s.lock = false

theorem look_good {hi lo k h : Nat} {s : Sync} (hl : Look k s) (hk : k < 63) (hg : good h = true) : Look (k + 1) (s.step hi lo h) := by
  obtain ⟨count, bad, wait, slip, lock⟩ := s
  obtain ⟨rfl, rfl, rfl, rfl, rfl⟩ := hl
  dsimp only
  rw [Sync.step]
  simp only [ne_eq, not_true_eq_false, if_false, Bool.false_eq_true, hg, if_true]
  rw [if_neg (by simp only at hk ⊢; omega), Nat.mod_eq_of_lt (by simp only at hk; omega)]
  exact ⟨rfl, rfl, rfl, rfl, rfl⟩

/-- the registers when the lock has just been found or only good headers have followed -/
def Locked (s : Sync) : Prop := s.bad = 0 ∧ s.wait = 0 ∧ s.slip = false ∧ s.lock = true ∧ s.count < 64

theorem look_lock {hi lo h : Nat} {s : Sync} (hl : Look 63 s) (hg : good h = true) : Locked (s.step hi lo h) := by
  obtain ⟨count, bad, wait, slip, lock⟩ := s
  obtain ⟨rfl, rfl, rfl, rfl, rfl⟩ := hl
  simp [Sync.step, hg, Locked]

theorem locked_good {hi lo h : Nat} {s : Sync} (hl : Locked s) (hg : good h = true) : Locked (s.step hi lo h) := by
  obtain ⟨count, bad, wait, slip, lock⟩ := s
  obtain ⟨rfl, rfl, rfl, rfl, hc⟩ := hl
  dsimp only at hc
  by_cases h63 : count = 63
  · simp [Sync.step, hg, h63, Locked]
  · simp only [Sync.step, hg, h63, Locked, ne_eq, not_true_eq_false, if_false, if_true, Bool.false_eq_true]
    exact ⟨trivial, trivial, trivial, trivial, by omega⟩

/-- waiting for a slip: `n` more cycles -/
def Wait (lo n : Nat) (s : Sync) : Prop :=
  s.count = 0 ∧ s.bad = 0 ∧ s.lock = false ∧ if s.slip then n = s.wait + max lo 1 else n = s.wait

theorem look_bad {hi lo k h : Nat} {s : Sync} (hl : Look k s) (hg : good h = false) :
    (s.step hi lo h).slip = true ∧ Wait lo (settle hi lo) (s.step hi lo h) := by
  obtain ⟨count, bad, wait, slip, lock⟩ := s
  obtain ⟨rfl, rfl, rfl, rfl, rfl⟩ := hl
  simp only [Sync.step, hg, Wait, settle, ne_eq, not_true_eq_false, if_false, if_true, Bool.false_eq_true, true_or, true_and]
  omega

theorem wait_step {hi lo n h : Nat} {s : Sync} (hl : Wait lo (n + 1) s) :
    Wait lo n (s.step hi lo h) ∧ (s.slip = false → (s.step hi lo h).slip = false) := by
  obtain ⟨count, bad, wait, slip, lock⟩ := s
  obtain ⟨h1, h2, h3, h4⟩ := hl
  dsimp only at h1 h2 h3 h4
  subst h1 h2 h3
  by_cases hw : wait ≠ 0
  · rw [Sync.step, if_pos hw]
    refine ⟨⟨rfl, rfl, rfl, ?_⟩, fun h => h⟩
    cases slip <;> simp only [Bool.false_eq_true, if_false, if_true] at h4 ⊢ <;> omega
  · rw [Sync.step, if_neg hw]
    cases slip with
    | true =>
      rw [if_pos rfl]
      refine ⟨⟨rfl, rfl, rfl, ?_⟩, fun h => rfl⟩
      simp only [Bool.false_eq_true, if_false, if_true] at h4 ⊢
      omega
    | false =>
      simp only [Bool.false_eq_true, if_false] at h4
      omega

theorem wait_zero {lo : Nat} {s : Sync} (hl : Wait lo 0 s) : Look 0 s := by
  obtain ⟨h1, h2, h3, h4⟩ := hl
  cases hs : s.slip with
  | true => rw [hs] at h4; simp only [if_true] at h4; omega
  | false => rw [hs] at h4; simp only [if_false, Bool.false_eq_true] at h4; exact ⟨h1, h2, h4.symm, hs, h3⟩

section loop
variable {hi lo age : Nat} {h : Nat → Nat}

theorem at_succ (n : Nat) : Loop.at hi lo age h (n + 1) = (Loop.at hi lo age h n).step hi lo (h n) := rfl

theorem step_s (l : Loop) (x : Nat) : (l.step hi lo x).s = l.s.step hi lo x := by
  rw [Loop.step]; split <;> rfl

theorem step_quiet {l : Loop} {x : Nat} (hs : l.s.slip = true ∨ (l.s.step hi lo x).slip = false) :
    (l.step hi lo x).slips = l.slips ∧ (l.step hi lo x).age = l.age + 1 := by
  rw [Loop.step]
  rw [if_neg]
  · exact ⟨rfl, rfl⟩
  · rcases hs with hs | hs <;> simp [hs]

theorem step_rise {l : Loop} {x : Nat} (h1 : l.s.slip = false) (h2 : (l.s.step hi lo x).slip = true) :
    (l.step hi lo x).slips = l.slips + 1 ∧ (l.step hi lo x).age = 0 := by
  rw [Loop.step]
  rw [if_pos (by rw [h1, h2]; rfl)]
  exact ⟨rfl, rfl⟩

/-- ready to look at headers, the last slip has settled -/
def Fresh (l : Loop) (hi lo : Nat) : Prop := Look 0 l.s ∧ settle hi lo ≤ l.age

/-- good headers only -/
theorem at_good {n : Nat} (hf : Fresh (Loop.at hi lo age h n) hi lo) : ∀ k, k ≤ 63 → (∀ j < k, good (h (n + j)) = true) →
    Look k (Loop.at hi lo age h (n + k)).s ∧ (Loop.at hi lo age h (n + k)).slips = (Loop.at hi lo age h n).slips ∧
      settle hi lo ≤ (Loop.at hi lo age h (n + k)).age := by
  intro k
  induction k with
  | zero => intro _ _; exact ⟨hf.1, rfl, hf.2⟩
  | succ k ih =>
    intro hk hg
    obtain ⟨h1, h2, h3⟩ := ih (by omega) fun j hj => hg j (by omega)
    have hl := look_good (hi := hi) (lo := lo) h1 (by omega) (hg k (by omega))
    rw [← Nat.add_assoc, at_succ]
    obtain ⟨q1, q2⟩ := step_quiet (hi := hi) (lo := lo) (l := Loop.at hi lo age h (n + k)) (x := h (n + k)) (Or.inr hl.2.2.2.1)
    rw [step_s, q1, q2]
    exact ⟨hl, h2, by omega⟩

theorem at_wait {n : Nat} : ∀ w, Wait lo w (Loop.at hi lo age h n).s → 
    Look 0 (Loop.at hi lo age h (n + w)).s ∧ (Loop.at hi lo age h (n + w)).slips = (Loop.at hi lo age h n).slips ∧
      (Loop.at hi lo age h (n + w)).age = (Loop.at hi lo age h n).age + w := by
  intro w
  induction w generalizing n with
  | zero => intro hw; exact ⟨wait_zero hw, rfl, rfl⟩
  | succ w ih =>
    intro hw
    obtain ⟨h1, h2⟩ := wait_step (hi := hi) (h := h n) hw
    have hq : (Loop.at hi lo age h n).s.slip = true ∨ ((Loop.at hi lo age h n).s.step hi lo (h n)).slip = false := by
      cases hs : (Loop.at hi lo age h n).s.slip with
      | true => exact Or.inl rfl
      | false => exact Or.inr (h2 hs)
    obtain ⟨q1, q2⟩ := step_quiet hq
    have := ih (n := n + 1) (by rw [at_succ, step_s]; exact h1)
    rw [at_succ, q1, q2, show n + 1 + w = n + (w + 1) by omega] at this
    exact ⟨this.1, this.2.1, by rw [this.2.2]; omega⟩

/-- one more slip -/
theorem at_slip {a n : Nat} (hs : Signal hi lo age a h) (hf : Fresh (Loop.at hi lo age h n) hi lo)
    (hw : (Loop.at hi lo age h n).slips % 66 ≠ a) : ∃ m, n < m ∧ m ≤ n + 64 + settle hi lo ∧ Fresh (Loop.at hi lo age h m) hi lo ∧
      (Loop.at hi lo age h m).slips = (Loop.at hi lo age h n).slips + 1 := by
  -- the first bad header
  have hex : ∃ j < 64, good (h (n + j)) = false ∧ ∀ i < j, good (h (n + i)) = true := by
    have : ∀ k, k ≤ 64 → (∀ j < k, good (h (n + j)) = true) ∨ ∃ j < k, good (h (n + j)) = false ∧ ∀ i < j, good (h (n + i)) = true := by
      intro k
      induction k with
      | zero => intro _; exact Or.inl fun j hj => by omega
      | succ k ih =>
        intro hk
        rcases ih (by omega) with hall | ⟨j, hj, h1, h2⟩
        · cases hg : good (h (n + k)) with
          | true => exact Or.inl fun j hj => (by rcases Nat.lt_or_ge j k with h | h; exact hall j h; rw [show j = k by omega]; exact hg)
          | false => exact Or.inr ⟨k, by omega, hg, hall⟩
        · exact Or.inr ⟨j, by omega, h1, h2⟩
    rcases this 64 (Nat.le_refl _) with hall | hx
    · obtain ⟨j, hj, hb | hb⟩ := hs.wrong n hw
      · have := good_iff.1 (hall j hj); omega
      · exact (hb (at_good hf j (by omega) fun i hi => hall i (by omega)).2.1).elim
    · exact hx
  obtain ⟨j, hj, hb, hg⟩ := hex
  obtain ⟨l1, l2, _⟩ := at_good hf j (by omega) hg
  obtain ⟨b1, b2⟩ := look_bad (hi := hi) (lo := lo) l1 hb
  obtain ⟨r1, r2⟩ := step_rise l1.2.2.2.1 b1
  have hw' := at_wait (hi := hi) (lo := lo) (age := age) (h := h) (n := n + j + 1) (settle hi lo) (by rw [at_succ, step_s]; exact b2)
  rw [at_succ, r1, r2, l2] at hw'
  exact ⟨n + j + 1 + settle hi lo, by omega, by omega, ⟨hw'.1, by rw [hw'.2.2]; omega⟩, hw'.2.1⟩

/-- with the right alignment -/
theorem at_lock {a n : Nat} (hs : Signal hi lo age a h) (hf : Fresh (Loop.at hi lo age h n) hi lo)
    (hw : (Loop.at hi lo age h n).slips % 66 = a) (k : Nat) : Locked (Loop.at hi lo age h (n + 64 + k)).s ∧
      (Loop.at hi lo age h (n + 64 + k)).slips = (Loop.at hi lo age h n).slips ∧ settle hi lo ≤ (Loop.at hi lo age h (n + 64 + k)).age := by
  have hgood : ∀ k, k ≤ 64 → ∀ j < k, good (h (n + j)) = true := by
    intro k
    induction k with
    | zero => intro _ j hj; omega
    | succ k ih =>
      intro hk j hj
      rcases Nat.lt_or_ge j k with h' | h'
      · exact ih (by omega) j h'
      · obtain rfl : j = k := by omega
        obtain ⟨_, g2, g3⟩ := at_good hf j (by omega) fun i hi => ih (by omega) i hi
        exact good_iff.2 (hs.right _ (by rw [g2]; exact hw) g3)
  have g := hgood 64 (Nat.le_refl _)
  induction k with
  | zero =>
    obtain ⟨g1, g2, g3⟩ := at_good hf 63 (by omega) fun j hj => g j (by omega)
    have hl := look_lock (hi := hi) (lo := lo) g1 (g 63 (by omega))
    obtain ⟨q1, q2⟩ := step_quiet (hi := hi) (lo := lo) (l := Loop.at hi lo age h (n + 63)) (x := h (n + 63)) (Or.inr hl.2.2.1)
    rw [Nat.add_zero, show n + 64 = n + 63 + 1 by omega, at_succ, step_s, q1, q2]
    exact ⟨hl, g2, by omega⟩
  | succ k ih =>
    obtain ⟨i1, i2, i3⟩ := ih
    have hx := good_iff.2 (hs.right (n + 64 + k) (by rw [i2]; exact hw) i3)
    have hl := locked_good (hi := hi) (lo := lo) i1 hx
    obtain ⟨q1, q2⟩ := step_quiet (hi := hi) (lo := lo) (l := Loop.at hi lo age h (n + 64 + k)) (x := h (n + 64 + k)) (Or.inr hl.2.2.1)
    rw [show n + 64 + (k + 1) = n + 64 + k + 1 by omega, at_succ, step_s, q1, q2]
    exact ⟨hl, i2, by omega⟩

theorem at_find {a : Nat} (hs : Signal hi lo age a h) : ∀ d n, Fresh (Loop.at hi lo age h n) hi lo →
    ((Loop.at hi lo age h n).slips + d) % 66 = a → d < 66 → ∃ m ≤ n + d * (64 + settle hi lo) + 64, ∀ k,
      Locked (Loop.at hi lo age h (m + k)).s ∧ (Loop.at hi lo age h (m + k)).slips % 66 = a := by
  intro d
  induction d with
  | zero =>
    intro n hf hd _
    refine ⟨n + 64, by omega, fun k => ?_⟩
    obtain ⟨h1, h2, _⟩ := at_lock hs hf hd k
    exact ⟨h1, by rw [h2]; exact hd⟩
  | succ d ih =>
    intro n hf hd hlt
    by_cases hz : (Loop.at hi lo age h n).slips % 66 = a
    · omega
    · obtain ⟨m, m1, m2, m3, m4⟩ := at_slip hs hf hz
      obtain ⟨m', k1, k2⟩ := ih m m3 (by rw [m4, ← hd]; congr 1; omega) (by omega)
      refine ⟨m', ?_, k2⟩
      rw [Nat.add_mul, Nat.one_mul]
      omega

end loop

/-! ### error rate monitor -/

theorem ber_part {count : Nat} : ∀ (hs : List Nat) (s : Ber), hs.length ≤ s.time → s.ber ≤ 15 →
    Ber.run count s hs = ⟨s.time - hs.length, min 15 (s.ber + bads hs), s.high || decide (16 ≤ s.ber + bads hs)⟩ := by
  intro hs
  induction hs with
  | nil =>
    intro s _ hb
    obtain ⟨time, ber, high⟩ := s
    dsimp only at hb
    simp only [Ber.run, List.foldl_nil, List.length_nil, Nat.sub_zero, show bads [] = 0 from rfl, Nat.add_zero, Nat.min_eq_right hb]
    rw [decide_eq_false (by omega), Bool.or_false]
  | cons h hs ih =>
    intro s hl hb
    obtain ⟨time, ber, high⟩ := s
    simp only [List.length_cons] at hl hb
    have ht : time ≠ 0 := by omega
    have hc : bads (h :: hs) = bads [h] + bads hs := bads_append [h] hs
    rw [Ber.run, List.foldl_cons, hc]
    cases hg : good h with
    | true =>
      have e : Ber.step count ⟨time, ber, high⟩ h = ⟨time - 1, ber, high⟩ := by simp [Ber.step, hg, ht]
      rw [e, bads_good hg, Nat.zero_add, ← Ber.run, ih _ (by simp only; omega) hb]
      simp only [List.length_cons, Ber.mk.injEq, and_true]
      omega
    | false =>
      rw [bads_bad hg]
      by_cases hf : ber = 15
      · have e : Ber.step count ⟨time, ber, high⟩ h = ⟨time - 1, 15, true⟩ := by simp [Ber.step, hg, ht, hf]
        rw [e, ← Ber.run, ih _ (by simp only; omega) (by simp)]
        simp only [List.length_cons, Ber.mk.injEq, Bool.true_or]
        refine ⟨by omega, by omega, ?_⟩
        rw [decide_eq_true (by omega), Bool.or_true]
      · have e : Ber.step count ⟨time, ber, high⟩ h = ⟨time - 1, ber + 1, high⟩ := by
          simp only [Ber.step, hg, ht, hf, if_false, Bool.false_eq_true]
          rw [Nat.mod_eq_of_lt (by omega)]
        rw [e, ← Ber.run, ih _ (by simp only; omega) (by simp only; omega)]
        simp only [List.length_cons, Ber.mk.injEq]
        refine ⟨by omega, by omega, ?_⟩
        rw [show ber + 1 + bads hs = ber + (1 + bads hs) by omega]

theorem ber_append (count : Nat) (s : Ber) (a b : List Nat) : Ber.run count s (a ++ b) = Ber.run count (Ber.run count s a) b :=
  List.foldl_append

theorem dog_append (count : Nat) (s : Dog) (a b : List WIn) : Dog.run count s (a ++ b) = Dog.run count (Dog.run count s a) b :=
  List.foldl_append

theorem ber_window {count : Nat} {s : Ber} (ht : s.time = timer count) (hb : s.ber = 0) {hs : List Nat} (hl : hs.length = timer count + 1) :
    Ber.run count s hs = ⟨timer count, 0, if 16 ≤ bads hs then true else if bads hs.dropLast = 15 then s.high else false⟩ := by
  have hn : hs ≠ [] := by intro e; rw [e] at hl; cases hl
  have hd : hs = hs.dropLast ++ [hs.getLast hn] := (List.dropLast_concat_getLast hn).symm
  have hlen : hs.dropLast.length = timer count := by simp [hl]
  generalize hs.getLast hn = x at hd
  generalize hs.dropLast = d at hd hlen ⊢
  subst hd
  rw [ber_append, ber_part d s (by omega) (by omega), bads_append, ht, hb, hlen, Nat.sub_self, Nat.zero_add]
  show Ber.step count _ x = _
  cases hg : good x with
  | true =>
    rw [bads_good hg, Nat.add_zero]
    simp only [Ber.step, hg, if_true, Ber.mk.injEq, true_and]
    by_cases h1 : 16 ≤ bads d
    · simp [h1, show min 15 (bads d) = 15 by omega]
    · by_cases h2 : bads d = 15
      · simp [h2]
      · simp [h1, h2, show min 15 (bads d) = bads d by omega]
  | false =>
    rw [bads_bad hg]
    simp only [Ber.step, hg, if_true, if_false, Bool.false_eq_true, Ber.mk.injEq, true_and]
    by_cases h1 : 15 ≤ bads d
    · simp [show min 15 (bads d) = 15 by omega]; omega
    · simp [show min 15 (bads d) = bads d by omega, show ¬ bads d = 15 by omega]; omega

theorem ber_windows {count : Nat} : ∀ (ws : List (List Nat)) (s : Ber), s.time = timer count → s.ber = 0 →
    (∀ w ∈ ws, w.length = timer count + 1) → (Ber.run count s ws.flatten).time = timer count ∧ (Ber.run count s ws.flatten).ber = 0 := by
  intro ws
  induction ws with
  | nil => intro s h1 h2 _; exact ⟨h1, h2⟩
  | cons w ws ih =>
    intro s h1 h2 hw
    rw [List.flatten_cons, ber_append, ber_window h1 h2 (hw w List.mem_cons_self)]
    exact ih _ rfl rfl fun x hx => hw x (List.mem_cons_of_mem _ hx)

theorem timer_self {count : Nat} (h : ∀ k, count ≠ 2 ^ (k + 1)) : timer count = count := by
  rw [timer]
  by_cases h1 : count ≤ 1
  · apply Nat.mod_eq_of_lt
    exact Nat.lt_of_lt_of_le (show count < 2 ^ 1 by omega) (Nat.pow_le_pow_right (by decide) (by omega))
  · apply Nat.mod_eq_of_lt
    have hc : clog2 count = Nat.log2 (count - 1) + 1 := if_neg h1
    have hlt : count - 1 < 2 ^ (Nat.log2 (count - 1) + 1) := Nat.lt_log2_self
    rw [hc, Nat.max_eq_right (by omega)]
    have := h (Nat.log2 (count - 1))
    omega

theorem timer_pow (k : Nat) : timer (2 ^ (k + 1)) = 0 := by
  have h2 : 2 ≤ 2 ^ (k + 1) := by rw [Nat.pow_succ]; have := Nat.one_le_two_pow (n := k); omega
  have hl : Nat.log2 (2 ^ (k + 1) - 1) = k := by
    rw [Nat.log2_eq_iff (by omega)]
    have := Nat.one_le_two_pow (n := k)
    rw [Nat.pow_succ] at *
    omega
  rw [timer, clog2, if_neg (by omega), hl, Nat.max_eq_right (by omega), Nat.mod_self]

/-! ### watchdog -/

def sees (is : List WIn) : Bool := is.any fun i => i.lock && i.hdr == 1
def errs (is : List WIn) : Nat := is.countP fun i => i.lock && (i.badBlock || i.seqErr)
def locks (is : List WIn) : Bool := is.all (·.lock)

theorem dog_part {count : Nat} : ∀ (is : List WIn) (s : Dog), is.length ≤ s.time → s.blk ≤ 1023 →
    Dog.run count s is = ⟨s.time - is.length, s.err, if locks is then s.stat else 0, s.saw || sees is, min 1023 (s.blk + errs is),
      s.req && is.isEmpty, s.status && locks is⟩ := by
  intro is
  induction is with
  | nil =>
    intro s _ hb
    simp [Dog.run, locks, sees, errs, Nat.min_eq_right hb]
  | cons i is ih =>
    intro s hl hb
    simp only [List.length_cons] at hl
    have ht : s.time ≠ 0 := by omega
    have hstep : Dog.step count s i = ⟨s.time - 1, s.err, if i.lock then s.stat else 0, s.saw || (i.lock && i.hdr == 1),
        min 1023 (s.blk + errs [i]), false, s.status && i.lock⟩ := by
      rw [Dog.step, if_pos ht]
      simp only [Dog.mk.injEq, true_and]
      refine ⟨?_, ?_, ?_⟩
      · cases i.lock && i.hdr == 1 <;> simp
      · by_cases hc : (i.lock && (i.badBlock || i.seqErr)) = true
        · have he : errs [i] = 1 := by simp only [errs, List.countP_singleton, hc, if_true]
          rw [he, hc, Bool.true_and]
          by_cases h3 : s.blk = 1023
          · simp [h3]
          · rw [if_pos (by simpa using h3), Nat.mod_eq_of_lt (by omega)]; omega
        · have hc' : (i.lock && (i.badBlock || i.seqErr)) = false := by simpa using hc
          have he : errs [i] = 0 := by simp only [errs, List.countP_singleton, hc', if_false, Bool.false_eq_true]
          rw [he, hc', Bool.false_and]
          simp; omega
      · cases i.lock <;> simp
    rw [Dog.run, List.foldl_cons, hstep, ← Dog.run, ih _ (by simp only; omega) (by simp only; omega)]
    have e1 : errs (i :: is) = errs [i] + errs is := List.countP_append (l₁ := [i])
    have e2 : locks (i :: is) = (i.lock && locks is) := rfl
    have e3 : sees (i :: is) = ((i.lock && i.hdr == 1) || sees is) := rfl
    rw [e1, e2, e3]
    simp only [Dog.mk.injEq, List.length_cons, Bool.false_and, List.isEmpty_cons, Bool.and_false, true_and, Bool.or_assoc, Bool.and_assoc]
    refine ⟨by omega, ?_, by omega, ?_⟩
    · cases i.lock <;> cases locks is <;> simp
    · trivial

theorem failed_iff {is : List WIn} : Failed is ↔ (!sees is.dropLast || decide (1023 ≤ errs is.dropLast)) = true := by
  rw [Failed, Bool.or_eq_true, Bool.not_eq_true', decide_eq_true_eq, sees, List.any_eq_false]
  simp only [Bool.and_eq_true, beq_iff_eq, errs]

/-- registers at the start of a time interval -/
structure Start (count : Nat) (s : Dog) : Prop where
  time : s.time = timer count
  saw : s.saw = false
  blk : s.blk = 0
  err : s.err ≤ 15
  stat : s.stat ≤ 15

/-- lock in all cycles but the last -/
def held (w : List WIn) : Bool := locks w.dropLast

theorem dog_window {count : Nat} {s : Dog} (hs : Start count s) {w : List WIn} (hl : w.length = timer count + 1) :
    Start count (Dog.run count s w) ∧
    (Dog.run count s w).err = (if s.err = 15 then 0 else if Failed w then s.err + 1 else 0) ∧
    (Dog.run count s w).req = decide (s.err = 15) ∧
    (Dog.run count s w).stat = (if Failed w then 0 else if held w = true ∧ s.stat = 15 then (if locks w then 15 else 0)
      else if held w then s.stat + 1 else 1) ∧
    (Dog.run count s w).status = (if held w = true ∧ s.stat = 15 then true else s.status && locks w) := by
  have hn : w ≠ [] := by intro e; rw [e] at hl; cases hl
  have hd : w = w.dropLast ++ [w.getLast hn] := (List.dropLast_concat_getLast hn).symm
  have hlen : w.dropLast.length = timer count := by simp [hl]
  have hdec : ∀ {β : Type} (x y : β), (if Failed w then x else y) =
      if (!sees w.dropLast || decide (1023 ≤ errs w.dropLast)) = true then x else y := by
    intro β x y
    by_cases h : Failed w
    · rw [if_pos h, if_pos (failed_iff.1 h)]
    · rw [if_neg h, if_neg (fun e => h (failed_iff.2 e))]
  simp only [hdec]
  clear hdec
  have hlk : locks w = (held w && (w.getLast hn).lock) := by
    rw [held]
    conv => lhs; rw [hd]
    simp [locks]
  rw [held] at *
  generalize w.getLast hn = x at hd hlk
  generalize locks w = L at hlk ⊢
  generalize w.dropLast = d at *
  subst hd
  rw [dog_append, dog_part d s (by rw [hs.time]; omega) (by rw [hs.blk]; omega)]
  rw [show ∀ s, Dog.run count s [x] = Dog.step count s x from fun _ => rfl]
  simp only [hs.time, hlen, Nat.sub_self, hs.saw, hs.blk, Nat.zero_add, Bool.false_or]
  have he := hs.err
  have hst := hs.stat
  have hbad : (!sees d || (min 1023 (errs d) == 1023)) = (!sees d || decide (1023 ≤ errs d)) := by
    congr 1
    by_cases h : 1023 ≤ errs d
    · simp [h]
    · rw [decide_eq_false h]; simp; omega
  rw [Dog.step, if_neg (by simp)]
  simp only [hbad]
  generalize hb : (!sees d || decide (1023 ≤ errs d)) = b at *
  refine ⟨⟨rfl, rfl, rfl, ?_, ?_⟩, ?_, trivial, ?_, ?_⟩
  · by_cases h : s.err = 15 <;> cases b <;> simp [h]
    omega
  · by_cases h : s.stat = 15 <;> cases b <;> cases locks d <;> cases x.lock <;> simp [h] <;> omega
  · by_cases h : s.err = 15 <;> cases b <;> simp [h]
    omega
  · rw [hlk]
    by_cases h : s.stat = 15 <;> cases b <;> cases locks d <;> cases x.lock <;> simp [h] <;> omega
  · rw [hlk]
    by_cases h : s.stat = 15 <;> cases locks d <;> cases x.lock <;> simp [h]

end Corundum.PhyRx
