import Verif.Proof.PhyRx

/-! C109-C111: frame sync, error rate monitor and watchdog of the 10G receiver. -/
namespace Corundum.PhyRx

/-! ### C109 -/

/-- C109: lock is declared only after 64 good headers in a row. -/
theorem C109_lock {hi lo : Nat} {hs : List Nat} {h : Nat} (h0 : (Sync.run hi lo {} hs).lock = false)
    (h1 : (Sync.run hi lo {} (hs ++ [h])).lock = true) : ∃ pre w, hs ++ [h] = pre ++ w ∧ w.length = 64 ∧ ∀ x ∈ w, x = 1 ∨ x = 2 := by
  obtain ⟨⟨pre, w, g1, g2, g3⟩, _, g4, _, _⟩ := sinv_run (hi := hi) (lo := lo) hs
  rw [Sync.run, List.foldl_append, ← Sync.run] at h1
  change ((Sync.run hi lo {} hs).step hi lo h).lock = true at h1
  generalize Sync.run hi lo {} hs = s at *
  have hb := g4 h0
  rw [Sync.step] at h1
  split at h1
  · rw [h0] at h1; cases h1
  · split at h1
    · rw [h0] at h1; cases h1
    · split at h1
      · rename_i hg
        split at h1
        · rename_i hc
          refine ⟨pre, w ++ [h], by rw [g1, List.append_assoc], by simp [g2, hc], ?_⟩
          intro x hx
          rcases List.mem_append.1 hx with hx | hx
          · rw [hb, bads, List.countP_eq_zero] at g3
            have := g3 x hx
            simp at this
            exact Classical.or_iff_not_imp_left.2 this
          · rw [List.mem_singleton.1 hx]; exact good_iff.1 hg
        · rw [h0] at h1; cases h1
      · rw [if_pos (Or.inl h0)] at h1; cases h1

/-- C109: lock is given up only when at least 16 of the last 64 headers (or fewer) were bad. -/
theorem C109_unlock {hi lo : Nat} {hs : List Nat} {h : Nat} (h0 : (Sync.run hi lo {} hs).lock = true)
    (h1 : (Sync.run hi lo {} (hs ++ [h])).lock = false) : ∃ pre w, hs ++ [h] = pre ++ w ∧ w.length ≤ 64 ∧ bads w = 16 := by
  obtain ⟨⟨pre, w, g1, g2, g3⟩, ⟨g5, _⟩, _, _, _⟩ := sinv_run (hi := hi) (lo := lo) hs
  rw [Sync.run, List.foldl_append, ← Sync.run] at h1
  change ((Sync.run hi lo {} hs).step hi lo h).lock = false at h1
  generalize Sync.run hi lo {} hs = s at *
  rw [Sync.step] at h1
  split at h1
  · rw [h0] at h1; cases h1
  · split at h1
    · rw [h0] at h1; cases h1
    · split at h1
      · split at h1
        · simp only at h1
          split at h1
          · cases h1
          · rw [h0] at h1; cases h1
        · rw [h0] at h1; cases h1
      · rename_i hg
        split at h1
        · rename_i hx
          have hx : s.bad = 15 := hx.resolve_left (by rw [h0]; simp)
          refine ⟨pre, w ++ [h], by rw [g1, List.append_assoc], by simp [g2]; omega, ?_⟩
          rw [bads_append, g3, hx, bads_bad (by simpa using hg)]
        · split at h1
          · rw [h0] at h1; cases h1
          · rw [h0] at h1; cases h1

/-- while lock is held: what the counters do -/
theorem locked_step {hi lo : Nat} {s : Sync} {h : Nat} (hl : s.lock = true) (hb : s.slip = false ∧ s.wait = 0) (hc : s.count < 64)
    (hbd : s.bad < 16) (hn : (s.step hi lo h).lock = true) :
    (s.count < 63 ∧ (s.step hi lo h).count = s.count + 1 ∧ (s.step hi lo h).bad = s.bad + bads [h]) ∨
    (s.count = 63 ∧ (s.step hi lo h).count = 0 ∧ (s.step hi lo h).bad = 0 ∧ s.bad + bads [h] ≤ 15) := by
  obtain ⟨count, bad, wait, slip, lock⟩ := s
  obtain ⟨rfl, rfl⟩ := hb
  dsimp only at hl hc hbd
  subst hl
  cases hg : good h with
  | true =>
    rw [bads_good hg]
    by_cases h63 : count = 63
    · subst h63
      simp [Sync.step, hg]; omega
    · simp [Sync.step, hg, h63]; omega
  | false =>
    rw [bads_bad hg]
    by_cases h15 : bad = 15
    · simp [Sync.step, hg, h15] at hn
    · by_cases h63 : count = 63
      · subst h63
        simp [Sync.step, hg, h15]; omega
      · simp [Sync.step, hg, h63, h15]; omega

/-- C109: a signal with many bad headers does lose lock: with 31 bad ones among 64 in a row lock is not held all the time. -/
theorem C109_lost {hi lo : Nat} {pre w : List Nat} (hw : w.length ≤ 64) (hb : 31 ≤ bads w) :
    ∃ a b, w = a ++ b ∧ (Sync.run hi lo {} (pre ++ a)).lock = false := by
  apply Classical.byContradiction
  intro hn
  have hall : ∀ a b, w = a ++ b → (Sync.run hi lo {} (pre ++ a)).lock = true := by
    intro a b e
    cases hx : (Sync.run hi lo {} (pre ++ a)).lock with
    | true => rfl
    | false => exact (hn ⟨a, b, e, hx⟩).elim
  have inv : ∀ n, n ≤ w.length → ∃ old, bads (w.take n) ≤ old + (Sync.run hi lo {} (pre ++ w.take n)).bad ∧ old ≤ 15 ∧
      (old = 0 ∨ ∃ k, k < n ∧ (Sync.run hi lo {} (pre ++ w.take n)).count + k + 1 = n) := by
    intro n
    induction n with
    | zero => intro _; exact ⟨0, by simp [bads], by omega, Or.inl rfl⟩
    | succ n ih =>
      intro hlt
      obtain ⟨old, i1, i2, i3⟩ := ih (by omega)
      have hnlt : n < w.length := by omega
      have ht : w.take (n + 1) = w.take n ++ [w[n]] := by rw [List.take_succ_eq_append_getElem hnlt]
      have hI := sinv_run (hi := hi) (lo := lo) (pre ++ w.take n)
      have hL := hall (w.take n) (w.drop n) (List.take_append_drop n w).symm
      have hL' := hall (w.take (n + 1)) (w.drop (n + 1)) (List.take_append_drop _ w).symm
      have hst : Sync.run hi lo {} (pre ++ w.take (n + 1)) = (Sync.run hi lo {} (pre ++ w.take n)).step hi lo w[n] := by
        rw [ht, ← List.append_assoc, Sync.run, List.foldl_append]; rfl
      rw [hst] at hL' ⊢
      rw [ht, bads_append]
      generalize Sync.run hi lo {} (pre ++ w.take n) = s at *
      rcases locked_step hL (hI.locked hL) hI.lim.1 hI.lim.2 hL' with ⟨_, c2, c3⟩ | ⟨c1, c2, c3, c4⟩
      · refine ⟨old, by rw [c3]; omega, i2, ?_⟩
        rcases i3 with h | ⟨k, k1, k2⟩
        · exact Or.inl h
        · exact Or.inr ⟨k, by omega, by omega⟩
      · rw [c2, c3]
        rcases i3 with h | ⟨k, k1, k2⟩
        · exact ⟨s.bad + bads [w[n]], by omega, c4, Or.inr ⟨n, by omega, by omega⟩⟩
        · omega
  obtain ⟨old, i1, i2, _⟩ := inv w.length (Nat.le_refl _)
  rw [List.take_length] at i1
  have := (sinv_run (hi := hi) (lo := lo) (pre ++ w)).lim.2
  omega

/-- C109: on a proper signal lock is found, with the right alignment, within a bounded time, and kept.  (`age`: the transceiver is settled
at the start.) -/
theorem C109_found {hi lo age a : Nat} {h : Nat → Nat} (ha : a < 66) (hg : settle hi lo ≤ age) (hs : Signal hi lo age a h) :
    ∃ m ≤ 65 * (64 + settle hi lo) + 64, ∀ n ≥ m, (Loop.at hi lo age h n).s.lock = true ∧ (Loop.at hi lo age h n).slips % 66 = a := by
  have hf : Fresh (Loop.at hi lo age h 0) hi lo := ⟨⟨rfl, rfl, rfl, rfl, rfl⟩, hg⟩
  obtain ⟨m, m1, m2⟩ := at_find hs a 0 hf (by rw [show (Loop.at hi lo age h 0).slips = 0 from rfl, Nat.zero_add]; omega) ha
  refine ⟨m, ?_, fun n hn => ?_⟩
  · have := Nat.mul_le_mul_right (64 + settle hi lo) (show a ≤ 65 by omega)
    omega
  · obtain ⟨k, rfl⟩ := Nat.exists_eq_add_of_le hn
    exact ⟨(m2 k).1.2.2.2.1, (m2 k).2⟩

/-- C109: a slip is asked for only after a bad header, and lasts `BITSLIP_HIGH_CYCLES` cycles; there are `BITSLIP_LOW_CYCLES` cycles without
one before the next header is looked at. -/
theorem C109_pulse {hi lo : Nat} {hs : List Nat} {h : Nat} (h0 : (Sync.run hi lo {} hs).slip = false)
    (h1 : (Sync.run hi lo {} (hs ++ [h])).slip = true) : h ≠ 1 ∧ h ≠ 2 ∧
    (∀ w, w.length < max hi 1 → (Sync.run hi lo {} (hs ++ [h] ++ w)).slip = true) ∧
    ∀ w, max hi 1 ≤ w.length → w.length ≤ settle hi lo → (Sync.run hi lo {} (hs ++ [h] ++ w)).slip = false := by
  have app : ∀ a b, Sync.run hi lo {} (a ++ b) = Sync.run hi lo (Sync.run hi lo {} a) b := fun a b => List.foldl_append
  rw [app] at h1
  have hstep : (Sync.run hi lo {} hs).step hi lo h = { (Sync.run hi lo {} hs) with count := 0, bad := 0, lock := false, slip := true, wait := hi - 1 } ∧
      good h = false := by
    change ((Sync.run hi lo {} hs).step hi lo h).slip = true at h1
    generalize Sync.run hi lo {} hs = s at *
    rw [Sync.step] at h1 ⊢
    split at h1
    · rw [h0] at h1; cases h1
    · rename_i hw
      rw [if_neg hw]
      split at h1
      · cases h1
      · rename_i hsl
        rw [if_neg hsl]
        split at h1
        · split at h1 <;> rw [h0] at h1 <;> cases h1
        · rename_i hg
          rw [if_neg hg]
          split at h1
          · rename_i hx
            rw [if_pos hx]
            exact ⟨rfl, by simpa using hg⟩
          · split at h1 <;> rw [h0] at h1 <;> cases h1
  obtain ⟨hstep, hg⟩ := hstep
  have hbad : ¬ (h = 1 ∨ h = 2) := by rw [← good_iff, hg]; simp
  have run1 : ∀ w, Sync.run hi lo {} (hs ++ [h] ++ w) = Sync.run hi lo ((Sync.run hi lo {} hs).step hi lo h) w := by
    intro w; rw [app, app]; rfl
  -- counting down
  have down : ∀ (w : List Nat) (s : Sync), w.length ≤ s.wait → Sync.run hi lo s w = { s with wait := s.wait - w.length } := by
    intro w
    induction w with
    | nil => intro s _; rfl
    | cons x w ih =>
      intro s hl
      simp only [List.length_cons] at hl
      have e : s.step hi lo x = { s with wait := s.wait - 1 } := by rw [Sync.step, if_pos (by omega)]
      show Sync.run hi lo (s.step hi lo x) w = _
      rw [e, ih _ (by simp only; omega)]
      simp only [List.length_cons, Sync.mk.injEq, true_and, and_true]
      omega
  refine ⟨fun e => hbad (Or.inl e), fun e => hbad (Or.inr e), fun w hw => ?_, fun w hw hw' => ?_⟩
  · rw [run1, hstep, down _ _ (by simp only; omega)]
  · rw [run1, hstep]
    have hsp : w = w.take (hi - 1) ++ w.drop (hi - 1) := (List.take_append_drop _ _).symm
    have hlt : (w.take (hi - 1)).length = hi - 1 := by rw [List.length_take]; omega
    have hld : (w.drop (hi - 1)).length = w.length - (hi - 1) := List.length_drop
    generalize w.take (hi - 1) = u at *
    generalize w.drop (hi - 1) = v at *
    subst hsp
    rw [show ∀ s, Sync.run hi lo s (u ++ v) = Sync.run hi lo (Sync.run hi lo s u) v from fun s => List.foldl_append,
      down u _ (by simp only; omega), hlt]
    rw [List.length_append] at hw hw' hld
    cases v with
    | nil => simp at hld hw; omega
    | cons x v =>
      rw [settle] at hw'
      rw [List.length_cons] at hw'
      rw [show ∀ s, Sync.run hi lo s (x :: v) = Sync.run hi lo (s.step hi lo x) v from fun s => rfl, Sync.step,
        if_neg (by simp), if_pos rfl, down v _ (by simp only; omega)]

/-! ### C110 -/

/-- C110: the flag is raised once there were 16 bad headers in a time interval. -/
theorem C110_raised {count : Nat} {ws : List (List Nat)} (hw : ∀ w ∈ ws, w.length = timer count + 1) {p : List Nat}
    (hp : p.length ≤ timer count + 1) (hb : 16 ≤ bads p) : (Ber.run count (Ber.init count) (ws.flatten ++ p)).high = true := by
  obtain ⟨h1, h2⟩ := ber_windows ws (Ber.init count) rfl rfl hw
  rw [ber_append]
  by_cases hl : p.length = timer count + 1
  · rw [ber_window h1 h2 hl, if_pos hb]
  · rw [ber_part p _ (by rw [h1]; omega) (by rw [h2]; omega), h2]
    simp; right; omega

/-- C110: the flag is lowered by a time interval with no more than 14 bad headers. -/
theorem C110_lowered_partial {count : Nat} {ws : List (List Nat)} (hw : ∀ w ∈ ws, w.length = timer count + 1) {w : List Nat}
    (hl : w.length = timer count + 1) (hb : bads w ≤ 14) : (Ber.run count (Ber.init count) (ws.flatten ++ w)).high = false := by
  obtain ⟨h1, h2⟩ := ber_windows ws (Ber.init count) rfl rfl hw
  have : bads w.dropLast ≤ bads w := (List.dropLast_sublist w).countP_le
  rw [ber_append, ber_window h1 h2 hl, if_neg (by omega), if_neg (by omega)]

/-- C110: while the flag is up, some time interval had at least 16 bad headers, and no later complete one had 14 or less. -/
theorem C110_reason {count : Nat} : ∀ {ws : List (List Nat)}, (∀ w ∈ ws, w.length = timer count + 1) → ∀ {p : List Nat},
    p.length ≤ timer count → (Ber.run count (Ber.init count) (ws.flatten ++ p)).high = true →
    16 ≤ bads p ∨ ∃ a w b, ws = a ++ w :: b ∧ 16 ≤ bads w ∧ ∀ x ∈ b, 15 ≤ bads x := by
  intro ws
  -- from the end
  suffices h : ∀ (n : Nat) (ws : List (List Nat)), ws.length = n → (∀ w ∈ ws, w.length = timer count + 1) →
      (Ber.run count (Ber.init count) ws.flatten).high = true → ∃ a w b, ws = a ++ w :: b ∧ 16 ≤ bads w ∧ ∀ x ∈ b, 15 ≤ bads x by
    intro hw p hp hh
    obtain ⟨h1, h2⟩ := ber_windows ws (Ber.init count) rfl rfl hw
    rw [ber_append, ber_part p _ (by rw [h1]; exact hp) (by rw [h2]; omega), h2, Nat.zero_add] at hh
    rcases Bool.or_eq_true _ _ ▸ hh with hh | hh
    · exact Or.inr (h _ ws rfl hw hh)
    · exact Or.inl (by simpa using hh)
  intro n
  induction n with
  | zero =>
    intro ws hn _ hh
    rw [List.length_eq_zero_iff.1 hn] at hh
    cases hh
  | succ n ih =>
    intro ws hn hw hh
    have hne : ws ≠ [] := by intro e; rw [e] at hn; cases hn
    have hd := (List.dropLast_concat_getLast hne).symm
    have hlen : ws.dropLast.length = n := by simp [hn]
    generalize ws.getLast hne = w at hd
    generalize ws.dropLast = v at hd hlen
    subst hd
    have hv : ∀ x ∈ v, x.length = timer count + 1 := fun x hx => hw x (List.mem_append_left _ hx)
    obtain ⟨h1, h2⟩ := ber_windows v (Ber.init count) rfl rfl hv
    rw [List.flatten_append, ber_append, List.flatten_singleton, ber_window h1 h2 (hw w (by simp))] at hh
    simp only at hh
    split at hh
    · exact ⟨v, w, [], rfl, by assumption, by simp⟩
    · split at hh
      · rename_i h15
        obtain ⟨a, w', b, e1, e2, e3⟩ := ih v hlen hv hh
        refine ⟨a, w', b ++ [w], by rw [e1]; simp, e2, fun x hx => ?_⟩
        rcases List.mem_append.1 hx with hx | hx
        · exact e3 x hx
        · rw [List.mem_singleton.1 hx, ← h15]
          exact (List.dropLast_sublist w).countP_le
      · cases hh

/-- C110 fails for 15 bad headers: they are too few to raise the flag, but a time interval with 15 of them (none in the last cycle) does
not lower it either. -/
theorem C110_fifteen_counterexample {count : Nat} {ws : List (List Nat)} (hw : ∀ w ∈ ws, w.length = timer count + 1) {w : List Nat}
    (hl : w.length = timer count + 1) (hb : bads w = 15) (hd : bads w.dropLast = 15) :
    (Ber.run count (Ber.init count) (ws.flatten ++ w)).high = (Ber.run count (Ber.init count) ws.flatten).high := by
  obtain ⟨h1, h2⟩ := ber_windows ws (Ber.init count) rfl rfl hw
  rw [ber_append, ber_window h1 h2 hl, if_neg (by omega), if_pos hd]

/-- C110: the time interval is `COUNT_125US + 1` cycles long unless `COUNT_125US` is a power of two. -/
theorem C110_interval {count : Nat} (h : ∀ k, count ≠ 2 ^ (k + 1)) : timer count = count := timer_self h

/-- C110 fails when `COUNT_125US` is a power of two: it does not fit into the register, every cycle is a time interval of its own, and the
flag is never raised. -/
theorem C110_power_counterexample (k : Nat) (hs : List Nat) :
    (Ber.run (2 ^ (k + 1)) (Ber.init (2 ^ (k + 1))) hs).high = false := by
  have key : ∀ (hs : List Nat) (s : Ber), s.time = 0 → s.ber = 0 → s.high = false → (Ber.run (2 ^ (k + 1)) s hs).high = false := by
    intro hs
    induction hs with
    | nil => intro s _ _ h; exact h
    | cons h hs ih =>
      intro s h1 h2 h3
      refine ih _ ?_ ?_ ?_
      · simp [Ber.step, h1, timer_pow]
      · simp [Ber.step, h1]
      · simp [Ber.step, h1, h2]
  exact key hs _ (timer_pow k) rfl rfl

/-! ### C111 -/

theorem start_init (count : Nat) : Start count (Dog.init count) := ⟨rfl, rfl, rfl, by simp [Dog.init], by simp [Dog.init]⟩

theorem start_windows {count : Nat} : ∀ (ws : List (List WIn)) (s : Dog), Start count s → (∀ w ∈ ws, w.length = timer count + 1) →
    Start count (Dog.run count s ws.flatten) := by
  intro ws
  induction ws with
  | nil => intro s h _; exact h
  | cons w ws ih =>
    intro s h hw
    rw [List.flatten_cons, dog_append]
    exact ih _ (dog_window h (hw w List.mem_cons_self)).1 fun x hx => hw x (List.mem_cons_of_mem _ hx)

theorem snoc_ind {α : Type} {P : List α → Prop} (h0 : P []) (h1 : ∀ l x, P l → P (l ++ [x])) (l : List α) : P l := by
  suffices h : ∀ n (l : List α), l.length = n → P l from h _ l rfl
  intro n
  induction n with
  | zero => intro l hl; rw [List.length_eq_zero_iff.1 hl]; exact h0
  | succ n ih =>
    intro l hl
    have hne : l ≠ [] := by intro e; rw [e] at hl; cases hl
    rw [(List.dropLast_concat_getLast hne).symm]
    exact h1 _ _ (ih _ (by simp [hl]))

/-- what the counters of the watchdog stand for -/
theorem dog_counts {count : Nat} (ws : List (List WIn)) : (∀ w ∈ ws, w.length = timer count + 1) →
    (∃ a b, ws = a ++ b ∧ b.length = (Dog.run count (Dog.init count) ws.flatten).err ∧ ∀ w ∈ b, Failed w) ∧
    (∃ a b, ws = a ++ b ∧ b.length = (Dog.run count (Dog.init count) ws.flatten).stat ∧ (∀ w ∈ b, ¬ Failed w) ∧
      ∀ w ∈ b.drop 1, held w = true) := by
  induction ws using snoc_ind with
  | h0 => intro _; exact ⟨⟨[], [], rfl, rfl, by simp⟩, ⟨[], [], rfl, rfl, by simp, by simp⟩⟩
  | h1 ws w ih =>
    intro hw
    have hv : ∀ x ∈ ws, x.length = timer count + 1 := fun x hx => hw x (List.mem_append_left _ hx)
    obtain ⟨⟨a, b, e1, e2, e3⟩, ⟨c, d, f1, f2, f3, f4⟩⟩ := ih hv
    obtain ⟨_, g1, _, g2, _⟩ := dog_window (start_windows ws _ (start_init count) hv) (hw w (by simp))
    rw [List.flatten_append, dog_append, List.flatten_singleton, g1, g2]
    generalize Dog.run count (Dog.init count) ws.flatten = s at *
    refine ⟨?_, ?_⟩
    · split
      · exact ⟨ws ++ [w], [], by simp, rfl, by simp⟩
      · split
        · rename_i hf
          refine ⟨a, b ++ [w], by rw [e1, List.append_assoc], by simp [e2], fun x hx => ?_⟩
          rcases List.mem_append.1 hx with hx | hx
          · exact e3 x hx
          · rw [List.mem_singleton.1 hx]; exact hf
        · exact ⟨ws ++ [w], [], by simp, rfl, by simp⟩
    · have more : ∀ x y, ¬ Failed w → d = x ++ y → (held w = true ∨ y = []) → ∃ a b, ws ++ [w] = a ++ b ∧ b.length = y.length + 1 ∧
          (∀ w ∈ b, ¬ Failed w) ∧ ∀ w ∈ b.drop 1, held w = true := by
        intro x y hf hd hh
        refine ⟨c ++ x, y ++ [w], by rw [f1, hd]; simp, by simp, fun z hz => ?_, fun z hz => ?_⟩
        · rcases List.mem_append.1 hz with hz | hz
          · exact f3 z (by rw [hd]; exact List.mem_append_right _ hz)
          · rw [List.mem_singleton.1 hz]; exact hf
        · cases y with
          | nil => simp at hz
          | cons y0 y =>
            rcases List.mem_append.1 (show z ∈ y ++ [w] from hz) with hz | hz
            · refine f4 z ?_
              rw [hd]
              cases x with
              | nil => exact hz
              | cons x0 x => exact List.mem_append_right _ (List.mem_cons_of_mem _ hz)
            · rw [List.mem_singleton.1 hz]
              exact hh.resolve_right (by simp)
      split
      · exact ⟨ws ++ [w], [], by simp, rfl, by simp, by simp⟩
      · rename_i hf
        split
        · rename_i hh
          split
          · have hdl : d.length = 15 := by rw [f2]; exact hh.2
            obtain ⟨a, b, q1, q2, q3⟩ := more (d.take 1) (d.drop 1) hf (List.take_append_drop _ _).symm (Or.inl hh.1)
            exact ⟨a, b, q1, by rw [q2, List.length_drop, hdl], q3⟩
          · exact ⟨ws ++ [w], [], by simp, rfl, by simp, by simp⟩
        · split
          · rename_i hh
            obtain ⟨a, b, q1, q2, q3⟩ := more [] d hf rfl (Or.inl hh)
            exact ⟨a, b, q1, by rw [q2, f2], q3⟩
          · obtain ⟨a, b, q1, q2, q3⟩ := more d [] hf (by simp) (Or.inr rfl)
            exact ⟨a, b, q1, q2, q3⟩

/-- C111: a reset of the transceiver is asked for only at the end of a time interval that follows 15 failed ones in a row. -/
theorem C111_reset {count : Nat} {ws : List (List WIn)} (hw : ∀ w ∈ ws, w.length = timer count + 1) :
    (∀ p, 0 < p.length → p.length ≤ timer count → (Dog.run count (Dog.init count) (ws.flatten ++ p)).req = false) ∧
    ∀ w, w.length = timer count + 1 → (Dog.run count (Dog.init count) (ws.flatten ++ w)).req = true →
      ∃ a b, ws = a ++ b ∧ b.length = 15 ∧ ∀ x ∈ b, Failed x := by
  have hs := start_windows ws _ (start_init count) hw
  refine ⟨fun p h0 hp => ?_, fun w hl hr => ?_⟩
  · rw [dog_append, dog_part p _ (by rw [hs.time]; exact hp) (by rw [hs.blk]; omega)]
    cases p with
    | nil => cases h0
    | cons x p => simp
  · rw [dog_append, (dog_window hs hl).2.2.1, decide_eq_true_eq] at hr
    obtain ⟨⟨a, b, e1, e2, e3⟩, _⟩ := dog_counts ws hw
    exact ⟨a, b, e1, e2.trans hr, e3⟩

/-- C111: 15 failed time intervals in a row are followed by a reset, at the latest at the end of the next one. -/
theorem C111_reset_follows {count : Nat} {ws bs : List (List WIn)} (hw : ∀ w ∈ ws, w.length = timer count + 1)
    (hb : ∀ w ∈ bs, w.length = timer count + 1 ∧ Failed w) (hl : bs.length = 15) {w : List WIn} (hlw : w.length = timer count + 1) :
    ∃ a b, bs ++ [w] = a ++ b ∧ (Dog.run count (Dog.init count) ((ws ++ a).flatten)).req = true := by
  have hs := start_windows ws _ (start_init count) hw
  suffices h : ∀ (bs : List (List WIn)) (s : Dog), Start count s → (∀ w ∈ bs, w.length = timer count + 1 ∧ Failed w) → 15 ≤ s.err + bs.length →
      ∃ a b, bs ++ [w] = a ++ b ∧ (Dog.run count s a.flatten).req = true by
    obtain ⟨a, b, e1, e2⟩ := h bs _ hs hb (by omega)
    refine ⟨a, b, e1, ?_⟩
    rw [List.flatten_append, dog_append]
    exact e2
  intro bs
  induction bs with
  | nil =>
    intro s hs _ he
    have := hs.err
    refine ⟨[w], [], rfl, ?_⟩
    rw [List.flatten_singleton, (dog_window hs hlw).2.2.1, decide_eq_true_eq]
    simp at he
    omega
  | cons v bs ih =>
    intro s hs hb he
    obtain ⟨hv, hf⟩ := hb v List.mem_cons_self
    obtain ⟨g1, g2, g3, _⟩ := dog_window hs hv
    by_cases h15 : s.err = 15
    · exact ⟨[v], bs ++ [w], rfl, by rw [List.flatten_singleton, g3, decide_eq_true_eq]; exact h15⟩
    · rw [if_neg h15, if_pos hf] at g2
      obtain ⟨a, b, e1, e2⟩ := ih _ g1 (fun x hx => hb x (List.mem_cons_of_mem _ hx)) (by rw [g2]; simp at he; omega)
      refine ⟨v :: a, b, by rw [List.cons_append, e1]; rfl, ?_⟩
      rw [List.flatten_cons, dog_append]
      exact e2

/-- C111: the status goes up only after 15 time intervals in a row without failure, with lock held since the end of the first of them -
the last cycles of the intervals do not count. -/
theorem C111_status {count : Nat} {ws : List (List WIn)} (hw : ∀ w ∈ ws, w.length = timer count + 1) {w : List WIn}
    (hl : w.length = timer count + 1) (h0 : (Dog.run count (Dog.init count) ws.flatten).status = false)
    (h1 : (Dog.run count (Dog.init count) (ws.flatten ++ w)).status = true) :
    ∃ a b, ws = a ++ b ∧ b.length = 15 ∧ (∀ x ∈ b, ¬ Failed x) ∧ ∀ x ∈ b.drop 1 ++ [w], ∀ i ∈ x.dropLast, i.lock = true := by
  have hs := start_windows ws _ (start_init count) hw
  rw [dog_append, (dog_window hs hl).2.2.2.2, h0, Bool.false_and] at h1
  split at h1
  · rename_i hh
    obtain ⟨_, a, b, e1, e2, e3, e4⟩ := dog_counts ws hw
    refine ⟨a, b, e1, e2.trans hh.2, e3, fun x hx => ?_⟩
    have : held x = true := by
      rcases List.mem_append.1 hx with hx | hx
      · exact e4 x hx
      · rw [List.mem_singleton.1 hx]; exact hh.1
    rwa [held, locks, List.all_eq_true] at this
  · cases h1

/-- C111: 16 time intervals with lock and without failure bring the status up; it then stays up as long as lock is held. -/
theorem C111_status_follows {count : Nat} {ws bs : List (List WIn)} (hw : ∀ w ∈ ws, w.length = timer count + 1)
    (hb : ∀ w ∈ bs, w.length = timer count + 1 ∧ ¬ Failed w ∧ ∀ i ∈ w, i.lock = true) (hl : bs.length = 16) :
    (Dog.run count (Dog.init count) ((ws ++ bs).flatten)).status = true := by
  have hs := start_windows ws _ (start_init count) hw
  rw [List.flatten_append, dog_append]
  suffices h : ∀ (bs : List (List WIn)) (s : Dog), Start count s →
      (∀ w ∈ bs, w.length = timer count + 1 ∧ ¬ Failed w ∧ ∀ i ∈ w, i.lock = true) → 16 ≤ s.stat + bs.length ∨ s.status = true →
      (Dog.run count s bs.flatten).status = true from h bs _ hs hb (Or.inl (by omega))
  intro bs
  induction bs with
  | nil =>
    intro s hs _ he
    rcases he with he | he
    · have := hs.stat; simp at he; omega
    · exact he
  | cons v bs ih =>
    intro s hs hb he
    obtain ⟨hv, hf, hk⟩ := hb v List.mem_cons_self
    have k1 : locks v = true := by rw [locks, List.all_eq_true]; exact hk
    have k2 : held v = true := by rw [held, locks, List.all_eq_true]; exact fun i hi => hk i ((List.dropLast_sublist v).mem hi)
    obtain ⟨g1, _, _, g2, g3⟩ := dog_window hs hv
    rw [List.flatten_cons, dog_append]
    refine ih _ g1 (fun x hx => hb x (List.mem_cons_of_mem _ hx)) ?_
    rw [g2, g3, k1, k2, Bool.and_true, if_neg hf]
    simp only [true_and, if_true]
    by_cases h15 : s.stat = 15
    · exact Or.inr (by rw [if_pos h15])
    · rw [if_neg h15, if_neg h15]
      rcases he with he | he
      · exact Or.inl (by simp at he; omega)
      · exact Or.inr he

/-- C111: without lock the status is down after the next clock edge, except at the end of a time interval - see the counterexample. -/
theorem C111_unlock_partial {count : Nat} {ws : List (List WIn)} (hw : ∀ w ∈ ws, w.length = timer count + 1) {p : List WIn} {i : WIn}
    (hp : p.length < timer count) (hi : i.lock = false) : (Dog.run count (Dog.init count) (ws.flatten ++ (p ++ [i]))).status = false := by
  have hs := start_windows ws _ (start_init count) hw
  rw [dog_append, dog_part _ _ (by rw [hs.time]; simp; omega) (by rw [hs.blk]; omega)]
  simp [locks, hi]

/-- C111: errors alone do not bring the status down: it stays up as long as lock is held, even when all blocks are bad. -/
theorem C111_errors_counterexample {count : Nat} {is js : List WIn} (h : (Dog.run count (Dog.init count) is).status = true)
    (hl : ∀ j ∈ js, j.lock = true ∧ j.badBlock = true) : (Dog.run count (Dog.init count) (is ++ js)).status = true := by
  rw [dog_append]
  generalize Dog.run count (Dog.init count) is = s at *
  induction js generalizing s with
  | nil => exact h
  | cons j js ih =>
    refine ih (fun x hx => hl x (List.mem_cons_of_mem _ hx)) (Dog.step count s j) ?_
    rw [Dog.step]
    split
    · simp [(hl j List.mem_cons_self).1, h]
    · simp [(hl j List.mem_cons_self).1, h]

/-! ### examples -/

/-- a signal as assumed in `C109_found` for every alignment: with the wrong number of slips all headers are bad -/
def gen (hi lo age a : Nat) : Nat → Loop
  | 0 => ⟨{}, 0, age⟩
  | n + 1 => (gen hi lo age a n).step hi lo (if (gen hi lo age a n).slips % 66 = a then 1 else 0)

example (hi lo age a : Nat) : Signal hi lo age a fun n => if (gen hi lo age a n).slips % 66 = a then 1 else 0 := by
  have e : ∀ n, Loop.at hi lo age (fun n => if (gen hi lo age a n).slips % 66 = a then 1 else 0) n = gen hi lo age a n := by
    intro n
    induction n with
    | zero => rfl
    | succ n ih => rw [Loop.at, ih, gen]
  refine ⟨fun n h _ => ?_, fun n h => ⟨0, by decide, Or.inl ?_⟩⟩
  · rw [e] at h; simp [h]
  · rw [e] at h; simp [h]

/-- lock is found after 64 headers, kept with 15 bad ones, and lost with 16 -/
example : (Sync.run 1 8 {} (List.replicate 63 1)).lock = false ∧ (Sync.run 1 8 {} (List.replicate 64 1)).lock = true ∧
    (Sync.run 1 8 {} (List.replicate 64 1 ++ List.replicate 15 0)).lock = true ∧
    (Sync.run 1 8 {} (List.replicate 64 1 ++ List.replicate 16 0)).lock = false ∧
    (Sync.run 1 8 {} (List.replicate 64 1 ++ List.replicate 16 0)).slip = true := by decide +kernel

/-- 16 bad headers raise the flag, a good interval lowers it, one with 15 bad headers leaves it -/
example : timer 19 = 19 ∧ (Ber.run 19 (Ber.init 19) (List.replicate 16 0)).high = true ∧
    (Ber.run 19 (Ber.init 19) (List.replicate 16 0 ++ List.replicate 4 1)).high = true ∧
    (Ber.run 19 (Ber.init 19) (List.replicate 16 0 ++ List.replicate 4 1 ++ (List.replicate 15 0 ++ List.replicate 5 1))).high = true ∧
    (Ber.run 19 (Ber.init 19) (List.replicate 16 0 ++ List.replicate 4 1 ++ (List.replicate 14 0 ++ List.replicate 6 1))).high = false := by
  decide +kernel

/-- a good cycle, one without anything to see, one without lock -/
def ok : WIn := ⟨1, false, false, true⟩
def dull : WIn := ⟨2, false, false, true⟩
def dark : WIn := ⟨0, false, false, false⟩

/-- 15 failed intervals and then a good one: the transceiver is reset although the signal is back -/
theorem C111_recovered_counterexample : ∃ (bs : List (List WIn)) (w : List WIn), (∀ x ∈ bs, Failed x) ∧ bs.length = 15 ∧ ¬ Failed w ∧
    (∀ i ∈ w, i = ok) ∧ (∀ x ∈ bs ++ [w], x.length = timer 3 + 1) ∧ (Dog.run 3 (Dog.init 3) ((bs ++ [w]).flatten)).req = true :=
  ⟨List.replicate 15 (List.replicate 4 dull), List.replicate 4 ok, by decide +kernel, by decide +kernel, by decide +kernel, by decide +kernel,
    by decide +kernel, by decide +kernel⟩

/-- lock lost in the last cycle of the 16th good interval: the status goes up nevertheless -/
theorem C111_glitch_counterexample : ∃ (bs : List (List WIn)) (w : List WIn), (∀ x ∈ bs ++ [w], x.length = timer 3 + 1) ∧
    w.getLast? = some dark ∧ (Dog.run 3 (Dog.init 3) bs.flatten).status = false ∧
    (Dog.run 3 (Dog.init 3) ((bs ++ [w]).flatten)).status = true :=
  ⟨List.replicate 15 (List.replicate 4 ok), List.replicate 3 ok ++ [dark], by decide +kernel, by decide +kernel, by decide +kernel,
    by decide +kernel⟩

/-- 16 good intervals bring the status up -/
example : (∀ x ∈ List.replicate 16 (List.replicate 4 ok), x.length = timer 3 + 1 ∧ ¬ Failed x ∧ ∀ i ∈ x, i.lock = true) ∧
    (Dog.run 3 (Dog.init 3) (List.replicate 15 (List.replicate 4 ok)).flatten).status = false := by decide +kernel

end Corundum.PhyRx
