import Verif.Proof.PtpTdRun

/-! Time distribution: the clocks. -/
namespace Corundum.PtpTd

/-- all but the time of day -/
def Agree (c d : Clk) : Prop :=
  c.pNs = d.pNs ∧ c.pFns = d.pFns ∧ c.num = d.num ∧ c.denom = d.denom ∧ c.cnt = d.cnt ∧ c.fns = d.fns ∧ c.rel = d.rel

theorem agree_tick {c d : Clk} (h : Agree c d) : Agree c.tick d.tick := by
  obtain ⟨h1, h2, h3, h4, h5, h6, h7⟩ := h
  have f : c.frac.pNs = d.frac.pNs ∧ c.frac.pFns = d.frac.pFns ∧ c.frac.num = d.frac.num ∧ c.frac.denom = d.frac.denom ∧ c.frac.cnt = d.frac.cnt ∧
      c.frac.fns = d.frac.fns ∧ c.frac.rel = d.frac.rel := by
    simp only [Clk.frac, h1, h2, h3, h4, h5, h6]
    split
    · split <;> exact ⟨rfl, rfl, rfl, rfl, rfl, rfl, h7⟩
    · exact ⟨rfl, rfl, rfl, rfl, rfl, rfl, h7⟩
  obtain ⟨f1, f2, f3, f4, f5, f6, f7⟩ := f
  have g : ∀ e : Clk, e.tick.pNs = e.frac.pNs ∧ e.tick.pFns = e.frac.pFns ∧ e.tick.num = e.frac.num ∧ e.tick.denom = e.frac.denom ∧
      e.tick.cnt = e.frac.cnt ∧ e.tick.fns = e.frac.fns % 2 ^ 32 ∧ e.tick.rel = (e.frac.rel + e.frac.fns / 2 ^ 32) % 2 ^ 48 := by
    intro e
    unfold Clk.tick
    dsimp only
    split <;> exact ⟨rfl, rfl, rfl, rfl, rfl, rfl, rfl⟩
  obtain ⟨a1, a2, a3, a4, a5, a6, a7⟩ := g c
  obtain ⟨b1, b2, b3, b4, b5, b6, b7⟩ := g d
  refine ⟨?_, ?_, ?_, ?_, ?_, ?_, ?_⟩
  · rw [a1, b1, f1]
  · rw [a2, b2, f2]
  · rw [a3, b3, f3]
  · rw [a4, b4, f4]
  · rw [a5, b5, f5]
  · rw [a6, b6, f6]
  · rw [a7, b7, f6, f7]

theorem tick_s (c : Clk) : c.s ≤ c.tick.s := by
  have : c.frac.s = c.s := by
    unfold Clk.frac
    dsimp only
    repeat' split
    all_goals rfl
  unfold Clk.tick
  dsimp only
  split <;> dsimp only <;> omega

section
variable {td : Nat} {ins : Nat → List Op} {x0 : Src} {k0 : Snk} {t0 : Nat}

/-- once the setters are not called any more -/
theorem settled_succ (hs : ∀ n, t0 ≤ n → ins n = []) {n : Nat} (h : t0 ≤ n) : (srcRun td ins x0 (n + 1)).clk = (srcRun td ins x0 n).clk.tick := by
  rw [mid_clk, mid, hs n h]
  rfl

/-- number of the first message that carries the drift after `t0`, `κ` such that the index is `i` -/
theorem pick (i0 t0 q : Nat) : ∃ κ, (i0 + κ) % 3 = 1 ∧ t0 ≤ q + 1 + 256 * κ ∧ q + 1 + 256 * κ ≤ t0 + q + 769 := by
  refine ⟨t0 / 256 + 1 + (3 - (i0 + t0 / 256) % 3) % 3, ?_, ?_, ?_⟩ <;> omega

variable (hi : x0.idx < 3) (ho : ∀ n, ∀ o ∈ ins n, o.Ok) (hc : x0.clk.Ok) (h1 : 1 ≤ td) (h2 : td ≤ 256) (hx : SrcI x0) (hk : k0.Idle)
  (hs : ∀ n, t0 ≤ n → ins n = [])
include hi ho hc h1 h2 hx hk

theorem snk_step (n : Nat) : ∃ k k', snkRun td ins x0 k0 n = some k ∧ snkRun td ins x0 k0 (n + 1) = some k' ∧
    (∀ κ, n + 1 = x0.delay + 240 + 256 * κ + td → Loaded td ins x0 κ k k') ∧ ((∀ κ, n + 1 ≠ x0.delay + 240 + 256 * κ + td) → Kept k k') := by
  obtain ⟨k, e, hv⟩ := inv_run hi ho hc h1 h2 hx hk n
  obtain ⟨k', e', -, a, b⟩ := inv_step hi ho hc h1 h2 hv
  exact ⟨k, k', e, by rw [snkRun, e]; exact e', a, b⟩

include hs

/-- after a message with the drift, all but the time of day is there -/
theorem sync_a {κ : Nat} (hκ : (x0.idx + κ) % 3 = 1) (ht : t0 ≤ x0.delay + 1 + 256 * κ) (m : Nat) :
    ∃ k, snkRun td ins x0 k0 (x0.delay + 240 + 256 * κ + td + m) = some k ∧ Agree k.clk (srcRun td ins x0 (x0.delay + 1 + 256 * κ + m)).clk := by
  induction m with
  | zero =>
    obtain ⟨k, k', -, e, l, -⟩ := snk_step (n := x0.delay + 239 + 256 * κ + td) hi ho hc h1 h2 hx hk
    obtain ⟨l, -⟩ := l κ (by omega)
    have e0 : x0.delay + 240 + 256 * κ + td + 0 = x0.delay + 239 + 256 * κ + td + 1 := by omega
    refine ⟨k', by rw [e0]; exact e, ?_⟩
    rw [l]
    unfold Agree upd
    rw [if_pos hκ, if_pos hκ, if_pos hκ]
    exact ⟨rfl, rfl, rfl, rfl, rfl, rfl, rfl⟩
  | succ m ih =>
    obtain ⟨k, e, a⟩ := ih
    obtain ⟨k₂, k', e₂, e', l, r⟩ := snk_step (n := x0.delay + 240 + 256 * κ + td + m) hi ho hc h1 h2 hx hk
    have : k₂ = k := by rw [e] at e₂; exact (Option.some.inj e₂).symm
    subst this
    refine ⟨k', e', ?_⟩
    have st : (srcRun td ins x0 (x0.delay + 1 + 256 * κ + (m + 1))).clk = (srcRun td ins x0 (x0.delay + 1 + 256 * κ + m)).clk.tick :=
      settled_succ (n := x0.delay + 1 + 256 * κ + m) hs (by omega)
    have t := agree_tick a
    rw [← st] at t
    by_cases hl : ∃ κ', x0.delay + 240 + 256 * κ + td + m + 1 = x0.delay + 240 + 256 * κ' + td
    · obtain ⟨κ', hl⟩ := hl
      obtain ⟨l, -⟩ := l κ' hl
      have ee : x0.delay + 1 + 256 * κ' = x0.delay + 1 + 256 * κ + (m + 1) := by omega
      rw [ee] at l
      rw [l]
      obtain ⟨t1, t2, t3, t4, t5, t6, t7⟩ := t
      refine ⟨rfl, rfl, ?_, ?_, ?_, rfl, rfl⟩ <;> dsimp only [upd] <;> split <;> first | rfl | assumption
    · obtain ⟨r, -⟩ := r fun κ' h => hl ⟨κ', h⟩
      rw [r]
      exact t

/-- and after the next with the time of day, that too -/
theorem sync_b {κ : Nat} (hκ : (x0.idx + κ) % 3 = 1) (ht : t0 ≤ x0.delay + 1 + 256 * κ) (m : Nat) (hm : 512 ≤ m)
    (hb : (srcRun td ins x0 (x0.delay + 1 + 256 * κ + m)).clk.s < 2 ^ 48) :
    ∃ k, snkRun td ins x0 k0 (x0.delay + 240 + 256 * κ + td + m) = some k ∧ k.clk = (srcRun td ins x0 (x0.delay + 1 + 256 * κ + m)).clk := by
  induction m with
  | zero => omega
  | succ m ih =>
    obtain ⟨k, e, a⟩ := sync_a hi ho hc h1 h2 hx hk hs hκ ht m
    obtain ⟨k₂, k', e₂, e', l, r⟩ := snk_step (n := x0.delay + 240 + 256 * κ + td + m) hi ho hc h1 h2 hx hk
    have : k₂ = k := by rw [e] at e₂; exact (Option.some.inj e₂).symm
    subst this
    refine ⟨k', e', ?_⟩
    have st : (srcRun td ins x0 (x0.delay + 1 + 256 * κ + (m + 1))).clk = (srcRun td ins x0 (x0.delay + 1 + 256 * κ + m)).clk.tick :=
      settled_succ (n := x0.delay + 1 + 256 * κ + m) hs (by omega)
    have t := agree_tick a
    rw [← st] at t
    by_cases hl : ∃ κ', x0.delay + 240 + 256 * κ + td + m + 1 = x0.delay + 240 + 256 * κ' + td
    · obtain ⟨κ', hl⟩ := hl
      obtain ⟨l, -⟩ := l κ' hl
      have ee : x0.delay + 1 + 256 * κ' = x0.delay + 1 + 256 * κ + (m + 1) := by omega
      rw [ee] at l
      rw [l]
      obtain ⟨t1, t2, t3, t4, t5, t6, t7⟩ := t
      by_cases h0 : (x0.idx + κ') % 3 = 0
      · have h0' : ¬ (x0.idx + κ') % 3 = 1 := by omega
        unfold upd
        rw [if_neg h0', if_neg h0', if_neg h0', if_pos h0, if_pos h0, Nat.mod_eq_of_lt hb, t3, t4, t5]
      · have hm' : 512 ≤ m := by omega
        obtain ⟨k₃, e₃, q⟩ := ih hm' (Nat.lt_of_le_of_lt (by rw [st]; exact tick_s _) hb)
        have : k₃ = k₂ := by rw [e] at e₃; exact (Option.some.inj e₃).symm
        subst this
        have q' : k₃.clk.tick = (srcRun td ins x0 (x0.delay + 1 + 256 * κ + (m + 1))).clk := by rw [q, st]
        unfold upd
        rw [if_neg h0, if_neg h0, q']
        split <;> rfl
    · have hm' : 512 ≤ m := by
        apply Classical.byContradiction
        intro hh
        exact hl ⟨κ + 2, by omega⟩
      obtain ⟨k₃, e₃, q⟩ := ih hm' (Nat.lt_of_le_of_lt (by rw [st]; exact tick_s _) hb)
      have : k₃ = k₂ := by rw [e] at e₃; exact (Option.some.inj e₃).symm
      subst this
      obtain ⟨r, -⟩ := r fun κ' h => hl ⟨κ', h⟩
      rw [r, q, st]

end

/-! ### delayed time of the source -/

def stamp (c : Clk) : Stamp := (c.s, c.ns, c.rel, c.fns)

def lastN (n : Nat) (l : List Stamp) : List Stamp := l.drop (l.length - n)

theorem lastN_snoc {n : Nat} (l : List Stamp) (a : Stamp) (hn : 0 < n) : lastN n (lastN n l ++ [a]) = lastN n (l ++ [a]) := by
  unfold lastN
  simp only [List.length_append, List.length_drop, List.length_singleton]
  by_cases h : l.length < n
  · have e1 : l.length - n = 0 := by omega
    have e2 : l.length - (l.length - n) + 1 - n = l.length + 1 - n := by omega
    rw [e2, e1, List.drop_zero]
  · have e2 : l.length - (l.length - n) + 1 - n = 1 := by omega
    have e3 : l.length + 1 - n = l.length - n + 1 := by omega
    rw [e2, e3]
    have : List.drop (l.length - n + 1) (l ++ [a]) = List.drop 1 (List.drop (l.length - n) (l ++ [a])) := by rw [List.drop_drop]
    rw [this, List.drop_append_of_le_length (l₁ := l) (by omega)]

theorem hist_run {td : Nat} {ins : Nat → List Op} {x0 : Src} (h : x0.hist.length ≤ 238 + td) (n : Nat) :
    (srcRun td ins x0 n).hist = lastN (238 + td) (x0.hist ++ (List.range n).map fun m => stamp ((ins m).foldl Src.op (srcRun td ins x0 m)).clk) := by
  induction n with
  | zero =>
    have e : x0.hist.length - (238 + td) = 0 := by omega
    simp only [srcRun, lastN, List.range_zero, List.map_nil, List.append_nil, e, List.drop_zero]
  | succ n ih =>
    rw [srcRun_succ, (serialize_keep _).2.2.2, (message_keep _).2.2.2.2, List.range_succ, List.map_append, ← List.append_assoc, List.map_singleton,
      ← lastN_snoc _ _ (by omega), ← ih]
    show List.drop _ _ = _
    rw [(ops_keep (ins n) (srcRun td ins x0 n)).2.2.2.2.2.2]
    rfl

theorem get_run {td : Nat} {ins : Nat → List Op} {x0 : Src} (h : x0.hist.length ≤ 238 + td) (n : Nat) :
    (srcRun td ins x0 (238 + td + n)).get = stamp ((ins n).foldl Src.op (srcRun td ins x0 n)).clk := by
  unfold Src.get
  rw [hist_run h, lastN]
  rw [List.headD_eq_head?_getD, List.head?_drop, List.length_append, List.length_map, List.length_range,
    List.getElem?_append_right (by omega), List.getElem?_map, List.getElem?_range (by omega)]
  have e : x0.hist.length + (238 + td + n) - (238 + td) - x0.hist.length = n := by omega
  rw [e]
  rfl

/-! ### how the clock advances -/

def Clk.per (c : Clk) : Nat := c.pNs * 2 ^ 32 + c.pFns

theorem tick_time (c : Clk) : ∃ a, c.frac.fns = c.fns + a ∧
    c.tick.todTime = c.todTime + a ∧ (c.rel < 2 ^ 48 → c.tick.relTime % 2 ^ 80 = (c.relTime + a) % 2 ^ 80) ∧
    a = c.per + c.num * (if c.denom ≠ 0 ∧ c.cnt = 0 then 1 else 0) ∧
    c.tick.pNs = c.pNs ∧ c.tick.pFns = c.pFns ∧ c.tick.num = c.num ∧ c.tick.denom = c.denom ∧
    c.tick.cnt = (if c.denom = 0 then c.cnt else if c.cnt = 0 then c.denom - 1 else c.cnt - 1) := by
  have f : ∃ a, c.frac.fns = c.fns + a ∧ a = c.per + c.num * (if c.denom ≠ 0 ∧ c.cnt = 0 then 1 else 0) ∧ c.frac.pNs = c.pNs ∧ c.frac.pFns = c.pFns ∧
      c.frac.num = c.num ∧ c.frac.denom = c.denom ∧ c.frac.cnt = (if c.denom = 0 then c.cnt else if c.cnt = 0 then c.denom - 1 else c.cnt - 1) ∧
      c.frac.rel = c.rel ∧ c.frac.s = c.s ∧ c.frac.ns = c.ns := by
    unfold Clk.frac Clk.per
    by_cases hd : c.denom = 0
    · simp only [hd, ne_eq, not_true_eq_false, false_and, if_false, if_true, Nat.mul_zero, Nat.add_zero]
      exact ⟨_, rfl, rfl, by simp⟩
    · by_cases hz : c.cnt = 0
      · have : ¬ c.cnt > 0 := by omega
        simp only [hd, hz, ne_eq, not_false_eq_true, true_and, if_false, if_true, Nat.mul_one, Nat.lt_irrefl, gt_iff_lt]
        exact ⟨_, Nat.add_assoc _ _ _, rfl, by simp⟩
      · have : c.cnt > 0 := by omega
        simp only [hd, hz, this, ne_eq, not_false_eq_true, and_false, if_false, if_true, Nat.mul_zero, Nat.add_zero]
        exact ⟨_, rfl, rfl, trivial, trivial, trivial, trivial, trivial, trivial, trivial, trivial⟩
  obtain ⟨a, f1, f2, f3, f4, f5, f6, f7, f8, f9, f10⟩ := f
  refine ⟨a, f1, ?_, ?_, f2, ?_⟩
  · unfold Clk.tick Clk.todTime
    dsimp only
    rw [f1, f9, f10]
    split
    · dsimp only; omega
    · dsimp only; omega
  · intro hr
    unfold Clk.tick Clk.relTime
    dsimp only
    rw [f1, f8]
    split
    · dsimp only; omega
    · dsimp only; omega
  · unfold Clk.tick
    dsimp only
    split <;> exact ⟨f3, f4, f5, f6, f7⟩

end Corundum.PtpTd
