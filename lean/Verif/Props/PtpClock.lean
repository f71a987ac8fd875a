import Verif.Proof.PtpClock

/-! C112-C114: PTP clocks. -/
namespace Corundum.PtpClock

/-! ### C112: the clock of the test benches -/

theorem ceil_next {R : Nat} (hR : 0 < R) (n : Nat) : (n + 1 + (R - 1)) / R = (n + (R - 1)) / R + if n % R = 0 then 1 else 0 := by
  have h1 := Nat.div_add_mod n R
  have h2 := Nat.mod_lt n hR
  generalize n / R = q at *
  generalize n % R = r at *
  subst h1
  split
  · subst r
    rw [show R * q + 0 + 1 + (R - 1) = R * (q + 1) by rw [Nat.mul_add]; omega, Nat.mul_div_cancel_left _ hR,
      show R * q + 0 + (R - 1) = R - 1 + R * q by omega, Nat.add_mul_div_left _ _ hR, Nat.div_eq_of_lt (by omega), Nat.zero_add]
  · rw [show R * q + r + 1 + (R - 1) = r + R * (q + 1) by rw [Nat.mul_add]; omega, Nat.add_mul_div_left _ _ hR, Nat.div_eq_of_lt (by omega),
      show R * q + r + (R - 1) = r - 1 + R * (q + 1) by rw [Nat.mul_add]; omega, Nat.add_mul_div_left _ _ hR, Nat.div_eq_of_lt (by omega)]
    omega

theorem ceil_le {R : Nat} (hR : 0 < R) (n : Nat) : (n + (R - 1)) / R ≤ n := by
  rw [Nat.div_le_iff_le_mul_add_pred hR]
  have := Nat.le_mul_of_pos_left n hR
  omega

/-- registers of the model after `n` edges -/
theorem bfm_after {c : BCfg} (hR : 0 < c.rate) (hs : c.period + c.drift ≤ 1000000000 * 2 ^ 16) (n : Nat) :
    (Bfm.after c {} n).time = n * c.period + (n - (n + (c.rate - 1)) / c.rate) * c.drift ∧
    (Bfm.after c {} n).t64 = n * c.period + (n - (n + (c.rate - 1)) / c.rate) * c.drift ∧
    (Bfm.after c {} n).t96 ≤ 1000000000 * 2 ^ 16 ∧ (Bfm.after c {} n).l96 = [] ∧ (Bfm.after c {} n).l64 = [] ∧
    (Bfm.after c {} n).cnt = (if n % c.rate = 0 then 0 else c.rate - n % c.rate) := by
  induction n with
  | zero => 
    have : (0 + (c.rate - 1)) / c.rate = 0 := Nat.div_eq_of_lt (by omega)
    simp [Bfm.after, Bfm.time]
  | succ n ih =>
    obtain ⟨h1, h2, h3, h4, h5, h6⟩ := ih
    have hc := ceil_next hR n
    have hle := ceil_le hR n
    have hcnt : (if (Bfm.after c {} n).cnt > 0 then c.drift else 0) = (if n % c.rate = 0 then 0 else 1) * c.drift := by
      rw [h6]
      have := Nat.mod_lt n hR
      by_cases hz : n % c.rate = 0
      · simp [hz]
      · simp only [hz, if_false, Nat.one_mul]
        rw [if_pos (by omega)]
    have hsum : n * c.period + (n - (n + (c.rate - 1)) / c.rate) * c.drift + c.period + (if n % c.rate = 0 then 0 else 1) * c.drift =
        (n + 1) * c.period + (n + 1 - (n + 1 + (c.rate - 1)) / c.rate) * c.drift := by
      rw [hc]
      split
      · rw [show n + 1 - ((n + (c.rate - 1)) / c.rate + 1) = n - (n + (c.rate - 1)) / c.rate by omega, Nat.add_mul]; omega
      · rw [show n + 1 - ((n + (c.rate - 1)) / c.rate + 0) = n - (n + (c.rate - 1)) / c.rate + 1 by omega, Nat.add_mul, Nat.add_mul]; omega
    have hdl : (if n % c.rate = 0 then 0 else 1) * c.drift ≤ c.drift := by split <;> omega
    have e30 : 1000000000 <<< 16 = 65536000000000 := rfl
    have eQ : 1000000000 * 2 ^ 16 = 65536000000000 := rfl
    rw [Bfm.time, eQ] at h1
    rw [eQ] at h3 hs ⊢
    rw [Bfm.after]
    generalize Bfm.after c {} n = b at *
    simp only [Bfm.step, h4, h5, hcnt, e30, eQ, List.tail_nil, Bfm.time]
    generalize (if n % c.rate = 0 then 0 else 1) * c.drift = d at *
    clear e30 eQ
    refine ⟨?_, by omega, ?_, trivial, trivial, ?_⟩
    · rw [← hsum, ← h1]
      by_cases hq : b.t96 + c.period + d > 65536000000000
      · rw [if_pos hq, if_pos hq, Nat.add_mul, Nat.one_mul, Nat.add_assoc, Nat.add_sub_cancel' (Nat.le_of_lt hq)]; simp only [Nat.add_assoc]
      · rw [if_neg hq, if_neg hq]; omega
    · by_cases hq : b.t96 + c.period + d > 65536000000000
      · rw [if_pos hq]; omega
      · rw [if_neg hq]; omega
    · rw [h6]
      have h7 := Nat.mod_lt n hR
      have h8 : (n + 1) % c.rate = if n % c.rate + 1 = c.rate then 0 else n % c.rate + 1 := by
        rw [Nat.add_mod]
        by_cases h1 : c.rate = 1
        · rw [h1] at h7 ⊢; simp [Nat.mod_one]
        · rw [Nat.mod_eq_of_lt (show 1 < c.rate by omega)]
          split
          · rename_i e; rw [e, Nat.mod_self]
          · exact Nat.mod_eq_of_lt (by omega)
      rw [h8]
      by_cases hz : n % c.rate = 0
      · simp only [hz]
        by_cases h1 : c.rate = 1
        · simp [h1]
        · rw [if_neg (show ¬ 0 + 1 = c.rate by omega)]; simp
      · simp only [hz, if_false]
        rw [if_pos (by omega)]
        by_cases he : n % c.rate + 1 = c.rate
        · simp only [he, if_true]; omega
        · simp only [he, if_false, Nat.add_one_ne_zero]; omega

/-- C112: after `n` edges both times have advanced by `n` periods and the drift in all but one of `drift_rate` cycles - the RTL applies it
in one of them, see the counterexample - and the nanoseconds are at most 10^9. -/
theorem C112_time_partial {c : BCfg} (hR : 0 < c.rate) (hs : c.period + c.drift ≤ 1000000000 * 2 ^ 16) (n : Nat) :
    (Bfm.after c {} n).s * (1000000000 * 2 ^ 16) + (Bfm.after c {} n).t96 =
      n * c.period + (n - (n + (c.rate - 1)) / c.rate) * c.drift ∧
    (Bfm.after c {} n).t64 = n * c.period + (n - (n + (c.rate - 1)) / c.rate) * c.drift ∧
    (Bfm.after c {} n).t96 ≤ 1000000000 * 2 ^ 16 := by
  obtain ⟨h1, h2, h3, _⟩ := bfm_after hR hs n
  exact ⟨h1, h2, h3⟩

/-- C112: a time that was set is shown after the next edge. -/
theorem C112_set {c : BCfg} {b : Bfm} {t : Nat} {l : List Nat} (hl : b.l96 = t :: l) (hv : t / 2 ^ 46 % 4 = 0) : (b.step c).out96 = t := by
  have e1 : t >>> 48 = t / 2 ^ 48 := Nat.shiftRight_eq_div_pow ..
  have e2 : (t >>> 16) &&& 0x3fffffff = t / 2 ^ 16 % 2 ^ 30 := by
    rw [Nat.shiftRight_eq_div_pow]; exact Nat.and_two_pow_sub_one_eq_mod _ 30
  have e3 : t &&& 0xffff = t % 2 ^ 16 := Nat.and_two_pow_sub_one_eq_mod _ 16
  simp only [Bfm.out96, Bfm.step, hl, e1, e2, e3, Nat.shiftLeft_eq]
  rw [Nat.mul_comm (t / 2 ^ 48), ← Nat.two_pow_add_eq_or_of_lt (by omega)]
  omega

/-- C112 fails at full seconds: if the time hits one exactly, the seconds are not advanced and the nanoseconds read 10^9. -/
theorem C112_second_counterexample {p : Nat} (hd : p ∣ 1000000000 * 2 ^ 16) (R : Nat) (hR : 0 < R) :
    ∃ n, (Bfm.after ⟨p, 0, R⟩ {} n).s = 0 ∧ (Bfm.after ⟨p, 0, R⟩ {} n).t96 = 1000000000 * 2 ^ 16 := by
  obtain ⟨m, hm⟩ := hd
  have hle : p ≤ 1000000000 * 2 ^ 16 := Nat.le_of_dvd (by decide) ⟨m, hm⟩
  refine ⟨m, ?_⟩
  obtain ⟨h1, _, h3, _⟩ := bfm_after (c := ⟨p, 0, R⟩) hR (by simpa using hle) m
  have hsm : ∀ n, n ≤ m → (Bfm.after ⟨p, 0, R⟩ {} n).s = 0 := by
    intro n
    induction n with
    | zero => intro _; rfl
    | succ n ih =>
      intro hn
      have h0 := ih (by omega)
      obtain ⟨g1, _, g3, g4, g5, _⟩ := bfm_after (c := ⟨p, 0, R⟩) hR (by simpa using hle) n
      rw [Bfm.time, h0] at g1
      have := Nat.mul_le_mul_right p (show n + 1 ≤ m by omega)
      rw [Nat.mul_comm m p, ← hm, Nat.add_mul] at this
      rw [Bfm.after]
      generalize Bfm.after ⟨p, 0, R⟩ {} n = b at *
      have e30 : 1000000000 <<< 16 = 1000000000 * 2 ^ 16 := Nat.shiftLeft_eq ..
      simp only [Bfm.step, g4, h0, ite_self, e30]
      rw [if_neg]
      simp only [Nat.mul_zero, Nat.add_zero, Nat.zero_mul, Nat.zero_add] at g1
      omega
  refine ⟨hsm m (Nat.le_refl _), ?_⟩
  rw [Bfm.time, hsm m (Nat.le_refl _)] at h1
  rw [Nat.mul_comm m p, ← hm] at h1
  simpa using h1

/-- C112 fails for the drift: over `drift_rate` cycles it is applied `drift_rate - 1` times, not once. -/
theorem C112_drift_counterexample {c : BCfg} (hR : 2 < c.rate) (hs : c.period + c.drift ≤ 1000000000 * 2 ^ 16) (hd : 0 < c.drift) :
    (Bfm.after c {} c.rate).t64 = c.rate * c.period + (c.rate - 1) * c.drift ∧
    (Bfm.after c {} c.rate).t64 ≠ c.rate * c.period + c.drift := by
  obtain ⟨_, h2, _⟩ := bfm_after (by omega : 0 < c.rate) hs c.rate
  have e : (c.rate + (c.rate - 1)) / c.rate = 1 := by
    rw [Nat.add_div_left _ (by omega), Nat.div_eq_of_lt (by omega)]
  rw [e] at h2
  refine ⟨h2, ?_⟩
  rw [h2]
  have := Nat.mul_le_mul_right c.drift (show 2 ≤ c.rate - 1 by omega)
  omega

/-! ### C113: ptp_clock.v -/

/-- C113: after a reset of three cycles the time of day is the sum of the periods in force and the drift corrections, one in `DRIFT_RATE`
cycles, delayed by three cycles; likewise the 64 bit time. -/
theorem C113_time {c : Cfg} (h : c.Ok) {k : Clock} {r1 r2 r3 : In} (h1 : r1.rst = true) (h2 : r2.rst = true) (h3 : r3.rst = true)
    {is : List In} {x y z : In} (hi : ∀ i ∈ is ++ [x, y, z], Plain i)
    (hp : ∀ i ∈ is ++ [x, y, z], ∀ p, i.period = some p → p < 2 ^ (c.pw + c.F))
    (hpos : ∀ p ∈ c.period :: periods c.period (is ++ [x, y, z]), 0 ≤ (p : Int) + c.corr c.drift) :
    let sum : Int := (periods c.period is).sum + ((is.length + (c.rate - 1)) / c.rate : Nat) * c.corr c.drift
    let end' := run c k ([r1, r2, r3] ++ (is ++ [x, y, z]))
    (end'.time c : Int) = (2 * (c.period + c.corr c.drift) + sum) % (wrap c : Nat) ∧
    ((run c k ([r1, r2, r3] ++ (is ++ [x]))).t64 : Int) = (c.period + c.corr c.drift + sum) % (2 ^ (48 + c.F) : Nat) := by
  intro sum end'
  obtain ⟨g1, g2, g3, g4, g5, g6, g7, g8, g9, g10⟩ := reset_three h (hpos _ List.mem_cons_self) (k := k) h1 h2 h3
  have hn : NetsOk c (run c k [r1, r2, r3]) (is ++ [x, y, z]) := by
    refine netsOk_plain h h.rate.2 _ _ g2 hi hp ?_
    rw [g3, g4, g6, g7]
    intro p hm
    have := hpos p (List.mem_cons_of_mem _ hm)
    simp
    omega
  have hs : nets c (run c k [r1, r2, r3]) is = sum := by
    rw [nets_plain h.rate.2 is _ g2 (fun i hm => hi i (List.mem_append_left _ hm)) (fun i hm => hp i (List.mem_append_left _ hm)),
      g3, g4, g5, g6, g7]
    simp only [active, Bool.false_eq_true, if_false, Nat.min_zero, Int.mul_zero, Int.add_zero, Nat.sub_zero, Int.ofNat_zero,
      Int.mul_comm (c.corr c.drift), sum]
  constructor
  · rw [show end' = run c (run c k [r1, r2, r3]) (is ++ [x, y, z]) from run_append ..,
      time_run g1 hn fun i hm => ⟨(hi i hm).1, (hi i hm).2.1⟩, g10, hs]
  · rw [run_append, run_append]
    have hn' := (netsOk_append is hn).1
    have := t64_run is _ hn' fun i hm => ⟨(hi i (List.mem_append_left _ hm)).1, (hi i (List.mem_append_left _ hm)).2.2.1⟩
    rw [g8, g9, hs] at this
    obtain ⟨x1, _, x2, _⟩ := hi x (by simp)
    have e : ∀ k : Clock, (run c k [x]).t64 = (k.t64 + k.inc) % 2 ^ (48 + c.F) := by
      intro k; simp [run, Clock.tick, x1, x2]
    rw [e, Int.natCast_emod]
    push_cast at this ⊢
    rw [this]
    simp

/-- C113: nanoseconds stay below 10^9, and the time never moves back - unless it wraps - while there is neither reset nor load. -/
theorem C113_monotone {c : Cfg} (h : c.Ok) {k : Clock} {r1 r2 r3 : In} (h1 : r1.rst = true) (h2 : r2.rst = true) (h3 : r3.rst = true)
    {is : List In} {i : In} (hi : ∀ x ∈ is ++ [i], Plain x) (hp : ∀ x ∈ is ++ [i], ∀ p, x.period = some p → p < 2 ^ (c.pw + c.F))
    (hpos : ∀ p ∈ c.period :: periods c.period (is ++ [i]), 0 ≤ (p : Int) + c.corr c.drift) :
    let k1 := run c k ([r1, r2, r3] ++ is)
    let k2 := run c k ([r1, r2, r3] ++ (is ++ [i]))
    k1.ns < 1000000000 * 2 ^ c.F ∧ k1.s < 2 ^ 48 ∧ (k2.s = k1.s ∨ k2.s = (k1.s + 1) % 2 ^ 48) ∧ (k2.pps = true ↔ k2.s ≠ k1.s) := by
  intro k1 k2
  obtain ⟨g1, g2, g3, g4, g5, g6, g7, g8, g9, g10⟩ := reset_three h (hpos _ List.mem_cons_self) (k := k) h1 h2 h3
  have hn : NetsOk c (run c k [r1, r2, r3]) (is ++ [i]) := by
    refine netsOk_plain h h.rate.2 _ _ g2 hi hp ?_
    rw [g3, g4, g6, g7]
    intro p hm
    have := hpos p (List.mem_cons_of_mem _ hm)
    simp
    omega
  obtain ⟨hn1, hn2⟩ := netsOk_append is hn
  obtain ⟨q, _⟩ := run_good is _ g1 hn1 fun x hm => ⟨(hi x (List.mem_append_left _ hm)).1, (hi x (List.mem_append_left _ hm)).2.1⟩
  rw [← run_append] at q
  have e : k2 = k1.tick c i := by
    show run c k ([r1, r2, r3] ++ (is ++ [i])) = _
    rw [← List.append_assoc, run_append]; rfl
  obtain ⟨i1, i2, _⟩ := hi i (by simp)
  have es : k2.s = if borrow c k1.nsOvf then k1.s else (k1.s + 1) % 2 ^ 48 := by rw [e]; simp [Clock.tick, i1, i2]
  have ep : k2.pps = !borrow c k1.nsOvf := by rw [e]; simp [Clock.tick, i1]
  have hs := q.s
  change k1.s < 2 ^ 48 at hs
  refine ⟨q.ns, hs, ?_, ?_⟩
  · rw [es]; split
    · exact Or.inl rfl
    · exact Or.inr rfl
  · rw [es, ep]
    cases borrow c k1.nsOvf
    · simp
      omega
    · simp

/-- C113: a loaded time is shown after the load and, as the pipeline has to fill, once more. -/
theorem C113_load {c : Cfg} (hF : 16 ≤ c.F) {k : Clock} {i j : In} {ts : Nat} (hi : i.rst = false) (hl : i.ts96 = some ts) (hts : ts < 2 ^ 96)
    (hv : ts / 2 ^ 46 % 4 = 0) (hj : j.rst = false) (hjl : j.ts96 = none) :
    (run c k [i]).out96 c = ts ∧ (run c k [i, j]).out96 c = ts := by
  have hld : load96 c ts = (ts / 2 ^ 16 % 2 ^ 30 * 2 ^ 16 + ts % 2 ^ 16) * 2 ^ (c.F - 16) := by
    rw [load96, loadFns]
    by_cases h16 : c.F = 16
    · rw [h16]; simp
    · rw [if_pos (by omega), Nat.add_mul, Nat.mul_assoc, ← Nat.pow_add, show 16 + (c.F - 16) = c.F by omega]
  have hout : ∀ q : Clock, q.s = ts / 2 ^ 48 % 2 ^ 48 → q.ns = load96 c ts → q.out96 c = ts := by
    intro q h1 h2
    rw [Clock.out96, h1, h2, hld]
    have eF : 2 ^ c.F = 2 ^ 16 * 2 ^ (c.F - 16) := by rw [← Nat.pow_add]; congr 1; omega
    have hpos : 0 < 2 ^ (c.F - 16) := Nat.two_pow_pos _
    rw [eF, Nat.mul_div_mul_right _ _ hpos, Nat.mul_mod_mul_right, Nat.mul_right_comm, Nat.mul_div_mul_right _ _ hpos]
    omega
  constructor
  · exact hout _ (by simp [run, Clock.tick, hi, hl]) (by simp [run, Clock.tick, hi, hl])
  · have e : borrow c (run c k [i]).nsOvf = true := by
      have : (run c k [i]).nsOvf = force c ((k.nsInc + 2 ^ (31 + c.F) - k.incOvf) % 2 ^ (31 + c.F)) := by
        simp [run, Clock.tick, hi, hl]
      rw [this]; exact borrow_force _ _
    have e1 : (run c k [i]).s = ts / 2 ^ 48 % 2 ^ 48 := by simp [run, Clock.tick, hi, hl]
    have e2 : (run c k [i]).nsInc = load96 c ts := by simp [run, Clock.tick, hi, hl]
    refine hout (Clock.tick c (run c k [i]) j) ?_ ?_
    · simp [Clock.tick, hj, hjl, e, e1]
    · simp [Clock.tick, hj, hjl, e, e2]

/-- C113 fails for the 64 bit time with a fraction of other than 16 bits: the loaded value is not moved to its place. -/
theorem C113_load64_counterexample : ∃ (c : Cfg) (i : In) (ts : Nat), c.Ok ∧ i.ts64 = some ts ∧ ts < 2 ^ 64 ∧
    (run c c.init [i]).out64 c ≠ ts :=
  ⟨{ F := 32, period := 0x666666666, drift := 0, rate := 1 }, { ts64 := some (2 ^ 40) }, 2 ^ 40, by constructor <;> decide, rfl, by decide,
    by decide +kernel⟩

/-- C113 fails without a reset after power up: the first second is over after two cycles. -/
theorem C113_powerup_counterexample (c : Cfg) {i j : In} (hi : i.rst = false) (hj : j.rst = false) (hil : i.ts96 = none) (hjl : j.ts96 = none) :
    (run c c.init [i, j]).s = 1 ∧ (run c c.init [i, j]).pps = true := by
  have hF : 0 < 2 ^ c.F := Nat.two_pow_pos _
  have e30 : 2 ^ (30 + c.F) = 2 ^ 30 * 2 ^ c.F := Nat.pow_add ..
  have b0 : borrow c c.init.nsOvf = true := by
    have : 0xffff % 2 ^ c.F < 2 ^ c.F := Nat.mod_lt _ hF
    exact borrow_big (by simp only [Cfg.init]; omega) (by simp only [Cfg.init]; omega)
  have e1 : (c.init.tick c i).nsOvf = 0 := by
    simp [Clock.tick, hi, hil, b0]
    simp [Cfg.init]
  have e2 : (c.init.tick c i).s = 0 := by simp [Clock.tick, hi, hil, b0]; rfl
  have b1 : borrow c 0 = false := borrow_small (by omega)
  show (((c.init.tick c i).tick c j).s = 1 ∧ ((c.init.tick c i).tick c j).pps = true)
  generalize c.init.tick c i = k at *
  simp [Clock.tick, hj, hjl, e1, e2, b1]

/-! ### C114: offset adjustment -/

theorem netsOk_join {c : Cfg} : ∀ (a : List In) {b : List In} {k : Clock}, NetsOk c k a → NetsOk c (run c k a) b → NetsOk c k (a ++ b) := by
  intro a
  induction a with
  | nil => intro b k _ h; exact h
  | cons i a ih => intro b k h h'; exact ⟨h.1, ih h.2 h'⟩

theorem nets_append {c : Cfg} : ∀ (a : List In) {b : List In} {k : Clock}, nets c k (a ++ b) = nets c k a + nets c (run c k a) b := by
  intro a
  induction a with
  | nil => intro b k; simp [nets, run]
  | cons i a ih => intro b k; rw [List.cons_append, nets, nets, ih, run_cons]; omega

theorem periods_append : ∀ (a b : List In) (p : Nat), periods p (a ++ b) = periods p a ++ periods (a.foldl (fun p i => i.period.getD p) p) b := by
  intro a
  induction a with
  | nil => intro b p; rfl
  | cons i a ih => intro b p; rw [List.cons_append, periods, periods, ih]; rfl

theorem plain_run {c : Cfg} {R : Nat} (hR : R < 2 ^ 16) : ∀ (is : List In) (k : Clock), Regs c R k → (∀ i ∈ is, Plain i) →
    (∀ i ∈ is, ∀ p, i.period = some p → p < 2 ^ (c.pw + c.F)) → k.adjCount = 0 → k.adjActive = false →
    Regs c R (run c k is) ∧ (run c k is).drift = k.drift ∧ (run c k is).adjCount = 0 ∧ (run c k is).adjActive = false ∧
    (run c k is).period = is.foldl (fun p i => i.period.getD p) k.period := by
  intro is
  induction is with
  | nil => intro k h _ _ h1 h2; exact ⟨h, rfl, h1, h2, rfl⟩
  | cons i is ih =>
    intro k hk hi hp h1 h2
    obtain ⟨t1, t2, t3, t4, t5, t6, t7⟩ := plain_tick hR hk (hi i List.mem_cons_self) (hp i List.mem_cons_self)
    obtain ⟨q1, q2, q3, q4, q5⟩ := ih _ t1 (fun x hx => hi x (List.mem_cons_of_mem _ hx)) (fun x hx => hp x (List.mem_cons_of_mem _ hx))
      (by rw [t4, h1]) (by rw [t5, h1]; rfl)
    refine ⟨q1, by rw [run_cons, q2, t2], q3, q4, ?_⟩
    rw [run_cons, q5, t7]; rfl

theorem adj_run {c : Cfg} : ∀ (js : List In) (k : Clock), (∀ v ∈ js, v.rst = false ∧ v.adj = none) → 
      (run c k js).adjCount = k.adjCount - js.length ∧
    ((run c k js).adjActive = true ↔ if js.length = 0 then k.adjActive = true else js.length ≤ k.adjCount) := by
  intro js
  induction js with
  | nil => intro k _; exact ⟨rfl, by simp [run]⟩
  | cons j js ih =>
    intro k hj
    obtain ⟨j1, j2⟩ := hj j List.mem_cons_self
    obtain ⟨q1, q2⟩ := ih (k.tick c j) fun v hv => hj v (List.mem_cons_of_mem _ hv)
    have e1 : (k.tick c j).adjCount = k.adjCount - 1 := by
      simp only [Clock.tick, j1, Bool.false_eq_true, if_false, j2]
      split <;> omega
    have e2 : (k.tick c j).adjActive = decide (k.adjCount > 0) := by simp [Clock.tick, j1]
    rw [run_cons, q1, q2, e1, e2]
    refine ⟨by simp; omega, ?_⟩
    by_cases h0 : js.length = 0
    · simp [h0]; omega
    · simp [h0]; omega

/-- C114: an offset given when none is pending is applied exactly as often as asked for. -/
theorem C114_offset {c : Cfg} (h : c.Ok) {k : Clock} {r1 r2 r3 : In} (h1 : r1.rst = true) (h2 : r2.rst = true) (h3 : r3.rst = true)
    {is js : List In} {i x y z : In} {a m : Nat} (hi : ∀ v ∈ is, Plain v) (hj : ∀ v ∈ js ++ [x, y, z], Plain v)
    (ha : i.adj = some (a, m)) (hx : Plain { i with adj := none }) (haw : a < 2 ^ (c.ow + c.F)) (hm : m < js.length)
    (hp : ∀ v ∈ is ++ i :: (js ++ [x, y, z]), ∀ p, v.period = some p → p < 2 ^ (c.pw + c.F))
    (hpos : ∀ p ∈ c.period :: periods c.period (is ++ i :: (js ++ [x, y, z])),
      0 ≤ (p : Int) + min 0 (c.corr c.drift) + min 0 (signed (c.ow + c.F) a)) :
    let end' := run c k ([r1, r2, r3] ++ (is ++ i :: (js ++ [x, y, z])))
    (end'.time c : Int) = (2 * (c.period + c.corr c.drift) + (periods c.period (is ++ i :: js)).sum +
      (((is ++ i :: js).length + (c.rate - 1)) / c.rate : Nat) * c.corr c.drift + m * signed (c.ow + c.F) a) % (wrap c : Nat) ∧
    end'.adjCount = 0 ∧ end'.adjActive = false := by
  intro end'
  have hpl : ∀ v ∈ is ++ { i with adj := none } :: (js ++ [x, y, z]), Plain v := by
    intro v hv
    rcases List.mem_append.1 hv with hv | hv
    · exact hi v hv
    · rcases List.mem_cons.1 hv with rfl | hv
      · exact hx
      · exact hj v hv
  have hpi : ∀ v ∈ is, ∀ p, v.period = some p → p < 2 ^ (c.pw + c.F) := fun v hv => hp v (List.mem_append_left _ hv)
  have hpj : ∀ v ∈ js ++ [x, y, z], ∀ p, v.period = some p → p < 2 ^ (c.pw + c.F) :=
    fun v hv => hp v (List.mem_append_right _ (List.mem_cons_of_mem _ hv))
  have hpx := hp i (by simp)
  have h00 := hpos c.period List.mem_cons_self
  obtain ⟨g1, g2, g3, g4, g5, g6, g7, g8, g9, g10⟩ := reset_three h (by omega) (k := k) h1 h2 h3
  rw [show end' = run c (run c k [r1, r2, r3]) (is ++ i :: (js ++ [x, y, z])) from run_append ..]
  generalize run c k [r1, r2, r3] = r at *
  obtain ⟨p1, p2, p3, p4, p5⟩ := plain_run h.rate.2 is r g2 hi hpi g6 g7
  -- with and without the adjustment
  have ir : i.rst = false := hx.1
  have i96 : i.ts96 = none := hx.2.1
  have idr : i.drift = none := hx.2.2.2.2
  obtain ⟨t1, t2, t3, t4, t5, t6, t7⟩ := plain_tick h.rate.2 p1 hx (hpx : ∀ p, _ = some p → p < _)
  have u1 : ((run c r is).tick c i).adj = a := by simp [Clock.tick, ir, ha]
  have u2 : ((run c r is).tick c i).adjCount = m := by simp [Clock.tick, ir, ha, p3]
  have u3 : ((run c r is).tick c i).adjActive = false := by simp [Clock.tick, ir, p3]
  have u4 : ((run c r is).tick c i).driftCnt = ((run c r is).tick c { i with adj := none }).driftCnt := by simp [Clock.tick, ir]
  have u5 : ((run c r is).tick c i).drift = ((run c r is).tick c { i with adj := none }).drift := by simp [Clock.tick, ir]
  have u6 : ((run c r is).tick c i).period = ((run c r is).tick c { i with adj := none }).period := by simp [Clock.tick, ir]
  have u7 : ((run c r is).tick c i).driftRate = ((run c r is).tick c { i with adj := none }).driftRate := by simp [Clock.tick, ir]
  have t4' : ((run c r is).tick c { i with adj := none }).adjCount = 0 := by rw [t4, p3]
  have t5' : ((run c r is).tick c { i with adj := none }).adjActive = false := by rw [t5, p3]; rfl
  have uR : Regs c c.rate ((run c r is).tick c i) :=
    ⟨by rw [u7]; exact t1.rate, by rw [u4]; exact t1.cnt, by rw [u1]; exact haw, by rw [u5]; exact t1.drift, by rw [u6]; exact t1.period⟩
  have hper : periods c.period (is ++ i :: (js ++ [x, y, z])) = periods c.period is ++ (run c r is).period ::
      periods ((run c r is).tick c i).period (js ++ [x, y, z]) := by
    rw [periods_append, periods, ← g3, ← p5, u6, t7]
  have hN : NetsOk c r (is ++ i :: (js ++ [x, y, z])) := by
    refine netsOk_join is (netsOk_plain h h.rate.2 is r g2 hi hpi ?_) ⟨?_, netsOk_plain h h.rate.2 _ _ uR hj hpj ?_⟩
    · intro p hm
      have := hpos p (List.mem_cons_of_mem _ (by rw [hper, ← g3]; exact List.mem_append_left _ hm))
      rw [g4, g6, g7]
      simp
      omega
    · have := hpos (run c r is).period (List.mem_cons_of_mem _ (by rw [hper]; simp))
      have q : NetsOk c (run c r is) [{ i with adj := none }] := by
        refine netsOk_plain h h.rate.2 _ _ p1 (by simpa using hx) (by simpa using hpx) ?_
        intro p hm
        rw [periods, periods, List.mem_singleton] at hm
        rw [hm, p2, p3, p4, g4]
        simp
        omega
      exact q.1
    · intro p hm
      have := hpos p (List.mem_cons_of_mem _ (by rw [hper]; simp [hm]))
      rw [u1, u5, t2, p2, g4]
      split <;> omega
  have hnets : nets c r (is ++ i :: js) = nets c r (is ++ { i with adj := none } :: js) + signed (c.ow + c.F) a * m := by
    rw [nets_append, nets_append, nets, nets, nets_plain h.rate.2 js _ uR (fun v hv => hj v (List.mem_append_left _ hv))
        (fun v hv => hpj v (List.mem_append_left _ hv)),
      nets_plain h.rate.2 js _ t1 (fun v hv => hj v (List.mem_append_left _ hv)) (fun v hv => hpj v (List.mem_append_left _ hv)),
      u1, u2, u3, u4, u5, u6, t4', t5']
    have e1 : active js.length false m = m := by simp [active]; omega
    have e2 : active js.length false 0 = 0 := by simp [active]
    rw [e1, e2]
    simp
    omega
  have hall : ∀ v ∈ is ++ { i with adj := none } :: js, Plain v := fun v hv => hpl v (by
    rcases List.mem_append.1 hv with hv | hv
    · exact List.mem_append_left _ hv
    · rcases List.mem_cons.1 hv with rfl | hv
      · simp
      · simp [hv])
  have hallp : ∀ v ∈ is ++ { i with adj := none } :: js, ∀ p, v.period = some p → p < 2 ^ (c.pw + c.F) := by
    intro v hv
    rcases List.mem_append.1 hv with hv | hv
    · exact hpi v hv
    · rcases List.mem_cons.1 hv with rfl | hv
      · exact hpx
      · exact hpj v (List.mem_append_left _ hv)
  refine ⟨?_, ?_⟩
  · rw [show is ++ i :: (js ++ [x, y, z]) = (is ++ i :: js) ++ [x, y, z] by simp] at hN ⊢
    rw [time_run g1 hN, g10, hnets, nets_plain h.rate.2 _ r g2 hall hallp, g3, g4, g5, g6, g7]
    · congr 1
      have e : periods c.period (is ++ { i with adj := none } :: js) = periods c.period (is ++ i :: js) := by
        rw [periods_append, periods_append]; rfl
      have e2 : active (is ++ { i with adj := none } :: js).length false 0 = 0 := by simp [active]
      rw [e, e2, Int.mul_comm (signed _ _) (m : Int)]
      simp only [List.length_append, List.length_cons, Nat.sub_zero, Int.mul_comm (c.corr c.drift)]
      push_cast
      omega
    · intro v hv
      rw [show (is ++ i :: js) ++ [x, y, z] = is ++ i :: (js ++ [x, y, z]) by simp] at hv
      rcases List.mem_append.1 hv with hv | hv
      · exact ⟨(hi v hv).1, (hi v hv).2.1⟩
      · rcases List.mem_cons.1 hv with rfl | hv
        · exact ⟨ir, i96⟩
        · exact ⟨(hj v hv).1, (hj v hv).2.1⟩
  · rw [run_append, run_cons]
    obtain ⟨q1, q2⟩ := adj_run (c := c) (js ++ [x, y, z]) ((run c r is).tick c i) fun v hv => ⟨(hj v hv).1, (hj v hv).2.2.2.1⟩
    rw [q1, u2]
    refine ⟨by simp; omega, ?_⟩
    rw [← Bool.not_eq_true, q2, u2, if_neg (by simp)]
    simp
    omega

/-- C114: `input_adj_active` says that the offset is being applied. -/
theorem C114_active {c : Cfg} {k : Clock} {i : In} {js : List In} {a m : Nat} (hk : k.adjCount = 0) (hir : i.rst = false)
    (ha : i.adj = some (a, m)) (hj : ∀ v ∈ js, v.rst = false ∧ v.adj = none) :
    ((run c k (i :: js)).adjActive = true ↔ 0 < js.length ∧ js.length ≤ m) := by
  obtain ⟨_, q⟩ := adj_run js (k.tick c i) hj
  have e1 : (k.tick c i).adjCount = m := by simp [Clock.tick, hir, ha, hk]
  have e2 : (k.tick c i).adjActive = false := by simp [Clock.tick, hir, hk]
  rw [run_cons, q, e1, e2]
  by_cases h0 : js.length = 0
  · simp [h0]
  · simp [h0]; omega

/-- C114 fails while another adjustment is pending: the new count is ignored, whatever it is. -/
theorem C114_lost_counterexample (c : Cfg) {k : Clock} (hk : 0 < k.adjCount) (i : In) (a m m' : Nat) :
    k.tick c { i with adj := some (a, m) } = k.tick c { i with adj := some (a, m') } := by
  simp [Clock.tick, hk]

/-- C114 fails for an offset below minus one period: with the default widths, moving back by 8 ns once moves the time forward by 56. -/
theorem C114_negative_counterexample : ∃ (c : Cfg) (is : List In) (i : In), c.Ok ∧ i.adj = some (8 * 2 ^ 16, 1) ∧
    signed (c.ow + c.F) (8 * 2 ^ 16) = -8 * 2 ^ 16 ∧
    (run c c.init (is ++ i :: List.replicate 6 ({} : In))).time c =
      (run c c.init (is ++ ({} : In) :: List.replicate 6 ({} : In))).time c + 56 * 2 ^ 16 :=
  ⟨{ period := 0x66666, drift := 2, rate := 5 }, List.replicate 3 { rst := true } ++ List.replicate 4 ({} : In), { adj := some (8 * 2 ^ 16, 1) },
    by constructor <;> decide, rfl, by decide, by decide +kernel⟩

/-! ### examples -/

/-- a cycle without any input -/
def idle : In := { rst := false }

/-- the default parameters -/
def dflt : Cfg := { period := 0x66666, drift := 2, rate := 5 }

theorem dflt_ok : dflt.Ok := by constructor <;> decide

/-- a run as in `C113_time`, with a change of the period on the way -/
def sampleIns : List In := List.replicate 7 idle ++ { period := some 0x70000 } :: List.replicate 12 idle

example : (∀ i ∈ sampleIns ++ [idle, idle, idle], Plain i) ∧ (∀ i ∈ sampleIns ++ [idle, idle, idle], ∀ p ∈ i.period, p < 2 ^ (dflt.pw + dflt.F)) ∧
    (∀ p ∈ dflt.period :: periods dflt.period (sampleIns ++ [idle, idle, idle]), 0 ≤ (p : Int) + dflt.corr dflt.drift) := by decide +kernel

example : (run dflt dflt.init (List.replicate 3 { rst := true } ++ (sampleIns ++ [idle, idle, idle]))).time dflt =
    2 * (0x66666 + 2) + 8 * 0x66666 + 12 * 0x70000 + 4 * 2 := by decide +kernel

/-- with an offset of minus one nanosecond for three cycles -/
example : let is := List.replicate 3 { rst := true } ++ List.replicate 4 idle ++ { adj := some (15 * 2 ^ 16, 3) } :: List.replicate 9 idle
    (run dflt dflt.init is).time dflt + 3 * 2 ^ 16 = 2 * (0x66666 + 2) + 11 * 0x66666 + 3 * 2 := by decide +kernel

/-- the default parameters of the test bench clock after ten cycles -/
example : (Bfm.after ⟨0x66666, 2, 5⟩ {} 10).t64 = 10 * 0x66666 + 8 * 2 := by decide +kernel

end Corundum.PtpClock
