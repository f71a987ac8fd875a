import Verif.Spec.PtpClock

namespace Corundum.PtpClock

/-! ### ptp_clock.v: the pipeline -/

theorem le_iw (c : Cfg) : 2 ^ c.pw + 2 ^ c.ow + 2 ^ c.dw ≤ 2 ^ c.iw := by
  rw [Cfg.iw, clog2]
  split
  · have := Nat.two_pow_pos c.pw
    have := Nat.two_pow_pos c.ow
    have := Nat.two_pow_pos c.dw
    omega
  · have := Nat.lt_log2_self (n := 2 ^ c.pw + 2 ^ c.ow + 2 ^ c.dw - 1)
    omega

theorem iw_le {c : Cfg} (h : c.Ok) : c.iw ≤ 28 := by
  have h1 := Nat.pow_le_pow_right (show 0 < 2 by decide) h.pw
  have h2 := Nat.pow_le_pow_right (show 0 < 2 by decide) h.ow
  have h3 := Nat.pow_le_pow_right (show 0 < 2 by decide) h.dw
  rw [Cfg.iw, clog2]
  split
  · omega
  · have : Nat.log2 (2 ^ c.pw + 2 ^ c.ow + 2 ^ c.dw - 1) < 28 := by
      rw [Nat.log2_lt (by omega)]
      omega
    omega

/-- time after the next clock edge -/
def Clock.nextS (c : Cfg) (k : Clock) : Nat := if borrow c k.nsOvf then k.s else (k.s + 1) % 2 ^ 48
def Clock.nextNs (c : Cfg) (k : Clock) : Nat := if borrow c k.nsOvf then k.nsInc else k.nsOvf
def Clock.next (c : Cfg) (k : Clock) : Nat := k.nextS c * (1000000000 * 2 ^ c.F) + k.nextNs c

/-- lengths are short of 2^28 ns -/
structure Good (c : Cfg) (k : Clock) : Prop where
  inc : k.inc < 2 ^ 28 * 2 ^ c.F
  delay : k.incDelay < 2 ^ 28 * 2 ^ c.F
  ovf : k.incOvf + k.incDelay = 1000000000 * 2 ^ c.F
  ns : k.ns < 1000000000 * 2 ^ c.F
  s : k.s < 2 ^ 48
  yes : borrow c k.nsOvf = true → k.nsInc < 1000000000 * 2 ^ c.F
  no : borrow c k.nsOvf = false → k.nsOvf < 2 ^ 28 * 2 ^ c.F

theorem borrow_force (c : Cfg) (x : Nat) : borrow c (force c x) = true := by
  rw [borrow, force]
  have : 0 < 2 ^ (30 + c.F) := Nat.two_pow_pos _
  rw [Nat.add_div_left _ this, Nat.div_eq_of_lt (Nat.mod_lt _ this)]
  rfl

theorem borrow_small {c : Cfg} {x : Nat} (h : x < 2 ^ 30 * 2 ^ c.F) : borrow c x = false := by
  rw [borrow, Nat.pow_add, Nat.div_eq_of_lt h]; rfl

theorem borrow_big {c : Cfg} {x : Nat} (h : 2 ^ 30 * 2 ^ c.F ≤ x) (h' : x < 2 * (2 ^ 30 * 2 ^ c.F)) : borrow c x = true := by
  have : x / (2 ^ 30 * 2 ^ c.F) = 1 := by
    rw [Nat.div_eq_iff (Nat.mul_pos (by decide) (Nat.two_pow_pos _))]
    omega
  rw [borrow, Nat.pow_add, this]; rfl

theorem net_bounds {c : Cfg} (h : c.Ok) {p : Nat} (hp : p < 2 ^ (c.pw + c.F)) {a d : Int} (ha : a < 2 ^ (c.ow + c.F)) (hd : d < 2 ^ (c.dw + c.F))
    (h0 : 0 ≤ p + a + d) : (((p : Int) + a + d) % 2 ^ (c.iw + c.F)).toNat = (p + a + d).toNat ∧ (p + a + d).toNat < 2 ^ 28 * 2 ^ c.F := by
  have h1 := Nat.mul_le_mul_right (2 ^ c.F) (le_iw c)
  rw [Nat.add_mul, Nat.add_mul, ← Nat.pow_add, ← Nat.pow_add, ← Nat.pow_add, ← Nat.pow_add] at h1
  have h2 := Nat.mul_le_mul_right (2 ^ c.F) (Nat.pow_le_pow_right (show 0 < 2 by decide) (iw_le h))
  rw [← Nat.pow_add] at h2
  have e : ∀ n : Nat, ((2 : Int) ^ n) = ((2 ^ n : Nat) : Int) := fun n => by simp
  rw [e] at ha hd ⊢
  generalize 2 ^ (c.pw + c.F) = A at *
  generalize 2 ^ (c.ow + c.F) = B at *
  generalize 2 ^ (c.dw + c.F) = C at *
  generalize 2 ^ (c.iw + c.F) = D at *
  generalize 2 ^ 28 * 2 ^ c.F = E at *
  rw [Int.emod_eq_of_lt h0 (by omega)]
  omega

theorem signed_lt {w x : Nat} (hw : 0 < w) (hx : x < 2 ^ w) : signed w x < 2 ^ w := by
  have e : ((2 : Int) ^ w) = ((2 ^ w : Nat) : Int) := by simp
  rw [signed, e]
  have : 2 ^ (w - 1) < 2 ^ w := Nat.pow_lt_pow_right (by decide) (by omega)
  generalize 2 ^ w = W at *
  split <;> omega

/-- one clock edge without reset and load -/
theorem good_tick {c : Cfg} {k : Clock} (hg : Good c k) {i : In} (hr : i.rst = false) (hl : i.ts96 = none)
    (hi : (k.net c % 2 ^ (c.iw + c.F)).toNat < 2 ^ 28 * 2 ^ c.F) :
    Good c (k.tick c i) ∧ (k.tick c i).time c = k.next c ∧
    (k.tick c i).next c = (k.next c + k.incDelay) % wrap c ∧ (k.tick c i).incDelay = k.inc ∧
    (k.tick c i).inc = (k.net c % 2 ^ (c.iw + c.F)).toNat ∧ (k.tick c i).pps = !borrow c k.nsOvf := by
  obtain ⟨g1, g2, g3, g4, g5, g6, g7⟩ := hg
  have hF : 0 < 2 ^ c.F := Nat.two_pow_pos _
  have e30 : 2 ^ (30 + c.F) = 2 ^ 30 * 2 ^ c.F := Nat.pow_add ..
  have e31 : 2 ^ (31 + c.F) = 2 ^ 31 * 2 ^ c.F := Nat.pow_add ..
  rw [Clock.tick, hr, hl]
  simp only [Bool.false_eq_true, if_false, Option.isSome_none, Bool.false_or, Clock.time, Clock.next, Clock.nextS, Clock.nextNs, Cfg.sec,
    e30, e31]
  have e0 : (1000000000 * 2 ^ c.F + 2 ^ 31 * 2 ^ c.F - k.inc) % (2 ^ 31 * 2 ^ c.F) = 1000000000 * 2 ^ c.F - k.inc := by
    rw [Nat.mod_eq_sub_mod (by omega), Nat.mod_eq_of_lt (by omega)]; omega
  rw [e0]
  cases hb : borrow c k.nsOvf with
  | true =>
    have g6 := g6 hb
    simp only [Bool.not_true, if_true, if_false, Bool.false_eq_true]
    by_cases hlt : k.nsInc + k.incDelay < 1000000000 * 2 ^ c.F
    · have e1 : (k.nsInc + 2 ^ 31 * 2 ^ c.F - k.incOvf) % (2 ^ 31 * 2 ^ c.F) = k.nsInc + 2 ^ 31 * 2 ^ c.F - k.incOvf :=
        Nat.mod_eq_of_lt (by omega)
      have e2 : borrow c (k.nsInc + 2 ^ 31 * 2 ^ c.F - k.incOvf) = true := borrow_big (by omega) (by omega)
      have e3 : (k.nsInc + k.incDelay) % (2 ^ 30 * 2 ^ c.F) = k.nsInc + k.incDelay := Nat.mod_eq_of_lt (by omega)
      rw [e1, e2, e3]
      refine ⟨⟨hi, g1, ?_, g6, g5, fun _ => hlt, fun h => ?_⟩, trivial, ?_, trivial, trivial, trivial⟩
      · dsimp only; omega
      · rw [e2] at h; cases h
      · simp only [if_true]
        rw [wrap, Nat.mod_eq_of_lt]
        · omega
        · have := Nat.mul_le_mul_right (1000000000 * 2 ^ c.F) (show k.s + 1 ≤ 2 ^ 48 by omega)
          rw [Nat.add_mul] at this
          omega
    · have e1 : (k.nsInc + 2 ^ 31 * 2 ^ c.F - k.incOvf) % (2 ^ 31 * 2 ^ c.F) = k.nsInc + k.incDelay - 1000000000 * 2 ^ c.F := by
        rw [Nat.mod_eq_sub_mod (by omega), Nat.mod_eq_of_lt (by omega)]; omega
      have e2 : borrow c (k.nsInc + k.incDelay - 1000000000 * 2 ^ c.F) = false := borrow_small (by omega)
      rw [e1, e2]
      refine ⟨⟨hi, g1, ?_, g6, g5, fun h => ?_, fun _ => by simp only; omega⟩, trivial, ?_, trivial, trivial, trivial⟩
      · dsimp only; omega
      · rw [e2] at h; cases h
      · simp only [Bool.false_eq_true, if_false]
        rw [wrap]
        by_cases hs : k.s + 1 = 2 ^ 48
        · rw [hs, Nat.mod_self]
          have := congrArg (· * (1000000000 * 2 ^ c.F)) hs
          simp only [Nat.add_mul] at this
          rw [Nat.mod_eq_sub_mod (by omega), Nat.mod_eq_of_lt (by omega)]
          omega
        · rw [Nat.mod_eq_of_lt (show k.s + 1 < 2 ^ 48 by omega), Nat.mod_eq_of_lt]
          · rw [Nat.add_mul]; omega
          · have := Nat.mul_le_mul_right (1000000000 * 2 ^ c.F) (show k.s + 2 ≤ 2 ^ 48 by omega)
            rw [Nat.add_mul] at this
            omega
  | false =>
    have g7 := g7 hb
    have e2 : ∀ x, borrow c (force c x) = true := borrow_force c
    have e3 : (k.nsOvf + k.incDelay) % (2 ^ 30 * 2 ^ c.F) = k.nsOvf + k.incDelay := Nat.mod_eq_of_lt (by omega)
    have e4 : k.nsOvf % (2 ^ 30 * 2 ^ c.F) = k.nsOvf := Nat.mod_eq_of_lt (by omega)
    simp only [Bool.not_false, if_true, if_false, Bool.false_eq_true, e2, e3, e4]
    have hm : (k.s + 1) % 2 ^ 48 < 2 ^ 48 := Nat.mod_lt _ (by decide)
    refine ⟨⟨hi, g1, ?_, ?_, hm, fun _ => ?_, fun h => ?_⟩, trivial, ?_, trivial, trivial, trivial⟩
    · dsimp only; omega
    · dsimp only; omega
    · dsimp only; omega
    · rw [e2] at h; cases h
    · generalize (k.s + 1) % 2 ^ 48 = q at *
      rw [wrap, Nat.mod_eq_of_lt]
      · omega
      · have := Nat.mul_le_mul_right (1000000000 * 2 ^ c.F) (show q + 1 ≤ 2 ^ 48 by omega)
        rw [Nat.add_mul] at this
        omega

/-! ### runs -/

theorem run_append (c : Cfg) (k : Clock) (a b : List In) : run c k (a ++ b) = run c (run c k a) b := List.foldl_append

theorem run_cons (c : Cfg) (k : Clock) (i : In) (b : List In) : run c k (i :: b) = run c (k.tick c i) b := rfl

/-- sum of the net increments -/
def nets (c : Cfg) (k : Clock) : List In → Int
  | [] => 0
  | i :: is => k.net c + nets c (k.tick c i) is

/-- no net increment is negative or too long -/
def NetsOk (c : Cfg) (k : Clock) : List In → Prop
  | [] => True
  | i :: is => (0 ≤ k.net c ∧ (k.net c % 2 ^ (c.iw + c.F)).toNat = (k.net c).toNat ∧ (k.net c).toNat < 2 ^ 28 * 2 ^ c.F) ∧
      NetsOk c (k.tick c i) is

/-- time with the increments under way -/
def flight (c : Cfg) (k : Clock) : Nat := k.next c + k.incDelay + k.inc

theorem run_good {c : Cfg} : ∀ (is : List In) (k : Clock), Good c k → NetsOk c k is → (∀ i ∈ is, i.rst = false ∧ i.ts96 = none) →
    Good c (run c k is) ∧ (flight c (run c k is) : Int) % (wrap c : Nat) = (flight c k + nets c k is) % (wrap c : Nat) := by
  intro is
  induction is with
  | nil => intro k h _ _; exact ⟨h, by simp [run, nets]⟩
  | cons i is ih =>
    intro k h hn hi
    obtain ⟨h1, h2⟩ := hi i List.mem_cons_self
    obtain ⟨⟨n1, n2, n3⟩, n4⟩ := hn
    obtain ⟨g1, g2, g3, g4, g5, _⟩ := good_tick h h1 h2 (by rw [n2]; exact n3)
    obtain ⟨q1, q2⟩ := ih _ g1 n4 fun x hx => hi x (List.mem_cons_of_mem _ hx)
    refine ⟨q1, ?_⟩
    rw [run_cons, q2, flight, flight, nets, g3, g4, g5, n2]
    rw [show (((k.next c + k.incDelay) % wrap c + k.inc + (k.net c).toNat : Nat) : Int) + nets c (k.tick c i) is =
      ((k.next c + k.incDelay) % wrap c : Nat) + ((k.inc : Int) + k.net c + nets c (k.tick c i) is) by omega]
    rw [Int.natCast_emod, Int.emod_add_emod]
    congr 1
    push_cast
    omega

theorem netsOk_append {c : Cfg} : ∀ (a : List In) {b : List In} {k : Clock}, NetsOk c k (a ++ b) → NetsOk c k a ∧ NetsOk c (run c k a) b := by
  intro a
  induction a with
  | nil => intro b k h; exact ⟨trivial, h⟩
  | cons i a ih =>
    intro b k h
    obtain ⟨h1, h2⟩ := ih h.2
    exact ⟨⟨h.1, h1⟩, h2⟩

theorem time_run {c : Cfg} {k : Clock} (hg : Good c k) {is : List In} {x y z : In} (hn : NetsOk c k (is ++ [x, y, z]))
    (hi : ∀ i ∈ is ++ [x, y, z], i.rst = false ∧ i.ts96 = none) :
    ((run c k (is ++ [x, y, z])).time c : Int) = (flight c k + nets c k is) % (wrap c : Nat) := by
  obtain ⟨h1, h2⟩ := netsOk_append is hn
  obtain ⟨g, e⟩ := run_good is k hg h1 fun i h => hi i (List.mem_append_left _ h)
  obtain ⟨⟨n1, n2, n3⟩, ⟨n4, n5, n6⟩, ⟨n7, n8, n9⟩, _⟩ := h2
  obtain ⟨x1, x2⟩ := hi x (by simp)
  obtain ⟨y1, y2⟩ := hi y (by simp)
  obtain ⟨z1, z2⟩ := hi z (by simp)
  rw [run_append, ← e]
  generalize run c k is = k' at *
  obtain ⟨a1, a2, a3, a4, a5, _⟩ := good_tick g x1 x2 (by rw [n2]; exact n3)
  obtain ⟨b1, b2, b3, b4, b5, _⟩ := good_tick a1 y1 y2 (by rw [n5]; exact n6)
  obtain ⟨c1, c2, c3, c4, c5, _⟩ := good_tick b1 z1 z2 (by rw [n8]; exact n9)
  show (((((k'.tick c x).tick c y).tick c z).time c : Nat) : Int) = _
  rw [c2, b3, a3, a4, flight, ← Int.natCast_emod, Nat.mod_add_mod]

/-! ### the 64 bit time -/

theorem t64_run {c : Cfg} : ∀ (is : List In) (k : Clock), NetsOk c k is → (∀ i ∈ is, i.rst = false ∧ i.ts64 = none) →
    ((run c k is).t64 + (run c k is).inc : Int) % (2 ^ (48 + c.F) : Nat) = (k.t64 + k.inc + nets c k is) % (2 ^ (48 + c.F) : Nat) := by
  intro is
  induction is with
  | nil => intro k _ _; simp [run, nets]
  | cons i is ih =>
    intro k hn hi
    obtain ⟨h1, h2⟩ := hi i List.mem_cons_self
    obtain ⟨⟨n1, n2, n3⟩, n4⟩ := hn
    have e1 : (k.tick c i).t64 = (k.t64 + k.inc) % 2 ^ (48 + c.F) := by simp [Clock.tick, h1, h2]
    have e2 : (k.tick c i).inc = (k.net c).toNat := by rw [← n2]; simp [Clock.tick, h1]
    rw [run_cons, ih _ n4 fun x hx => hi x (List.mem_cons_of_mem _ hx), e1, e2, nets, Int.natCast_emod]
    rw [Int.add_assoc, Int.emod_add_emod]
    congr 1
    push_cast
    omega

/-! ### increments in the long run -/

/-- registers without pending writes -/
structure Regs (c : Cfg) (R : Nat) (k : Clock) : Prop where
  rate : k.driftRate = R
  cnt : k.driftCnt < R
  adj : k.adj < 2 ^ (c.ow + c.F)
  drift : k.drift < 2 ^ (c.dw + c.F)
  period : k.period < 2 ^ (c.pw + c.F)

/-- number of cycles among the next `n` in which the offset is applied -/
def active (n : Nat) (b : Bool) (m : Nat) : Nat := if b then min n (m + 1) else min (n - 1) m

theorem signed_corr (c : Cfg) (d : Nat) : (if c.driftEn then signed (c.dw + c.F) d else 0) = c.corr d := rfl

theorem plain_tick {c : Cfg} {R : Nat} (hR : R < 2 ^ 16) {k : Clock} (hk : Regs c R k) {i : In} (hi : Plain i)
    (hp : ∀ p, i.period = some p → p < 2 ^ (c.pw + c.F)) :
    Regs c R (k.tick c i) ∧ (k.tick c i).drift = k.drift ∧ (k.tick c i).adj = k.adj ∧ (k.tick c i).adjCount = k.adjCount - 1 ∧
    (k.tick c i).adjActive = decide (k.adjCount > 0) ∧ (k.tick c i).driftCnt = (if k.driftCnt = 0 then R - 1 else k.driftCnt - 1) ∧
    (k.tick c i).period = i.period.getD k.period := by
  obtain ⟨i1, i2, i3, i4, i5⟩ := hi
  obtain ⟨h1, h2, h3, h4, h5⟩ := hk
  have e : (k.tick c i).driftCnt = (if k.driftCnt = 0 then R - 1 else k.driftCnt - 1) := by
    simp only [Clock.tick, i1, Bool.false_eq_true, if_false, h1]
    split
    · rw [show R + (2 ^ 16 - 1) = R - 1 + 2 ^ 16 by omega, Nat.add_mod_right, Nat.mod_eq_of_lt (by omega)]
    · rfl
  have e2 : (k.tick c i).period = i.period.getD k.period := by simp [Clock.tick, i1]
  have e3 : (k.tick c i).drift = k.drift := by simp [Clock.tick, i1, i5]
  have e4 : (k.tick c i).adj = k.adj := by simp [Clock.tick, i1, i4]
  refine ⟨⟨?_, ?_, by rw [e4]; exact h3, by rw [e3]; exact h4, ?_⟩, e3, e4, ?_, ?_, e, e2⟩
  · simp [Clock.tick, i1, i5, h1]
  · rw [e]; split <;> omega
  · rw [e2]
    cases hx : i.period with
    | none => exact h5
    | some p => exact hp p hx
  · simp only [Clock.tick, i1, Bool.false_eq_true, if_false, i4]
    split <;> omega
  · simp [Clock.tick, i1]

theorem ceil_step {R n cnt : Nat} (hc : cnt < R) :
    (n + 1 + (R - 1 - cnt)) / R = (if cnt = 0 then 1 else 0) + (n + (R - 1 - (if cnt = 0 then R - 1 else cnt - 1))) / R := by
  split
  · subst cnt
    rw [show n + 1 + (R - 1 - 0) = n + R by omega, Nat.add_div_right _ (by omega), Nat.sub_self, Nat.add_comm]; rfl
  · rw [Nat.zero_add]; congr 1; omega

theorem nets_plain {c : Cfg} {R : Nat} (hR : R < 2 ^ 16) : ∀ (is : List In) (k : Clock), Regs c R k → (∀ i ∈ is, Plain i) →
    (∀ i ∈ is, ∀ p, i.period = some p → p < 2 ^ (c.pw + c.F)) →
    nets c k is = (periods k.period is).sum + c.corr k.drift * ((is.length + (R - 1 - k.driftCnt)) / R : Nat) +
      signed (c.ow + c.F) k.adj * (active is.length k.adjActive k.adjCount : Nat) := by
  intro is
  induction is with
  | nil =>
    intro k hk _ _
    have hc := hk.cnt
    have : (0 + (R - 1 - k.driftCnt)) / R = 0 := Nat.div_eq_of_lt (by omega)
    rw [List.length_nil, this]
    simp [nets, periods, active]
  | cons i is ih =>
    intro k hk hi hp
    obtain ⟨t1, t2, t3, t4, t5, t6, t7⟩ := plain_tick hR hk (hi i List.mem_cons_self) (hp i List.mem_cons_self)
    rw [nets, ih _ t1 (fun x hx => hi x (List.mem_cons_of_mem _ hx)) fun x hx => hp x (List.mem_cons_of_mem _ hx), t2, t3, t4, t5, t6, t7]
    rw [List.length_cons, ceil_step hk.cnt]
    have ha : active (is.length + 1) k.adjActive k.adjCount =
        (if k.adjActive then 1 else 0) + active is.length (decide (k.adjCount > 0)) (k.adjCount - 1) := by
      cases k.adjActive <;> by_cases h : k.adjCount > 0 <;> simp [active, h] <;> omega
    rw [ha, Clock.net, periods, List.sum_cons]
    have hd : (if (c.driftEn && k.driftCnt == 0) = true then signed (c.dw + c.F) k.drift else 0) =
        c.corr k.drift * ((if k.driftCnt = 0 then 1 else 0 : Nat) : Int) := by
      rw [← signed_corr]
      cases c.driftEn <;> by_cases h : k.driftCnt = 0 <;> simp [h]
    have hs : (if k.adjActive = true then signed (c.ow + c.F) k.adj else 0) =
        signed (c.ow + c.F) k.adj * ((if k.adjActive = true then 1 else 0 : Nat) : Int) := by
      cases k.adjActive <;> simp
    rw [hd, hs]
    push_cast
    rw [Int.mul_add, Int.mul_add]
    generalize c.corr k.drift * ((if k.driftCnt = 0 then 1 else 0 : Nat) : Int) = u1
    generalize signed (c.ow + c.F) k.adj * ((if k.adjActive = true then 1 else 0 : Nat) : Int) = u2
    omega

/-- sufficient for `NetsOk` -/
theorem netsOk_plain {c : Cfg} (h : c.Ok) {R : Nat} (hR : R < 2 ^ 16) : ∀ (is : List In) (k : Clock), Regs c R k → (∀ i ∈ is, Plain i) →
    (∀ i ∈ is, ∀ p, i.period = some p → p < 2 ^ (c.pw + c.F)) →
    (∀ p ∈ periods k.period is, 0 ≤ (p : Int) + min 0 (c.corr k.drift) +
      min 0 (if k.adjActive = true ∨ 0 < k.adjCount then signed (c.ow + c.F) k.adj else 0)) → NetsOk c k is := by
  intro is
  induction is with
  | nil => intro _ _ _ _ _; trivial
  | cons i is ih =>
    intro k hk hi hp hpos
    obtain ⟨t1, t2, t3, t4, t5, t6, t7⟩ := plain_tick hR hk (hi i List.mem_cons_self) (hp i List.mem_cons_self)
    refine ⟨?_, ih _ t1 (fun x hx => hi x (List.mem_cons_of_mem _ hx)) (fun x hx => hp x (List.mem_cons_of_mem _ hx)) ?_⟩
    · have h0 := hpos k.period (by simp [periods])
      have e1 : ((2 : Int) ^ (c.ow + c.F)) = ((2 ^ (c.ow + c.F) : Nat) : Int) := by simp
      have e2 : ((2 : Int) ^ (c.dw + c.F)) = ((2 ^ (c.dw + c.F) : Nat) : Int) := by simp
      have ha : (if k.adjActive = true then signed (c.ow + c.F) k.adj else 0) < 2 ^ (c.ow + c.F) := by
        split
        · exact signed_lt h.ow0 hk.adj
        · rw [e1]; have := Nat.two_pow_pos (c.ow + c.F); omega
      have hd : (if (c.driftEn && k.driftCnt == 0) = true then signed (c.dw + c.F) k.drift else 0) < 2 ^ (c.dw + c.F) := by
        split
        · exact signed_lt h.dw0 hk.drift
        · rw [e2]; have := Nat.two_pow_pos (c.dw + c.F); omega
      have hnn : 0 ≤ k.net c := by
        rw [Clock.net]
        rw [← signed_corr] at h0
        cases hb : k.adjActive <;> cases hc : c.driftEn <;> by_cases hz : k.driftCnt = 0 <;> by_cases hy : 0 < k.adjCount <;>
          simp [hb, hc, hz, hy] at h0 ⊢ <;> omega
      obtain ⟨q1, q2⟩ := net_bounds h hk.period ha hd hnn
      exact ⟨hnn, q1, q2⟩
    · intro p hm
      rw [t7] at hm
      have h0 := hpos p (by rw [periods]; exact List.mem_cons_of_mem _ hm)
      rw [t2, t3, t4, t5]
      by_cases hy : 0 < k.adjCount
      · rw [if_pos (Or.inr hy)] at h0
        rw [if_pos (Or.inl (by simpa using hy))]
        exact h0
      · rw [if_neg (by simp; omega)]
        omega

/-! ### reset -/

theorem reset_three {c : Cfg} (h : c.Ok) (hpos : 0 ≤ (c.period : Int) + c.corr c.drift) {k : Clock} {x y z : In} (hx : x.rst = true)
    (hy : y.rst = true) (hz : z.rst = true) :
    let r := run c k [x, y, z]
    Good c r ∧ Regs c c.rate r ∧ r.period = c.period ∧ r.drift = c.drift ∧ r.driftCnt = 0 ∧ r.adjCount = 0 ∧ r.adjActive = false ∧
    r.t64 = 0 ∧ (r.inc : Int) = c.period + c.corr c.drift ∧ (flight c r : Int) = 2 * (c.period + c.corr c.drift) := by
  intro r
  have hnet : ∀ (k : Clock) (i : In), i.rst = true → (k.tick c i).net c = c.period + c.corr c.drift := by
    intro k i hi
    simp [Clock.net, Clock.tick, hi, signed, Cfg.corr]
  have hd : c.corr c.drift < 2 ^ (c.dw + c.F) := by
    rw [← signed_corr]
    split
    · exact signed_lt h.dw0 h.drift
    · have e2 : ((2 : Int) ^ (c.dw + c.F)) = ((2 ^ (c.dw + c.F) : Nat) : Int) := by simp
      rw [e2]; have := Nat.two_pow_pos (c.dw + c.F); omega
  obtain ⟨q1, q2⟩ := net_bounds h h.period (a := 0) (d := c.corr c.drift)
    (by have e2 : ((2 : Int) ^ (c.ow + c.F)) = ((2 ^ (c.ow + c.F) : Nat) : Int) := by simp
        rw [e2]; have := Nat.two_pow_pos (c.ow + c.F); omega) hd (by omega)
  rw [Int.add_zero] at q1 q2
  have hinc : ∀ (k : Clock) (i j : In), i.rst = true → ((k.tick c i).tick c j).inc = (c.period + c.corr c.drift).toNat := by
    intro k i j hi
    rw [← q1, ← hnet k i hi]
    simp only [Clock.tick]
    split <;> rfl
  have hdel : ∀ (k : Clock) (i : In), (k.tick c i).incDelay = k.inc := by
    intro k i
    simp only [Clock.tick]
    split <;> rfl
  have hovf : ∀ (k : Clock) (i : In), (k.tick c i).incOvf = (c.sec + 2 ^ (31 + c.F) - k.inc) % 2 ^ (31 + c.F) := by
    intro k i
    simp only [Clock.tick]
    split <;> rfl
  have er : r = ((k.tick c x).tick c y).tick c z := rfl
  have i1 : r.inc = (c.period + c.corr c.drift).toNat := by rw [er, hinc _ _ _ hy]
  have i2 : r.incDelay = (c.period + c.corr c.drift).toNat := by rw [er, hdel, hinc _ _ _ hx]
  have i3 : r.incOvf + r.incDelay = 1000000000 * 2 ^ c.F := by
    rw [i2, er, hovf, hinc _ _ _ hx, Cfg.sec]
    have e31 : 2 ^ (31 + c.F) = 2 ^ 31 * 2 ^ c.F := Nat.pow_add ..
    rw [e31, Nat.mod_eq_sub_mod (by omega), Nat.mod_eq_of_lt (by omega)]
    omega
  have hF : 0 < 2 ^ c.F := Nat.two_pow_pos _
  have fb : borrow c r.nsOvf = true := by
    rw [er]
    generalize (k.tick c x).tick c y = k
    have : (k.tick c z).nsOvf = force c ((k.nsInc + 2 ^ (31 + c.F) - k.incOvf) % 2 ^ (31 + c.F)) ∨
        (k.tick c z).nsOvf = force c (force c ((k.nsInc + 2 ^ (31 + c.F) - k.incOvf) % 2 ^ (31 + c.F))) := by
      simp only [Clock.tick, hz, if_true]
      split
      · exact Or.inr rfl
      · exact Or.inl rfl
    rcases this with h | h <;> rw [h] <;> exact borrow_force _ _
  have other : r.s = 0 ∧ r.ns = 0 ∧ r.nsInc = 0 ∧ r.period = c.period ∧ r.drift = c.drift ∧ r.driftCnt = 0 ∧ r.adjCount = 0 ∧
      r.adjActive = false ∧ r.t64 = 0 ∧ r.driftRate = c.rate ∧ r.adj = 0 := by
    rw [er]
    simp [Clock.tick, hz]
  obtain ⟨o1, o2, o3, o4, o5, o6, o7, o8, o9, o10, o11⟩ := other
  refine ⟨⟨?_, ?_, i3, ?_, ?_, ?_, ?_⟩, ⟨o10, ?_, ?_, ?_, ?_⟩, o4, o5, o6, o7, o8, o9, ?_, ?_⟩
  · rw [i1]; exact q2
  · rw [i2]; exact q2
  · rw [o2]; omega
  · rw [o1]; decide
  · intro _; rw [o3]; omega
  · intro h; rw [fb] at h; cases h
  · rw [o6]; exact h.rate.1
  · rw [o11]; exact Nat.two_pow_pos _
  · rw [o5]; exact h.drift
  · rw [o4]; exact h.period
  · rw [i1]; omega
  · rw [flight, Clock.next, Clock.nextS, Clock.nextNs, fb, o1, o3, i1, i2]
    simp
    omega

end Corundum.PtpClock
