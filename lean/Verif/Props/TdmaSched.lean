import Verif.Proof.TdmaSched
/-! The slots of a TDMA schedule: properties C132, C133 and C134. -/
namespace Corundum.TdmaSched

/-! ### C132: pulses and the active flag belong together -/

/-- In every state, whatever comes except a reset: a slot ends only if one was active; when a slot begins while one is active, that one ends; the active flag
is up from a beginning to the end. -/
theorem C132_edge (c : Cfg) (k : Reg) (i : In) (h : i.rst = false) :
    (k.tick c i).slotActive = ((k.slotActive && !(k.tick c i).slotEnd) || (k.tick c i).slotStart) ∧
    ((k.tick c i).slotEnd = true → k.slotActive = true) ∧ ((k.tick c i).slotStart = true → (k.tick c i).slotEnd = k.slotActive) ∧
    ((k.tick c i).schedStart = true → (k.tick c i).slotStart = true ∧ (k.tick c i).index = 0) ∧ ((k.tick c i).slotStart = true → i.enable = true) := by
  have key : ∀ r : Reg, k.next' c i = r → (r.slotActive = ((k.slotActive && !r.slotEnd) || r.slotStart) ∧
      (r.slotEnd = true → k.slotActive = true) ∧ (r.slotStart = true → r.slotEnd = k.slotActive) ∧
      (r.schedStart = true → r.slotStart = true ∧ r.index = 0) ∧ (r.slotStart = true → i.enable = true)) := by
    rintro _ rfl
    unfold Reg.next'
    split
    · simp
    · split
      · simp
      · simp
      · simp
      · simp
      · simp
      · simp
      · unfold Reg.onWait
        split
        · cases i.enable <;> cases k.lockedInt <;> simp
        · split
          · cases i.enable <;> cases k.locked <;> simp
          · split
            · rename_i h3
              simp only [Bool.and_eq_true] at h3
              simp [h3.1]
            · simp
  have := key _ rfl
  simpa [Reg.tick, h] using this

/-- Over any run without reset: the slots that began are those that ended and the one that is active. -/
theorem C132_balance (c : Cfg) : ∀ (is : List In) (k : Reg), (∀ i ∈ is, i.rst = false) →
    k.slotActive.toNat + (trace c k is).countP (·.slotStart) = (trace c k is).countP (·.slotEnd) + (((k :: trace c k is).getLast?.map (·.slotActive)) == some true).toNat
  | [], k, _ => by cases h : k.slotActive <;> simp [trace, h]
  | i :: is, k, h => by
    have ih := C132_balance c is (k.tick c i) (fun j hj => h j (by simp [hj]))
    obtain ⟨e1, e2, e3, -⟩ := C132_edge c k i (h i (by simp))
    have e : (k :: trace c k (i :: is)).getLast? = (k.tick c i :: trace c (k.tick c i) is).getLast? := by
      simp [trace, List.getLast?_cons_cons]
    rw [e]
    simp only [trace, List.countP_cons]
    generalize (((k.tick c i :: trace c (k.tick c i) is).getLast?.map (·.slotActive)) == some true).toNat = z at ih ⊢
    generalize (trace c (k.tick c i) is).countP (·.slotStart) = x at ih ⊢
    generalize (trace c (k.tick c i) is).countP (·.slotEnd) = y at ih ⊢
    generalize (k.tick c i).slotActive = a1 at *
    generalize (k.tick c i).slotStart = a2 at *
    generalize (k.tick c i).slotEnd = a3 at *
    generalize k.slotActive = a4 at *
    cases a1 <;> cases a2 <;> cases a3 <;> cases a4 <;> simp at e1 e2 e3 ih ⊢ <;> omega

/-- A new start or period, a step of the clock or a reset ends the slot and begins anew, with the settings given
(seconds from bit 32 on, nanoseconds below); a step is reported. -/
theorem C132_restart (c : Cfg) (k : Reg) (i : In) (h : i.start.isSome ∨ i.period.isSome ∨ i.step = true ∨ i.rst = true) :
    (k.tick c i).fsm = .idle ∧ (k.tick c i).slotActive = false ∧ (k.tick c i).slotStart = false ∧
    (i.rst = false → (k.tick c i).slotEnd = k.slotActive ∧ (k.tick c i).error = i.step ∧ (∀ v, i.start = some v → (k.tick c i).start = ⟨v / 2 ^ 32 % 2 ^ 48, v % 2 ^ 31⟩) ∧
      (∀ v, i.period = some v → (k.tick c i).period = ⟨v / 2 ^ 32 % 2 ^ 48, v % 2 ^ 31⟩) ∧ (∀ v, i.slot = some v → (k.tick c i).slot = ⟨v / 2 ^ 32 % 2 ^ 48, v % 2 ^ 31⟩) ∧
      (∀ v, i.active = some v → (k.tick c i).active = ⟨v / 2 ^ 32 % 2 ^ 48, v % 2 ^ 31⟩)) := by
  cases hr : i.rst with
  | true => simp [Reg.tick, hr]
  | false =>
    have h' : (i.start.isSome || i.period.isSome || i.step) = true := by
      rcases h with h | h | h | h
      · simp [h]
      · simp [h]
      · simp [h]
      · rw [hr] at h; cases h
    have e : k.tick c i = { k.next' c i with
        time := ofTs i.ts
        start := match i.start with | some t => ofSet t | none => k.start
        period := match i.period with | some t => ofSet t | none => k.period
        slot := match i.slot with | some t => ofSet t | none => k.slot
        active := match i.active with | some t => ofSet t | none => k.active } := by
      unfold Reg.tick
      rw [hr]
      rfl
    rw [e]
    unfold Reg.next'
    rw [if_pos h']
    refine ⟨rfl, rfl, rfl, fun _ => ⟨rfl, rfl, ?_, ?_, ?_, ?_⟩⟩ <;> intro v hv <;> simp [hv, ofSet]

/-! ### C133: slots begin and end when they should -/

section
variable {S T L n d : Nat} {c : Cfg} {k : Reg} {ins : Nat → In}

theorem unlocked_silent {u : Nat} {a : A} (h : Good S T L n d u a) (hl : a.locked = false) : Silent a := by
  rcases h with h | ⟨j, h | h | h⟩
  · exact h.silent
  · exact h.silent
  · exact h.silent
  · rw [h.locked.2.1] at hl; cases hl

theorem locked_on {u : Nat} {a : A} (h : Good S T L n d u a) (hl : a.locked = true) : ∃ j, On S T L n d u j a := by
  rcases h with h | ⟨j, h | h | h⟩
  · rw [h.locked.1] at hl; cases hl
  · rw [h.locked.1] at hl; cases hl
  · rw [h.locked.1] at hl; cases hl
  · exact ⟨j, h⟩

theorem exact_step {N u t : Nat} {a : A} (h : Good S T L n d u a) (hn : 0 < n) (hN : n ≤ N) (hd : 7 * d < T) (hL : 6 * d ≤ L) (h1 : u ≤ t) (h2 : t ≤ u + d)
    (hl : (a.step (n * T) T L N t).locked = true) :
    ∃ j j', (B S T j < u ∧ u ≤ B S T (j + 1)) ∧ On S T L n d t j' (a.step (n * T) T L N t) ∧ (a.step (n * T) T L N t).start = decide (j' ≠ j) ∧
      (a.step (n * T) T L N t).sched = (decide (j' ≠ j) && decide (j' % n = 0)) ∧
      (a.step (n * T) T L N t).stop = (a.active && (decide (j' ≠ j) || !(a.step (n * T) T L N t).active)) := by
  rcases h with h | ⟨j, h | h | h⟩
  · rcases h.step (T := T) (L := L) (N := N) hn h2 with h | h
    · rw [h.locked.1] at hl; cases hl
    · rw [h.locked.1] at hl; cases hl
  · rcases h.step hn hN hd h1 h2 with ⟨j', h, -⟩ | h
    · rw [h.locked.1] at hl; cases hl
    · rw [h.locked.1] at hl; cases hl
  · rcases h.step hn hN hd hL h1 h2 with ⟨j', h, -⟩ | ⟨k1, k2, k3, k4, k5, k6⟩
    · rw [h.locked.1] at hl; cases hl
    · have ha := h.silent.2.2.2
      have hm : (j + 1) % n = 0 := by rw [← k2]; simp [nextFirst]
      exact ⟨j, nextFirst n j, h.range hd, k1, by simp [k4, k2], by simp [k5, k2, hm], by simp [k6, ha]⟩
  · obtain ⟨j', k1, -, k2, k3, k4⟩ := h.step hn hN hd hL h1 h2
    exact ⟨j, j', h.range hd, k1, k2, k3, k4⟩

/-- As long as `locked` is low, nothing is put out. -/
theorem C133_silent (hR : Running S T L n d c.iw ins) (hk : Ready S (n * T) T L k) (m : Nat) (hl : (at' c k ins (m + 2)).locked = false) :
    (at' c k ins (m + 2)).schedStart = false ∧ (at' c k ins (m + 2)).slotStart = false ∧ (at' c k ins (m + 2)).slotEnd = false ∧
    (at' c k ins (m + 2)).slotActive = false := by
  obtain ⟨-, -, f3, -, f5, f6, f7, f8⟩ := (rep_run (c := c) hR hk (m + 1)).flags
  have hg := good_seq (S := S) (L := L) (N := 2 ^ c.iw) (tm := fun m => (ins m).time) hR.up hR.pos hR.fit hR.slot hR.act m
  obtain ⟨s1, s2, s3, s4⟩ := unlocked_silent hg (by rw [← f3]; exact hl)
  exact ⟨f5.trans s1, f6.trans s2, f7.trans s3, f8.trans s4⟩

/-- With `locked` high, the outputs follow the time, two cycles late: the index is the number of the slot within the period; a slot begins exactly when the
time comes to a new slot, a period exactly when that slot is its first; a slot is active exactly in the active part of the slot, and ends when it no longer is
or when the next begins.  And `locked` stays high. -/
theorem C133_exact (hR : Running S T L n d c.iw ins) (hk : Ready S (n * T) T L k) (m : Nat) (hl : (at' c k ins (m + 3)).locked = true) :
    S < (ins (m + 1)).time ∧
    (at' c k ins (m + 3)).index = slotNo S T (ins (m + 1)).time % n ∧
    (at' c k ins (m + 3)).slotStart = decide (slotNo S T (ins (m + 1)).time ≠ slotNo S T (ins m).time) ∧
    (at' c k ins (m + 3)).schedStart =
      (decide (slotNo S T (ins (m + 1)).time ≠ slotNo S T (ins m).time) && decide (slotNo S T (ins (m + 1)).time % n = 0)) ∧
    (at' c k ins (m + 3)).slotActive = isActive S T L (ins (m + 1)).time ∧
    (at' c k ins (m + 3)).slotEnd = ((at' c k ins (m + 2)).slotActive && ((at' c k ins (m + 3)).slotStart || !(at' c k ins (m + 3)).slotActive)) ∧
    (at' c k ins (m + 4)).locked = true := by
  obtain ⟨-, -, -, -, -, -, -, p8⟩ := (rep_run (c := c) hR hk (m + 1)).flags
  obtain ⟨f1, -, f3, -, f5, f6, f7, f8⟩ := (rep_run (c := c) hR hk (m + 2)).flags
  obtain ⟨-, -, q3, -⟩ := (rep_run (c := c) hR hk (m + 3)).flags
  have hg := good_seq (S := S) (L := L) (N := 2 ^ c.iw) (tm := fun m => (ins m).time) hR.up hR.pos hR.fit hR.slot hR.act m
  have hg2 := good_seq (S := S) (L := L) (N := 2 ^ c.iw) (tm := fun m => (ins m).time) hR.up hR.pos hR.fit hR.slot hR.act (m + 1)
  obtain ⟨u1, u2⟩ := hR.up m
  obtain ⟨v1, v2⟩ := hR.up (m + 1)
  obtain ⟨hn, hN, hd, hL⟩ := And.intro hR.pos (And.intro hR.fit (And.intro hR.slot hR.act))
  rw [show at' c k ins (m + 2 + 1) = at' c k ins (m + 3) from rfl] at f1 f3 f5 f6 f7 f8
  rw [show at' c k ins (m + 1 + 1) = at' c k ins (m + 2) from rfl] at p8
  rw [show at' c k ins (m + 3 + 1) = at' c k ins (m + 4) from rfl] at q3
  have hl' : (aseq S T L n (2 ^ c.iw) (fun m => (ins m).time) (m + 2)).locked = true := by rw [← f3]; exact hl
  obtain ⟨j, j', r, ho, k1, k2, k3⟩ := exact_step hg hn hN hd hL u1 u2 hl'
  have r' := ho.range hd
  have hS : S < (ins (m + 1)).time := by have := r'.1; unfold B at this; omega
  have hq : (at' c k ins (m + 4)).locked = true := by
    obtain ⟨j2, h2, -⟩ := ho.step (N := 2 ^ c.iw) hn hN hd hL v1 v2
    rw [q3]
    exact h2.locked.2.1
  rw [(B_slot r.1 r.2).1, (B_slot r'.1 r'.2).1, B_active r'.1 r'.2]
  refine ⟨hS, f1.trans ho.grid.2.1, f6.trans k1, f5.trans k2, f8.trans ho.active, ?_, hq⟩
  rw [f7, p8, f6, f8]
  refine Eq.trans k3 ?_
  rw [← k1]
  rfl

/-! ### C134: the schedule is taken up -/

/-- With a start that lies ahead, `locked` comes with the second period, to the cycle. -/
theorem C134_future (hR : Running S T L n d c.iw ins) (hk : Ready S (n * T) T L k) (hf : (ins 0).time ≤ S) (m : Nat) :
    (at' c k ins (m + 2)).locked = decide (S + n * T < (ins m).time) := by
  obtain ⟨-, -, f3, -⟩ := (rep_run (c := c) hR hk (m + 1)).flags
  obtain ⟨hn, hN, hd, hL⟩ := And.intro hR.pos (And.intro hR.fit (And.intro hR.slot hR.act))
  have key : Ahead S (ins m).time (aseq S T L n (2 ^ c.iw) (fun m => (ins m).time) (m + 1)) ∨
      (∃ j, Pre S T L n d (ins m).time j (aseq S T L n (2 ^ c.iw) (fun m => (ins m).time) (m + 1)) ∧ j / n = 0) ∨
      ((∃ j, On S T L n d (ins m).time j (aseq S T L n (2 ^ c.iw) (fun m => (ins m).time) (m + 1))) ∧ S + n * T < (ins m).time) := by
    clear f3
    induction m with
    | zero => exact .inl (first_ahead (tm := fun m => (ins m).time) hf)
    | succ m ih =>
      obtain ⟨h1, h2⟩ := hR.up m
      rw [aseq]
      rcases ih with ih | ⟨j, ih, hj⟩ | ⟨⟨j, ih⟩, hs⟩
      · rcases ih.step (T := T) (L := L) (N := 2 ^ c.iw) hn h2 with h | h
        · exact .inl h
        · exact .inr (.inl ⟨0, h, by simp⟩)
      · rcases ih.step hn hN hd hL h1 h2 with ⟨j', h, hj', -⟩ | ⟨h, -⟩
        · exact .inr (.inl ⟨j', h, by omega⟩)
        · have hr := (h.range hd).1
          simp only [nextFirst, hj, B, Nat.zero_add, Nat.one_mul] at hr
          exact .inr (.inr ⟨⟨_, h⟩, hr⟩)
      · obtain ⟨j', h, -⟩ := ih.step (N := 2 ^ c.iw) hn hN hd hL h1 h2
        exact .inr (.inr ⟨⟨j', h⟩, by omega⟩)
  rw [show at' c k ins (m + 2) = at' c k ins (m + 1 + 1) from rfl, f3]
  rcases key with h | ⟨j, h, hj⟩ | ⟨⟨j, h⟩, hs⟩
  · have := h.time
    rw [h.locked.1]
    exact (decide_eq_false (by omega)).symm
  · have hr := (h.range hd).2
    have hb := B_mono S T (nextFirst_gt (j := j) hn)
    simp only [nextFirst, hj] at hb
    rw [h.locked.1]
    have : B S T ((0 + 1) * n) = S + n * T := by simp [B]
    exact (decide_eq_false (by omega)).symm
  · rw [h.locked.2.1]
    exact (decide_eq_true hs).symm

/-- A start in the past, however long ago, is caught up with: after `6 * (time - start) + 30 * d + 6` edges the schedule is in step, and `locked` comes within
one period from then. -/
theorem C134_past (hR : Running S T L n d c.iw ins) (hk : Ready S (n * T) T L k) (hp : S < (ins 0).time) (m K : Nat)
    (hK : K = 6 * ((ins 0).time - S) + 30 * d + 6) (hm : K ≤ m) (ht : (ins K).time + n * T ≤ (ins m).time) : (at' c k ins (m + 2)).locked = true := by
  obtain ⟨-, -, f3, -⟩ := (rep_run (c := c) hR hk (m + 1)).flags
  obtain ⟨hn, hN, hd, hL⟩ := And.intro hR.pos (And.intro hR.fit (And.intro hR.slot hR.act))
  have key : ∀ m, (∃ j, Catch S T L n (ins m).time j (aseq S T L n (2 ^ c.iw) (fun m => (ins m).time) (m + 1)) ∧
        late S T d (ins m).time j (aseq S T L n (2 ^ c.iw) (fun m => (ins m).time) (m + 1)) + m + 1 ≤ K) ∨
      (∃ j, Pre S T L n d (ins m).time j (aseq S T L n (2 ^ c.iw) (fun m => (ins m).time) (m + 1))) ∨
      (∃ j, On S T L n d (ins m).time j (aseq S T L n (2 ^ c.iw) (fun m => (ins m).time) (m + 1))) := by
    intro m
    induction m with
    | zero =>
      obtain ⟨h1, h2⟩ := first_catch (L := L) (n := n) (N := 2 ^ c.iw) (T := T) (d := d) (tm := fun m => (ins m).time) hp
      exact .inl ⟨0, h1, by rw [h2]; omega⟩
    | succ m ih =>
      obtain ⟨h1, h2⟩ := hR.up m
      rw [aseq]
      rcases ih with ⟨j, ih, hj⟩ | ⟨j, ih⟩ | ⟨j, ih⟩
      · rcases ih.step hn hN hd h1 h2 with ⟨j', h, hj'⟩ | h
        · exact .inl ⟨j', h, by omega⟩
        · exact .inr (.inl ⟨j, h⟩)
      · rcases ih.step hn hN hd hL h1 h2 with ⟨j', h, -⟩ | ⟨h, -⟩
        · exact .inr (.inl ⟨j', h⟩)
        · exact .inr (.inr ⟨_, h⟩)
      · obtain ⟨j', h, -⟩ := ih.step (N := 2 ^ c.iw) hn hN hd hL h1 h2
        exact .inr (.inr ⟨j', h⟩)
  have key2 : ∀ q, (∃ j, Pre S T L n d (ins (K + q)).time j (aseq S T L n (2 ^ c.iw) (fun m => (ins m).time) (K + q + 1)) ∧
        B S T (nextFirst n j) < (ins K).time + n * T) ∨
      (∃ j, On S T L n d (ins (K + q)).time j (aseq S T L n (2 ^ c.iw) (fun m => (ins m).time) (K + q + 1))) := by
    intro q
    induction q with
    | zero =>
      rcases key K with ⟨j, -, h⟩ | ⟨j, h⟩ | h
      · omega
      · refine .inl ⟨j, h, ?_⟩
        have hr := (h.range hd).1
        have hle : nextFirst n j ≤ j + n := by
          have := Nat.div_mul_le_self j n
          unfold nextFirst
          rw [Nat.add_mul, Nat.one_mul]
          omega
        have := B_mono S T hle
        rw [B_add] at this
        have hr : B S T j < (ins K).time := hr
        omega
      · exact .inr h
    | succ q ih =>
      obtain ⟨h1, h2⟩ := hR.up (K + q)
      rw [show K + (q + 1) = K + q + 1 from rfl, aseq]
      rcases ih with ⟨j, ih, hj⟩ | ⟨j, ih⟩
      · rcases ih.step hn hN hd hL h1 h2 with ⟨j', h, hj', -⟩ | ⟨h, -⟩
        · refine .inl ⟨j', h, ?_⟩
          unfold nextFirst at hj ⊢
          rw [hj']
          exact hj
        · exact .inr ⟨_, h⟩
      · obtain ⟨j', h, -⟩ := ih.step (N := 2 ^ c.iw) hn hN hd hL h1 h2
        exact .inr ⟨j', h⟩
  obtain ⟨q, rfl⟩ := Nat.le.dest hm
  rw [show at' c k ins (K + q + 2) = at' c k ins (K + q + 1 + 1) from rfl, f3]
  rcases key2 q with ⟨j, h, hj⟩ | ⟨j, h⟩
  · have hr := (h.range hd).2
    have := B_mono S T (nextFirst_gt (j := j) hn)
    omega
  · exact h.locked.2.1

end

/-! A run: slots of 100 ns, active for 80 ns, three to a period, 10 ns a cycle, for 1000 cycles, and then the clock stands. -/

def w : Nat → In := fun m => { ts := min m 1000 * 10 * 2 ^ 16 }

theorem w_ns (m : Nat) : (w m).ts / 2 ^ 16 % 2 ^ 30 = min m 1000 * 10 := by
  simp only [w]
  rw [Nat.mul_div_cancel _ (by decide), Nat.mod_eq_of_lt (by omega)]

theorem w_time (m : Nat) : (w m).time = min m 1000 * 10 := by
  unfold In.time
  rw [w_ns]
  simp only [w]
  rw [Nat.div_eq_of_lt (by omega)]
  simp

theorem w_run (S : Nat) (hS : S ≤ 10000) : Running S 100 80 3 10 8 w := by
  refine ⟨fun m => ⟨rfl, rfl, rfl, rfl, rfl, rfl⟩, fun _ => rfl, fun m => ?_, fun m => ?_, by decide, by decide, by decide, by decide, fun m => ?_⟩
  · rw [w_ns]; omega
  · simp only [w_time]; omega
  · simp only [w_time]; omega

def c0 : Cfg := ⟨8, ⟨0, 205⟩, ⟨0, 300⟩, ⟨0, 100⟩, ⟨0, 80⟩⟩

theorem c0_ready : Ready 205 (3 * 100) 100 80 c0.init := by
  refine ⟨rfl, rfl, ?_, ?_, ?_, ?_⟩ <;> unfold Tm.Ok <;> decide

/-- slots begin at 505, 605, ...: the first edge with a later time is number 51, and two cycles later the output is up -/
example : (List.range 90).filter (fun m => (at' c0 c0.init w m).slotStart) = [53, 63, 73, 83] := by decide +kernel
example : (List.range 90).filter (fun m => (at' c0 c0.init w m).slotEnd) = [61, 71, 81] := by decide +kernel
example : (List.range 90).filter (fun m => (at' c0 c0.init w m).schedStart) = [53, 83] := by decide +kernel
example : [53, 63, 73, 83].map (fun m => (at' c0 c0.init w m).index) = [0, 1, 2, 0] := by decide +kernel
/-- the theorem for the past applies to a start at 0 with the clock 10 ns further -/
example : Running 0 100 80 3 10 8 (fun m => w (m + 1)) ∧ 0 < (w 1).time := by
  refine ⟨⟨fun m => ⟨rfl, rfl, rfl, rfl, rfl, rfl⟩, fun _ => rfl, fun m => ?_, fun m => ?_, by decide, by decide, by decide, by decide, fun m => ?_⟩, by decide⟩
  · rw [w_ns]; omega
  · simp only [w_time]; omega
  · simp only [w_time]; omega

end Corundum.TdmaSched
