import Verif.Spec.I2cInit

namespace Corundum.I2cInit

/-! ### execution without waiting -/

structure C where
  st : St
  pc : Nat
  aptr : Nat
  dptr : Nat
  cur : Nat
  cAddr : Nat
  cStart : Bool

def Reg.core (k : Reg) : C := ⟨k.st, k.pc, k.aptr, k.dptr, k.cur, k.cAddr, k.cStart && !k.cValid⟩

def Reg.pc' (k : Reg) : List Cmd := if k.cValid then [⟨k.cAddr, k.cStart, k.cWrite, k.cStop⟩] else []

def Reg.pd (k : Reg) : List Nat := if k.dValid then [k.data] else []

def C.reg (c : C) (w : Nat) : Reg :=
  { st := c.st, word := w, pc := c.pc, aptr := c.aptr, dptr := c.dptr, cur := c.cur, cAddr := c.cAddr, cStart := c.cStart, flag := true }

def C.ex (rom : List Nat) (aw : Nat) (c : C) : Reg := (c.reg (rom.getD c.pc 0)).exec aw true

abbrev S := C × List Cmd × List Nat

def istep (rom : List Nat) (aw : Nat) (s : S) : S :=
  ((s.1.ex rom aw).core, s.2.1 ++ (s.1.ex rom aw).pc', s.2.2 ++ (s.1.ex rom aw).pd)

def iter (rom : List Nat) (aw : Nat) (s : S) : Nat → S
  | 0 => s
  | j + 1 => istep rom aw (iter rom aw s j)

def c0 : C := ⟨.run, 0, 0, 0, 0, 0, false⟩

theorem exec_sim {k : Reg} {aw w : Nat} (hv : k.cValid = false) (hd : k.dValid = false) (hf : k.flag = true) (hw : k.st ≠ .idle → k.word = w) (b : Bool) :
    (k.exec aw b).core = ((k.core.reg w).exec aw true).core ∧ (k.exec aw b).pc' = ((k.core.reg w).exec aw true).pc' ∧
    (k.exec aw b).pd = ((k.core.reg w).exec aw true).pd ∧ (k.exec aw b).flag = true ∧ (k.exec aw b).pc = ((k.core.reg w).exec aw true).core.pc := by
  obtain ⟨st, word, pc, aptr, dptr, cur, delay, cAddr, cStart, cWrite, cStop, cValid, data, dValid, flag, busy⟩ := k
  dsimp only at hv hd hf hw
  subst hv hd hf
  cases st with
  | idle => simp [Reg.exec, Reg.core, C.reg, Reg.pc', Reg.pd]
  | run =>
    have := hw (by simp)
    subst this
    simp only [Reg.exec, Reg.run, Reg.core, C.reg]
    repeat' split
    all_goals simp_all [Reg.pc', Reg.pd, Reg.write, Reg.addr, Reg.stop]
  | table1 =>
    have := hw (by simp)
    subst this
    simp only [Reg.exec, Reg.table1, Reg.core, C.reg]
    repeat' split
    all_goals simp_all [Reg.pc', Reg.pd, Reg.stop]
  | table2 =>
    have := hw (by simp)
    subst this
    simp only [Reg.exec, Reg.table2, Reg.core, C.reg]
    repeat' split
    all_goals simp_all [Reg.pc', Reg.pd, Reg.stop]
  | table3 =>
    have := hw (by simp)
    subst this
    simp only [Reg.exec, Reg.table3, Reg.core, C.reg]
    repeat' split
    all_goals simp_all [Reg.pc', Reg.pd, Reg.write, Reg.addr, Reg.stop]

/-- registers and what was taken, against the execution without waiting -/
structure Sim (rom : List Nat) (s : Reg × List Cmd × List Nat) (a : S) : Prop where
  core : s.1.core = a.1
  cmds : s.2.1 ++ s.1.pc' = a.2.1
  data : s.2.2 ++ s.1.pd = a.2.2
  flag : s.1.flag = true
  word : s.1.st ≠ .idle → s.1.word = rom.getD s.1.pc 0

def next (rom : List Nat) (s : Reg × List Cmd × List Nat) (i : In) : Reg × List Cmd × List Nat :=
  (s.1.tick rom (awOf rom) i, s.2.1 ++ s.1.cmdOut i, s.2.2 ++ s.1.dataOut i)

def Reg.clean (k : Reg) : Prop := k.cValid = false ∧ k.dValid = false ∧ k.delay = 0

theorem sim_stall {rom : List Nat} {s : Reg × List Cmd × List Nat} {a : S} (h : Sim rom s a) {i : In} (hi : i.start = true) (hc : ¬ s.1.clean) :
    Sim rom (next rom s i) a := by
  obtain ⟨⟨st, word, pc, aptr, dptr, cur, delay, cAddr, cStart, cWrite, cStop, cValid, data, dValid, flag, busy⟩, cs, ds⟩ := s
  obtain ⟨h1, h2, h3, h4, h5⟩ := h
  dsimp only at h1 h2 h3 h4 h5
  obtain ⟨x1, x2, x3⟩ := i
  dsimp only at hi
  subst h4 hi
  simp only [next, Reg.tick, Reg.cmdOut, Reg.dataOut]
  by_cases hv : (cValid || dValid) = true
  · rw [if_pos hv]
    refine ⟨?_, ?_, ?_, rfl, fun _ => rfl⟩
    · rw [← h1]; cases cValid <;> cases x2 <;> simp [Reg.core]
    · rw [← h2]; cases cValid <;> cases x2 <;> simp [Reg.pc']
    · rw [← h3]; cases dValid <;> cases x3 <;> simp [Reg.pd]
  · rw [if_neg hv]
    have hv1 : cValid = false := by cases cValid <;> simp_all
    have hv2 : dValid = false := by cases dValid <;> simp_all
    subst hv1 hv2
    have : delay ≠ 0 := fun h => hc ⟨rfl, rfl, h⟩
    rw [if_pos this]
    refine ⟨?_, ?_, ?_, rfl, fun _ => rfl⟩
    · rw [← h1]; rfl
    · rw [← h2]; simp [Reg.pc']
    · rw [← h3]; simp [Reg.pd]

theorem sim_exec {rom : List Nat} {s : Reg × List Cmd × List Nat} {a : S} (h : Sim rom s a) {i : In} (hi : i.start = true) (hc : s.1.clean) :
    Sim rom (next rom s i) (istep rom (awOf rom) a) := by
  obtain ⟨k, cs, ds⟩ := s
  obtain ⟨h1, h2, h3, h4, h5⟩ := h
  obtain ⟨v1, v2, v3⟩ := hc
  dsimp only at h1 h2 h3 h4 h5 v1 v2 v3
  have hpc : rom.getD k.pc 0 = rom.getD a.1.pc 0 := by rw [← h1]; rfl
  rw [hpc] at h5
  obtain ⟨e1, e2, e3, e4, e5⟩ := exec_sim (aw := awOf rom) v1 v2 h4 h5 i.start
  rw [h1] at e1 e2 e3 e5
  have hn : k.tick rom (awOf rom) i = { k.exec (awOf rom) i.start with
      word := rom.getD (k.exec (awOf rom) i.start).pc 0, flag := i.start && (k.exec (awOf rom) i.start).flag, busy := k.st != .idle } := by
    simp [Reg.tick, v1, v2, v3]
  have p1 : k.pc' = [] := by simp [Reg.pc', v1]
  have p2 : k.pd = [] := by simp [Reg.pd, v2]
  rw [p1, List.append_nil] at h2
  rw [p2, List.append_nil] at h3
  refine ⟨?_, ?_, ?_, ?_, ?_⟩
  · simp only [next, hn]; exact e1
  · simp only [next, hn, Reg.cmdOut, v1, Bool.false_and, Bool.false_eq_true, if_false, List.append_nil, h2, istep]
    exact congrArg _ e2
  · simp only [next, hn, Reg.dataOut, v2, Bool.false_and, Bool.false_eq_true, if_false, List.append_nil, h3, istep]
    exact congrArg _ e3
  · rw [hi] at e4; simp only [next, hn, hi, e4]; rfl
  · simp only [next, hn]; exact fun _ => trivial

theorem at_next (rom : List Nat) (ins : Nat → In) (n : Nat) : at' rom ins (n + 1) = next rom (at' rom ins n) (ins n) := rfl

theorem sim_one {rom : List Nat} {ins : Nat → In} (hs : ∀ n, (ins n).start = true) : Sim rom (at' rom ins 1) (c0, [], []) := by
  have h0 := hs 0
  have : at' rom ins 1 = ({ st := .run, word := rom.getD 0 0, pc := 0, flag := true }, [], []) := by
    simp only [at', Reg.tick, Reg.cmdOut, Reg.dataOut, Reg.exec, h0]
    rfl
  rw [this]
  exact ⟨rfl, rfl, rfl, rfl, fun _ => rfl⟩

theorem sim_all {rom : List Nat} {ins : Nat → In} (hs : ∀ n, (ins n).start = true) (n : Nat) :
    ∃ j, Sim rom (at' rom ins (n + 1)) (iter rom (awOf rom) (c0, [], []) j) := by
  induction n with
  | zero => exact ⟨0, sim_one hs⟩
  | succ n ih =>
    obtain ⟨j, ih⟩ := ih
    rw [at_next]
    by_cases hc : (at' rom ins (n + 1)).1.clean
    · exact ⟨j + 1, sim_exec ih (hs _) hc⟩
    · exact ⟨j, sim_stall ih (hs _) hc⟩

/-! progress -/

def load (k : Reg) : Nat := k.delay

theorem tick_c {rom : List Nat} {aw : Nat} {k : Reg} {i : In} (h : k.cValid = true ∨ k.dValid = true) :
    (k.tick rom aw i).cValid = (k.cValid && !i.cReady) ∧ (k.tick rom aw i).dValid = (k.dValid && !i.dReady) ∧ (k.tick rom aw i).delay = k.delay := by
  have : (k.cValid || k.dValid) = true := by rcases h with h | h <;> simp [h]
  simp [Reg.tick, this]

theorem tick_d {rom : List Nat} {aw : Nat} {k : Reg} {i : In} (h1 : k.cValid = false) (h2 : k.dValid = false) (h3 : k.delay ≠ 0) :
    (k.tick rom aw i).cValid = false ∧ (k.tick rom aw i).dValid = false ∧ (k.tick rom aw i).delay = k.delay - 1 := by
  simp [Reg.tick, h1, h2, h3]

theorem wait_c {rom : List Nat} {ins : Nat → In} {a : S} (hs : ∀ n, (ins n).start = true) (q : Nat) :
    ∀ n, Sim rom (at' rom ins n) a → (ins (n + q)).cReady = true →
      ∃ m, n ≤ m ∧ Sim rom (at' rom ins m) a ∧ (at' rom ins m).1.cValid = false := by
  induction q with
  | zero =>
    intro n h hr
    cases hv : (at' rom ins n).1.cValid with
    | false => exact ⟨n, Nat.le_refl _, h, hv⟩
    | true =>
      refine ⟨n + 1, by omega, ?_, ?_⟩
      · rw [at_next]; exact sim_stall h (hs _) (fun hc => by rw [hc.1] at hv; cases hv)
      · rw [at_next]
        exact (tick_c (Or.inl hv)).1.trans (by rw [show ins n = ins (n + 0) from rfl, hr]; simp)
  | succ q ih =>
    intro n h hr
    cases hv : (at' rom ins n).1.cValid with
    | false => exact ⟨n, Nat.le_refl _, h, hv⟩
    | true =>
      have h' : Sim rom (at' rom ins (n + 1)) a := by rw [at_next]; exact sim_stall h (hs _) (fun hc => by rw [hc.1] at hv; cases hv)
      obtain ⟨m, m1, m2⟩ := ih (n + 1) h' (by rw [show n + 1 + q = n + (q + 1) by omega]; exact hr)
      exact ⟨m, by omega, m2⟩

theorem wait_d {rom : List Nat} {ins : Nat → In} {a : S} (hs : ∀ n, (ins n).start = true) (q : Nat) :
    ∀ n, Sim rom (at' rom ins n) a → (at' rom ins n).1.cValid = false → (ins (n + q)).dReady = true →
      ∃ m, n ≤ m ∧ Sim rom (at' rom ins m) a ∧ (at' rom ins m).1.cValid = false ∧ (at' rom ins m).1.dValid = false := by
  induction q with
  | zero =>
    intro n h hc hr
    cases hv : (at' rom ins n).1.dValid with
    | false => exact ⟨n, Nat.le_refl _, h, hc, hv⟩
    | true =>
      refine ⟨n + 1, by omega, ?_, ?_, ?_⟩
      · rw [at_next]; exact sim_stall h (hs _) (fun hc => by rw [hc.2.1] at hv; cases hv)
      · rw [at_next]
        exact (tick_c (Or.inr hv)).1.trans (by rw [hc]; rfl)
      · rw [at_next]
        exact (tick_c (Or.inr hv)).2.1.trans (by rw [show ins n = ins (n + 0) from rfl, hr]; simp)
  | succ q ih =>
    intro n h hc hr
    cases hv : (at' rom ins n).1.dValid with
    | false => exact ⟨n, Nat.le_refl _, h, hc, hv⟩
    | true =>
      have h' : Sim rom (at' rom ins (n + 1)) a := by rw [at_next]; exact sim_stall h (hs _) (fun hc => by rw [hc.2.1] at hv; cases hv)
      have hc' : (at' rom ins (n + 1)).1.cValid = false := by
        rw [at_next]
        exact (tick_c (Or.inr hv)).1.trans (by rw [hc]; rfl)
      obtain ⟨m, m1, m2⟩ := ih (n + 1) h' hc' (by rw [show n + 1 + q = n + (q + 1) by omega]; exact hr)
      exact ⟨m, by omega, m2⟩

theorem wait_z {rom : List Nat} {ins : Nat → In} {a : S} (hs : ∀ n, (ins n).start = true) (q : Nat) :
    ∀ n, Sim rom (at' rom ins n) a → (at' rom ins n).1.cValid = false → (at' rom ins n).1.dValid = false → (at' rom ins n).1.delay = q →
      ∃ m, n ≤ m ∧ Sim rom (at' rom ins m) a ∧ (at' rom ins m).1.clean := by
  induction q with
  | zero => intro n h h1 h2 h3; exact ⟨n, Nat.le_refl _, h, h1, h2, h3⟩
  | succ q ih =>
    intro n h h1 h2 h3
    have h' : Sim rom (at' rom ins (n + 1)) a := by
      rw [at_next]; exact sim_stall h (hs _) (fun hc => by rw [hc.2.2] at h3; cases h3)
    obtain ⟨t1, t2, t3⟩ := tick_d (rom := rom) (aw := awOf rom) (i := ins n) h1 h2 (by omega)
    obtain ⟨m, m1, m2⟩ := ih (n + 1) h' (by rw [at_next]; exact t1) (by rw [at_next]; exact t2) (by rw [at_next]; exact t3.trans (by omega))
    exact ⟨m, by omega, m2⟩

theorem wait_clean {rom : List Nat} {ins : Nat → In} {a : S} (hf : Fair ins) {n : Nat} (h : Sim rom (at' rom ins n) a) :
    ∃ m, n ≤ m ∧ Sim rom (at' rom ins m) a ∧ (at' rom ins m).1.clean := by
  obtain ⟨hs, hc, hd⟩ := hf
  obtain ⟨p, p1, p2⟩ := hc n
  obtain ⟨q, rfl⟩ := Nat.le.dest p1
  obtain ⟨m, m1, m2, m3⟩ := wait_c hs q n h p2
  obtain ⟨p', p1', p2'⟩ := hd m
  obtain ⟨q', rfl⟩ := Nat.le.dest p1'
  obtain ⟨m', n1, n2, n3, n4⟩ := wait_d hs q' m m2 m3 p2'
  obtain ⟨m'', o1, o2, o3⟩ := wait_z hs _ m' n2 n3 n4 rfl
  exact ⟨m'', by omega, o2, o3⟩

theorem reach {rom : List Nat} {ins : Nat → In} (hf : Fair ins) (j : Nat) :
    ∃ n, Sim rom (at' rom ins n) (iter rom (awOf rom) (c0, [], []) j) ∧ (at' rom ins n).1.clean := by
  induction j with
  | zero =>
    obtain ⟨m, -, h⟩ := wait_clean hf (sim_one hf.1 (rom := rom))
    exact ⟨m, h⟩
  | succ j ih =>
    obtain ⟨n, h1, h2⟩ := ih
    have : Sim rom (at' rom ins (n + 1)) (iter rom (awOf rom) (c0, [], []) (j + 1)) := by rw [at_next]; exact sim_exec h1 (hf.1 _) h2
    obtain ⟨m, -, h⟩ := wait_clean hf this
    exact ⟨m, h⟩

/-! ### sequences of steps -/

def Run (rom : List Nat) (aw : Nat) (c : C) (cs : List Cmd) (ds : List Nat) (c' : C) : Prop :=
  ∃ j, ∀ xs ys, iter rom aw (c, xs, ys) j = (c', xs ++ cs, ys ++ ds)

theorem iter_add (rom : List Nat) (aw : Nat) (s : S) (i j : Nat) : iter rom aw s (i + j) = iter rom aw (iter rom aw s i) j := by
  induction j with
  | zero => rfl
  | succ j ih => rw [← Nat.add_assoc, iter, iter, ih]

theorem Run_refl (rom : List Nat) (aw : Nat) (c : C) : Run rom aw c [] [] c := ⟨0, fun xs ys => by simp [iter]⟩

theorem Run_trans {rom : List Nat} {aw : Nat} {c c' c'' : C} {cs cs' ds ds'} (h : Run rom aw c cs ds c') (h' : Run rom aw c' cs' ds' c'') :
    Run rom aw c (cs ++ cs') (ds ++ ds') c'' := by
  obtain ⟨i, h⟩ := h
  obtain ⟨j, h'⟩ := h'
  refine ⟨i + j, fun xs ys => ?_⟩
  rw [iter_add, h, h']
  simp

theorem Run_step (rom : List Nat) (aw : Nat) (c : C) : Run rom aw c (c.ex rom aw).pc' (c.ex rom aw).pd (c.ex rom aw).core :=
  ⟨1, fun _ _ => rfl⟩

def Bal (cs : List Cmd) (ds : List Nat) : Prop := (cs.filter (·.write)).length = ds.length

theorem bus_append {cs : List Cmd} : ∀ {ds : List Nat}, Bal cs ds → ∀ cs' ds', bus (cs ++ cs') (ds ++ ds') = bus cs ds ++ bus cs' ds' := by
  induction cs with
  | nil =>
    intro ds h cs' ds'
    have : ds = [] := List.length_eq_zero_iff.1 h.symm
    subst this
    rfl
  | cons c cs ih =>
    intro ds h cs' ds'
    cases hw : c.write with
    | true =>
      cases ds with
      | nil => simp [Bal, hw] at h
      | cons d ds =>
        have h' : Bal cs ds := by simpa [Bal, hw] using h
        simp [bus, hw, ih h']
    | false =>
      have h' : Bal cs ds := by simpa [Bal, hw] using h
      simp [bus, hw, ih h']

theorem Bal_append {cs cs' ds ds'} (h : Bal cs ds) (h' : Bal cs' ds') : Bal (cs ++ cs') (ds ++ ds') := by
  simp only [Bal, List.filter_append, List.length_append] at *
  omega

theorem bus_prefix {cs : List Cmd} : ∀ {ds : List Nat} (cs' ds'), bus cs ds <+: bus (cs ++ cs') (ds ++ ds') := by
  induction cs with
  | nil => intro ds cs' ds'; exact List.nil_prefix
  | cons c cs ih =>
    intro ds cs' ds'
    cases hw : c.write with
    | true =>
      cases ds with
      | nil => simp [bus, hw]
      | cons d ds =>
        simp only [bus, hw, if_true, List.cons_append]
        exact (List.prefix_append_right_inj _).2 ((List.cons_prefix_cons).2 ⟨rfl, ih _ _⟩)
    | false =>
      simp only [bus, hw, Bool.false_eq_true, if_false, List.cons_append]
      exact (List.prefix_append_right_inj _).2 (ih _ _)

def pendOps (c : C) : List Op := if c.cStart then [.start c.cAddr] else []

def Exec (rom : List Nat) (aw : Nat) (c : C) (os : List Op) (c' : C) : Prop :=
  ∃ cs ds, Run rom aw c cs ds c' ∧ Bal cs ds ∧ ∀ rest, squash (pendOps c ++ (os ++ rest)) = bus cs ds ++ squash (pendOps c' ++ rest)

theorem Exec_refl (rom : List Nat) (aw : Nat) (c : C) : Exec rom aw c [] c := ⟨[], [], Run_refl _ _ _, rfl, fun _ => rfl⟩

theorem Exec_trans {rom : List Nat} {aw : Nat} {c c' c'' : C} {os os'} (h : Exec rom aw c os c') (h' : Exec rom aw c' os' c'') :
    Exec rom aw c (os ++ os') c'' := by
  obtain ⟨cs, ds, r, b, e⟩ := h
  obtain ⟨cs', ds', r', b', e'⟩ := h'
  refine ⟨_, _, Run_trans r r', Bal_append b b', fun rest => ?_⟩
  rw [List.append_assoc, e, e', bus_append b, List.append_assoc]

/-- a step that puts nothing out -/
theorem Exec_silent {rom : List Nat} {aw : Nat} {c c' : C} (h : (c.ex rom aw).core = c') (h1 : (c.ex rom aw).pc' = []) (h2 : (c.ex rom aw).pd = [])
    (h3 : c'.cStart = c.cStart) (h4 : c'.cAddr = c.cAddr) : Exec rom aw c [] c' := by
  refine ⟨[], [], ?_, rfl, fun rest => ?_⟩
  · have := Run_step rom aw c
    rwa [h, h1, h2] at this
  · simp [bus, pendOps, h3, h4]

theorem Exec_addr {rom : List Nat} {aw : Nat} {c c' : C} {a : Nat} (h : (c.ex rom aw).core = c') (h1 : (c.ex rom aw).pc' = []) (h2 : (c.ex rom aw).pd = [])
    (h3 : c'.cStart = true) (h4 : c'.cAddr = a) : Exec rom aw c [.start a] c' := by
  refine ⟨[], [], ?_, rfl, fun rest => ?_⟩
  · have := Run_step rom aw c
    rwa [h, h1, h2] at this
  · cases hc : c.cStart <;> simp [bus, pendOps, h3, h4, hc, squash]

theorem Exec_data {rom : List Nat} {aw : Nat} {c c' : C} {b : Nat} (h : (c.ex rom aw).core = c')
    (h1 : (c.ex rom aw).pc' = [⟨c.cAddr, c.cStart, true, false⟩]) (h2 : (c.ex rom aw).pd = [b]) (h3 : c'.cStart = false) : Exec rom aw c [.byte b] c' := by
  refine ⟨[⟨c.cAddr, c.cStart, true, false⟩], [b], ?_, rfl, fun rest => ?_⟩
  · have := Run_step rom aw c
    rwa [h, h1, h2] at this
  · cases hc : c.cStart <;> simp [bus, pendOps, h3, hc, squash]

theorem Exec_stop {rom : List Nat} {aw : Nat} {c c' : C} (h : (c.ex rom aw).core = c')
    (h1 : (c.ex rom aw).pc' = [⟨c.cAddr, false, false, true⟩]) (h2 : (c.ex rom aw).pd = []) (h3 : c'.cStart = false) : Exec rom aw c [.stop] c' := by
  refine ⟨[⟨c.cAddr, false, false, true⟩], [], ?_, rfl, fun rest => ?_⟩
  · have := Run_step rom aw c
    rwa [h, h1, h2] at this
  · cases hc : c.cStart <;> simp [bus, pendOps, h3, hc, squash]

/-! ### programs -/

def At (rom : List Nat) (p : Nat) (ws : List Nat) : Prop := ∃ pre post, rom = pre ++ (ws ++ post) ∧ pre.length = p ∧ post ≠ []

theorem aw_le (rom : List Nat) : rom.length ≤ 2 ^ awOf rom := by
  unfold awOf
  split
  · simpa using ‹_›
  · have := Nat.lt_log2_self (n := rom.length - 1)
    omega

theorem At_cons {rom : List Nat} {p w : Nat} {ws : List Nat} (h : At rom p (w :: ws)) :
    rom.getD p 0 = w ∧ inc (awOf rom) p = p + 1 ∧ At rom (p + 1) ws := by
  obtain ⟨pre, post, h1, h2, h3⟩ := h
  have hl := List.length_pos_iff.2 h3
  have ha := aw_le rom
  refine ⟨?_, ?_, pre ++ [w], post, ?_, ?_, h3⟩
  · subst h2
    rw [h1]
    simp [List.getD]
  · rw [inc]
    apply Nat.mod_eq_of_lt
    have : rom.length = p + (1 + ws.length + post.length) := by rw [h1]; simp [h2]; omega
    omega
  · rw [h1]; simp
  · simp [h2]

theorem At_append {rom : List Nat} {p : Nat} {ws ws' : List Nat} (h : At rom p (ws ++ ws')) : At rom p ws ∧ At rom (p + ws.length) ws' := by
  obtain ⟨pre, post, h1, h2, h3⟩ := h
  refine ⟨⟨pre, ws' ++ post, ?_, h2, ?_⟩, pre ++ ws, post, ?_, ?_, h3⟩
  · rw [h1]; simp
  · simp [h3]
  · rw [h1]; simp
  · simp [h2]

theorem getD_opt {rom : List Nat} {p w : Nat} (h : rom.getD p 0 = w) : rom[p]?.getD 0 = w := by simpa [List.getD] using h

section
variable {rom : List Nat}

theorem data_word {b : Nat} (h : b < 256) : (256 + b) / 256 % 2 = 1 ∧ (256 + b) % 256 = b := by omega

theorem addr_word {a : Nat} (h : a < 128) : ¬ (128 + a) / 256 % 2 = 1 ∧ (128 + a) / 128 % 4 = 1 ∧ (128 + a) % 128 = a := by omega

/-- one command of a data block -/
theorem bcmd_exec {c : C} {x : BCmd} (hx : x.Ok) (hst : c.st = .table3) (hat : At rom c.pc [x.code]) :
    ∃ c', Exec rom (awOf rom) c [x.ops c.cur] c' ∧ c'.st = .table3 ∧ c'.pc = c.pc + 1 ∧ c'.aptr = c.aptr ∧ c'.dptr = c.dptr ∧ c'.cur = c.cur := by
  obtain ⟨hw, hi, -⟩ := At_cons hat
  obtain ⟨st, pc, aptr, dptr, cur, cAddr, cStart⟩ := c
  dsimp only at hst hw hi
  subst hst
  cases x with
  | cur =>
    simp only [BCmd.code] at hw
    refine ⟨⟨.table3, pc + 1, aptr, dptr, cur, cur, true⟩, Exec_addr ?_ ?_ ?_ rfl rfl, rfl, rfl, rfl, rfl, rfl⟩ <;>
      simp [C.ex, C.reg, Reg.exec, Reg.table3, getD_opt hw, Reg.addr, Reg.core, Reg.pc', Reg.pd, hi]
  | addr a =>
    simp only [BCmd.code] at hw
    obtain ⟨g1, g2, g3⟩ := addr_word hx
    refine ⟨⟨.table3, pc + 1, aptr, dptr, cur, a, true⟩, Exec_addr ?_ ?_ ?_ rfl rfl, rfl, rfl, rfl, rfl, rfl⟩ <;>
      simp only [C.ex, C.reg, Reg.exec, Reg.table3, hw, g1, g2, g3, if_true, if_false] <;> simp [Reg.addr, Reg.core, Reg.pc', Reg.pd, hi]
  | data b =>
    simp only [BCmd.code] at hw
    obtain ⟨g1, g2⟩ := data_word hx
    refine ⟨⟨.table3, pc + 1, aptr, dptr, cur, cAddr, false⟩, Exec_data ?_ ?_ ?_ rfl, rfl, rfl, rfl, rfl, rfl⟩ <;>
      simp only [C.ex, C.reg, Reg.exec, Reg.table3, hw, g1, if_true] <;> simp [Reg.write, Reg.core, Reg.pc', Reg.pd, hi]
    exact hx
  | stop =>
    simp only [BCmd.code] at hw
    refine ⟨⟨.table3, pc + 1, aptr, dptr, cur, cAddr, false⟩, Exec_stop ?_ ?_ ?_ rfl, rfl, rfl, rfl, rfl, rfl⟩ <;>
      simp [C.ex, C.reg, Reg.exec, Reg.table3, getD_opt hw, Reg.stop, Reg.core, Reg.pc', Reg.pd, hi]

theorem body_exec {xs : List BCmd} : ∀ {c : C}, (∀ x ∈ xs, x.Ok) → c.st = .table3 → At rom c.pc (xs.map BCmd.code) →
    ∃ c', Exec rom (awOf rom) c (xs.map (BCmd.ops c.cur)) c' ∧ c'.st = .table3 ∧ c'.pc = c.pc + xs.length ∧ c'.aptr = c.aptr ∧ c'.dptr = c.dptr := by
  induction xs with
  | nil => intro c _ hst _; exact ⟨c, Exec_refl _ _ _, hst, rfl, rfl, rfl⟩
  | cons x xs ih =>
    intro c hx hst hat
    obtain ⟨k1, k2⟩ := At_append (ws := [x.code]) (ws' := xs.map BCmd.code) hat
    obtain ⟨c1, e1, s1, p1, a1, d1, u1⟩ := bcmd_exec (hx x (by simp)) hst k1
    obtain ⟨c2, e2, s2, p2, a2, d2⟩ := ih (c := c1) (fun y hy => hx y (by simp [hy])) s1 (by rw [p1]; exact k2)
    refine ⟨c2, ?_, s2, by rw [p2, p1, List.length_cons]; omega, a2.trans a1, d2.trans d1⟩
    rw [u1] at e2
    exact Exec_trans e1 e2

/-- looking for the address block -/
theorem seek_exec {xs : List BCmd} : ∀ {c : C}, (∀ x ∈ xs, x.Ok) → c.st = .table1 → At rom c.pc (xs.map BCmd.code) →
    ∃ c', Exec rom (awOf rom) c [] c' ∧ c'.st = .table1 ∧ c'.pc = c.pc + xs.length ∧ c'.dptr = c.dptr := by
  induction xs with
  | nil => intro c _ hst _; exact ⟨c, Exec_refl _ _ _, hst, rfl, rfl⟩
  | cons x xs ih =>
    intro c hx hst hat
    obtain ⟨hw, hi, k2⟩ := At_cons hat
    have hne : x.code ≠ 8 ∧ x.code ≠ 9 ∧ x.code ≠ 1 ∧ x.code ≠ 0 := by
      cases x <;> simp only [BCmd.code] <;> omega
    obtain ⟨n1, n2, n3, n4⟩ := hne
    obtain ⟨st, pc, aptr, dptr, cur, cAddr, cStart⟩ := c
    dsimp only at hst hw hi k2
    subst hst
    have e1 : Exec rom (awOf rom) ⟨.table1, pc, aptr, dptr, cur, cAddr, cStart⟩ [] ⟨.table1, pc + 1, aptr, dptr, cur, cAddr, cStart⟩ := by
      refine Exec_silent ?_ ?_ ?_ rfl rfl <;>
        simp only [C.ex, C.reg, Reg.exec, Reg.table1, hw, n1, n2, n3, n4, if_false] <;> simp [Reg.core, Reg.pc', Reg.pd, hi]
    obtain ⟨c2, e2, s2, p2, d2⟩ := ih (c := ⟨.table1, pc + 1, aptr, dptr, cur, cAddr, cStart⟩) (fun y hy => hx y (by simp [hy])) rfl k2
    refine ⟨c2, Exec_trans e1 e2, s2, by rw [p2, List.length_cons]; simp only; omega, d2⟩

/-- the address block: the data block at `dptr` is done for each address -/
theorem addrs_exec {xs : List BCmd} (hx : ∀ x ∈ xs, x.Ok) {p : Nat} (hb : At rom p (xs.map BCmd.code ++ [8])) {as : List Nat} :
    ∀ {c : C}, (∀ a ∈ as, a < 128) → c.st = .table2 → c.dptr = p → At rom c.pc (as.map (128 + ·)) →
    ∃ c', Exec rom (awOf rom) c (as.flatMap (fun a => xs.map (BCmd.ops a))) c' ∧ c'.st = .table2 ∧ c'.pc = c.pc + as.length := by
  induction as with
  | nil => intro c _ hst _ _; exact ⟨c, Exec_refl _ _ _, hst, rfl⟩
  | cons a as ih =>
    intro c ha hst hd hat
    obtain ⟨hw, hi, k2⟩ := At_cons hat
    obtain ⟨g1, g2, g3⟩ := addr_word (ha a (by simp))
    obtain ⟨st, pc, aptr, dptr, cur, cAddr, cStart⟩ := c
    dsimp only at hst hw hi k2 hd
    subst hst hd
    have e1 : Exec rom (awOf rom) ⟨.table2, pc, aptr, dptr, cur, cAddr, cStart⟩ [] ⟨.table3, dptr, pc + 1, dptr, a, cAddr, cStart⟩ := by
      refine Exec_silent ?_ ?_ ?_ rfl rfl <;>
        simp only [C.ex, C.reg, Reg.exec, Reg.table2, hw, g2, g3, if_true] <;> simp [Reg.core, Reg.pc', Reg.pd, hi]
    obtain ⟨b1, b2⟩ := At_append hb
    obtain ⟨c2, e2, s2, p2, a2, d2⟩ := body_exec (c := ⟨.table3, dptr, pc + 1, dptr, a, cAddr, cStart⟩) hx rfl b1
    rw [List.length_map] at b2
    obtain ⟨w2, i2, -⟩ := At_cons b2
    obtain ⟨st2, pc2, aptr2, dptr2, cur2, cAddr2, cStart2⟩ := c2
    dsimp only at s2 p2 a2 d2
    subst s2 a2 d2
    rw [← p2] at w2
    have e3 : Exec rom (awOf rom) ⟨.table3, pc2, pc + 1, dptr2, cur2, cAddr2, cStart2⟩ [] ⟨.table2, pc + 1, pc + 1, dptr2, cur2, cAddr2, cStart2⟩ := by
      refine Exec_silent ?_ ?_ ?_ rfl rfl <;> simp [C.ex, C.reg, Reg.exec, Reg.table3, getD_opt w2, Reg.core, Reg.pc', Reg.pd]
    obtain ⟨c4, e4, s4, p4⟩ := ih (c := ⟨.table2, pc + 1, pc + 1, dptr2, cur2, cAddr2, cStart2⟩) (fun y hy => ha y (by simp [hy])) rfl rfl k2
    refine ⟨c4, ?_, s4, by rw [p4, List.length_cons]; simp only; omega⟩
    have := Exec_trans e1 (Exec_trans e2 (Exec_trans e3 e4))
    simpa using this

/-- a data block with its address block -/
theorem block_exec {b : List BCmd × List Nat} (hb : (∀ c ∈ b.1, c.Ok) ∧ ∀ a ∈ b.2, a < 128) {c : C} (hst : c.st = .run ∨ c.st = .table2)
    (hat : At rom c.pc (blockCode b)) :
    ∃ c', Exec rom (awOf rom) c (blockOps b) c' ∧ c'.st = .table2 ∧ c'.pc = c.pc + (blockCode b).length := by
  obtain ⟨xs, as⟩ := b
  obtain ⟨hx, ha⟩ := hb
  dsimp only at hx ha
  simp only [blockCode, List.cons_append] at hat
  obtain ⟨hw, hi, k2⟩ := At_cons hat
  obtain ⟨st, pc, aptr, dptr, cur, cAddr, cStart⟩ := c
  dsimp only at hst hw hi k2 hat
  have e1 : Exec rom (awOf rom) ⟨st, pc, aptr, dptr, cur, cAddr, cStart⟩ [] ⟨.table1, pc + 1, aptr, pc + 1, cur, cAddr, cStart⟩ := by
    rcases hst with hst | hst <;> subst hst <;> refine Exec_silent ?_ ?_ ?_ rfl rfl <;>
      simp [C.ex, C.reg, Reg.exec, Reg.run, Reg.table2, getD_opt hw, Reg.core, Reg.pc', Reg.pd, hi]
  rw [show xs.map BCmd.code ++ 8 :: as.map (128 + ·) = (xs.map BCmd.code ++ [8]) ++ as.map (128 + ·) by simp] at k2
  obtain ⟨k3, k4⟩ := At_append k2
  obtain ⟨k5, k6⟩ := At_append k3
  obtain ⟨c2, e2, s2, p2, d2⟩ := seek_exec (c := ⟨.table1, pc + 1, aptr, pc + 1, cur, cAddr, cStart⟩) hx rfl k5
  rw [List.length_map] at k6
  obtain ⟨w2, i2, -⟩ := At_cons k6
  obtain ⟨st2, pc2, aptr2, dptr2, cur2, cAddr2, cStart2⟩ := c2
  dsimp only at s2 p2 d2
  subst s2 d2
  rw [← p2] at w2 i2
  have e3 : Exec rom (awOf rom) ⟨.table1, pc2, aptr2, pc + 1, cur2, cAddr2, cStart2⟩ [] ⟨.table2, pc2 + 1, pc2 + 1, pc + 1, cur2, cAddr2, cStart2⟩ := by
    refine Exec_silent ?_ ?_ ?_ rfl rfl <;> simp [C.ex, C.reg, Reg.exec, Reg.table1, getD_opt w2, Reg.core, Reg.pc', Reg.pd, i2]
  obtain ⟨c4, e4, s4, p4⟩ := addrs_exec hx k3 (c := ⟨.table2, pc2 + 1, pc2 + 1, pc + 1, cur2, cAddr2, cStart2⟩) ha rfl rfl (by
    have : pc2 + 1 = pc + 1 + (xs.map BCmd.code ++ [8]).length := by simp; omega
    rw [← this] at k4; exact k4)
  refine ⟨c4, ?_, s4, by rw [p4]; simp [blockCode]; omega⟩
  have := Exec_trans e1 (Exec_trans e2 (Exec_trans e3 e4))
  simpa [blockOps] using this

theorem blocks_exec {bs : List (List BCmd × List Nat)} : ∀ {c : C}, (∀ b ∈ bs, (∀ c ∈ b.1, c.Ok) ∧ ∀ a ∈ b.2, a < 128) →
    (c.st = .run ∨ c.st = .table2) → At rom c.pc (bs.flatMap blockCode) →
    ∃ c', Exec rom (awOf rom) c (bs.flatMap blockOps) c' ∧ (c'.st = .run ∨ c'.st = .table2) ∧ c'.pc = c.pc + (bs.flatMap blockCode).length := by
  induction bs with
  | nil => intro c _ hst _; exact ⟨c, Exec_refl _ _ _, hst, rfl⟩
  | cons b bs ih =>
    intro c hb hst hat
    rw [List.flatMap_cons] at hat
    obtain ⟨k1, k2⟩ := At_append hat
    obtain ⟨c1, e1, s1, p1⟩ := block_exec (hb b (by simp)) hst k1
    obtain ⟨c2, e2, s2, p2⟩ := ih (c := c1) (fun y hy => hb y (by simp [hy])) (Or.inr s1) (by rw [p1]; exact k2)
    refine ⟨c2, ?_, s2, by rw [p2, p1, List.flatMap_cons, List.length_append]; omega⟩
    rw [List.flatMap_cons]
    exact Exec_trans e1 e2

theorem item_exec {x : Item} (hx : x.Ok) {c : C} (hst : c.st = .run) (hat : At rom c.pc x.code) :
    ∃ c', Exec rom (awOf rom) c x.ops c' ∧ c'.st = .run ∧ c'.pc = c.pc + x.code.length := by
  cases x with
  | addr a =>
    obtain ⟨hw, hi, -⟩ := At_cons hat
    obtain ⟨st, pc, aptr, dptr, cur, cAddr, cStart⟩ := c
    dsimp only at hst hw hi
    subst hst
    obtain ⟨g1, g2, g3⟩ := addr_word hx
    refine ⟨⟨.run, pc + 1, aptr, dptr, cur, a, true⟩, Exec_addr ?_ ?_ ?_ rfl rfl, rfl, rfl⟩ <;>
      simp only [C.ex, C.reg, Reg.exec, Reg.run, hw, g1, g2, g3, if_true, if_false] <;> simp [Reg.addr, Reg.core, Reg.pc', Reg.pd, hi]
  | data b =>
    obtain ⟨hw, hi, -⟩ := At_cons hat
    obtain ⟨st, pc, aptr, dptr, cur, cAddr, cStart⟩ := c
    dsimp only at hst hw hi
    subst hst
    obtain ⟨g1, g2⟩ := data_word hx
    refine ⟨⟨.run, pc + 1, aptr, dptr, cur, cAddr, false⟩, Exec_data ?_ ?_ ?_ rfl, rfl, rfl⟩ <;>
      simp only [C.ex, C.reg, Reg.exec, Reg.run, hw, g1, if_true] <;> simp [Reg.write, Reg.core, Reg.pc', Reg.pd, hi]
    exact hx
  | stop =>
    obtain ⟨hw, hi, -⟩ := At_cons hat
    obtain ⟨st, pc, aptr, dptr, cur, cAddr, cStart⟩ := c
    dsimp only at hst hw hi
    subst hst
    refine ⟨⟨.run, pc + 1, aptr, dptr, cur, cAddr, false⟩, Exec_stop ?_ ?_ ?_ rfl, rfl, rfl⟩ <;>
      simp [C.ex, C.reg, Reg.exec, Reg.run, getD_opt hw, Reg.stop, Reg.core, Reg.pc', Reg.pd, hi]
  | delay d =>
    obtain ⟨hw, hi, -⟩ := At_cons hat
    obtain ⟨st, pc, aptr, dptr, cur, cAddr, cStart⟩ := c
    dsimp only at hst hw hi
    subst hst
    have hd : d < 16 := hx
    have g1 : ¬ (16 + d) / 256 % 2 = 1 := by omega
    have g2 : ¬ (16 + d) / 128 % 4 = 1 := by omega
    have g3 : (16 + d) / 16 % 32 = 1 := by omega
    refine ⟨⟨.run, pc + 1, aptr, dptr, cur, cAddr, cStart⟩, Exec_silent ?_ ?_ ?_ rfl rfl, rfl, rfl⟩ <;>
      simp only [C.ex, C.reg, Reg.exec, Reg.run, hw, g1, g2, g3, if_true, if_false] <;> simp [Reg.core, Reg.pc', Reg.pd, hi]
  | blocks bs =>
    simp only [Item.code] at hat
    obtain ⟨k1, k2⟩ := At_append hat
    obtain ⟨c1, e1, s1, p1⟩ := blocks_exec hx (Or.inl hst) k1
    rw [← p1] at k2
    obtain ⟨hw, hi, -⟩ := At_cons k2
    obtain ⟨st, pc, aptr, dptr, cur, cAddr, cStart⟩ := c1
    dsimp only at hw hi s1 p1
    have e2 : Exec rom (awOf rom) ⟨st, pc, aptr, dptr, cur, cAddr, cStart⟩ [] ⟨.run, pc + 1, aptr, dptr, cur, cAddr, cStart⟩ := by
      rcases s1 with s1 | s1 <;> subst s1 <;> refine Exec_silent ?_ ?_ ?_ rfl rfl <;>
        simp [C.ex, C.reg, Reg.exec, Reg.run, Reg.table2, getD_opt hw, Reg.core, Reg.pc', Reg.pd, hi]
    refine ⟨⟨.run, pc + 1, aptr, dptr, cur, cAddr, cStart⟩, ?_, rfl, by rw [Item.code, List.length_append]; simp only [List.length_singleton]; omega⟩
    have := Exec_trans e1 e2
    simpa [Item.ops] using this

theorem items_exec {is : List Item} : ∀ {c : C}, (∀ i ∈ is, i.Ok) → c.st = .run → At rom c.pc (is.flatMap Item.code) →
    ∃ c', Exec rom (awOf rom) c (is.flatMap Item.ops) c' ∧ c'.st = .run ∧ c'.pc = c.pc + (is.flatMap Item.code).length := by
  induction is with
  | nil => intro c _ hst _; exact ⟨c, Exec_refl _ _ _, hst, rfl⟩
  | cons b bs ih =>
    intro c hb hst hat
    rw [List.flatMap_cons] at hat
    obtain ⟨k1, k2⟩ := At_append hat
    obtain ⟨c1, e1, s1, p1⟩ := item_exec (hb b (by simp)) hst k1
    obtain ⟨c2, e2, s2, p2⟩ := ih (c := c1) (fun y hy => hb y (by simp [hy])) s1 (by rw [p1]; exact k2)
    refine ⟨c2, ?_, s2, by rw [p2, p1, List.flatMap_cons, List.length_append]; omega⟩
    rw [List.flatMap_cons]
    exact Exec_trans e1 e2

end

theorem prog_exec {is : List Item} {last : List (List BCmd × List Nat)} (hi : ∀ i ∈ is, i.Ok)
    (hl : ∀ b ∈ last, (∀ c ∈ b.1, c.Ok) ∧ ∀ a ∈ b.2, a < 128) :
    ∃ c', Exec (code is last) (awOf (code is last)) c0 (is.flatMap Item.ops ++ last.flatMap blockOps ++ [.stop]) c' ∧ c'.st = .idle ∧ c'.cStart = false := by
  have hat : At (code is last) 0 (is.flatMap Item.code ++ last.flatMap blockCode) := ⟨[], [0], by simp [code], rfl, by simp⟩
  obtain ⟨k1, k2⟩ := At_append hat
  obtain ⟨c1, e1, s1, p1⟩ := items_exec (c := c0) hi rfl k1
  obtain ⟨c2, e2, s2, p2⟩ := blocks_exec hl (Or.inl s1) (by rw [p1]; exact k2)
  have hw : (code is last).getD c2.pc 0 = 0 := by
    rw [p2, p1]
    show (code is last).getD (0 + _ + _) 0 = 0
    rw [Nat.zero_add, ← List.length_append, code]
    simp [List.getD]
  refine ⟨⟨.idle, c2.pc, c2.aptr, c2.dptr, c2.cur, c2.cAddr, false⟩, Exec_trans (Exec_trans e1 e2) ?_, rfl, rfl⟩
  generalize code is last = rom at hw
  obtain ⟨st, pc, aptr, dptr, cur, cAddr, cStart⟩ := c2
  dsimp only at s2 hw
  rcases s2 with s2 | s2 <;> subst s2 <;> refine Exec_stop ?_ ?_ ?_ rfl <;>
    simp [C.ex, C.reg, Reg.exec, Reg.run, Reg.table2, getD_opt hw, Reg.stop, Reg.core, Reg.pc', Reg.pd]

theorem iter_idle {rom : List Nat} {aw : Nat} {c : C} (h : c.st = .idle) (h' : c.cStart = false) (xs : List Cmd) (ys : List Nat) (j : Nat) :
    iter rom aw (c, xs, ys) j = (c, xs, ys) := by
  induction j with
  | zero => rfl
  | succ j ih =>
    rw [iter, ih]
    obtain ⟨st, pc, aptr, dptr, cur, cAddr, cStart⟩ := c
    dsimp only at h h'
    subst h h'
    simp [istep, C.ex, C.reg, Reg.exec, Reg.core, Reg.pc', Reg.pd]

theorem iter_mono (rom : List Nat) (aw : Nat) (s : S) (j : Nat) : s.2.1 <+: (iter rom aw s j).2.1 ∧ s.2.2 <+: (iter rom aw s j).2.2 := by
  induction j with
  | zero => exact ⟨List.prefix_refl _, List.prefix_refl _⟩
  | succ j ih => exact ⟨ih.1.trans (List.prefix_append _ _), ih.2.trans (List.prefix_append _ _)⟩

end Corundum.I2cInit
