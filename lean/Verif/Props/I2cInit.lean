import Verif.Proof.I2cGen

/-! C116: the generated initialisation writes the listed registers.  C117: the initialisation module does what its table says. -/
namespace Corundum.I2cInit

/-! ### C117 -/

theorem prog_iter {is : List Item} {last : List (List BCmd × List Nat)} (hi : ∀ i ∈ is, i.Ok)
    (hl : ∀ b ∈ last, (∀ c ∈ b.1, c.Ok) ∧ ∀ a ∈ b.2, a < 128) :
    ∃ J c cs ds, iter (code is last) (awOf (code is last)) (c0, [], []) J = (c, cs, ds) ∧ c.st = .idle ∧ c.cStart = false ∧ bus cs ds = want is last := by
  obtain ⟨c, ⟨cs, ds, ⟨J, r⟩, -, e⟩, h1, h2⟩ := prog_exec hi hl
  refine ⟨J, c, cs, ds, by simpa using r [] [], h1, h2, ?_⟩
  have := e []
  simpa [pendOps, h2, squash, c0, want] using this.symm

/-- C117: at any time the operations on the bus are the first of those the table stands for: nothing else, nothing twice, in order. -/
theorem C117_prefix {is : List Item} {last : List (List BCmd × List Nat)} (hi : ∀ i ∈ is, i.Ok)
    (hl : ∀ b ∈ last, (∀ c ∈ b.1, c.Ok) ∧ ∀ a ∈ b.2, a < 128) {ins : Nat → In} (hs : ∀ n, (ins n).start = true) (n : Nat) :
    bus (at' (code is last) ins n).2.1 (at' (code is last) ins n).2.2 <+: want is last := by
  cases n with
  | zero => exact List.nil_prefix
  | succ n =>
    obtain ⟨J, c, cs, ds, h1, h2, h3, h4⟩ := prog_iter hi hl
    obtain ⟨j, h⟩ := sim_all (rom := code is last) hs n
    have hp : (iter (code is last) (awOf (code is last)) (c0, [], []) j).2.1 <+: cs ∧ (iter (code is last) (awOf (code is last)) (c0, [], []) j).2.2 <+: ds := by
      rcases Nat.le_total j J with hj | hj
      · obtain ⟨q, rfl⟩ := Nat.le.dest hj
        have := iter_mono (code is last) (awOf (code is last)) (iter (code is last) (awOf (code is last)) (c0, [], []) j) q
        rw [← iter_add, h1] at this
        exact this
      · obtain ⟨q, rfl⟩ := Nat.le.dest hj
        rw [iter_add, h1, iter_idle h2 h3]
        exact ⟨List.prefix_refl _, List.prefix_refl _⟩
    have q1 : (at' (code is last) ins (n + 1)).2.1 <+: cs := (List.prefix_append _ _).trans (by rw [h.cmds]; exact hp.1)
    have q2 : (at' (code is last) ins (n + 1)).2.2 <+: ds := (List.prefix_append _ _).trans (by rw [h.data]; exact hp.2)
    obtain ⟨x, q1⟩ := q1
    obtain ⟨y, q2⟩ := q2
    rw [← h4, ← q1, ← q2]
    exact bus_prefix _ _

theorem idle_stays {rom : List Nat} {k : Reg} (h : k.clean) (hi : k.st = .idle) (hf : k.flag = true) {i : In} (hs : i.start = true) :
    (k.tick rom (awOf rom) i).clean ∧ (k.tick rom (awOf rom) i).st = .idle ∧ (k.tick rom (awOf rom) i).flag = true ∧ k.cmdOut i = [] ∧ k.dataOut i = [] := by
  obtain ⟨h1, h2, h3⟩ := h
  simp [Reg.tick, Reg.exec, Reg.clean, Reg.cmdOut, Reg.dataOut, h1, h2, h3, hi, hf, hs]

/-- C117: while the master takes what is offered, all of the operations come, and then nothing any more. -/
theorem C117_complete {is : List Item} {last : List (List BCmd × List Nat)} (hi : ∀ i ∈ is, i.Ok)
    (hl : ∀ b ∈ last, (∀ c ∈ b.1, c.Ok) ∧ ∀ a ∈ b.2, a < 128) {ins : Nat → In} (hf : Fair ins) :
    ∃ n, ∀ m, n ≤ m → bus (at' (code is last) ins m).2.1 (at' (code is last) ins m).2.2 = want is last ∧
      (at' (code is last) ins m).1.st = .idle ∧ (at' (code is last) ins m).1.cValid = false ∧ (at' (code is last) ins m).1.dValid = false := by
  obtain ⟨J, c, cs, ds, h1, h2, h3, h4⟩ := prog_iter hi hl
  obtain ⟨n, s1, s2⟩ := reach (rom := code is last) hf J
  rw [h1] at s1
  have key : ∀ q, (at' (code is last) ins (n + q)).1.clean ∧ (at' (code is last) ins (n + q)).1.st = .idle ∧ (at' (code is last) ins (n + q)).1.flag = true ∧
      (at' (code is last) ins (n + q)).2.1 = cs ∧ (at' (code is last) ins (n + q)).2.2 = ds := by
    intro q
    induction q with
    | zero =>
      refine ⟨s2, ?_, s1.flag, ?_, ?_⟩
      · have := congrArg C.st s1.core
        exact this.trans h2
      · have := s1.cmds
        rw [Reg.pc', s2.1] at this
        simpa using this
      · have := s1.data
        rw [Reg.pd, s2.2.1] at this
        simpa using this
    | succ q ih =>
      obtain ⟨i1, i2, i3, i4, i5⟩ := ih
      obtain ⟨k1, k2, k3, k4, k5⟩ := idle_stays (rom := code is last) i1 i2 i3 (hf.1 (n + q))
      refine ⟨k1, k2, k3, ?_, ?_⟩
      · have : (at' (code is last) ins (n + q)).2.1 ++ (at' (code is last) ins (n + q)).1.cmdOut (ins (n + q)) = cs := by rw [i4, k4, List.append_nil]
        exact this
      · have : (at' (code is last) ins (n + q)).2.2 ++ (at' (code is last) ins (n + q)).1.dataOut (ins (n + q)) = ds := by rw [i5, k5, List.append_nil]
        exact this
  refine ⟨n, fun m hm => ?_⟩
  obtain ⟨q, rfl⟩ := Nat.le.dest hm
  obtain ⟨k1, k2, -, k4, k5⟩ := key q
  rw [k4, k5]
  exact ⟨h4, k2, k1.1, k1.2.1⟩

/-- C117: a delay command keeps the outputs idle for `2 ^ (16 + d)` cycles and then the next command is up, whatever the inputs. -/
theorem C117_delay {rom : List Nat} {k : Reg} (hst : k.st = .run) (hk : k.cValid = false ∧ k.dValid = false ∧ k.delay = 0) {d : Nat} (hd : d < 16)
    (hw : k.word = 16 + d) (ins : Nat → In) (m : Nat) (hm : m ≤ 2 ^ (16 + d)) :
    let r := from' rom k ins (m + 1)
    r.cValid = false ∧ r.dValid = false ∧ r.st = .run ∧ r.pc = (k.pc + 1) % 2 ^ awOf rom ∧ r.word = rom.getD r.pc 0 ∧ r.delay = 2 ^ (16 + d) - m := by
  induction m with
  | zero =>
    obtain ⟨h1, h2, h3⟩ := hk
    have g1 : ¬ (16 + d) / 256 % 2 = 1 := by omega
    have g2 : ¬ (16 + d) / 128 % 4 = 1 := by omega
    have g3 : (16 + d) / 16 % 32 = 1 := by omega
    have g4 : (16 + d) % 16 + 16 = 16 + d := by omega
    simp only [from', Reg.tick, h1, h2, h3, hst, Reg.exec, Reg.run, hw, g1, g2, g3, g4, Bool.or_self, Bool.false_eq_true, if_false, if_true, ne_eq, not_true_eq_false]
    exact ⟨trivial, trivial, trivial, rfl, trivial, rfl⟩
  | succ m ih =>
    obtain ⟨i1, i2, i3, i4, i5, i6⟩ := ih (by omega)
    generalize hr : from' rom k ins (m + 1) = r at *
    have hd : r.delay ≠ 0 := by omega
    have e : from' rom k ins (m + 1 + 1) = r.tick rom (awOf rom) (ins (m + 1)) := by rw [from', hr]
    rw [e]
    simp only [Reg.tick, i1, i2, Bool.or_self, Bool.false_eq_true, if_false, ne_eq, hd, not_false_eq_true, if_true]
    exact ⟨trivial, trivial, i3, i4, trivial, by omega⟩

/-- C117 fails for delays in data blocks: they are skipped. -/
theorem C117_delay_counterexample {rom : List Nat} {k : Reg} (hst : k.st = .table3) (hk : k.cValid = false ∧ k.dValid = false ∧ k.delay = 0) {d : Nat}
    (hd : d < 16) (hw : k.word = 16 + d) (i : In) :
    (k.tick rom (awOf rom) i).delay = 0 ∧ (k.tick rom (awOf rom) i).st = .table3 ∧ (k.tick rom (awOf rom) i).pc = (k.pc + 1) % 2 ^ awOf rom := by
  obtain ⟨h1, h2, h3⟩ := hk
  have g1 : ¬ (16 + d) / 256 % 2 = 1 := by omega
  have g2 : ¬ (16 + d) / 128 % 4 = 1 := by omega
  have g3 : ¬ 16 + d = 3 := by omega
  have g4 : ¬ 16 + d = 65 := by omega
  have g5 : ¬ 16 + d = 9 := by omega
  have g6 : ¬ 16 + d = 8 := by omega
  have g7 : ¬ 16 + d = 1 := by omega
  have g8 : ¬ 16 + d = 0 := by omega
  simp only [Reg.tick, h1, h2, h3, hst, Reg.exec, Reg.table3, hw, g1, g2, g3, g4, g5, g6, g7, g8, Bool.or_self, Bool.false_eq_true, if_false, ne_eq, not_true_eq_false]
  exact ⟨trivial, trivial, rfl⟩

/-- the example in the documentation: one register of four devices (pll/si5341_i2c_init.py:220-235) -/
def doc : List BCmd × List Nat := ([.cur, .data 0, .data 4, .data 0x11, .data 0x22, .data 0x33, .data 0x44], [0x50, 0x51, 0x52, 0x53])

example : code [] [doc] = [9, 3, 256, 260, 273, 290, 307, 324, 8, 208, 209, 210, 211, 0] ∧
    want [] [doc] = [0x50, 0x51, 0x52, 0x53].flatMap (fun a => [Op.start a, .byte 0, .byte 4, .byte 0x11, .byte 0x22, .byte 0x33, .byte 0x44]) ++ [.stop] := by
  decide

example : ∀ b ∈ [doc], (∀ c ∈ b.1, c.Ok) ∧ ∀ a ∈ b.2, a < 128 := by
  intro b hb
  rw [List.mem_singleton] at hb
  subst hb
  refine ⟨fun c hc => ?_, by decide⟩
  simp only [doc, List.mem_cons, List.not_mem_nil, or_false] at hc
  rcases hc with h | h | h | h | h | h | h <;> subst h <;> simp [BCmd.Ok]

/-- a master that is always ready, and one that is now and then -/
example : Fair (fun _ => {}) := ⟨fun _ => rfl, fun n => ⟨n, Nat.le_refl _, rfl⟩, fun n => ⟨n, Nat.le_refl _, rfl⟩⟩

example : Fair (fun n => ⟨true, n % 3 == 1, n % 5 == 2⟩) :=
  ⟨fun _ => rfl, fun n => ⟨3 * n + 1, by omega, by simp⟩, fun n => ⟨5 * n + 2, by omega, by simp⟩⟩

/-- the run of the example, done after less than 100 cycles -/
example : (bus (at' (code [] [doc]) (fun _ => {}) 120).2.1 (at' (code [] [doc]) (fun _ => {}) 120).2.2 = want [] [doc]) := by decide +kernel

/-- C117: `busy` falls before the last command is taken: here the stop is still pending. -/
theorem C117_busy_counterexample : ∃ ins : Nat → In, Fair ins ∧ (at' (code [] [doc]) ins 71).1.busy = true ∧ (at' (code [] [doc]) ins 150).1.busy = false ∧
    (at' (code [] [doc]) ins 150).1.cValid = true ∧ bus (at' (code [] [doc]) ins 150).2.1 (at' (code [] [doc]) ins 150).2.2 ≠ want [] [doc] := by
  refine ⟨fun n => ⟨true, n < 71 || 200 < n, true⟩, ⟨fun _ => rfl, fun n => ⟨n + 201, by omega, ?_⟩, fun n => ⟨n, Nat.le_refl _, rfl⟩⟩, ?_⟩
  · have : 200 < n + 201 := by omega
    simp [this]
  · decide +kernel

/-! ### C116 -/

theorem log_mono {A : Nat} {vis : (Nat → Nat) → Bool} (os : List Op) : ∀ w : World, w.log <+: (os.foldl (World.op A vis) w).log := by
  induction os with
  | nil => intro w; exact List.prefix_refl _
  | cons o os ih =>
    intro w
    refine List.IsPrefix.trans ?_ (ih _)
    cases o with
    | start a => simp only [World.op]; split <;> exact List.prefix_refl _
    | stop => exact List.prefix_refl _
    | byte b =>
      simp only [World.op]
      repeat' split
      all_goals first | exact List.prefix_refl _ | exact List.prefix_append _ _

theorem rom_log {A : Nat} {vis : (Nat → Nat) → Bool} {ss : List Section} (hs : ∀ s ∈ ss, s.Ok A) {w : World} (hw : w.pend = w.mux) :
    ((want (romItems A ss) []).foldl (World.op A vis) w).log = w.log ++ meant vis w.mux ss := by
  rw [rom_want]
  have := wrun_append (A := A) (vis := vis) w ((ss.flatMap (secItems A)).flatMap Item.ops) [.stop]
  rw [wrun] at this
  rw [this, ← secs_run hs hw]
  rfl

/-- C116: the module generated from register lists writes exactly the listed registers of the device, in order and once, whatever state the device
was in; registers listed for other devices of the same address do not reach it. -/
theorem C116_written {A : Nat} (hA : A < 128) (vis : (Nat → Nat) → Bool) {ss : List Section} (hs : ∀ s ∈ ss, s.Ok A) {w : World} (hw : w.pend = w.mux)
    {ins : Nat → In} (hf : Fair ins) :
    ∃ n, ∀ m, n ≤ m →
      ((bus (at' (romOf ss) ins m).2.1 (at' (romOf ss) ins m).2.2).foldl (World.op A vis) w).log = w.log ++ meant vis w.mux ss := by
  rw [rom_code hA hs]
  obtain ⟨n, h⟩ := C117_complete (last := []) (rom_ok hA hs) (by simp) hf
  refine ⟨n, fun m hm => ?_⟩
  rw [(h m hm).1]
  exact rom_log hs hw

/-- C116: at no time has anything else been written. -/
theorem C116_prefix {A : Nat} (hA : A < 128) (vis : (Nat → Nat) → Bool) {ss : List Section} (hs : ∀ s ∈ ss, s.Ok A) {w : World} (hw : w.pend = w.mux)
    {ins : Nat → In} (hst : ∀ n, (ins n).start = true) (n : Nat) :
    ((bus (at' (romOf ss) ins n).2.1 (at' (romOf ss) ins n).2.2).foldl (World.op A vis) w).log <+: w.log ++ meant vis w.mux ss := by
  rw [rom_code hA hs]
  obtain ⟨r, h⟩ := C117_prefix (last := []) (rom_ok hA hs) (by simp) hst n
  rw [← rom_log (vis := vis) hs hw, ← h, List.foldl_append]
  exact log_mono _ _

theorem line_grows (dev : Nat) (g : Gen) (l : Line) : g.cmds <+: (g.line dev l).cmds := by
  cases l with
  | comment => exact List.prefix_refl _
  | delay => exact List.prefix_append _ _
  | reg a d =>
    simp only [Gen.line, Gen.setAddr, Gen.setPage]
    repeat' split
    all_goals first | exact List.prefix_append _ _ | (simp only [List.append_assoc]; exact List.prefix_append _ _)

theorem lines_grow (dev : Nat) (ls : List Line) : ∀ g : Gen, g.cmds <+: (ls.foldl (Gen.line dev) g).cmds := by
  induction ls with
  | nil => intro g; exact List.prefix_refl _
  | cons l ls ih => intro g; exact (line_grows dev g l).trans (ih _)

/-- C116: a delay in the list is a delay, of `2 ^ 26` cycles, between the commands for the registers before it and those after it; the latter begin
with a start. -/
theorem C116_delay (dev : Nat) (l1 l2 : List Line) : ∃ rest, si5341Cmds dev (l1 ++ .delay :: l2) = si5341Cmds dev l1 ++ 26 :: rest ∧
    (rest = [] ∨ rest.head? = some 26 ∨ rest.head? = some (128 + dev % 128)) := by
  simp only [si5341Cmds, List.foldl_append, List.foldl_cons]
  generalize List.foldl (Gen.line dev) {} l1 = g
  have key : ∀ (ls : List Line) (g : Gen), g.addr = none →
      ∃ rest, (ls.foldl (Gen.line dev) g).cmds = g.cmds ++ rest ∧ (rest = [] ∨ rest.head? = some 26 ∨ rest.head? = some (128 + dev % 128)) := by
    intro ls
    induction ls with
    | nil => intro g _; exact ⟨[], by simp, Or.inl rfl⟩
    | cons l ls ih =>
      intro g hg
      cases l with
      | comment => exact ih g hg
      | delay =>
        obtain ⟨r, h⟩ := lines_grow dev ls (g.line dev .delay)
        exact ⟨26 :: r, by rw [List.foldl_cons, ← h]; simp [Gen.line], Or.inr (Or.inl rfl)⟩
      | reg a d =>
        obtain ⟨r, h⟩ := lines_grow dev ls (g.line dev (.reg a d))
        have : ∃ x, (g.line dev (.reg a d)).cmds = g.cmds ++ wAddr dev :: x := by
          simp only [Gen.line, Gen.setAddr, Gen.setPage]
          repeat' split
          all_goals simp_all
        obtain ⟨x, hx⟩ := this
        exact ⟨wAddr dev :: x ++ r, by rw [List.foldl_cons, ← h, hx]; simp, Or.inr (Or.inr rfl)⟩
  obtain ⟨rest, h1, h2⟩ := key l2 (g.line dev .delay) rfl
  exact ⟨rest, by rw [h1]; simp [Gen.line], h2⟩

/-- C116 fails for a page register in the list: the generator does not take notice, and what follows is written to the wrong page. -/
theorem C116_page_counterexample {ins : Nat → In} (hf : Fair ins) :
    let s : Section := ⟨[], 0x77, [.reg 0x0001 5, .reg 0x0002 7]⟩
    let w : World := ⟨fun _ => 0, fun _ => 0, none, false, false, 0, 0, []⟩
    meant (fun _ => true) w.mux [s] = [(0x0001, 5), (0x0002, 7)] ∧
    ∃ n, ∀ m, n ≤ m → ((bus (at' (romOf [s]) ins m).2.1 (at' (romOf [s]) ins m).2.2).foldl (World.op 0x77 (fun _ => true)) w).log = [(0x0502, 7)] := by
  refine ⟨rfl, ?_⟩
  have e : romOf [⟨[], 0x77, [.reg 0x0001 5, .reg 0x0002 7]⟩] =
      code [.delay 6, .addr 0x77, .data 1, .data 0, .addr 0x77, .data 1, .data 5, .data 7] [] := by decide
  rw [e]
  obtain ⟨n, h⟩ := C117_complete (is := [.delay 6, .addr 0x77, .data 1, .data 0, .addr 0x77, .data 1, .data 5, .data 7]) (last := [])
    (by intro i hi; simp only [List.mem_cons, List.not_mem_nil, or_false] at hi; rcases hi with h | h | h | h | h | h | h | h <;> subst h <;> simp [Item.Ok])
    (by simp) hf
  refine ⟨n, fun m hm => ?_⟩
  rw [(h m hm).1]
  rfl

/-! A section as in the script for the HTG-9200. -/

def htg : Section := ⟨[(0x70, 0), (0x71, 4)], 0x77, [.comment, .reg 0x0b24 0xc0, .reg 0x0b25 0, .reg 0x0502 1, .delay, .reg 6 0, .reg 7 0, .reg 0xff 1, .reg 0x100 2]⟩

example : htg.Ok 0x77 := by
  refine ⟨rfl, by decide, by decide⟩

example : meant (fun m => m 0x71 == 4) (fun _ => 0) [⟨[(0x71, 2)], 0x77, [.reg 5 5]⟩, htg] =
    [(0x0b24, 0xc0), (0x0b25, 0), (0x0502, 1), (6, 0), (7, 0), (0xff, 1), (0x100, 2)] := by decide

example : romOf [htg] = [22, 240, 256, 65, 241, 260, 65, 247, 257, 267, 247, 292, 448, 256, 247, 257, 261, 247, 258, 257, 26, 247, 257, 256,
    247, 262, 256, 256, 247, 511, 257, 247, 257, 257, 247, 256, 258, 0] := by decide

end Corundum.I2cInit
