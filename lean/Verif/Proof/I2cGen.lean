import Verif.Proof.I2cInit

/-! The generator against the device. -/
namespace Corundum.I2cInit

/-- a list of operations each start of which has its byte -/
def Tight (os : List Op) : Prop := ∀ rest, squash (os ++ rest) = os ++ squash rest

theorem Tight_nil : Tight [] := fun _ => rfl
theorem Tight_start (a b : Nat) : Tight [.start a, .byte b] := fun rest => by simp [squash]
theorem Tight_byte (b : Nat) : Tight [.byte b] := fun rest => by simp [squash]
theorem Tight_stop : Tight [.stop] := fun rest => by simp [squash]
theorem Tight_append {os os' : List Op} (h : Tight os) (h' : Tight os') : Tight (os ++ os') := fun rest => by
  rw [List.append_assoc, h, h', List.append_assoc]

theorem Tight_eq {os : List Op} (h : Tight os) : squash os = os := by
  have := h []
  simpa [squash] using this

/-! items of the generated program -/

def pageItems (A : Nat) (g : Gen) (addr : Nat) : List Item :=
  if g.page ≠ some (addr / 256 % 256) then [.addr A, .data 1, .data (addr / 256 % 256)] else []

def addrItems (A : Nat) (g : Gen) (addr : Nat) : List Item :=
  if (g.setPage A addr).addr ≠ some addr then [.addr A, .data (addr % 256)] else []

def lineItems (A : Nat) (g : Gen) : Line → List Item
  | .comment => []
  | .delay => [.delay 10]
  | .reg addr data => pageItems A g addr ++ addrItems A g addr ++ [.data data]

def linesItems (A : Nat) : Gen → List Line → List Item
  | _, [] => []
  | g, l :: ls => lineItems A g l ++ linesItems A (g.line A l) ls

def muxItems (p : Nat × Nat) : List Item := [.addr p.1, .data p.2, .stop]

def secItems (A : Nat) (s : Section) : List Item := s.mux.flatMap muxItems ++ linesItems A {} s.lines

def romItems (A : Nat) (ss : List Section) : List Item := .delay 6 :: ss.flatMap (secItems A)

theorem line_code {A : Nat} (hA : A < 128) (g : Gen) {l : Line} (hl : ∀ p ∈ regs [l], p.2 < 256) :
    (g.line A l).cmds = g.cmds ++ (lineItems A g l).flatMap Item.code := by
  cases l with
  | comment => simp [Gen.line, lineItems]
  | delay => simp [Gen.line, lineItems, Item.code]
  | reg addr data =>
    have hd : data < 256 := hl (addr, data) (by simp [regs])
    have e1 : wAddr A = 128 + A := by simp [wAddr, Nat.mod_eq_of_lt hA]
    have e2 : wData data = 256 + data := by simp [wData, Nat.mod_eq_of_lt hd]
    simp only [Gen.line, lineItems, pageItems, addrItems, Gen.setAddr, Gen.setPage]
    repeat' split
    all_goals simp_all [Item.code, wData]

theorem lines_code {A : Nat} (hA : A < 128) {ls : List Line} : ∀ {g : Gen}, (∀ p ∈ regs ls, p.2 < 256) →
    (ls.foldl (Gen.line A) g).cmds = g.cmds ++ (linesItems A g ls).flatMap Item.code := by
  induction ls with
  | nil => intro g _; simp [linesItems]
  | cons l ls ih =>
    intro g h
    have h1 : ∀ p ∈ regs [l], p.2 < 256 := by
      intro p hp
      apply h p
      cases l with
      | comment => simp [regs] at hp
      | delay => simp [regs] at hp
      | reg a d => simp only [regs, List.mem_singleton] at hp ⊢; simp [hp]
    have h2 : ∀ p ∈ regs ls, p.2 < 256 := by
      intro p hp
      apply h p
      cases l <;> simp [regs, hp]
    rw [List.foldl_cons, ih h2, line_code hA g h1, linesItems, List.flatMap_append, List.append_assoc]

theorem sec_code {A : Nat} (hA : A < 128) {s : Section} (h : s.Ok A) : s.cmds = (secItems A s).flatMap Item.code := by
  obtain ⟨h1, h2, h3⟩ := h
  rw [Section.cmds, secItems, List.flatMap_append, si5341Cmds, h1, lines_code hA (fun p hp => (h3 p hp).2.2)]
  congr 1
  rw [List.flatMap_assoc]
  have : ∀ (ps : List (Nat × Nat)), (∀ p ∈ ps, p.1 < 128 ∧ p.1 ≠ A ∧ p.2 < 256) →
      ps.flatMap (fun p => muxCmds p.2 p.1) = ps.flatMap (fun p => (muxItems p).flatMap Item.code) := by
    intro ps
    induction ps with
    | nil => intro _; rfl
    | cons p ps ih =>
      intro hp
      rw [List.flatMap_cons, List.flatMap_cons, ih (fun q hq => hp q (by simp [hq]))]
      obtain ⟨q1, -, q2⟩ := hp p (by simp)
      simp [muxCmds, muxItems, Item.code, wAddr, wData, Nat.mod_eq_of_lt q1, Nat.mod_eq_of_lt q2]
  exact this _ h2

theorem rom_code {A : Nat} (hA : A < 128) {ss : List Section} (h : ∀ s ∈ ss, s.Ok A) : romOf ss = code (romItems A ss) [] := by
  have : ∀ (ss : List Section), (∀ s ∈ ss, s.Ok A) → ss.flatMap Section.cmds = (ss.flatMap (secItems A)).flatMap Item.code := by
    intro ss
    induction ss with
    | nil => intro _; rfl
    | cons s ss ih =>
      intro h
      rw [List.flatMap_cons, List.flatMap_cons, List.flatMap_append, ih (fun q hq => h q (by simp [hq])), sec_code hA (h s (by simp))]
  simp [romOf, code, romItems, Item.code, this ss h]

theorem regs_cons (l : Line) (ls : List Line) : regs (l :: ls) = regs [l] ++ regs ls := by
  cases l <;> simp [regs]

theorem line_ok {A : Nat} (hA : A < 128) (g : Gen) {l : Line} (hl : ∀ p ∈ regs [l], p.2 < 256) : ∀ i ∈ lineItems A g l, i.Ok := by
  cases l with
  | comment => simp [lineItems]
  | delay => simp [lineItems, Item.Ok]
  | reg addr data =>
    have hd : data < 256 := hl (addr, data) (by simp [regs])
    have h1 : addr / 256 % 256 < 256 := by omega
    have h2 : addr % 256 < 256 := by omega
    intro i hi
    simp only [lineItems, List.mem_append] at hi
    rcases hi with (hi | hi) | hi
    · unfold pageItems at hi
      split at hi
      · simp only [List.mem_cons, List.not_mem_nil, or_false] at hi
        rcases hi with hi | hi | hi <;> subst hi
        · exact hA
        · exact (by decide : (1 : Nat) < 256)
        · exact h1
      · cases hi
    · unfold addrItems at hi
      split at hi
      · simp only [List.mem_cons, List.not_mem_nil, or_false] at hi
        rcases hi with hi | hi <;> subst hi
        · exact hA
        · exact h2
      · cases hi
    · rw [List.mem_singleton] at hi
      subst hi
      exact hd

theorem lines_ok {A : Nat} (hA : A < 128) {ls : List Line} : ∀ {g : Gen}, (∀ p ∈ regs ls, p.2 < 256) → ∀ i ∈ linesItems A g ls, i.Ok := by
  induction ls with
  | nil => intro g _ i hi; cases hi
  | cons l ls ih =>
    intro g h i hi
    rw [regs_cons] at h
    rw [linesItems, List.mem_append] at hi
    rcases hi with hi | hi
    · exact line_ok hA g (fun p hp => h p (by simp [hp])) i hi
    · exact ih (fun p hp => h p (by simp [hp])) i hi

theorem rom_ok {A : Nat} (hA : A < 128) {ss : List Section} (h : ∀ s ∈ ss, s.Ok A) : ∀ i ∈ romItems A ss, i.Ok := by
  intro i hi
  rw [romItems, List.mem_cons] at hi
  rcases hi with hi | hi
  · subst hi; exact (by decide : (6 : Nat) < 16)
  · obtain ⟨s, hs, hi⟩ := List.mem_flatMap.1 hi
    obtain ⟨-, h2, h3⟩ := h s hs
    rw [secItems, List.mem_append] at hi
    rcases hi with hi | hi
    · obtain ⟨p, hp, hi⟩ := List.mem_flatMap.1 hi
      obtain ⟨q1, -, q2⟩ := h2 p hp
      simp only [muxItems, List.mem_cons, List.not_mem_nil, or_false] at hi
      rcases hi with hi | hi | hi <;> subst hi
      · exact q1
      · exact q2
      · trivial
    · exact lines_ok hA (fun p hp => (h3 p hp).2.2) i hi

/-! no start without byte -/

theorem line_tight (A : Nat) (g : Gen) (l : Line) : Tight ((lineItems A g l).flatMap Item.ops) := by
  cases l with
  | comment => exact Tight_nil
  | delay => exact Tight_nil
  | reg addr data =>
    simp only [lineItems, List.flatMap_append]
    refine Tight_append (Tight_append ?_ ?_) (Tight_byte _)
    · unfold pageItems
      split
      · have := Tight_append (Tight_start A 1) (Tight_byte (addr / 256 % 256))
        exact this
      · exact Tight_nil
    · unfold addrItems
      split
      · exact Tight_start _ _
      · exact Tight_nil

theorem lines_tight (A : Nat) (ls : List Line) : ∀ g, Tight ((linesItems A g ls).flatMap Item.ops) := by
  induction ls with
  | nil => intro g; exact Tight_nil
  | cons l ls ih =>
    intro g
    rw [linesItems, List.flatMap_append]
    exact Tight_append (line_tight A g l) (ih _)

theorem sec_tight (A : Nat) (s : Section) : Tight ((secItems A s).flatMap Item.ops) := by
  rw [secItems, List.flatMap_append]
  refine Tight_append ?_ (lines_tight A _ _)
  have : ∀ ps : List (Nat × Nat), Tight ((ps.flatMap muxItems).flatMap Item.ops) := by
    intro ps
    induction ps with
    | nil => exact Tight_nil
    | cons p ps ih =>
      rw [List.flatMap_cons, List.flatMap_append]
      have := Tight_append (Tight_append (Tight_start p.1 p.2) Tight_stop) ih
      exact this
  exact this _

theorem rom_tight (A : Nat) (ss : List Section) : Tight ((romItems A ss).flatMap Item.ops) := by
  have : ∀ ss : List Section, Tight ((ss.flatMap (secItems A)).flatMap Item.ops) := by
    intro ss
    induction ss with
    | nil => exact Tight_nil
    | cons s ss ih =>
      rw [List.flatMap_cons, List.flatMap_append]
      exact Tight_append (sec_tight A s) ih
  rw [romItems, List.flatMap_cons]
  exact Tight_append Tight_nil (this ss)

theorem rom_want (A : Nat) (ss : List Section) : want (romItems A ss) [] = (ss.flatMap (secItems A)).flatMap Item.ops ++ [.stop] := by
  have := Tight_eq (Tight_append (rom_tight A ss) Tight_stop)
  simp only [want, List.flatMap_nil, List.append_nil, this]
  simp [romItems, Item.ops]

/-! ### the device -/

section
variable {A : Nat} {vis : (Nat → Nat) → Bool}

def wrun (A : Nat) (vis : (Nat → Nat) → Bool) (w : World) (os : List Op) : World := os.foldl (World.op A vis) w

theorem wrun_append (w : World) (os os' : List Op) : wrun A vis w (os ++ os') = wrun A vis (wrun A vis w os) os' := List.foldl_append

theorem start_vis {w : World} (h : vis w.mux = true) (b : Nat) :
    wrun A vis w [.start A, .byte b] = { w with tgt := some A, sel := true, got := true, ptr := b } := by
  simp [wrun, World.op, h]

theorem page_vis {w : World} (h : vis w.mux = true) (h1 : w.tgt = some A) (h2 : w.sel = true) (h3 : w.got = true) (h4 : w.ptr = 1) (b : Nat) :
    w.op A vis (.byte b) = { w with page := b, ptr := 2 } := by
  simp [World.op, h, h1, h2, h3, h4]

theorem reg_vis {w : World} (h : vis w.mux = true) (h1 : w.tgt = some A) (h2 : w.sel = true) (h3 : w.got = true) (h4 : w.ptr ≠ 1) (b : Nat) :
    w.op A vis (.byte b) = { w with log := w.log ++ [(w.page * 256 + w.ptr, b)], ptr := (w.ptr + 1) % 256 } := by
  simp [World.op, h, h1, h2, h3, h4]

/-- the device is where the generator thinks it is -/
structure GInv (A : Nat) (vis : (Nat → Nat) → Bool) (g : Gen) (w : World) : Prop where
  vis : vis w.mux = true
  page : ∀ p, g.page = some p → w.page = p
  addr : ∀ a, g.addr = some a → w.tgt = some A ∧ ∃ p, g.page = some p ∧ (a = p * 256 + 256 ∨ (a / 256 = p ∧ w.sel = true ∧ w.got = true ∧ w.ptr = a % 256))

theorem page_step {g : Gen} {w : World} (h : GInv A vis g w) (addr : Nat) :
    let w' := wrun A vis w ((pageItems A g addr).flatMap Item.ops)
    GInv A vis (g.setPage A addr) w' ∧ w'.log = w.log ∧ w'.mux = w.mux ∧ w'.pend = w.pend ∧ (g.setPage A addr).page = some (addr / 256 % 256) := by
  intro w'
  by_cases hp : g.page = some (addr / 256 % 256)
  · have e1 : w' = w := by simp [w', pageItems, hp, wrun]
    have e2 : g.setPage A addr = g := by simp [Gen.setPage, hp]
    rw [e1, e2]
    exact ⟨h, rfl, rfl, rfl, hp⟩
  · have e1 : w' = { w with tgt := some A, sel := true, got := true, ptr := 2, page := addr / 256 % 256 } := by
      simp only [w', pageItems, ne_eq, hp, not_false_eq_true, if_true]
      show wrun A vis w ([.start A, .byte 1] ++ [.byte (addr / 256 % 256)]) = _
      rw [wrun_append, start_vis h.vis]
      exact page_vis (w := { w with tgt := some A, sel := true, got := true, ptr := 1 }) h.vis rfl rfl rfl rfl _
    have e2 : g.setPage A addr = ⟨some (addr / 256 % 256), none, g.cmds ++ [wAddr A, wData 1, wData (addr / 256 % 256)]⟩ := by simp [Gen.setPage, hp]
    rw [e1, e2]
    exact ⟨⟨h.vis, fun p hp => Option.some.inj hp, fun a ha => (by cases ha)⟩, rfl, rfl, rfl, rfl⟩

theorem addr_step {g : Gen} {w : World} (h : GInv A vis (g.setPage A addr) w) (hp : (g.setPage A addr).page = some (addr / 256 % 256)) (hlt : addr < 65536) :
    let w' := wrun A vis w ((addrItems A g addr).flatMap Item.ops)
    w'.log = w.log ∧ w'.mux = w.mux ∧ w'.pend = w.pend ∧ w'.tgt = some A ∧ w'.sel = true ∧ w'.got = true ∧ w'.ptr = addr % 256 ∧ w'.page = addr / 256 := by
  intro w'
  have hpg : addr / 256 % 256 = addr / 256 := by omega
  by_cases ha : (g.setPage A addr).addr = some addr
  · have e1 : w' = w := by simp [w', addrItems, ha, wrun]
    rw [e1]
    obtain ⟨h1, p, h2, h3⟩ := h.addr addr ha
    rw [hp] at h2
    have h2 := Option.some.inj h2
    rcases h3 with h3 | ⟨h3, h4, h5, h6⟩
    · omega
    · exact ⟨rfl, rfl, rfl, h1, h4, h5, h6, (h.page _ hp).trans hpg⟩
  · have e1 : w' = { w with tgt := some A, sel := true, got := true, ptr := addr % 256 } := by
      simp only [w', addrItems, ne_eq, ha, not_false_eq_true, if_true]
      exact start_vis h.vis _
    rw [e1]
    exact ⟨rfl, rfl, rfl, rfl, rfl, rfl, rfl, (h.page _ hp).trans hpg⟩

theorem line_vis {g : Gen} {w : World} (h : GInv A vis g w) {l : Line} (hl : ∀ p ∈ regs [l], p.1 < 65536 ∧ p.1 % 256 ≠ 1) :
    let w' := wrun A vis w ((lineItems A g l).flatMap Item.ops)
    GInv A vis (g.line A l) w' ∧ w'.log = w.log ++ regs [l] ∧ w'.mux = w.mux ∧ w'.pend = w.pend := by
  cases l with
  | comment => exact ⟨h, by simp [regs, lineItems, wrun], rfl, rfl⟩
  | delay => exact ⟨⟨h.vis, h.page, fun a ha => (by cases ha)⟩, by simp [regs, lineItems, wrun, Item.ops], rfl, rfl⟩
  | reg addr data =>
    obtain ⟨l1, l2⟩ := hl (addr, data) (by simp [regs])
    dsimp only at l1 l2
    intro w'
    obtain ⟨i1, i2, i3, i4, i5⟩ := page_step h addr
    obtain ⟨j1, j2, j3, j4, j5, j6, j7, j8⟩ := addr_step i1 i5 l1
    have e : w' = (wrun A vis (wrun A vis w ((pageItems A g addr).flatMap Item.ops)) ((addrItems A g addr).flatMap Item.ops)).op A vis (.byte data) := by
      simp only [w', lineItems, List.flatMap_append, wrun_append]
      rfl
    have iv := i1.vis
    generalize wrun A vis (wrun A vis w ((pageItems A g addr).flatMap Item.ops)) ((addrItems A g addr).flatMap Item.ops) = v at *
    generalize wrun A vis w ((pageItems A g addr).flatMap Item.ops) = u at *
    rw [reg_vis (by rw [j2]; exact iv) j4 j5 j6 (by rw [j7]; exact l2)] at e
    have hadr : (g.line A (.reg addr data)).addr = some (addr + 1) ∧ (g.line A (.reg addr data)).page = some (addr / 256) := by
      have hpg : addr / 256 % 256 = addr / 256 := by omega
      rw [hpg] at i5
      simp only [Gen.line, Gen.setAddr]
      by_cases ha : (g.setPage A addr).addr = some addr
      · simp [ha, i5]
      · simp [ha, i5]
    rw [e]
    refine ⟨⟨by dsimp only; rw [j2]; exact iv, ?_, ?_⟩, ?_, j2.trans i3, j3.trans i4⟩
    · intro p hp
      rw [hadr.2] at hp
      have hp := Option.some.inj hp
      exact j8.trans hp
    · intro a ha
      rw [hadr.1] at ha
      have ha := Option.some.inj ha
      subst ha
      refine ⟨j4, addr / 256, hadr.2, ?_⟩
      dsimp only
      by_cases hc : addr % 256 = 255
      · left; omega
      · right
        refine ⟨by omega, j5, j6, ?_⟩
        rw [j7]; omega
    · dsimp only
      rw [j1, i2, j7, j8, show addr / 256 * 256 + addr % 256 = addr by omega]
      rfl

theorem lines_vis {ls : List Line} : ∀ {g : Gen} {w : World}, GInv A vis g w → (∀ p ∈ regs ls, p.1 < 65536 ∧ p.1 % 256 ≠ 1) →
    let w' := wrun A vis w ((linesItems A g ls).flatMap Item.ops)
    w'.log = w.log ++ regs ls ∧ w'.mux = w.mux ∧ w'.pend = w.pend := by
  induction ls with
  | nil => intro g w h _; exact ⟨by simp [linesItems, wrun, regs], rfl, rfl⟩
  | cons l ls ih =>
    intro g w h hl
    rw [regs_cons] at hl
    obtain ⟨i1, i2, i3, i4⟩ := line_vis h (l := l) (fun p hp => hl p (by simp [hp]))
    obtain ⟨k1, k2, k3⟩ := ih i1 (fun p hp => hl p (by simp [hp]))
    rw [linesItems, List.flatMap_append, wrun_append]
    refine ⟨?_, k2.trans i3, k3.trans i4⟩
    rw [regs_cons, ← List.append_assoc, ← i2]
    exact k1

/-- operations that begin with a start for the device: nothing happens to one that is not connected -/
theorem hid_run {os : List Op} : ∀ {w : World}, vis w.mux = false → w.tgt = some A → (∀ o ∈ os, o = .start A ∨ ∃ b, o = .byte b) →
    (wrun A vis w os).log = w.log ∧ (wrun A vis w os).mux = w.mux ∧ (wrun A vis w os).pend = w.pend := by
  induction os with
  | nil => intro w _ _ _; exact ⟨rfl, rfl, rfl⟩
  | cons o os ih =>
    intro w h h1 h2
    have hn : (w.op A vis o).log = w.log ∧ (w.op A vis o).mux = w.mux ∧ (w.op A vis o).pend = w.pend ∧ (w.op A vis o).tgt = some A := by
      rcases h2 o (by simp) with h2 | ⟨b, h2⟩ <;> subst h2 <;> simp [World.op, h, h1]
    obtain ⟨n1, n2, n3, n4⟩ := hn
    obtain ⟨k1, k2, k3⟩ := ih (w := w.op A vis o) (by rw [n2]; exact h) n4 (fun x hx => h2 x (by simp [hx]))
    exact ⟨k1.trans n1, k2.trans n2, k3.trans n3⟩

theorem line_ops (g : Gen) (l : Line) : ∀ o ∈ (lineItems A g l).flatMap Item.ops, o = .start A ∨ ∃ b, o = .byte b := by
  intro o ho
  obtain ⟨i, hi, ho⟩ := List.mem_flatMap.1 ho
  cases l with
  | comment => cases hi
  | delay => simp only [lineItems, List.mem_singleton] at hi; subst hi; cases ho
  | reg addr data =>
    have : i = .addr A ∨ ∃ b, i = .data b := by
      simp only [lineItems, List.mem_append] at hi
      rcases hi with (hi | hi) | hi
      · unfold pageItems at hi
        split at hi
        · simp only [List.mem_cons, List.not_mem_nil, or_false] at hi
          rcases hi with hi | hi | hi <;> simp [hi]
        · cases hi
      · unfold addrItems at hi
        split at hi
        · simp only [List.mem_cons, List.not_mem_nil, or_false] at hi
          rcases hi with hi | hi <;> simp [hi]
        · cases hi
      · rw [List.mem_singleton] at hi; simp [hi]
    rcases this with this | ⟨b, this⟩ <;> subst this <;> simp only [Item.ops, List.mem_singleton] at ho <;> simp [ho]

theorem lines_ops (ls : List Line) : ∀ (g : Gen), ∀ o ∈ (linesItems A g ls).flatMap Item.ops, o = .start A ∨ ∃ b, o = .byte b := by
  induction ls with
  | nil => intro g o ho; cases ho
  | cons l ls ih =>
    intro g o ho
    rw [linesItems, List.flatMap_append, List.mem_append] at ho
    rcases ho with ho | ho
    · exact line_ops g l o ho
    · exact ih _ o ho

theorem lines_first (ls : List Line) : ∀ (g : Gen), g.page = none → (linesItems A g ls).flatMap Item.ops = [] ∨
    ∃ os, (linesItems A g ls).flatMap Item.ops = .start A :: os := by
  induction ls with
  | nil => intro g _; exact Or.inl rfl
  | cons l ls ih =>
    intro g hg
    cases l with
    | comment =>
      rcases ih g hg with h | h
      · left; simpa [linesItems, lineItems, Gen.line] using h
      · right; simpa [linesItems, lineItems, Gen.line] using h
    | delay =>
      rcases ih (g.line A .delay) hg with h | h
      · left; simpa [linesItems, lineItems, Item.ops] using h
      · right; simpa [linesItems, lineItems, Item.ops] using h
    | reg addr data =>
      right
      simp [linesItems, lineItems, pageItems, hg, Item.ops]

theorem lines_hid {ls : List Line} {w : World} (h : vis w.mux = false) :
    let w' := wrun A vis w ((linesItems A {} ls).flatMap Item.ops)
    w'.log = w.log ∧ w'.mux = w.mux ∧ w'.pend = w.pend := by
  have hall := lines_ops (A := A) ls {}
  rcases lines_first (A := A) ls {} rfl with h1 | ⟨os, h1⟩
  · rw [h1]; exact ⟨rfl, rfl, rfl⟩
  · rw [h1] at hall ⊢
    have e : World.op A vis w (.start A) = { w with tgt := some A } := by simp [World.op, h]
    have := hid_run (A := A) (vis := vis) (os := os) (w := { w with tgt := some A }) h rfl (fun o ho => hall o (by simp [ho]))
    rw [← e] at this
    obtain ⟨t1, t2, t3⟩ := this
    exact ⟨t1.trans (by rw [e]), t2.trans (by rw [e]), t3.trans (by rw [e])⟩

theorem mux_run {ps : List (Nat × Nat)} : ∀ {w : World}, w.pend = w.mux → (∀ p ∈ ps, p.1 ≠ A) →
    let w' := wrun A vis w ((ps.flatMap muxItems).flatMap Item.ops)
    w'.log = w.log ∧ w'.mux = setMux w.mux ps ∧ w'.pend = w'.mux := by
  induction ps with
  | nil => intro w h _; exact ⟨rfl, rfl, h⟩
  | cons p ps ih =>
    intro w h hp
    obtain ⟨a, v⟩ := p
    have ha : a ≠ A := hp (a, v) (by simp)
    have hn : let w1 := wrun A vis w [.start a, .byte v, .stop]
        w1.log = w.log ∧ w1.mux = (fun x => if x = a then v else w.mux x) ∧ w1.pend = w1.mux := by
      cases hv : vis w.mux <;> simp [wrun, World.op, hv, ha, h]
    obtain ⟨n1, n2, n3⟩ := hn
    obtain ⟨k1, k2, k3⟩ := ih n3 (fun q hq => hp q (by simp [hq]))
    rw [List.flatMap_cons, List.flatMap_append, wrun_append]
    show (wrun A vis (wrun A vis w [.start a, .byte v, .stop]) _).log = _ ∧ _
    refine ⟨k1.trans n1, ?_, k3⟩
    rw [setMux, ← n2]
    exact k2

theorem sec_run {s : Section} (hs : s.Ok A) {w : World} (h : w.pend = w.mux) :
    let w' := wrun A vis w ((secItems A s).flatMap Item.ops)
    w'.log = w.log ++ (if vis (setMux w.mux s.mux) then regs s.lines else []) ∧ w'.mux = setMux w.mux s.mux ∧ w'.pend = w'.mux := by
  obtain ⟨-, h2, h3⟩ := hs
  obtain ⟨m1, m2, m3⟩ := mux_run (A := A) (vis := vis) h (fun p hp => (h2 p hp).2.1)
  rw [secItems, List.flatMap_append, wrun_append]
  generalize wrun A vis w ((s.mux.flatMap muxItems).flatMap Item.ops) = v at *
  cases hv : vis v.mux with
  | true =>
    obtain ⟨k1, k2, k3⟩ := lines_vis (A := A) (vis := vis) (ls := s.lines) (g := {}) (w := v) ⟨hv, fun p hp => (by cases hp), fun a ha => (by cases ha)⟩
      (fun p hp => ⟨(h3 p hp).1, (h3 p hp).2.1⟩)
    rw [m2] at hv
    refine ⟨?_, k2.trans m2, k3.trans (m3.trans k2.symm)⟩
    rw [k1, m1, hv]
    rfl
  | false =>
    obtain ⟨k1, k2, k3⟩ := lines_hid (A := A) (vis := vis) (ls := s.lines) hv
    rw [m2] at hv
    refine ⟨?_, k2.trans m2, k3.trans (m3.trans k2.symm)⟩
    rw [k1, m1, hv]
    simp

theorem secs_run {ss : List Section} : ∀ {w : World}, (∀ s ∈ ss, s.Ok A) → w.pend = w.mux →
    (wrun A vis w ((ss.flatMap (secItems A)).flatMap Item.ops)).log = w.log ++ meant vis w.mux ss := by
  induction ss with
  | nil => intro w _ _; simp [wrun, meant]
  | cons s ss ih =>
    intro w hs h
    obtain ⟨k1, k2, k3⟩ := sec_run (vis := vis) (hs s (by simp)) h
    rw [List.flatMap_cons, List.flatMap_append, wrun_append, ih (fun q hq => hs q (by simp [hq])) k3, k1, k2, meant, List.append_assoc]

end

end Corundum.I2cInit
