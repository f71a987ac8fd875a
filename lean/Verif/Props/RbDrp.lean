import Verif.Model.RbDrp
/-!
C152: each access asked for in the registers is done once on the port in the other clock domain.
-/
namespace Corundum.RbDrp

/-- What software and the port see: address and data last written; accesses asked for, by writes of the control register with the enable
bit; accesses seen by the port, in edges of its clock with `drp_en`; answers of the port. -/
structure Mon where
  addr : Nat := 0
  di : Nat := 0
  reqs : List Acc := []
  accs : List Acc := []
  answers : List Nat := []
deriving DecidableEq, Repr

def Mon.soft (m : Mon) : Option Wr → Mon
  | some (.ctrl true we) => { m with reqs := m.reqs ++ [⟨m.addr, m.di, we⟩] }
  | some (.addr a) => { m with addr := a }
  | some (.di x) => { m with di := x }
  | _ => m

def Mon.port (m : Mon) (d : Dr) : Option (Option Nat) → Mon
  | some rdy => { m with
      accs := if d.en then m.accs ++ [d.acc] else m.accs
      answers := m.answers ++ rdy.toList }
  | none => m

def next (x : St × Mon) (e : Ev) : St × Mon := (x.1.step e, (x.2.soft e.clk).port x.1.dr e.drp)

def run : St × Mon → List Ev → St × Mon
  | x, [] => x
  | x, e :: es => run (next x e) es

/-- Software writes the registers only while the enable bit of the control register reads 0; the port answers accesses it has seen and not yet
answered. -/
def Fair : St × Mon → List Ev → Prop
  | _, [] => True
  | x, e :: es =>
    ((∃ w, e.clk = some w ∧ w ≠ .none) → x.1.rb.en = false) ∧
    ((∃ v, e.drp = some (some v)) → x.2.answers.length < x.2.accs.length) ∧ Fair (next x e) es

/-- what holds in each pair of states -/
def Ctl (r : Rb) (d : Dr) (m : Mon) : Prop :=
  match r.st, d.st with
  | .idle, .idle => r.flag = false ∧ d.s1 = false ∧ d.s2 = false ∧ d.flag = false ∧ r.s1 = false ∧ r.s2 = false ∧ d.en = false ∧
      m.answers.length = m.accs.length ∧ r.rdata = m.answers.getLastD 0 ∧ m.reqs = m.accs ++ (if r.en then [r.ctrl] else [])
  | .wait, .idle => r.flag = true ∧ (d.s2 = true → d.s1 = true) ∧ d.flag = false ∧ r.s1 = false ∧ r.s2 = false ∧ d.en = false ∧ r.en = true ∧
      m.answers.length = m.accs.length ∧ m.reqs = m.accs ++ [r.acc]
  | .wait, .wait => r.flag = true ∧ d.s1 = true ∧ d.s2 = true ∧ d.flag = false ∧ r.s1 = false ∧ r.s2 = false ∧ r.en = true ∧
      (d.en = true → d.valid = false) ∧ m.reqs = m.accs ++ (if d.en then [d.acc] else []) ∧
      (d.valid = true → m.answers.length = m.accs.length ∧ d.rdata = m.answers.getLastD 0) ∧
      (d.valid = false → m.answers.length + 1 = m.reqs.length)
  | .wait, .done => r.flag = true ∧ d.s1 = true ∧ d.s2 = true ∧ d.flag = true ∧ (r.s2 = true → r.s1 = true) ∧ r.en = true ∧ d.en = false ∧
      m.reqs = m.accs ∧ m.answers.length = m.accs.length ∧ d.rdata = m.answers.getLastD 0
  | .done, .done => r.flag = false ∧ (d.s1 = true → d.s2 = true) ∧ d.flag = true ∧ r.s1 = true ∧ r.s2 = true ∧ r.en = true ∧ d.en = false ∧
      m.reqs = m.accs ∧ m.answers.length = m.accs.length ∧ r.rdata = m.answers.getLastD 0
  | .done, .idle => r.flag = false ∧ d.s1 = false ∧ d.s2 = false ∧ d.flag = false ∧ (r.s1 = true → r.s2 = true) ∧ r.en = true ∧ d.en = false ∧
      m.reqs = m.accs ∧ m.answers.length = m.accs.length ∧ r.rdata = m.answers.getLastD 0
  | _, _ => False

def Inv (x : St × Mon) : Prop := Ctl x.1.rb x.1.dr x.2 ∧ x.1.rb.ctrl.addr = x.2.addr ∧ x.1.rb.ctrl.di = x.2.di

theorem Inv_step (x : St × Mon) (e : Ev) (h : Inv x) (h1 : (∃ w, e.clk = some w ∧ w ≠ .none) → x.1.rb.en = false)
    (h2 : (∃ v, e.drp = some (some v)) → x.2.answers.length < x.2.accs.length) : Inv (next x e) := by
  obtain ⟨⟨⟨rst, rf, r1, r2, ren, ⟨ca, cd, cw⟩, racc, rd⟩, ⟨dst, df, d1, d2, den, dacc, dd, dv⟩⟩, ⟨ma, md, reqs, accs, ans⟩⟩ := x
  obtain ⟨clk, drp⟩ := e
  obtain ⟨hc, ha, hd⟩ := h
  simp only at ha hd h1 h2
  subst ha hd
  cases rst <;> cases dst <;> simp only [Ctl] at hc
  all_goals try exact hc.elim
  all_goals
    rcases clk with _ | w
    rotate_left
    rcases w with _ | ⟨_ | _, we⟩ | a | a
  all_goals
    rcases drp with _ | _ | v
  all_goals
    simp [Inv, Ctl, next, St.step, Rb.edge, Rb.hand, Rb.write, Dr.edge, Mon.soft, Mon.port] at *
  all_goals grind

theorem Inv_run : ∀ (es : List Ev) (x : St × Mon), Inv x → Fair x es → Inv (run x es)
  | [], _, h, _ => h
  | e :: es, x, h, ⟨f1, f2, f3⟩ => Inv_run es _ (Inv_step x e h f1 f2) f3

theorem Inv_init : Inv ({}, {}) := by simp [Inv, Ctl]

/-- C152. For any relation of the two clocks: the accesses the port sees are those asked for, in order, each once, with the address, data and
direction written; at most the last one is still to come. -/
theorem C152_once (es : List Ev) (h : Fair ({}, {}) es) :
    (run ({}, {}) es).2.accs <+: (run ({}, {}) es).2.reqs ∧
      (run ({}, {}) es).2.reqs.length ≤ (run ({}, {}) es).2.accs.length + 1 := by
  have hI := (Inv_run es _ Inv_init h).1
  generalize run ({}, {}) es = x at *
  unfold Ctl at hI
  split at hI
  · obtain ⟨_, _, _, _, _, _, _, _, _, hq⟩ := hI
    rw [hq]
    refine ⟨List.prefix_append _ _, ?_⟩
    cases x.1.rb.en <;> simp
  · obtain ⟨_, _, _, _, _, _, _, _, hq⟩ := hI
    rw [hq]
    exact ⟨List.prefix_append _ _, by simp⟩
  · obtain ⟨_, _, _, _, _, _, _, _, hq, _⟩ := hI
    rw [hq]
    refine ⟨List.prefix_append _ _, ?_⟩
    cases x.1.dr.en <;> simp
  · obtain ⟨_, _, _, _, _, _, _, hq, _⟩ := hI
    rw [hq]
    exact ⟨List.prefix_refl _, by simp⟩
  · obtain ⟨_, _, _, _, _, _, _, hq, _⟩ := hI
    rw [hq]
    exact ⟨List.prefix_refl _, by simp⟩
  · obtain ⟨_, _, _, _, _, _, _, hq, _⟩ := hI
    rw [hq]
    exact ⟨List.prefix_refl _, by simp⟩
  · exact hI.elim

/-- C152. When the enable bit reads 0 every access asked for has been done and answered, and the data register holds the last answer. -/
theorem C152_result (es : List Ev) (h : Fair ({}, {}) es) (hen : (run ({}, {}) es).1.rb.en = false) :
    (run ({}, {}) es).2.accs = (run ({}, {}) es).2.reqs ∧
      (run ({}, {}) es).2.answers.length = (run ({}, {}) es).2.reqs.length ∧
      (run ({}, {}) es).1.rb.rdata = (run ({}, {}) es).2.answers.getLastD 0 := by
  have hI := (Inv_run es _ Inv_init h).1
  generalize run ({}, {}) es = x at *
  unfold Ctl at hI
  rw [hen] at hI
  split at hI
  · obtain ⟨_, _, _, _, _, _, _, hl, hr, hq⟩ := hI
    simp only [Bool.false_eq_true, if_false, List.append_nil] at hq
    exact ⟨hq.symm, by rw [hq]; exact hl, hr⟩
  · exact absurd hI.2.2.2.2.2.2.1 (by simp)
  · exact absurd hI.2.2.2.2.2.2.1 (by simp)
  · exact absurd hI.2.2.2.2.2.1 (by simp)
  · exact absurd hI.2.2.2.2.2.1 (by simp)
  · exact absurd hI.2.2.2.2.2.1 (by simp)
  · exact hI.elim

/-- steps to the end of an access -/
def rank (s : St) : Nat :=
  match s.rb.st, s.dr.st with
  | .idle, _ => if s.rb.en then 18 else 0
  | .wait, .idle => if s.dr.s2 then 15 else if s.dr.s1 then 16 else 17
  | .wait, .wait => if s.dr.valid then 12 else if s.dr.en then 14 else 13
  | .wait, .done => if s.rb.s2 then 9 else if s.rb.s1 then 10 else 11
  | .done, .done => if !s.dr.s2 then 5 else if !s.dr.s1 then 6 else 7
  | .done, _ => if !s.rb.s2 then 2 else if !s.rb.s1 then 3 else 4

/-- the edge that the next step takes -/
def good (n : Nat) (e : Ev) : Prop :=
  if n = 13 then ∃ v, e.drp = some (some v)
  else if n = 18 ∨ (9 ≤ n ∧ n ≤ 11) ∨ n ≤ 4 then e.clk.isSome = true else e.drp.isSome = true

theorem rank_step (x : St × Mon) (e : Ev) (h : Inv x) (h1 : e.clk = none ∨ e.clk = some .none)
    (h2 : (∃ v, e.drp = some (some v)) → x.2.answers.length < x.2.accs.length) :
    rank (next x e).1 ≤ rank x.1 ∧ (0 < rank x.1 → good (rank x.1) e → rank (next x e).1 < rank x.1) := by
  obtain ⟨⟨⟨rst, rf, r1, r2, ren, ⟨ca, cd, cw⟩, racc, rd⟩, ⟨dst, df, d1, d2, den, dacc, dd, dv⟩⟩, ⟨ma, md, reqs, accs, ans⟩⟩ := x
  obtain ⟨clk, drp⟩ := e
  obtain ⟨hc, ha, hd⟩ := h
  simp only at ha hd h1 h2
  subst ha hd
  cases rst <;> cases dst <;> simp only [Ctl] at hc
  all_goals try exact hc.elim
  all_goals
    rcases h1 with rfl | rfl
  all_goals
    rcases drp with _ | _ | v
  all_goals
    simp [rank, good, next, St.step, Rb.edge, Rb.hand, Rb.write, Dr.edge] at *
  all_goals grind

/-- Rounds of edges without register writes. In each there is an edge of either clock, and if the port has an access to answer it answers. -/
def Rounds : St × Mon → List (List Ev) → Prop
  | _, [] => True
  | x, r :: rs => Fair x r ∧ (∀ e ∈ r, e.clk = none ∨ e.clk = some .none) ∧ (∃ e ∈ r, e.clk.isSome = true) ∧
      (∃ e ∈ r, e.drp.isSome = true) ∧ (x.2.answers.length < x.2.accs.length → ∃ e ∈ r, ∃ v, e.drp = some (some v)) ∧ Rounds (run x r) rs

theorem rank_run : ∀ (es : List Ev) (x : St × Mon), Inv x → Fair x es → (∀ e ∈ es, e.clk = none ∨ e.clk = some .none) →
    rank (run x es).1 ≤ rank x.1 ∧ (0 < rank x.1 → (∃ e ∈ es, good (rank x.1) e) → rank (run x es).1 < rank x.1)
  | [], _, _, _, _ => ⟨Nat.le_refl _, fun _ ⟨_, h, _⟩ => by cases h⟩
  | e :: es, x, h, ⟨f1, f2, f3⟩, hq => by
    obtain ⟨a1, a2⟩ := rank_step x e h (hq e (List.mem_cons_self ..)) f2
    obtain ⟨b1, b2⟩ := rank_run es (next x e) (Inv_step x e h f1 f2) f3 (fun i hi => hq i (List.mem_cons_of_mem _ hi))
    refine ⟨Nat.le_trans b1 a1, fun h0 ⟨i, hi, hg⟩ => ?_⟩
    show rank (run (next x e) es).1 < rank x.1
    rcases List.mem_cons.1 hi with rfl | hi
    · exact Nat.lt_of_le_of_lt b1 (a2 h0 hg)
    · rcases Nat.lt_or_ge (rank (next x e).1) (rank x.1) with hlt | hge
      · exact Nat.lt_of_le_of_lt b1 hlt
      · have he : rank (next x e).1 = rank x.1 := Nat.le_antisymm a1 hge
        rw [← he]
        exact b2 (by rw [he]; exact h0) ⟨i, hi, by rw [he]; exact hg⟩

theorem rank_round (r : List Ev) (x : St × Mon) (h : Inv x) (hf : Fair x r) (hq : ∀ e ∈ r, e.clk = none ∨ e.clk = some .none)
    (h1 : ∃ e ∈ r, e.clk.isSome = true) (h2 : ∃ e ∈ r, e.drp.isSome = true)
    (h3 : x.2.answers.length < x.2.accs.length → ∃ e ∈ r, ∃ v, e.drp = some (some v)) : rank (run x r).1 ≤ rank x.1 - 1 := by
  obtain ⟨a1, a2⟩ := rank_run r x h hf hq
  by_cases h0 : 0 < rank x.1
  · have hg : ∃ e ∈ r, good (rank x.1) e := by
      unfold good
      by_cases h13 : rank x.1 = 13
      · simp only [if_pos h13]
        apply h3
        obtain ⟨⟨⟨rst, rf, r1, r2, ren, ctrl, racc, rd⟩, ⟨dst, df, d1, d2, den, dacc, dd, dv⟩⟩, m⟩ := x
        have hc := h.1
        cases rst <;> cases dst <;> simp only [Ctl, rank] at hc h13
        all_goals first | exact hc.elim | grind
      · simp only [if_neg h13]
        split
        · exact h1
        · exact h2
    have := a2 h0 hg
    omega
  · omega

/-- C152. An access ends: after any history and 18 rounds, each with an edge of either clock and the answer of the port if it has one to give, the
enable bit reads 0. -/
theorem C152_progress (es : List Ev) (h : Fair ({}, {}) es) (rs : List (List Ev)) (hr : Rounds (run ({}, {}) es) rs) (hn : 18 ≤ rs.length) :
    (rs.foldl run (run ({}, {}) es)).1.rb.en = false := by
  have key : ∀ (rs : List (List Ev)) (x : St × Mon), Inv x → Rounds x rs →
      Inv (rs.foldl run x) ∧ rank (rs.foldl run x).1 ≤ rank x.1 - rs.length := by
    intro rs
    induction rs with
    | nil => exact fun x h _ => ⟨h, Nat.le_refl _⟩
    | cons r rs ih =>
      intro x h ⟨f, q, k1, k2, k3, hrs⟩
      obtain ⟨i1, i2⟩ := ih (run x r) (Inv_run r x h f) hrs
      have := rank_round r x h f q k1 k2 k3
      refine ⟨i1, ?_⟩
      rw [List.foldl_cons, List.length_cons]
      omega
  obtain ⟨k1, k2⟩ := key rs _ (Inv_run es _ Inv_init h) hr
  have hle : ∀ s, rank s ≤ 18 := by
    intro s
    unfold rank
    split <;> (repeat' split) <;> omega
  have h0 : rank (rs.foldl run (run ({}, {}) es)).1 = 0 := by
    have := hle (run ({}, {}) es).1
    omega
  generalize rs.foldl run (run ({}, {}) es) = x at *
  obtain ⟨⟨⟨rst, rf, r1, r2, ren, ctrl, racc, rd⟩, ⟨dst, df, d1, d2, den, dacc, dd, dv⟩⟩, m⟩ := x
  have hc := k1.1
  cases rst <;> cases dst <;> simp only [Ctl, rank] at hc h0 ⊢
  all_goals grind

/-- a write of address, data and control, the access, and a second one; the DRP clock is at first slower -/
def demo : List Ev :=
  [⟨some (.addr 5), none⟩, ⟨some (.di 7), some none⟩, ⟨some (.ctrl true true), none⟩, ⟨some .none, none⟩, ⟨some .none, some none⟩,
   ⟨none, some none⟩, ⟨some .none, some none⟩, ⟨some .none, some none⟩, ⟨none, some (some 9)⟩, ⟨none, some none⟩, ⟨some .none, none⟩,
   ⟨some .none, none⟩, ⟨some .none, none⟩]

/-- until the control register reads 0 -/
def demo' : List Ev :=
  demo ++ [⟨none, some none⟩, ⟨none, some none⟩, ⟨none, some none⟩, ⟨some .none, none⟩, ⟨some .none, none⟩, ⟨some .none, none⟩]

/-- a case: the access is done, and the data is there -/
example : Fair ({}, {}) demo' ∧ (run ({}, {}) demo).1.rb.en = true ∧ (run ({}, {}) demo').1.rb.en = false ∧
    (run ({}, {}) demo').2.accs = [⟨5, 7, true⟩] ∧ (run ({}, {}) demo').1.rb.rdata = 9 := by
  refine ⟨?_, by decide +kernel, by decide +kernel, by decide +kernel, by decide +kernel⟩
  simp [demo', demo, Fair, next, St.step, Rb.edge, Rb.hand, Rb.write, Dr.edge, Mon.soft, Mon.port]

/-- C152. Without that care: an access asked for while another is going on is acknowledged and lost. Here the control register is written a second time
before the enable bit reads 0; it then reads 0 with both clocks running on, and the port has seen one access for two. -/
theorem C152_busy_write_counterexample :
    ∃ es : List Ev, (run ({}, {}) es).1.rb.en = false ∧ (run ({}, {}) es).1.rb.st = .idle ∧ (run ({}, {}) es).1.dr.st = .idle ∧
      (run ({}, {}) es).2.reqs = [⟨5, 7, true⟩, ⟨5, 7, false⟩] ∧ (run ({}, {}) es).2.accs = [⟨5, 7, true⟩] :=
  ⟨demo ++ ⟨some (.ctrl true false), none⟩ :: demo'.drop 13, by decide +kernel⟩

end Corundum.RbDrp
