import Verif.Proof.PtpTd

/-! Time distribution: when which message takes effect. -/
namespace Corundum.PtpTd

theorem tick_ok {c : Clk} (h : c.Ok) : c.tick.Ok := by
  obtain ⟨h1, h2, h3, h4, h5, h6, h7, h8⟩ := h
  have f : c.frac.pNs = c.pNs ∧ c.frac.pFns = c.pFns ∧ c.frac.num = c.num ∧ c.frac.denom = c.denom ∧ c.frac.cnt < 65536 ∧
      c.frac.fns < 258 * 2 ^ 32 ∧ c.frac.ns = c.ns := by
    unfold Clk.frac
    by_cases a : c.denom = 0
    · simp only [a, ne_eq, not_true_eq_false, if_false]
      refine ⟨trivial, trivial, trivial, trivial, h5, ?_, trivial⟩
      omega
    · simp only [a, ne_eq, not_false_eq_true, if_true]
      by_cases b : c.cnt > 0
      · simp only [b, if_true]
        exact ⟨trivial, trivial, trivial, trivial, by omega, by omega, trivial⟩
      · simp only [b, if_false]
        exact ⟨trivial, trivial, trivial, trivial, by omega, by omega, trivial⟩
  obtain ⟨f1, f2, f3, f4, f5, f6, f7⟩ := f
  unfold Clk.tick
  generalize c.frac = d at *
  dsimp only
  have g : d.fns / 2 ^ 32 < 258 := by omega
  split
  · exact ⟨by rw [← f1] at h1; exact h1, by rw [← f2] at h2; exact h2, by rw [← f3] at h3; exact h3, by rw [← f4] at h4; exact h4, f5, Nat.mod_lt _ (by decide), Nat.mod_lt _ (by decide), by dsimp only at *; omega⟩
  · exact ⟨by rw [← f1] at h1; exact h1, by rw [← f2] at h2; exact h2, by rw [← f3] at h3; exact h3, by rw [← f4] at h4; exact h4, f5, Nat.mod_lt _ (by decide), Nat.mod_lt _ (by decide), by dsimp only at *; omega⟩

theorem ops_keep (os : List Op) : ∀ x : Src, (os.foldl Src.op x).msg = x.msg ∧ (os.foldl Src.op x).word = x.word ∧ (os.foldl Src.op x).bit = x.bit ∧
    (os.foldl Src.op x).data = x.data ∧ (os.foldl Src.op x).idx = x.idx ∧ (os.foldl Src.op x).delay = x.delay ∧ (os.foldl Src.op x).hist = x.hist := by
  induction os with
  | nil => intro x; exact ⟨rfl, rfl, rfl, rfl, rfl, rfl, rfl⟩
  | cons o os ih =>
    intro x
    have := ih (x.op o)
    have e : (x.op o).msg = x.msg ∧ (x.op o).word = x.word ∧ (x.op o).bit = x.bit ∧ (x.op o).data = x.data ∧ (x.op o).idx = x.idx ∧
        (x.op o).delay = x.delay ∧ (x.op o).hist = x.hist := by cases o <;> exact ⟨rfl, rfl, rfl, rfl, rfl, rfl, rfl⟩
    obtain ⟨e1, e2, e3, e4, e5, e6, e7⟩ := e
    rw [e1, e2, e3, e4, e5, e6, e7] at this
    exact this

theorem ops_ok (os : List Op) : ∀ x : Src, (∀ o ∈ os, o.Ok) → x.clk.Ok → (os.foldl Src.op x).clk.Ok := by
  induction os with
  | nil => intro x _ h; exact h
  | cons o os ih =>
    intro x ho h
    refine ih _ (fun o' h' => ho o' (List.mem_cons_of_mem _ h')) ?_
    have hk := ho o List.mem_cons_self
    obtain ⟨h1, h2, h3, h4, h5, h6, h7, h8⟩ := h
    cases o with
    | period ns fns => exact ⟨hk, Nat.mod_lt _ (by decide), h3, h4, h5, h6, h7, h8⟩
    | drift num denom => exact ⟨h1, h2, hk.1, hk.2, h5, h6, h7, h8⟩
    | tod s ns fns => exact ⟨h1, h2, h3, h4, h5, hk.2, h7, hk.1⟩
    | rel ns fns => exact ⟨h1, h2, h3, h4, h5, hk.2, hk.1, h8⟩

theorem message_keep (x : Src) : x.message.clk = x.clk ∧ x.message.word = x.word ∧ x.message.bit = x.bit ∧ x.message.data = x.data ∧ x.message.hist = x.hist := by
  unfold Src.message; split <;> exact ⟨rfl, rfl, rfl, rfl, rfl⟩

theorem serialize_keep (x : Src) : x.serialize.clk = x.clk ∧ x.serialize.idx = x.idx ∧ x.serialize.delay = x.delay ∧ x.serialize.hist = x.hist := by
  unfold Src.serialize; split
  · split <;> exact ⟨rfl, rfl, rfl, rfl⟩
  · exact ⟨rfl, rfl, rfl, rfl⟩

section
variable {td : Nat} {ins : Nat → List Op} {x0 : Src}

/-- the source in edge `n + 1`, when messages are built -/
def mid (td : Nat) (ins : Nat → List Op) (x0 : Src) (n : Nat) : Src :=
  let x := (ins n).foldl Src.op (srcRun td ins x0 n)
  let h := x.hist ++ [(x.clk.s, x.clk.ns, x.clk.rel, x.clk.fns)]
  { x with hist := h.drop (h.length - (14 * 17 + td)), clk := x.clk.tick }

theorem srcRun_succ (n : Nat) : srcRun td ins x0 (n + 1) = (mid td ins x0 n).message.serialize := rfl

theorem mid_clk (n : Nat) : (srcRun td ins x0 (n + 1)).clk = (mid td ins x0 n).clk := by
  rw [srcRun_succ, (serialize_keep _).1, (message_keep _).1]

theorem mid_keep (n : Nat) : (mid td ins x0 n).msg = (srcRun td ins x0 n).msg ∧ (mid td ins x0 n).word = (srcRun td ins x0 n).word ∧
    (mid td ins x0 n).bit = (srcRun td ins x0 n).bit ∧ (mid td ins x0 n).data = (srcRun td ins x0 n).data ∧
    (mid td ins x0 n).idx = (srcRun td ins x0 n).idx ∧ (mid td ins x0 n).delay = (srcRun td ins x0 n).delay := by
  obtain ⟨h1, h2, h3, h4, h5, h6, -⟩ := ops_keep (ins n) (srcRun td ins x0 n)
  exact ⟨h1, h2, h3, h4, h5, h6⟩

variable (hi : x0.idx < 3) (ho : ∀ n, ∀ o ∈ ins n, o.Ok) (hc : x0.clk.Ok)
include hi ho hc

omit hi in
theorem src_ok (n : Nat) : (srcRun td ins x0 n).clk.Ok := by
  induction n with
  | zero => exact hc
  | succ n ih =>
    rw [mid_clk]
    exact tick_ok (ops_ok _ _ (ho n) ih)

omit ho hc in
theorem src_phase (n : Nat) : (n ≤ x0.delay → (srcRun td ins x0 n).delay = x0.delay - n ∧ (srcRun td ins x0 n).idx = x0.idx) ∧
    ∀ κ j, n = x0.delay + 1 + 256 * κ + j → j < 256 → (srcRun td ins x0 n).delay = 255 - j ∧ (srcRun td ins x0 n).idx = (x0.idx + κ + 1) % 3 := by
  induction n with
  | zero => exact ⟨fun _ => ⟨rfl, rfl⟩, fun κ j h => by omega⟩
  | succ n ih =>
    obtain ⟨ih1, ih2⟩ := ih
    obtain ⟨-, -, -, -, m5, m6⟩ := mid_keep (td := td) (ins := ins) (x0 := x0) n
    have e1 : (srcRun td ins x0 (n + 1)).delay = (mid td ins x0 n).message.delay := by rw [srcRun_succ, (serialize_keep _).2.2.1]
    have e2 : (srcRun td ins x0 (n + 1)).idx = (mid td ins x0 n).message.idx := by rw [srcRun_succ, (serialize_keep _).2.1]
    rw [e1, e2]
    have pos : ∀ {i}, (mid td ins x0 n).delay = 0 → (mid td ins x0 n).idx = i → i < 3 →
        (mid td ins x0 n).message.delay = 255 ∧ (mid td ins x0 n).message.idx = (i + 1) % 3 := by
      intro i h1 h2 h3
      unfold Src.message
      rw [if_pos h1]
      refine ⟨rfl, ?_⟩
      dsimp only
      rw [h2]
      rcases (show i = 0 ∨ i = 1 ∨ i = 2 by omega) with h | h | h <;> subst h <;> rfl
    have neg : ∀ {d i}, (mid td ins x0 n).delay = d + 1 → (mid td ins x0 n).idx = i →
        (mid td ins x0 n).message.delay = d ∧ (mid td ins x0 n).message.idx = i := by
      intro d i h1 h2
      unfold Src.message
      rw [if_neg (by omega)]
      exact ⟨by dsimp only; omega, h2⟩
    constructor
    · intro h
      obtain ⟨a1, a2⟩ := ih1 (by omega)
      obtain ⟨b1, b2⟩ := neg (d := x0.delay - (n + 1)) (by omega) (m5.trans a2)
      exact ⟨b1, b2⟩
    · intro κ j h hj
      cases j with
      | zero =>
        have : (mid td ins x0 n).delay = 0 ∧ (mid td ins x0 n).idx = (x0.idx + κ) % 3 := by
          cases κ with
          | zero =>
            obtain ⟨a1, a2⟩ := ih1 (by omega)
            exact ⟨by omega, by omega⟩
          | succ κ =>
            obtain ⟨a1, a2⟩ := ih2 κ 255 (by omega) (by omega)
            exact ⟨by omega, by omega⟩
        obtain ⟨b1, b2⟩ := pos this.1 this.2 (Nat.mod_lt _ (by decide))
        exact ⟨b1, by omega⟩
      | succ j =>
        obtain ⟨a1, a2⟩ := ih2 κ j (by omega) (by omega)
        obtain ⟨b1, b2⟩ := neg (d := 255 - (j + 1)) (by omega) (m5.trans a2)
        exact ⟨b1, b2⟩

/-- the message built in edge `x0.delay + 1 + 256 * κ` -/
def sent (td : Nat) (ins : Nat → List Op) (x0 : Src) (κ : Nat) : List Nat := (mid td ins x0 (x0.delay + 256 * κ)).build

omit ho hc in
theorem sent_mid (κ : Nat) : (mid td ins x0 (x0.delay + 256 * κ)).delay = 0 ∧ (mid td ins x0 (x0.delay + 256 * κ)).idx = (x0.idx + κ) % 3 := by
  obtain ⟨-, -, -, -, m5, m6⟩ := mid_keep (td := td) (ins := ins) (x0 := x0) (x0.delay + 256 * κ)
  obtain ⟨i1, i2⟩ := src_phase (td := td) (ins := ins) hi (x0.delay + 256 * κ)
  cases κ with
  | zero => obtain ⟨a1, a2⟩ := i1 (by omega); exact ⟨by omega, by omega⟩
  | succ κ => obtain ⟨a1, a2⟩ := i2 κ 255 (by omega) (by omega); exact ⟨by omega, by omega⟩

theorem sent_good (κ : Nat) : (sent td ins x0 κ).length = 14 ∧ ∀ v ∈ sent td ins x0 κ, v < 2 ^ 16 := by
  have h := (sent_mid (td := td) (ins := ins) hi κ).2
  have h3 : (mid td ins x0 (x0.delay + 256 * κ)).idx < 3 := by omega
  refine ⟨build_length h3, build_lt h3 ?_⟩
  rw [← mid_clk]
  exact src_ok ho hc _

/-- what message `κ` does -/
def Loaded (td : Nat) (ins : Nat → List Op) (x0 : Src) (κ : Nat) (k k' : Snk) : Prop :=
  let c := (srcRun td ins x0 (x0.delay + 1 + 256 * κ)).clk
  k'.clk = upd ((x0.idx + κ) % 3) c k.clk.tick ∧ k'.off = (if (x0.idx + κ) % 3 = 1 then c.off else k.off) ∧
  k'.altS = (if (x0.idx + κ) % 3 = 2 then (c.altS % 2 ^ 48).toNat else k.altS) ∧ k'.altOff = (if (x0.idx + κ) % 3 = 2 then c.altOff else k.altOff)

/-- nothing but time passing -/
def Kept (k k' : Snk) : Prop := k'.clk = k.clk.tick ∧ k'.off = k.off ∧ k'.altS = k.altS ∧ k'.altOff = k.altOff

theorem sent_load (κ : Nat) (k k1 : Snk) (h1 : k1.clk = k.clk.tick ∧ k1.off = k.off ∧ k1.altS = k.altS ∧ k1.altOff = k.altOff) :
    ∃ k2, k1.load (sent td ins x0 κ) = some k2 ∧ Loaded td ins x0 κ k k2 ∧ k2.cur = k1.cur ∧ k2.word = k1.word ∧ k2.bit = k1.bit ∧ k2.msg = none ∧
      k2.delay = k1.delay := by
  have h := (sent_mid (td := td) (ins := ins) hi κ).2
  have h3 : (mid td ins x0 (x0.delay + 256 * κ)).idx < 3 := by omega
  have hcc : (mid td ins x0 (x0.delay + 256 * κ)).clk.Ok := by rw [← mid_clk]; exact src_ok ho hc _
  refine ⟨_, load_build h3 hcc k1, ?_, rfl, rfl, rfl, rfl, rfl⟩
  have e : x0.delay + 1 + 256 * κ = x0.delay + 256 * κ + 1 := by omega
  obtain ⟨a1, a2, a3, a4⟩ := h1
  unfold Loaded
  rw [e, mid_clk, h, a1, a2, a3, a4]
  exact ⟨rfl, rfl, rfl, rfl⟩

/-- the line and the pending message after `n` edges -/
structure Inv (td : Nat) (ins : Nat → List Op) (x0 : Src) (n : Nat) (k : Snk) : Prop where
  pre : n ≤ x0.delay → SrcI (srcRun td ins x0 n) ∧ k.cur = [] ∧ k.word = none
  line : ∀ κ j, n = x0.delay + 1 + 256 * κ + j → j < 256 → LineAt (sent td ins x0 κ) j (srcRun td ins x0 n) k
  none : n < x0.delay + 240 → k.msg = none ∧ k.delay = 0
  pend : ∀ κ e, n = x0.delay + 240 + 256 * κ + e → e < 256 →
    (e < td → k.msg = some (sent td ins x0 κ) ∧ k.delay = td - e) ∧ (td ≤ e → k.msg = .none ∧ k.delay = 0)

theorem sent_start (κ : Nat) {k : Snk} (hx : SrcI (srcRun td ins x0 (x0.delay + 256 * κ))) (hk : k.cur = [] ∧ k.word = none) :
    LineAt (sent td ins x0 κ) 0 (srcRun td ins x0 (x0.delay + 256 * κ + 1)) (k.deserialize td (srcRun td ins x0 (x0.delay + 256 * κ)).data) ∧
    (k.deserialize td (srcRun td ins x0 (x0.delay + 256 * κ)).data) = k := by
  obtain ⟨x1, x2, x3⟩ := hx
  obtain ⟨m1, m2, -⟩ := mid_keep (td := td) (ins := ins) (x0 := x0) (x0.delay + 256 * κ)
  obtain ⟨d0, -⟩ := sent_mid (td := td) (ins := ins) hi κ
  have hl := (sent_good (td := td) hi ho hc κ).1
  have e : k.deserialize td (srcRun td ins x0 (x0.delay + 256 * κ)).data = k := by
    simp [Snk.deserialize, hk.1, hk.2, x3]
  refine ⟨Or.inl ⟨0, 0, rfl, by omega, by omega, ?_, ?_⟩, e⟩
  · have hm : (mid td ins x0 (x0.delay + 256 * κ)).message.msg = sent td ins x0 κ := by
      unfold Src.message
      rw [if_pos d0]
      rfl
    have hw : (mid td ins x0 (x0.delay + 256 * κ)).message.word = .none := by rw [(message_keep _).2.1, m2, x2]
    rw [srcRun_succ]
    generalize (mid td ins x0 (x0.delay + 256 * κ)).message = y at *
    have hd := drop_cons (M := sent td ins x0 κ) (w := 0) (by omega)
    rw [List.drop_zero] at hd
    rw [hd] at hm
    refine ⟨?_, ?_, ?_, ?_⟩ <;> simp [Src.serialize, hw, hm]
  · rw [e]
    exact ⟨by rw [hk.1]; rfl, by rw [hk.2]; rfl, fun h => absurd rfl h⟩

theorem line_next {n κ j : Nat} (hn : n = x0.delay + 1 + 256 * κ + j) (hj : j < 255) {k k1 : Snk} (h : LineAt (sent td ins x0 κ) j (srcRun td ins x0 n) k)
    (hk : k1.cur = k.cur ∧ k1.word = k.word ∧ k1.bit = k.bit) :
    LineAt (sent td ins x0 κ) (j + 1) (srcRun td ins x0 (n + 1)) (k1.deserialize td (srcRun td ins x0 n).data) ∧
    (j ≠ 238 → (k1.deserialize td (srcRun td ins x0 n).data).msg = k1.msg ∧ (k1.deserialize td (srcRun td ins x0 n).data).delay = k1.delay) ∧
    (j = 238 → (k1.deserialize td (srcRun td ins x0 n).data).msg = some (sent td ins x0 κ) ∧ (k1.deserialize td (srcRun td ins x0 n).data).delay = td) := by
  obtain ⟨g1, g2⟩ := sent_good (td := td) hi ho hc κ
  obtain ⟨m1, m2, m3, m4, -, m6⟩ := mid_keep (td := td) (ins := ins) (x0 := x0) n
  have hd := ((src_phase (td := td) (ins := ins) hi n).2 κ j hn (by omega)).1
  have hm : (mid td ins x0 n).message.msg = (srcRun td ins x0 n).msg := by
    unfold Src.message
    rw [if_neg (by omega)]
    exact m1
  obtain ⟨-, p2, p3, p4, -⟩ := message_keep (mid td ins x0 n)
  exact line_step g1 g2 h ⟨hm, p2.trans m2, p3.trans m3, p4.trans m4⟩ hk

omit hi ho hc in
theorem deserialize_keep (k : Snk) (d : Nat) : (k.deserialize td d).clk = k.clk ∧ (k.deserialize td d).off = k.off ∧ (k.deserialize td d).altS = k.altS ∧
    (k.deserialize td d).altOff = k.altOff := by
  unfold Snk.deserialize
  split
  · dsimp only
    split <;> exact ⟨rfl, rfl, rfl, rfl⟩
  · split
    · exact ⟨rfl, rfl, rfl, rfl⟩
    · split <;> exact ⟨rfl, rfl, rfl, rfl⟩

/-- the first half of an edge of the sink -/
theorem process_step (h1 : 1 ≤ td) {n : Nat} {k : Snk} (h : Inv td ins x0 n k) :
    ∃ k1, ({ k with clk := k.clk.tick } : Snk).process = some k1 ∧ k1.cur = k.cur ∧ k1.word = k.word ∧ k1.bit = k.bit ∧
      (n < x0.delay + 240 → k1.msg = none ∧ k1.delay = 0) ∧
      (∀ κ e, n = x0.delay + 240 + 256 * κ + e → e < 256 →
        (e + 1 < td → k1.msg = some (sent td ins x0 κ) ∧ k1.delay = td - (e + 1)) ∧ (td ≤ e + 1 → k1.msg = none ∧ k1.delay = 0) ∧
        (e + 1 = td → Loaded td ins x0 κ k k1) ∧ (e + 1 ≠ td → Kept k k1)) ∧
      (n < x0.delay + 240 → Kept k k1) := by
  obtain ⟨-, -, h3, h4⟩ := h
  have quiet : k.msg = none → k.delay = 0 → ({ k with clk := k.clk.tick } : Snk).process = some { k with clk := k.clk.tick, delay := 0 } := by
    intro a b
    simp [Snk.process, a, b]
  by_cases hn : n < x0.delay + 240
  · obtain ⟨a, b⟩ := h3 hn
    exact ⟨_, quiet a b, rfl, rfl, rfl, fun _ => ⟨a, rfl⟩, fun κ e h => by omega, fun _ => ⟨rfl, rfl, rfl, rfl⟩⟩
  · obtain ⟨κ, e, hk, he⟩ : ∃ κ e, n = x0.delay + 240 + 256 * κ + e ∧ e < 256 :=
      ⟨(n - (x0.delay + 240)) / 256, (n - (x0.delay + 240)) % 256, by omega, by omega⟩
    obtain ⟨a1, a2⟩ := h4 κ e hk he
    have uniq : ∀ κ' e', n = x0.delay + 240 + 256 * κ' + e' → e' < 256 → κ' = κ ∧ e' = e := by intro κ' e' _ _; omega
    rcases Nat.lt_trichotomy (e + 1) td with hlt | heq | hgt
    · obtain ⟨b1, b2⟩ := a1 (by omega)
      refine ⟨{ k with clk := k.clk.tick, delay := k.delay - 1 }, ?_, rfl, rfl, rfl, fun h => absurd h hn, ?_, fun h => absurd h hn⟩
      · have : ¬ k.delay - 1 = 0 := by omega
        simp [Snk.process, this]
      · intro κ' e' x y
        obtain ⟨rfl, rfl⟩ := uniq κ' e' x y
        exact ⟨fun _ => ⟨b1, by dsimp only; omega⟩, fun h => by omega, fun h => by omega, fun _ => ⟨rfl, rfl, rfl, rfl⟩⟩
    · obtain ⟨b1, b2⟩ := a1 (by omega)
      obtain ⟨k2, l1, l2, l3, l4, l5, l6, l7⟩ := sent_load (td := td) hi ho hc κ k { k with clk := k.clk.tick, delay := k.delay - 1 } ⟨rfl, rfl, rfl, rfl⟩
      refine ⟨k2, ?_, l3, l4, l5, fun h => absurd h hn, ?_, fun h => absurd h hn⟩
      · have : k.delay - 1 = 0 := by omega
        simp only [Snk.process, this, if_true, b1]
        rw [this] at l1
        simpa only [b1] using l1
      · intro κ' e' x y
        obtain ⟨rfl, rfl⟩ := uniq κ' e' x y
        refine ⟨fun h => by omega, fun _ => ⟨l6, ?_⟩, fun _ => l2, fun h => absurd heq h⟩
        rw [l7]
        dsimp only
        omega
    · obtain ⟨b1, b2⟩ := a2 (by omega)
      refine ⟨_, quiet b1 b2, rfl, rfl, rfl, fun h => absurd h hn, ?_, fun h => absurd h hn⟩
      intro κ' e' x y
      obtain ⟨rfl, rfl⟩ := uniq κ' e' x y
      exact ⟨fun h => by omega, fun _ => ⟨b1, rfl⟩, fun h => by omega, fun _ => ⟨rfl, rfl, rfl, rfl⟩⟩

theorem inv_step (h1 : 1 ≤ td) (h2 : td ≤ 256) {n : Nat} {k : Snk} (h : Inv td ins x0 n k) :
    ∃ k', k.edge td (srcRun td ins x0 n).data = some k' ∧ Inv td ins x0 (n + 1) k' ∧
      (∀ κ, n + 1 = x0.delay + 240 + 256 * κ + td → Loaded td ins x0 κ k k') ∧
      ((∀ κ, n + 1 ≠ x0.delay + 240 + 256 * κ + td) → Kept k k') := by
  obtain ⟨k1, p1, p2, p3, p4, p5, p6, p7⟩ := process_step hi ho hc h1 h
  obtain ⟨d1, d2, d3, d4⟩ := deserialize_keep (td := td) k1 (srcRun td ins x0 n).data
  refine ⟨k1.deserialize td (srcRun td ins x0 n).data, by simp only [Snk.edge, p1], ?_, ?_, ?_⟩
  · by_cases hn : n < x0.delay
    · obtain ⟨⟨a1, a2, a3⟩, a4, a5⟩ := h.pre (by omega)
      obtain ⟨m1, m2, -, m4, -, m6⟩ := mid_keep (td := td) (ins := ins) (x0 := x0) n
      have hd := ((src_phase (td := td) (ins := ins) hi n).1 (by omega)).1
      have hs : SrcI (srcRun td ins x0 (n + 1)) := by
        rw [srcRun_succ]
        refine srcI_serialize ⟨?_, ?_, ?_⟩
        · unfold Src.message
          rw [if_neg (by omega)]
          exact m1.trans a1
        · rw [(message_keep _).2.1, m2, a2]
        · rw [(message_keep _).2.2.2.1, m4, a3]
      have e : k1.deserialize td (srcRun td ins x0 n).data = k1 := by simp [Snk.deserialize, p2, p3, a3, a4, a5]
      rw [e]
      exact ⟨fun _ => ⟨hs, p2.trans a4, p3.trans a5⟩, fun κ j h => by omega, fun _ => p5 (by omega), fun κ e h => by omega⟩
    · by_cases h0 : ∃ κ, n = x0.delay + 256 * κ
      · obtain ⟨κ, hκ⟩ := h0
        have hx : SrcI (srcRun td ins x0 n) ∧ k.cur = [] ∧ k.word = .none := by
          cases κ with
          | zero => exact h.pre (by omega)
          | succ κ =>
            obtain ⟨j, hj⟩ : ∃ j, j = 255 := ⟨_, rfl⟩
            rcases h.line κ j (by omega) (by omega) with ⟨w, r, a, b, c, -⟩ | ⟨a, -⟩ | ⟨-, a, b⟩
            · omega
            · omega
            · exact ⟨a, b⟩
        subst hκ
        obtain ⟨q1, q2⟩ := sent_start hi ho hc κ hx.1 (k := k1) ⟨p2.trans hx.2.1, p3.trans hx.2.2⟩
        refine ⟨fun h => by omega, ?_, ?_, ?_⟩
        · intro κ' j a b
          obtain ⟨rfl, rfl⟩ : κ' = κ ∧ j = 0 := by omega
          exact q1
        · intro h
          rw [q2]
          exact p5 (by omega)
        · intro κ' e a b
          rw [q2]
          obtain ⟨a1, a2, -⟩ := p6 κ' (e - 1) (by omega) (by omega)
          have : e - 1 + 1 = e := by omega
          rw [this] at a1 a2
          exact ⟨a1, a2⟩
      · obtain ⟨κ, j, hκ, hj⟩ : ∃ κ j, n = x0.delay + 1 + 256 * κ + j ∧ j < 255 := by
          refine ⟨(n - (x0.delay + 1)) / 256, (n - (x0.delay + 1)) % 256, ?_, ?_⟩
          · have : n ≠ x0.delay := fun h => h0 ⟨0, by omega⟩
            omega
          · have : n ≠ x0.delay := fun h => h0 ⟨0, by omega⟩
            have : n ≠ x0.delay + 256 * ((n - (x0.delay + 1)) / 256 + 1) := fun h => h0 ⟨_, h⟩
            omega
        obtain ⟨q1, q2, q3⟩ := line_next hi ho hc hκ hj (h.line κ j hκ (by omega)) (k1 := k1) ⟨p2, p3, p4⟩
        refine ⟨fun h => by omega, ?_, ?_, ?_⟩
        · intro κ' j' a b
          obtain ⟨rfl, rfl⟩ : κ' = κ ∧ j' = j + 1 := by omega
          exact q1
        · intro h
          obtain ⟨r1, r2⟩ := q2 (by omega)
          rw [r1, r2]
          exact p5 (by omega)
        · intro κ' e a b
          by_cases he : e = 0
          · obtain ⟨r1, r2⟩ := q3 (by omega)
            have : κ' = κ := by omega
            subst this
            rw [r1, r2]
            exact ⟨fun _ => ⟨rfl, by omega⟩, fun h => by omega⟩
          · obtain ⟨r1, r2⟩ := q2 (by omega)
            rw [r1, r2]
            obtain ⟨a1, a2, -⟩ := p6 κ' (e - 1) (by omega) (by omega)
            have : e - 1 + 1 = e := by omega
            rw [this] at a1 a2
            exact ⟨a1, a2⟩
  · intro κ e
    obtain ⟨-, -, l, -⟩ := p6 κ (td - 1) (by omega) (by omega)
    have := l (by omega)
    unfold Loaded at *
    rw [d1, d2, d3, d4]
    exact this
  · intro hne
    have : Kept k k1 := by
      by_cases hn : n < x0.delay + 240
      · exact p7 hn
      · obtain ⟨-, -, -, l⟩ := p6 ((n - (x0.delay + 240)) / 256) ((n - (x0.delay + 240)) % 256) (by omega) (by omega)
        refine l fun h => hne ((n - (x0.delay + 240)) / 256) ?_
        omega
    unfold Kept at *
    rw [d1, d2, d3, d4]
    exact this

omit hi ho hc in
theorem inv_zero {k0 : Snk} (hx : SrcI x0) (hk : k0.Idle) : Inv td ins x0 0 k0 :=
  ⟨fun _ => ⟨hx, hk.2.2.1, hk.2.2.2⟩, fun κ j h => by omega, fun _ => ⟨hk.1, hk.2.1⟩, fun κ e h => by omega⟩

theorem inv_run (h1 : 1 ≤ td) (h2 : td ≤ 256) {k0 : Snk} (hx : SrcI x0) (hk : k0.Idle) (n : Nat) :
    ∃ k, snkRun td ins x0 k0 n = some k ∧ Inv td ins x0 n k := by
  induction n with
  | zero => exact ⟨k0, rfl, inv_zero hx hk⟩
  | succ n ih =>
    obtain ⟨k, e, hv⟩ := ih
    obtain ⟨k', e', hv', -⟩ := inv_step hi ho hc h1 h2 hv
    exact ⟨k', by rw [snkRun, e]; exact e', hv'⟩

end

end Corundum.PtpTd
