import Verif.Proof.PtpTdSync

/-! C118: the sink follows the source.  C119: the source keeps time.  C120: offsets between the two times. -/
namespace Corundum.PtpTd

section
variable {td : Nat} {ins : Nat → List Op} {x0 : Src} {k0 : Snk} {t0 : Nat}

/-! ### C118 -/

/-- C118: whatever both had, 1281 edges and the wait for the next message after the last call of a setter, the clock of the sink is that of the source
`239 + td_delay` edges ago, and stays so. -/
theorem C118_follows (h1 : 1 ≤ td) (h2 : td ≤ 256) (hx : x0.Idle) (hk : k0.Idle) (hc : x0.clk.Ok) (ho : ∀ n, ∀ o ∈ ins n, o.Ok)
    (hs : ∀ n, t0 ≤ n → ins n = []) {n : Nat} (hn : t0 + x0.delay + 1281 ≤ n) (hb : (srcRun td ins x0 n).clk.s < 2 ^ 48) :
    ∃ k, snkRun td ins x0 k0 (n + (239 + td)) = some k ∧ k.clk = (srcRun td ins x0 n).clk := by
  obtain ⟨a1, a2, a3, a4⟩ := hx
  obtain ⟨κ, p1, p2, p3⟩ := pick x0.idx t0 x0.delay
  have e : x0.delay + 1 + 256 * κ + (n - (x0.delay + 1 + 256 * κ)) = n := by omega
  have := sync_b (td := td) a4 ho hc h1 h2 ⟨a1, a2, a3⟩ hk hs p1 p2 (n - (x0.delay + 1 + 256 * κ)) (by omega) (by rw [e]; exact hb)
  rw [e] at this
  have e' : x0.delay + 240 + 256 * κ + td + (n - (x0.delay + 1 + 256 * κ)) = n + (239 + td) := by omega
  rw [e'] at this
  exact this

/-- C118: the relative time, period and drift are there earlier, without a bound on the seconds. -/
theorem C118_relative (h1 : 1 ≤ td) (h2 : td ≤ 256) (hx : x0.Idle) (hk : k0.Idle) (hc : x0.clk.Ok) (ho : ∀ n, ∀ o ∈ ins n, o.Ok)
    (hs : ∀ n, t0 ≤ n → ins n = []) {n : Nat} (hn : t0 + x0.delay + 769 ≤ n) :
    ∃ k, snkRun td ins x0 k0 (n + (239 + td)) = some k ∧ k.clk.relTime = (srcRun td ins x0 n).clk.relTime ∧
      k.clk.pNs = (srcRun td ins x0 n).clk.pNs ∧ k.clk.pFns = (srcRun td ins x0 n).clk.pFns ∧
      k.clk.num = (srcRun td ins x0 n).clk.num ∧ k.clk.denom = (srcRun td ins x0 n).clk.denom := by
  obtain ⟨a1, a2, a3, a4⟩ := hx
  obtain ⟨κ, p1, p2, p3⟩ := pick x0.idx t0 x0.delay
  have e : x0.delay + 1 + 256 * κ + (n - (x0.delay + 1 + 256 * κ)) = n := by omega
  obtain ⟨k, e1, b1, b2, b3, b4, b5, b6, b7⟩ := sync_a (td := td) a4 ho hc h1 h2 ⟨a1, a2, a3⟩ hk hs p1 p2 (n - (x0.delay + 1 + 256 * κ))
  rw [e] at b1 b2 b3 b4 b6 b7
  have e' : x0.delay + 240 + 256 * κ + td + (n - (x0.delay + 1 + 256 * κ)) = n + (239 + td) := by omega
  rw [e'] at e1
  refine ⟨k, e1, ?_, b1, b2, b3, b4⟩
  unfold Clk.relTime
  rw [b6, b7]

/-- C118: the sink shows what the source, which delays what it shows, has shown one edge before; the source is ahead by one period. -/
theorem C118_get (h1 : 1 ≤ td) (h2 : td ≤ 256) (hx : x0.Idle) (hl : x0.hist.length ≤ 238 + td) (hk : k0.Idle) (hc : x0.clk.Ok)
    (ho : ∀ n, ∀ o ∈ ins n, o.Ok) (hs : ∀ n, t0 ≤ n → ins n = []) {n : Nat} (hn : t0 + x0.delay + 1281 ≤ n) (hb : (srcRun td ins x0 n).clk.s < 2 ^ 48) :
    ∃ k, snkRun td ins x0 k0 (n + (239 + td)) = some k ∧ k.get = (srcRun td ins x0 (n + (238 + td))).get ∧
      (srcRun td ins x0 (n + (239 + td))).get = (k.clk.tick.s, k.clk.tick.ns, k.clk.tick.rel, k.clk.tick.fns) := by
  obtain ⟨k, e, q⟩ := C118_follows h1 h2 hx hk hc ho hs hn hb
  refine ⟨k, e, ?_, ?_⟩
  · rw [Nat.add_comm n, get_run hl n, hs n (by omega), Snk.get, q]
    rfl
  · have e1 : n + (239 + td) = 238 + td + (n + 1) := by omega
    rw [e1, get_run hl, hs _ (by omega), q, ← settled_succ (n := n) hs (by omega)]
    rfl

/-- the messages never take effect -/
structure Dead (td : Nat) (ins : Nat → List Op) (x0 : Src) (k0 : Snk) (n : Nat) (k : Snk) : Prop where
  pre : n ≤ x0.delay → SrcI (srcRun td ins x0 n) ∧ k.cur = [] ∧ k.word = none
  line : ∀ κ j, n = x0.delay + 1 + 256 * κ + j → j < 256 → LineAt (sent td ins x0 κ) j (srcRun td ins x0 n) k
  none : n < x0.delay + 240 → k.msg = none ∧ k.delay = 0
  pend : ∀ κ e, n = x0.delay + 240 + 256 * κ + e → e < 256 → k.delay = td - e

theorem dead_step (hi : x0.idx < 3) (ho : ∀ n, ∀ o ∈ ins n, o.Ok) (hc : x0.clk.Ok) (h2 : 256 < td) {n : Nat} {k : Snk} (h : Dead td ins x0 k0 n k) :
    ∃ k', k.edge td (srcRun td ins x0 n).data = some k' ∧ Dead td ins x0 k0 (n + 1) k' ∧ k'.clk = k.clk.tick := by
  have hp : ({ k with clk := k.clk.tick } : Snk).process = some { k with clk := k.clk.tick, delay := k.delay - 1 } := by
    by_cases hn : n < x0.delay + 240
    · obtain ⟨a, b⟩ := h.none hn
      simp [Snk.process, a, b]
    · have := h.pend ((n - (x0.delay + 240)) / 256) ((n - (x0.delay + 240)) % 256) (by omega) (by omega)
      have hd : ¬ k.delay - 1 = 0 := by omega
      simp [Snk.process, hd]
  generalize hk1 : ({ k with clk := k.clk.tick, delay := k.delay - 1 } : Snk) = k1 at hp
  have p2 : k1.cur = k.cur := by rw [← hk1]
  have p3 : k1.word = k.word := by rw [← hk1]
  have p4 : k1.bit = k.bit := by rw [← hk1]
  have p5 : k1.msg = k.msg := by rw [← hk1]
  have p6 : k1.delay = k.delay - 1 := by rw [← hk1]
  have p7 : k1.clk = k.clk.tick := by rw [← hk1]
  refine ⟨k1.deserialize td (srcRun td ins x0 n).data, by simp only [Snk.edge, hp], ?_, by rw [(deserialize_keep (td := td) k1 _).1, p7]⟩
  by_cases hn : n < x0.delay
  · obtain ⟨⟨a1, a2, a3⟩, a4, a5⟩ := h.pre (by omega)
    obtain ⟨m1, m2, -, m4, -, m6⟩ := mid_keep (td := td) (ins := ins) (x0 := x0) n
    have hd := ((src_phase (td := td) (ins := ins) hi n).1 (by omega)).1
    have hs : SrcI (srcRun td ins x0 (n + 1)) := by
      rw [srcRun_succ]
      refine srcI_serialize ⟨?_, ?_, ?_⟩
      · unfold Src.message
        rw [if_neg (by omega)]
        exact m1.trans a1
      · rw [(message_keep _).2.1, m2, a2]
      · rw [(message_keep _).2.2.2.1, m4, a3]
    have e : k1.deserialize td (srcRun td ins x0 n).data = k1 := by simp [Snk.deserialize, p2, p3, a3, a4, a5]
    rw [e]
    obtain ⟨b1, b2⟩ := h.none (by omega)
    exact ⟨fun _ => ⟨hs, p2.trans a4, p3.trans a5⟩, fun κ j h => by omega, fun _ => ⟨p5.trans b1, by omega⟩, fun κ e h => by omega⟩
  · by_cases h0 : ∃ κ, n = x0.delay + 256 * κ
    · obtain ⟨κ, hκ⟩ := h0
      have hx : SrcI (srcRun td ins x0 n) ∧ k.cur = [] ∧ k.word = .none := by
        cases κ with
        | zero => exact h.pre (by omega)
        | succ κ =>
          obtain ⟨j, hj⟩ : ∃ j, j = 255 := ⟨_, rfl⟩
          rcases h.line κ j (by omega) (by omega) with ⟨w, r, a, b, c, -⟩ | ⟨a, -⟩ | ⟨-, a, b⟩
          · omega
          · omega
          · exact ⟨a, b⟩
      subst hκ
      obtain ⟨q1, q2⟩ := sent_start hi ho hc κ hx.1 (k := k1) ⟨p2.trans hx.2.1, p3.trans hx.2.2⟩
      refine ⟨fun h => by omega, ?_, ?_, ?_⟩
      · intro κ' j a b
        obtain ⟨rfl, rfl⟩ : κ' = κ ∧ j = 0 := by omega
        exact q1
      · intro h'
        rw [q2]
        obtain ⟨b1, b2⟩ := h.none (by omega)
        exact ⟨p5.trans b1, by omega⟩
      · intro κ' e a b
        rw [q2]
        have := h.pend κ' (e - 1) (by omega) (by omega)
        omega
    · obtain ⟨κ, j, hκ, hj⟩ : ∃ κ j, n = x0.delay + 1 + 256 * κ + j ∧ j < 255 := by
        refine ⟨(n - (x0.delay + 1)) / 256, (n - (x0.delay + 1)) % 256, ?_, ?_⟩
        · have : n ≠ x0.delay := fun h => h0 ⟨0, by omega⟩
          omega
        · have : n ≠ x0.delay := fun h => h0 ⟨0, by omega⟩
          have : n ≠ x0.delay + 256 * ((n - (x0.delay + 1)) / 256 + 1) := fun h => h0 ⟨_, h⟩
          omega
      obtain ⟨q1, q2, q3⟩ := line_next hi ho hc hκ hj (h.line κ j hκ (by omega)) (k1 := k1) ⟨p2, p3, p4⟩
      refine ⟨fun h => by omega, ?_, ?_, ?_⟩
      · intro κ' j' a b
        obtain ⟨rfl, rfl⟩ : κ' = κ ∧ j' = j + 1 := by omega
        exact q1
      · intro h'
        obtain ⟨r1, r2⟩ := q2 (by omega)
        obtain ⟨b1, b2⟩ := h.none (by omega)
        rw [r1, r2]
        exact ⟨p5.trans b1, by omega⟩
      · intro κ' e a b
        by_cases he : e = 0
        · obtain ⟨r1, r2⟩ := q3 (by omega)
          rw [r2]
          omega
        · obtain ⟨r1, r2⟩ := q2 (by omega)
          rw [r2]
          have := h.pend κ' (e - 1) (by omega) (by omega)
          omega

/-- C118 fails for a delay of more than 256: each message is replaced by the next before it takes effect, and the clock of the sink runs on its own. -/
theorem C118_delay_counterexample (h2 : 256 < td) (hx : x0.Idle) (hk : k0.Idle) (hc : x0.clk.Ok) (ho : ∀ n, ∀ o ∈ ins n, o.Ok) (n : Nat) :
    ∃ k k', snkRun td ins x0 k0 n = some k ∧ snkRun td ins x0 k0 (n + 1) = some k' ∧ k'.clk = k.clk.tick := by
  obtain ⟨a1, a2, a3, a4⟩ := hx
  obtain ⟨b1, b2, b3, b4⟩ := hk
  have key : ∃ k, snkRun td ins x0 k0 n = some k ∧ Dead td ins x0 k0 n k := by
    induction n with
    | zero => exact ⟨k0, rfl, fun _ => ⟨⟨a1, a2, a3⟩, b3, b4⟩, fun κ j h => by omega, fun _ => ⟨b1, b2⟩, fun κ e h => by omega⟩
    | succ n ih =>
      obtain ⟨k, e, hv⟩ := ih
      obtain ⟨k', e', hv', -⟩ := dead_step a4 ho hc h2 hv
      exact ⟨k', by rw [snkRun, e]; exact e', hv'⟩
  obtain ⟨k, e, hv⟩ := key
  obtain ⟨k', e', -, q⟩ := dead_step a4 ho hc h2 hv
  exact ⟨k, k', e, by rw [snkRun, e]; exact e', q⟩

end

/-- a source with a period of 6.4 ns -/
def demo : Src := { clk := { pNs := 6, pFns := 0x66666666, num := 2, denom := 5, fns := 7, rel := 5, s := 3, ns := 999999000 } }

/-- the source without the delayed times, which nothing else depends on -/
def cut (x : Src) : Src := { x with hist := [] }

def cutEdge (x : Src) : Src := ({ x with clk := x.clk.tick } : Src).message.serialize

theorem cut_edge (td : Nat) (x : Src) : cut (x.edge td) = cutEdge (cut x) := by
  have h1 : ∀ y : Src, cut y.serialize = (cut y).serialize := by
    intro y
    unfold cut Src.serialize
    dsimp only
    split
    · split <;> rfl
    · rfl
  have h2 : ∀ y : Src, cut y.message = (cut y).message := by
    intro y
    unfold cut Src.message
    dsimp only
    split <;> rfl
  unfold Src.edge cutEdge
  dsimp only
  rw [h1, h2]
  rfl

/-- both at once, without setters -/
def both (td : Nat) : Nat → Src → Snk → Option (Src × Snk)
  | 0, x, k => some (x, k)
  | n + 1, x, k => match k.edge td x.data with
    | some k' => both td n (cutEdge x) k'
    | none => none

theorem src_cons {td : Nat} (x : Src) (n : Nat) : srcRun td (fun _ => []) x (n + 1) = srcRun td (fun _ => []) (x.edge td) n := by
  induction n with
  | zero => rfl
  | succ n ih => rw [srcRun, ih]; rfl

theorem snk_cons {td : Nat} (x : Src) (k : Snk) (n : Nat) :
    snkRun td (fun _ => []) x k (n + 1) = (k.edge td x.data).bind fun k' => snkRun td (fun _ => []) (x.edge td) k' n := by
  induction n with
  | zero => simp only [snkRun, srcRun, Option.bind_some]; cases k.edge td x.data <;> rfl
  | succ n ih =>
    rw [snkRun, ih, src_cons, Option.bind_assoc]
    rfl

theorem both_run {td : Nat} (n : Nat) : ∀ (x : Src) (k : Snk), snkRun td (fun _ => []) x k n = (both td n (cut x) k).map (·.2) ∧
    ∀ y, both td n (cut x) k = some y → y.1 = cut (srcRun td (fun _ => []) x n) := by
  induction n with
  | zero => intro x k; exact ⟨rfl, fun y h => by cases h; rfl⟩
  | succ n ih =>
    intro x k
    rw [snk_cons, both, src_cons, ← cut_edge td]
    have : (cut x).data = x.data := rfl
    rw [this]
    cases k.edge td x.data with
    | none => exact ⟨rfl, fun y h => by cases h⟩
    | some k' => exact ih _ _

/-- C118 fails for a sink that starts while a message is being sent: it ends with an exception. -/
theorem C118_join_counterexample : snkRun 32 (fun _ => []) (srcRun 32 (fun _ => []) demo 3) {} 50 = none := by
  obtain ⟨y, h⟩ : ∃ y, both 32 3 (cut demo) {} = some y := Option.isSome_iff_exists.1 (by decide +kernel)
  rw [(both_run 50 _ {}).1, ← (both_run 3 demo {}).2 y h]
  have e : (both 32 3 (cut demo) {}).bind (fun y => both 32 50 y.1 {}) = none := by decide +kernel
  rw [h] at e
  rw [show both 32 50 y.1 {} = none from e]
  rfl

example : demo.Idle ∧ demo.clk.Ok ∧ ({ clk := { ns := 17 } } : Snk).Idle :=
  ⟨⟨rfl, rfl, rfl, by decide⟩, ⟨by decide, by decide, by decide, by decide, by decide, by decide, by decide, by decide⟩, rfl, rfl, rfl, rfl⟩

/-! ### C119 -/

theorem drift_count (d c n : Nat) : (n + 1 + d - 1 - c) / d =
    (n + d - 1 - (if d = 0 then c else if c = 0 then d - 1 else c - 1)) / d + (if d ≠ 0 ∧ c = 0 then 1 else 0) := by
  by_cases hd : d = 0
  · simp [hd]
  · rw [if_neg hd]
    by_cases hc : c = 0
    · rw [if_pos hc, if_pos ⟨hd, hc⟩]
      have e1 : n + 1 + d - 1 - c = n + d := by omega
      have e2 : n + d - 1 - (d - 1) = n := by omega
      rw [e1, e2, Nat.add_div_right _ (by omega)]
    · rw [if_neg hc, if_neg (fun h => hc h.2)]
      have e1 : n + 1 + d - 1 - c = n + d - 1 - (c - 1) := by omega
      rw [e1, Nat.add_zero]

/-- `n` periods -/
def ticks : Nat → Clk → Clk
  | 0, c => c
  | n + 1, c => ticks n c.tick

theorem ticks_time (n : Nat) : ∀ c : Clk,
    (ticks n c).todTime = c.todTime + n * (c.pNs * 2 ^ 32 + c.pFns) + c.num * ((n + c.denom - 1 - c.cnt) / c.denom) ∧
    (c.Ok → (ticks n c).relTime % 2 ^ 80 = (c.relTime + n * (c.pNs * 2 ^ 32 + c.pFns) + c.num * ((n + c.denom - 1 - c.cnt) / c.denom)) % 2 ^ 80) := by
  induction n with
  | zero =>
    intro c
    have : (0 + c.denom - 1 - c.cnt) / c.denom = 0 := by
      by_cases h : c.denom = 0
      · simp [h]
      · exact Nat.div_eq_of_lt (by omega)
    rw [this]
    simp [ticks]
  | succ n ih =>
    intro c
    obtain ⟨a, -, t2, t3, t4, t5, t6, t7, t8, t9⟩ := tick_time c
    obtain ⟨i1, i2⟩ := ih c.tick
    have hd := drift_count c.denom c.cnt n
    rw [← t9] at hd
    rw [t5, t6, t7, t8] at i1 i2
    have e : a + n * (c.pNs * 2 ^ 32 + c.pFns) + c.num * ((n + c.denom - 1 - c.tick.cnt) / c.denom) =
        (n + 1) * (c.pNs * 2 ^ 32 + c.pFns) + c.num * ((n + 1 + c.denom - 1 - c.cnt) / c.denom) := by
      rw [hd, t4, Clk.per, Nat.mul_add c.num, Nat.add_mul n 1, Nat.one_mul]
      omega
    refine ⟨?_, fun ok => ?_⟩
    · show (ticks n c.tick).todTime = _
      rw [i1, t2]
      omega
    · show (ticks n c.tick).relTime % _ = _
      rw [i2 (tick_ok ok)]
      have t3 := t3 ok.rel
      generalize c.tick.relTime = r at *
      generalize n * (c.pNs * 2 ^ 32 + c.pFns) = u at *
      generalize (n + 1) * (c.pNs * 2 ^ 32 + c.pFns) = v at *
      generalize c.num * ((n + c.denom - 1 - c.tick.cnt) / c.denom) = w at *
      generalize c.num * ((n + 1 + c.denom - 1 - c.cnt) / c.denom) = x at *
      omega

theorem ticks_succ (n : Nat) : ∀ c, ticks (n + 1) c = (ticks n c).tick := by
  induction n with
  | zero => intro c; rfl
  | succ n ih => intro c; exact ih c.tick

theorem src_ticks {td : Nat} {ins : Nat → List Op} {x0 : Src} {t0 : Nat} (hs : ∀ n, t0 ≤ n → ins n = []) (n : Nat) :
    (srcRun td ins x0 (t0 + n)).clk = ticks n (srcRun td ins x0 t0).clk := by
  induction n with
  | zero => rfl
  | succ n ih => rw [ticks_succ, ← ih]; exact settled_succ (n := t0 + n) hs (by omega)

/-- C119: after `n` edges both times have advanced by `n` periods and one drift correction in `drift_denom` edges. -/
theorem C119_time {td : Nat} {ins : Nat → List Op} {x0 : Src} {t0 : Nat} (hc : x0.clk.Ok) (ho : ∀ n, ∀ o ∈ ins n, o.Ok) (hs : ∀ n, t0 ≤ n → ins n = [])
    (n : Nat) :
    let c := (srcRun td ins x0 t0).clk
    let a := n * (c.pNs * 2 ^ 32 + c.pFns) + c.num * ((n + c.denom - 1 - c.cnt) / c.denom)
    (srcRun td ins x0 (t0 + n)).clk.todTime = c.todTime + a ∧ (srcRun td ins x0 (t0 + n)).clk.relTime = (c.relTime + a) % 2 ^ 80 ∧
    (srcRun td ins x0 (t0 + n)).clk.ns < 1000000000 := by
  intro c a
  have ok := src_ok (td := td) ho hc (t0 + n)
  obtain ⟨i1, i2⟩ := ticks_time n c
  rw [← src_ticks hs] at i1 i2
  refine ⟨by rw [i1, Nat.add_assoc], ?_, ok.ns⟩
  have i2 := i2 (src_ok ho hc t0)
  rw [Nat.add_assoc] at i2
  rw [← i2]
  have r := ok.rel
  have f := ok.fns
  unfold Clk.relTime
  exact (Nat.mod_eq_of_lt (by omega)).symm

/-- in five edges 6.4 ns five times, exactly 32 ns -/
example : (ticks 5 demo.clk).todTime = demo.clk.todTime + 32 * 2 ^ 32 := by decide +kernel

/-- the sink has the time of this source from edge 1281 on -/
example (n : Nat) (hn : 1281 ≤ n) (hn' : n < 2 ^ 64) :
    ∃ k, snkRun 32 (fun _ => []) demo { clk := { ns := 17 } } (n + (239 + 32)) = some k ∧ k.clk = (srcRun 32 (fun _ => []) demo n).clk := by
  have ok : demo.clk.Ok := ⟨by decide, by decide, by decide, by decide, by decide, by decide, by decide, by decide⟩
  have ho : ∀ n : Nat, ∀ o ∈ (fun _ => [] : Nat → List Op) n, o.Ok := fun _ _ h => by cases h
  refine C118_follows (t0 := 0) (by decide) (by decide) ⟨rfl, rfl, rfl, by decide⟩ ⟨rfl, rfl, rfl, rfl⟩ ok ho (fun _ _ => rfl) (by simpa [demo] using hn) ?_
  have := (C119_time (td := 32) (t0 := 0) ok ho (fun _ _ => rfl) n).1
  rw [Nat.zero_add] at this
  generalize (srcRun 32 (fun _ => []) demo n).clk = c at *
  simp only [srcRun, demo, Clk.todTime] at this
  omega

/-! ### C120 -/

theorem tick_both (c : Clk) : ∃ inc, c.tick.ns + 1000000000 * c.tick.s = c.ns + 1000000000 * c.s + inc ∧ c.tick.rel = (c.rel + inc) % 2 ^ 48 := by
  have f : c.frac.rel = c.rel ∧ c.frac.s = c.s ∧ c.frac.ns = c.ns := by
    unfold Clk.frac
    dsimp only
    repeat' split
    all_goals exact ⟨rfl, rfl, rfl⟩
  obtain ⟨f1, f2, f3⟩ := f
  refine ⟨c.frac.fns / 2 ^ 32, ?_⟩
  unfold Clk.tick
  dsimp only
  rw [f1, f2, f3]
  generalize c.frac.fns / 2 ^ 32 = i
  split
  · exact ⟨by dsimp only; omega, rfl⟩
  · exact ⟨by dsimp only; omega, rfl⟩

theorem ticks_both (n : Nat) : ∀ c : Clk, ∃ inc, (ticks n c).ns + 1000000000 * (ticks n c).s = c.ns + 1000000000 * c.s + inc ∧
    (ticks n c).rel % 2 ^ 32 = (c.rel + inc) % 2 ^ 32 := by
  induction n with
  | zero => intro c; exact ⟨0, rfl, rfl⟩
  | succ n ih =>
    intro c
    obtain ⟨i, h1, h2⟩ := tick_both c
    obtain ⟨j, g1, g2⟩ := ih c.tick
    refine ⟨i + j, ?_, ?_⟩
    · show (ticks n c.tick).ns + _ = _
      rw [ticks]
      omega
    · rw [ticks]
      rw [h2] at g2
      omega

/-- C120: from the relative time and an offset sent at any earlier time, the nanoseconds of the time of day follow, for the second then current and for
the one next to it. -/
theorem C120_offsets {td : Nat} {ins : Nat → List Op} {x0 : Src} {t0 : Nat} (hs : ∀ n, t0 ≤ n → ins n = []) {t : Nat} (ht : t0 ≤ t) (m : Nat) :
    let c := (srcRun td ins x0 t).clk
    let d := (srcRun td ins x0 (t + m)).clk
    ((c.off : Int) + d.rel) % 2 ^ 32 = (d.ns + 1000000000 * (d.s - c.s)) % 2 ^ 32 ∧
    ((c.altOff : Int) + d.rel) % 2 ^ 32 = (d.ns + 1000000000 * (d.s - c.altS)) % 2 ^ 32 ∧
    (c.altS = c.s + 1 ∨ c.altS = c.s - 1) := by
  intro c d
  have e : d = ticks m c := src_ticks (t0 := t) (fun n h => hs n (by omega)) m
  obtain ⟨i, g1, g2⟩ := ticks_both m c
  rw [← e] at g1 g2
  clear_value c d
  have h1 : ((c.off : Int) + d.rel) % 2 ^ 32 = (d.ns + 1000000000 * (d.s - c.s)) % 2 ^ 32 := by
    unfold Clk.off
    omega
  refine ⟨h1, ?_, ?_⟩
  · unfold Clk.altOff Clk.altS
    have nn : ∀ z : Int, 0 ≤ z % 2 ^ 32 := fun z => Int.emod_nonneg _ (by decide)
    have h0 := Int.emod_eq_emod_iff_emod_sub_eq_zero.1 h1
    split
    · rw [Int.toNat_of_nonneg (nn _), Int.emod_add_emod, Int.emod_eq_emod_iff_emod_sub_eq_zero, ← h0]
      congr 1
      omega
    · rw [Int.toNat_of_nonneg (nn _), Int.emod_add_emod, Int.emod_eq_emod_iff_emod_sub_eq_zero, ← h0]
      congr 1
      omega
  · unfold Clk.altS
    split
    · exact Or.inl rfl
    · exact Or.inr rfl

section
variable {td : Nat} {ins : Nat → List Op} {x0 : Src} {k0 : Snk}

theorem last_msg (h1 : 1 ≤ td) (h2 : td ≤ 256) (hx : x0.Idle) (hk : k0.Idle) (hc : x0.clk.Ok) (ho : ∀ n, ∀ o ∈ ins n, o.Ok) {α : Type}
    (i : Nat) (hi : i < 3) (f : Snk → α) (g : Clk → α)
    (hl : ∀ κ k k', Loaded td ins x0 κ k k' → f k' = if (x0.idx + κ) % 3 = i then g (srcRun td ins x0 (x0.delay + 1 + 256 * κ)).clk else f k)
    (hkp : ∀ k k', Kept k k' → f k' = f k) {n : Nat} (hn : x0.delay + 513 ≤ n) :
    ∃ k t, snkRun td ins x0 k0 (n + (239 + td)) = some k ∧ t ≤ n ∧ n < t + 768 ∧ f k = g (srcRun td ins x0 t).clk := by
  obtain ⟨a1, a2, a3, a4⟩ := hx
  obtain ⟨κ0, hκ0, hlt⟩ : ∃ κ, (x0.idx + κ) % 3 = i ∧ κ < 3 := ⟨(i + 3 - x0.idx) % 3, by omega, by omega⟩
  have key : ∀ m, ∃ k κ, snkRun td ins x0 k0 (x0.delay + 240 + 256 * κ0 + td + m) = some k ∧ (x0.idx + κ) % 3 = i ∧ κ0 ≤ κ ∧
      256 * κ ≤ 256 * κ0 + m ∧ 256 * κ0 + m < 256 * κ + 768 ∧ f k = g (srcRun td ins x0 (x0.delay + 1 + 256 * κ)).clk := by
    intro m
    induction m with
    | zero =>
      obtain ⟨k, k', -, e, l, -⟩ := snk_step (n := x0.delay + 239 + 256 * κ0 + td) a4 ho hc h1 h2 ⟨a1, a2, a3⟩ hk
      have e0 : x0.delay + 240 + 256 * κ0 + td + 0 = x0.delay + 239 + 256 * κ0 + td + 1 := by omega
      refine ⟨k', κ0, by rw [e0]; exact e, hκ0, Nat.le_refl _, by omega, by omega, ?_⟩
      rw [hl κ0 k k' (l κ0 (by omega)), if_pos hκ0]
    | succ m ih =>
      obtain ⟨k, κ, e, q1, q2, q3, q4, q5⟩ := ih
      obtain ⟨k₂, k', e₂, e', l, r⟩ := snk_step (n := x0.delay + 240 + 256 * κ0 + td + m) a4 ho hc h1 h2 ⟨a1, a2, a3⟩ hk
      have : k₂ = k := by rw [e] at e₂; exact (Option.some.inj e₂).symm
      subst this
      by_cases hl' : ∃ κ', x0.delay + 240 + 256 * κ0 + td + m + 1 = x0.delay + 240 + 256 * κ' + td
      · obtain ⟨κ', hl'⟩ := hl'
        have := hl κ' _ _ (l κ' hl')
        by_cases hi' : (x0.idx + κ') % 3 = i
        · rw [if_pos hi'] at this
          exact ⟨k', κ', e', hi', by omega, by omega, by omega, this⟩
        · rw [if_neg hi'] at this
          exact ⟨k', κ, e', q1, q2, by omega, by omega, this.trans q5⟩
      · have := hkp _ _ (r fun κ' h => hl' ⟨κ', h⟩)
        refine ⟨k', κ, e', q1, q2, by omega, ?_, this.trans q5⟩
        apply Classical.byContradiction
        intro hh
        exact hl' ⟨κ + 3, by omega⟩
  obtain ⟨k, κ, q0, q1, q2, q3, q4, q5⟩ := key (n - (x0.delay + 1 + 256 * κ0))
  have e : x0.delay + 240 + 256 * κ0 + td + (n - (x0.delay + 1 + 256 * κ0)) = n + (239 + td) := by omega
  rw [e] at q0
  exact ⟨k, x0.delay + 1 + 256 * κ, q0, by omega, by omega, q5⟩

/-- C120: the sink has the offset of one of the last 768 edges, and the alternate offset with its second likewise. -/
theorem C120_received (h1 : 1 ≤ td) (h2 : td ≤ 256) (hx : x0.Idle) (hk : k0.Idle) (hc : x0.clk.Ok) (ho : ∀ n, ∀ o ∈ ins n, o.Ok) {n : Nat}
    (hn : x0.delay + 513 ≤ n) :
    ∃ k, snkRun td ins x0 k0 (n + (239 + td)) = some k ∧ (∃ t, t ≤ n ∧ n < t + 768 ∧ k.off = (srcRun td ins x0 t).clk.off) ∧
      ∃ t, t ≤ n ∧ n < t + 768 ∧ k.altOff = (srcRun td ins x0 t).clk.altOff ∧ (k.altS : Int) = (srcRun td ins x0 t).clk.altS % 2 ^ 48 := by
  obtain ⟨k, t, e, a1, a2, a3⟩ := last_msg h1 h2 hx hk hc ho 1 (by omega) (fun k => k.off) (fun c => c.off)
    (fun κ k k' h => h.2.1) (fun k k' h => h.2.1) hn
  obtain ⟨k₂, t₂, e₂, b1, b2, b3⟩ := last_msg h1 h2 hx hk hc ho 2 (by omega) (fun k => (k.altS, k.altOff)) (fun c => ((c.altS % 2 ^ 48).toNat, c.altOff))
    (fun κ k k' h => by
      obtain ⟨-, -, h3, h4⟩ := h
      show (k'.altS, k'.altOff) = _
      rw [h3, h4]
      split <;> rfl)
    (fun k k' h => by obtain ⟨-, -, h3, h4⟩ := h; show (k'.altS, k'.altOff) = _; rw [h3, h4]) hn
  have : k₂ = k := by rw [e] at e₂; exact (Option.some.inj e₂).symm
  subst this
  refine ⟨k₂, e, ⟨t, a1, a2, a3⟩, t₂, b1, b2, (Prod.mk.inj b3).2, ?_⟩
  rw [(Prod.mk.inj b3).1]
  omega

end

/-- a clock shortly before the end of a second -/
def eve : Clk := { pNs := 6, pFns := 0x66666666, num := 2, denom := 5, fns := 7, rel := 5, s := 3, ns := 999999990 }

/-- the next second is announced in the latter half of this one -/
example : eve.altS = 4 ∧ eve.altOff = 4294967281 ∧ (ticks 2 eve).rel = 17 ∧ (ticks 2 eve).ns = 2 ∧ (ticks 2 eve).s = 4 ∧ (4294967281 + 17) % 2 ^ 32 = 2 := by
  refine ⟨by simp [Clk.altS, eve], by simp [Clk.altOff, Clk.off, eve], by decide +kernel, by decide +kernel, by decide +kernel, by decide⟩

end Corundum.PtpTd
