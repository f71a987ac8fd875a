import Verif.Proof.Msix

namespace Corundum.Msix

variable {c : Cfg} {ins : Nat → In}

/-- from cycle `n0` on: no requests, the output is taken, the function is enabled and not masked, no vector is masked -/
def Quiet (c : Cfg) (ins : Nat → In) (n0 : Nat) : Prop :=
  ∀ n, n0 ≤ n → (ins n).iv = false ∧ (ins n).trdy = true ∧ (ins n).en = true ∧ (ins n).gm = false ∧ ∀ i, i < 2 ^ c.w → ((ins n).tbl (2 * i + 1)).testBit 32 = false

theorem q_regs {n0 : Nat} (hq : Quiet c ins n0) {n : Nat} (hn : n0 < n) : (st c ins n).en = true ∧ (st c ins n).gm = false := by
  obtain ⟨k, rfl⟩ : ∃ k, n = k + 1 := ⟨n - 1, by omega⟩
  exact ⟨(hq k (by omega)).2.2.1, (hq k (by omega)).2.2.2.1⟩

theorem q_rd1 {n : Nat} (h : (st c ins n).ph = .rd1) : (st c ins (n + 1)).ph = .rd2 ∧ (st c ins (n + 1)).idx = (st c ins n).idx ∧ (st c ins (n + 1)).pba = (st c ins n).pba := by
  show (fsm c (st c ins n) (ins n)).ph = _ ∧ (fsm c (st c ins n) (ins n)).idx = _ ∧ (fsm c (st c ins n) (ins n)).pba = _
  unfold fsm; rw [h]; exact ⟨rfl, rfl, rfl⟩

theorem q_rd2 {n0 : Nat} (hq : Quiet c ins n0) {n : Nat} (hn : n0 < n) (hi : (st c ins n).idx < 2 ^ c.w) (h : (st c ins n).ph = .rd2) :
    (st c ins (n + 1)).ph = .send ∧ (st c ins (n + 1)).idx = (st c ins n).idx ∧ (st c ins (n + 1)).pba = (st c ins n).pba := by
  obtain ⟨k, hk, _, q2, _, _⟩ := (source (c := c) (ins := ins) n).2.1 h
  have hm := (hq (k + 1) (by omega)).2.2.2.2 _ hi
  rw [← q2] at hm
  obtain ⟨r1, r2⟩ := q_regs hq hn
  show (fsm c (st c ins n) (ins n)).ph = _ ∧ (fsm c (st c ins n) (ins n)).idx = _ ∧ (fsm c (st c ins n) (ins n)).pba = _
  unfold fsm; rw [h]; simp [hm, r1, r2]

theorem q_send {n0 : Nat} (hq : Quiet c ins n0) {n : Nat} (hn : n0 < n) (h : (st c ins n).ph = .send) : load (st c ins n) (ins n) = true := by
  unfold load; rw [h, (hq n (by omega)).2.1]; simp

/-- the state after a message -/
theorem after_load {s : St} {i : In} (I : Inv c s) (h : load s i = true) {a : Nat} (ha : a ≠ s.idx) (hp : s.pba 0 a = true) :
    (step c s i).ph = .idle ∧ (step c s i).idx = (s.idx + 1) % 2 ^ c.w ∧ (step c s i).pba 0 a = true ∧ (step c s i).pbd a = true := by
  have hph := load_ph h
  have hn : s.ph ≠ .idle := by rw [hph]; exact Ph.noConfusion
  show (fsm c s i).ph = _ ∧ (fsm c s i).idx = _ ∧ (fsm c s i).pba 0 a = _ ∧ (fsm c s i).pbd a = _
  unfold fsm; rw [hph]; simp only [h, if_true]
  have hd : s.pbd a = true := by rw [I.rd hn]; exact hp
  refine ⟨trivial, trivial, ?_, hd⟩
  rw [write_low (I.small hn)]
  simp only [updW, updB, if_true, if_neg ha]; exact hd

/-- cycles in which the message of a state machine that is busy goes out -/
theorem busy_load {n0 : Nat} (hq : Quiet c ins n0) {n : Nat} (hn : n0 < n) (hi : (st c ins n).idx < 2 ^ c.w) (h : (st c ins n).ph ≠ .idle) :
    ∃ k, k ≤ 2 ∧ load (st c ins (n + k)) (ins (n + k)) = true ∧ (st c ins (n + k)).idx = (st c ins n).idx ∧ (st c ins (n + k)).pba = (st c ins n).pba := by
  cases hph : (st c ins n).ph with
  | idle => exact absurd hph h
  | rd1 =>
    obtain ⟨a1, a2, a3⟩ := q_rd1 hph
    obtain ⟨b1, b2, b3⟩ := q_rd2 hq (show n0 < n + 1 by omega) (by rw [a2]; exact hi) a1
    exact ⟨2, by omega, q_send hq (show n0 < n + 1 + 1 by omega) b1, b2.trans a2, b3.trans a3⟩
  | rd2 =>
    obtain ⟨b1, b2, b3⟩ := q_rd2 hq hn hi hph
    exact ⟨1, by omega, q_send hq (show n0 < n + 1 by omega) b1, b2, b3⟩
  | send => exact ⟨0, by omega, q_send hq hn hph, rfl, rfl⟩

theorem idle_try {n0 : Nat} (hq : Quiet c ins n0) {n : Nat} (hn : n0 < n) (h : (st c ins n).ph = .idle) (hp : (st c ins n).pbd ((st c ins n).idx % 64) = true) :
    (st c ins (n + 1)).ph = .rd1 ∧ (st c ins (n + 1)).idx = (st c ins n).idx ∧ (st c ins (n + 1)).pba = (st c ins n).pba := by
  obtain ⟨r1, r2⟩ := q_regs hq hn
  show (fsm c (st c ins n) (ins n)).ph = _ ∧ (fsm c (st c ins n) (ins n)).idx = _ ∧ (fsm c (st c ins n) (ins n)).pba = _
  unfold fsm; rw [h]; simp [hp, r1, r2, (hq n (by omega)).1]

theorem idle_scan {n0 : Nat} (hq : Quiet c ins n0) {n : Nat} (hn : n0 < n) (h : (st c ins n).ph = .idle) (hp : (st c ins n).pbd ((st c ins n).idx % 64) = false) :
    (st c ins (n + 1)).ph = .idle ∧ (st c ins (n + 1)).idx = scan c (st c ins n) ∧ (st c ins (n + 1)).pba = (st c ins n).pba ∧
      (st c ins (n + 1)).pbd = (st c ins n).pba (c.rdAddr (scan c (st c ins n))) := by
  obtain ⟨r1, r2⟩ := q_regs hq hn
  show (fsm c (st c ins n) (ins n)).ph = _ ∧ (fsm c (st c ins n) (ins n)).idx = _ ∧ (fsm c (st c ins n) (ins n)).pba = _ ∧ (fsm c (st c ins n) (ins n)).pbd = _
  unfold fsm; rw [h]; simp [hp, r1, r2, (hq n (by omega)).1]

/-! ### progress of the scan -/

def dist (N a x : Nat) : Nat := if x ≤ a then a - x else a + N - x

theorem dist_succ {N a x : Nat} (hx : x < N) (ha : a < N) (h : x ≠ a) : dist N a ((x + 1) % N) < dist N a x := by
  unfold dist
  by_cases hc : x + 1 = N
  · rw [hc, Nat.mod_self, if_pos (Nat.zero_le _), if_neg (by omega)]; omega
  · rw [Nat.mod_eq_of_lt (by omega)]
    by_cases h1 : x ≤ a
    · rw [if_pos h1, if_pos (by omega)]; omega
    · rw [if_neg h1, if_neg (by omega)]; omega

theorem dist_jump {w a x : Nat} (hx : x < 2 ^ w) (ha : a < 32) (h : 64 ≤ x) : dist (2 ^ w) a ((x / 64 + 1) * 64 % 2 ^ w) < dist (2 ^ w) a x := by
  have hw : 6 ≤ w := by
    apply Classical.byContradiction; intro hw
    have : 2 ^ w ≤ 2 ^ 6 := Nat.pow_le_pow_right (by omega) (by omega)
    omega
  have e : 2 ^ w = 2 ^ (w - 6) * 64 := by rw [show (64 : Nat) = 2 ^ 6 by decide, ← Nat.pow_add]; congr 1; omega
  generalize 2 ^ (w - 6) = M at e
  unfold dist
  by_cases hc : (x / 64 + 1) * 64 = 2 ^ w
  · rw [hc, Nat.mod_self, if_pos (Nat.zero_le _), if_neg (by omega)]; omega
  · rw [Nat.mod_eq_of_lt (by omega), if_neg (by omega), if_neg (by omega)]; omega

def Good (s : St) (a : Nat) : Prop := s.ph = .idle ∧ s.pba 0 a = true ∧ (s.idx < 64 → s.pbd a = true)

theorem sent_of {n a : Nat} (h : load (st c ins n) (ins n) = true) (hi : (st c ins n).idx = a) : Sent c ins n a := ⟨appears_iff.2 h, hi⟩

theorem rd_mod {i : Nat} (h : i < 64) : c.rdAddr i = 0 := by
  unfold Cfg.rdAddr; rw [show i / 64 = 0 by omega, Nat.zero_mod]

theorem good_step (hw : 1 ≤ c.w) (hL : Legal c ins) (hl : Low ins) {n0 : Nat} (hq : Quiet c ins n0) {n a : Nat} (hn : n0 < n) (g : Good (st c ins n) a) :
    (∃ k, k ≤ 3 ∧ Sent c ins (n + k) a) ∨ ∃ k, 1 ≤ k ∧ k ≤ 4 ∧ Good (st c ins (n + k)) a ∧ dist (2 ^ c.w) a (st c ins (n + k)).idx < dist (2 ^ c.w) a (st c ins n).idx := by
  have I := fun n => inv_st hw hL hl n
  obtain ⟨g1, g2, g3⟩ := g
  obtain ⟨_, a32, aw⟩ := (I n).pb _ _ g2
  have hid := (I n).idx
  cases hp : (st c ins n).pbd ((st c ins n).idx % 64) with
  | true =>
    obtain ⟨e1, e2, e3⟩ := idle_try hq hn g1 hp
    obtain ⟨k, hk, l1, l2, l3⟩ := busy_load hq (show n0 < n + 1 by omega) (by rw [e2]; exact hid) (by rw [e1]; exact Ph.noConfusion)
    by_cases ha : (st c ins n).idx = a
    · exact Or.inl ⟨1 + k, by omega, by rw [← Nat.add_assoc]; exact sent_of l1 (by rw [l2, e2, ha])⟩
    · right
      obtain ⟨f1, f2, f3, f4⟩ := after_load (I (n + 1 + k)) l1 (a := a) (by rw [l2, e2]; exact fun q => ha q.symm) (by rw [l3, e3]; exact g2)
      refine ⟨1 + k + 1, by omega, by omega, ?_⟩
      rw [show n + (1 + k + 1) = n + 1 + k + 1 by omega]
      refine ⟨⟨f1, f3, fun _ => f4⟩, ?_⟩
      show dist _ _ (step c (st c ins (n + 1 + k)) (ins (n + 1 + k))).idx < _
      rw [f2, l2, e2]
      exact dist_succ hid aw ha
  | false =>
    right
    have ha : (st c ins n).idx ≠ a := by
      rintro rfl
      have := g3 (by omega)
      rw [Nat.mod_eq_of_lt (by omega), this] at hp; cases hp
    obtain ⟨e1, e2, e3, e4⟩ := idle_scan hq hn g1 hp
    refine ⟨1, by omega, by omega, ⟨e1, by rw [e3]; exact g2, ?_⟩, ?_⟩
    · intro h
      rw [e2] at h
      rw [e4, rd_mod h]; exact g2
    · rw [e2]
      unfold scan
      by_cases h64 : (st c ins n).idx < 64
      · have : (List.range 64).any (st c ins n).pbd = true := List.any_eq_true.2 ⟨a, List.mem_range.2 (by omega), g3 h64⟩
        rw [if_pos this]; exact dist_succ hid aw ha
      · split
        · exact dist_succ hid aw ha
        · exact dist_jump hid a32 (by omega)

theorem good_sent (hw : 1 ≤ c.w) (hL : Legal c ins) (hl : Low ins) {n0 : Nat} (hq : Quiet c ins n0) {a : Nat} : ∀ (d n : Nat), n0 < n → Good (st c ins n) a → dist (2 ^ c.w) a (st c ins n).idx ≤ d →
    ∃ k, k ≤ 4 * d + 3 ∧ Sent c ins (n + k) a
  | 0, n, hn, g, hd => by
    rcases good_step hw hL hl hq hn g with ⟨k, hk, h⟩ | ⟨k, _, _, _, h⟩
    · exact ⟨k, by omega, h⟩
    · omega
  | d + 1, n, hn, g, hd => by
    rcases good_step hw hL hl hq hn g with ⟨k, hk, h⟩ | ⟨k, _, hk, g', h⟩
    · exact ⟨k, by omega, h⟩
    · obtain ⟨k', hk', h'⟩ := good_sent hw hL hl hq d (n + k) (by omega) g' (by omega)
      exact ⟨k + k', by omega, by rw [← Nat.add_assoc]; exact h'⟩

theorem owed_sent (hw : 1 ≤ c.w) (hL : Legal c ins) (hl : Low ins) {n0 : Nat} (hq : Quiet c ins n0) {n a : Nat} (hn : n0 < n) (h : Owed (st c ins n) a) :
    ∃ k, k ≤ 4 * 2 ^ c.w + 7 ∧ Sent c ins (n + k) a := by
  have I := fun n => inv_st hw hL hl n
  have hid := (I n).idx
  have fin : ∀ k, k ≤ 4 → Good (st c ins (n + k)) a → ∃ k, k ≤ 4 * 2 ^ c.w + 7 ∧ Sent c ins (n + k) a := by
    intro k hk g
    have aw := ((I (n + k)).pb _ _ g.2.1).2.2
    have hid' := (I (n + k)).idx
    obtain ⟨k', hk', h'⟩ := good_sent hw hL hl hq (2 ^ c.w) (n + k) (by omega) g (by unfold dist; split <;> omega)
    exact ⟨k + k', by omega, by rw [← Nat.add_assoc]; exact h'⟩
  have busy : ∀ j, j ≤ 1 → (st c ins (n + j)).ph ≠ .idle → Owed (st c ins (n + j)) a → ∃ k, k ≤ 4 * 2 ^ c.w + 7 ∧ Sent c ins (n + k) a := by
    intro j hj hb ho
    obtain ⟨k, hk, l1, l2, l3⟩ := busy_load hq (show n0 < n + j by omega) (I _).idx hb
    by_cases ha : (st c ins (n + j)).idx = a
    · exact ⟨j + k, by omega, by rw [← Nat.add_assoc]; exact sent_of l1 (by rw [l2, ha])⟩
    · have hp : (st c ins (n + j)).pba 0 a = true := by
        rcases ho with q | ⟨_, q⟩
        · exact q
        · exact absurd q ha
      obtain ⟨f1, f2, f3, f4⟩ := after_load (I (n + j + k)) l1 (a := a) (by rw [l2]; exact fun q => ha q.symm) (by rw [l3]; exact hp)
      exact fin (j + k + 1) (by omega) (by rw [show n + (j + k + 1) = n + j + k + 1 by omega]; exact ⟨f1, f3, fun _ => f4⟩)
  by_cases hb : (st c ins n).ph = .idle
  · have hp : (st c ins n).pba 0 a = true := by
      rcases h with q | ⟨q, _⟩
      · exact q
      · exact absurd hb q
    cases hx : (st c ins n).pbd ((st c ins n).idx % 64) with
    | true =>
      obtain ⟨e1, e2, e3⟩ := idle_try hq hn hb hx
      exact busy 1 (by omega) (by rw [e1]; exact Ph.noConfusion) (Or.inl (by rw [e3]; exact hp))
    | false =>
      obtain ⟨e1, e2, e3, e4⟩ := idle_scan hq hn hb hx
      refine fin 1 (by omega) ⟨e1, by rw [e3]; exact hp, ?_⟩
      intro q; rw [e2] at q; rw [e4, rd_mod q]; exact hp
  · exact busy 0 (by omega) hb h

theorem owed_until (hw : 1 ≤ c.w) (hL : Legal c ins) (hl : Low ins) {n a : Nat} (ht : Taken c ins n a) : ∀ k, (∃ l, l < k ∧ Sent c ins (n + 1 + l) a) ∨ Owed (st c ins (n + 1 + k)) a
  | 0 => Or.inr (by have := taken_owed (inv_st hw hL hl n) ht.1 ht.2.1; rw [ht.2.2] at this; exact this)
  | k + 1 => by
    rcases owed_until hw hL hl ht k with ⟨l, h1, h2⟩ | h
    · exact Or.inl ⟨l, by omega, h2⟩
    · rcases owed_step (i := ins (n + 1 + k)) (inv_st hw hL hl _) h with ⟨q1, q2⟩ | q
      · exact Or.inl ⟨k, by omega, sent_of q1 q2⟩
      · exact Or.inr q

/-! ### a masked vector in the way -/

/-- the state machine tries the same vector again and again -/
theorem stuck {n i : Nat} (hi : i < 32) (hwi : i < 2 ^ c.w) (hq : ∀ k, n ≤ k → (ins k).iv = false ∧ ((ins k).tbl (2 * i + 1)).testBit 32 = true ∧ (ins k).en = true ∧ (ins k).gm = false)
    (h0 : (st c ins n).ph = .idle) (h1 : (st c ins n).idx = i) (h2 : (st c ins n).pbd i = true) (h3 : (st c ins n).pba 0 i = true) (h4 : (st c ins n).en = true) (h5 : (st c ins n).gm = false) :
    ∀ k, n ≤ k → ¬ Appears c ins k := by
  have key : ∀ k, (st c ins (n + k)).idx = i ∧ (st c ins (n + k)).pba 0 i = true ∧ (st c ins (n + k)).pbd i = true ∧ (st c ins (n + k)).en = true ∧ (st c ins (n + k)).gm = false ∧
      ((st c ins (n + k)).ph = .idle ∨ (st c ins (n + k)).ph = .rd1 ∨ ((st c ins (n + k)).ph = .rd2 ∧ (st c ins (n + k)).tq.testBit 32 = true)) := by
    intro k
    induction k with
    | zero => exact ⟨h1, h3, h2, h4, h5, Or.inl h0⟩
    | succ k ih =>
      obtain ⟨a1, a2, a3, a4, a5, a6⟩ := ih
      obtain ⟨q1, q2, q3, q4⟩ := hq (n + k) (by omega)
      generalize hS : st c ins (n + k) = s at *
      show (step c (st c ins (n + k)) (ins (n + k))).idx = i ∧ (step c (st c ins (n + k)) (ins (n + k))).pba 0 i = true ∧ (step c (st c ins (n + k)) (ins (n + k))).pbd i = true ∧
        (ins (n + k)).en = true ∧ (ins (n + k)).gm = false ∧ ((step c (st c ins (n + k)) (ins (n + k))).ph = .idle ∨ (step c (st c ins (n + k)) (ins (n + k))).ph = .rd1 ∨
          ((step c (st c ins (n + k)) (ins (n + k))).ph = .rd2 ∧ (step c (st c ins (n + k)) (ins (n + k))).tq.testBit 32 = true))
      rw [hS]
      show (fsm c s (ins (n + k))).idx = i ∧ (fsm c s (ins (n + k))).pba 0 i = true ∧ (fsm c s (ins (n + k))).pbd i = true ∧
        (ins (n + k)).en = true ∧ (ins (n + k)).gm = false ∧ ((fsm c s (ins (n + k))).ph = .idle ∨ (fsm c s (ins (n + k))).ph = .rd1 ∨
          ((fsm c s (ins (n + k))).ph = .rd2 ∧ (fsm c s (ins (n + k))).tq.testBit 32 = true))
      have him : i % 64 = i := Nat.mod_eq_of_lt (by omega)
      unfold fsm
      rcases a6 with p | p | ⟨p, p'⟩
      · rw [p]; simp [q1, q3, q4, a1, a2, a3, a4, a5, him, rd_low hi]
      · rw [p]; simp [q2, q3, q4, a1, a2, a3, a4, a5]
      · rw [p]; simp [p', q3, q4, a1, a3, a4, a5, write_low (c := c) (s := s) (v := true) (by rw [a1]; exact hi), updW, updB]
  intro k hk ha
  have := load_ph (appears_iff.1 ha)
  obtain ⟨_, _, _, _, _, q⟩ := key (k - n)
  rw [show n + (k - n) = k by omega] at q
  rcases q with q | q | ⟨q, _⟩ <;> rw [q] at this <;> cases this

/-! ### pending bits that do not arrive -/

/-- with no pending bit and no request nothing is sent -/
theorem nothing {n : Nat} (hq : ∀ k, n ≤ k → (ins k).iv = false) (h0 : (st c ins n).ph = .idle) (h1 : ∀ a b, (st c ins n).pba a b = false) (h2 : ∀ b, (st c ins n).pbd b = false) :
    ∀ k, n ≤ k → ¬ Appears c ins k := by
  have key : ∀ k, (st c ins (n + k)).ph = .idle ∧ (∀ a b, (st c ins (n + k)).pba a b = false) ∧ ∀ b, (st c ins (n + k)).pbd b = false := by
    intro k
    induction k with
    | zero => exact ⟨h0, h1, h2⟩
    | succ k ih =>
      obtain ⟨a1, a2, a3⟩ := ih
      have q1 := hq (n + k) (by omega)
      show (fsm c (st c ins (n + k)) (ins (n + k))).ph = _ ∧ (∀ a b, (fsm c (st c ins (n + k)) (ins (n + k))).pba a b = false) ∧ ∀ b, (fsm c (st c ins (n + k)) (ins (n + k))).pbd b = false
      unfold fsm
      rw [a1]; simp only [q1, Bool.false_and, Bool.false_eq_true, if_false, a3]
      split
      · exact ⟨rfl, a2, fun b => a2 _ b⟩
      · exact ⟨rfl, a2, a3⟩
  intro k hk ha
  have := load_ph (appears_iff.1 ha)
  have q := (key (k - n)).1
  rw [show n + (k - n) = k by omega] at q
  rw [q] at this; cases this

end Corundum.Msix
