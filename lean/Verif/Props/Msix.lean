import Verif.Proof.MsixLive

/-!
MSI-X messages (pcie_msix.v): C80 what is sent, C81 that requests are kept, C82 the pending bits of vectors 32 and up.
-/
namespace Corundum.Msix

variable {c : Cfg} {ins : Nat → In}

/-- The address and data of a message are those of the vector in the table, read while the function was enabled and neither it nor the vector was masked.  The two words are read in
two cycles, one after the other.  For every vector. -/
theorem C80_messages_as_programmed (hL : Legal c ins) {n i : Nat} (h : Sent c ins n i) :
    ∃ k, k + 2 < n ∧ (st c ins (n + 1)).tlp.addr = (ins k).tbl (2 * i) / 4 * 4 ∧ (st c ins (n + 1)).tlp.FmtOk c.force ∧ (st c ins (n + 1)).tlp.data = (ins (k + 1)).tbl (2 * i + 1) % 2 ^ 32 ∧
      ((ins (k + 1)).tbl (2 * i + 1)).testBit 32 = false ∧ (ins (k + 1)).en = true ∧ (ins (k + 1)).gm = false := by
  obtain ⟨h1, h2⟩ := h
  have hl := appears_iff.1 h1
  obtain ⟨k, hk, e1, e2, e3, e4, e5⟩ := (source (c := c) (ins := ins) n).2.2 (load_ph hl)
  rw [h2] at e1 e2 e3
  have hv : (ins k).tbl (2 * i) < 2 ^ 64 := (hL k).2 _
  have ht : (st c ins (n + 1)).tlp = msg c ((ins k).tbl (2 * i) / 4 * 4) ((ins (k + 1)).tbl (2 * i + 1) % 2 ^ 32) := by
    show (if load (st c ins n) (ins n) then msg c (st c ins n).vaddr (st c ins n).vdata else (st c ins n).tlp) = _
    rw [if_pos hl, e1, e2]
  rw [ht]
  obtain ⟨v, ev⟩ : ∃ v, v = (ins k).tbl (2 * i) := ⟨_, rfl⟩
  rw [← ev] at hv ⊢
  have ha : (msg c (v / 4 * 4) ((ins (k + 1)).tbl (2 * i + 1) % 2 ^ 32)).addr = v / 4 * 4 := by
    unfold Tlp.addr msg
    by_cases hb : (v / 4 * 4 / 2 ^ 32 != 0 || c.force) = true
    · simp only [hb, if_true]; omega
    · simp only [hb]
      simp only [Bool.or_eq_true, bne_iff_ne, ne_eq, not_or, Classical.not_not] at hb
      simp only [Bool.false_eq_true, if_false]
      omega
  refine ⟨k, hk, by rw [ha, ev], ?_, rfl, e3, e4, e5⟩
  unfold Tlp.FmtOk
  rw [ha]
  show (v / 4 * 4 / 2 ^ 32 != 0 || c.force) = true ↔ _
  simp only [Bool.or_eq_true, bne_iff_ne, ne_eq]
  constructor
  · rintro (q | q)
    · right; omega
    · exact Or.inl q
  · rintro (q | q)
    · exact Or.inr q
    · left; omega

/-- A message that is offered stays as it is until it is taken, and a message appears only when there is room for it. -/
theorem C80_offered_until_taken {n : Nat} (h : (st c ins n).ov = true) (hr : (ins n).trdy = false) : (st c ins (n + 1)).ov = true ∧ (st c ins (n + 1)).tlp = (st c ins n).tlp ∧ ¬ Appears c ins n := by
  have hl : load (st c ins n) (ins n) = false := by unfold load; simp [h, hr]
  refine ⟨?_, ?_, ?_⟩
  · show (load (st c ins n) (ins n) || ((st c ins n).ov && !(ins n).trdy)) = true
    rw [h, hr]; simp
  · show (if load (st c ins n) (ins n) then msg c (st c ins n).vaddr (st c ins n).vdata else (st c ins n).tlp) = _
    rw [hl]; simp
  · rw [appears_iff, hl]; simp

theorem rdy_idle : ∀ n, (st c ins n).rdy = true → (st c ins n).ph = .idle
  | 0 => by intro h; cases h
  | n + 1 => by
    have ih := rdy_idle n
    show (fsm c (st c ins n) (ins n)).rdy = true → (fsm c (st c ins n) (ins n)).ph = .idle
    unfold fsm
    cases hp : (st c ins n).ph <;> dsimp only <;> intro h
    · split at h
      · cases h
      · rename_i h1
        rw [if_neg h1]
        split at h
        · rename_i h2
          rw [if_pos h2]
          split at h
          · cases h
          · rename_i h3; rw [if_neg h3]
        · rename_i h2; rw [if_neg h2]
    · cases h
    · split at h
      · cases h
      · rename_i h1; rw [if_neg h1]
    · split at h
      · rename_i h1; rw [if_pos h1]
      · cases h

/-- A request taken while the function is enabled and neither it nor the vector is masked is sent as soon as there is room.  For every vector. -/
theorem C81_direct {n i m : Nat} (ht : Taken c ins n i) (he : (ins (n + 1)).en = true) (hg : (ins (n + 1)).gm = false)
    (hm : ((ins (n + 1)).tbl (2 * i + 1)).testBit 32 = false) (hr : (ins (n + 3 + m)).trdy = true) : ∃ k, k ≤ m ∧ Sent c ins (n + 3 + k) i := by
  obtain ⟨t1, t2, t3⟩ := ht
  have hi := rdy_idle n t2
  have a : (st c ins (n + 1)).ph = .rd1 ∧ (st c ins (n + 1)).idx = i := by
    show (fsm c (st c ins n) (ins n)).ph = _ ∧ (fsm c (st c ins n) (ins n)).idx = _
    unfold fsm; rw [hi]; simp [t1, t2, t3]
  have b : (st c ins (n + 2)).ph = .rd2 ∧ (st c ins (n + 2)).idx = i ∧ (st c ins (n + 2)).tq = (ins (n + 1)).tbl (2 * i + 1) := by
    show (fsm c (st c ins (n + 1)) (ins (n + 1))).ph = _ ∧ (fsm c (st c ins (n + 1)) (ins (n + 1))).idx = _ ∧ (fsm c (st c ins (n + 1)) (ins (n + 1))).tq = _
    unfold fsm; rw [a.1]; exact ⟨rfl, a.2, by simp only [a.2]⟩
  have d : (st c ins (n + 3)).ph = .send ∧ (st c ins (n + 3)).idx = i := by
    show (fsm c (st c ins (n + 2)) (ins (n + 2))).ph = _ ∧ (fsm c (st c ins (n + 2)) (ins (n + 2))).idx = _
    have r1 : (st c ins (n + 2)).en = true := he
    have r2 : (st c ins (n + 2)).gm = false := hg
    unfold fsm; rw [b.1]; simp [r1, r2, b.2.2, hm, b.2.1]
  have key : ∀ k, (∃ l, l < k ∧ Sent c ins (n + 3 + l) i) ∨ ((st c ins (n + 3 + k)).ph = .send ∧ (st c ins (n + 3 + k)).idx = i) := by
    intro k
    induction k with
    | zero => exact Or.inr d
    | succ k ih =>
      rcases ih with ⟨l, hl, q⟩ | ⟨q1, q2⟩
      · exact Or.inl ⟨l, by omega, q⟩
      · cases hl : load (st c ins (n + 3 + k)) (ins (n + 3 + k)) with
        | true => exact Or.inl ⟨k, by omega, sent_of hl q2⟩
        | false =>
          right
          show (fsm c (st c ins (n + 3 + k)) (ins (n + 3 + k))).ph = _ ∧ (fsm c (st c ins (n + 3 + k)) (ins (n + 3 + k))).idx = _
          unfold fsm; rw [q1]; simp [hl, q2]
  rcases key m with ⟨l, hl, q⟩ | ⟨q1, q2⟩
  · exact ⟨l, by omega, q⟩
  · exact ⟨m, Nat.le_refl _, sent_of (by unfold load; rw [q1, hr]; simp) q2⟩

/-- Vectors 0 to 31: a vector is never sent more often than it was requested. -/
theorem C81_none_made_up (hw : 1 ≤ c.w) (hL : Legal c ins) (hl : Low ins) (n i : Nat) : sends c ins n i ≤ takes c ins n i :=
  Nat.le_trans (Nat.le_add_right _ _) (count_le hw hL hl n)

/-- Vectors 0 to 31: a request, masked or not, is sent when from some cycle on there are no requests, the function is enabled, nothing is masked and the output is taken. -/
theorem C81_none_lost (hw : 1 ≤ c.w) (hL : Legal c ins) (hl : Low ins) {n0 : Nat} (hq : Quiet c ins n0) {n i : Nat} (ht : Taken c ins n i) :
    ∃ k, n < k ∧ k ≤ n0 + 4 * 2 ^ c.w + 8 ∧ Sent c ins k i := by
  have hn : n < n0 := by
    apply Classical.byContradiction; intro h
    have := (hq n (by omega)).1
    rw [ht.1] at this; cases this
  rcases owed_until hw hL hl ht (n0 - n) with ⟨l, h1, h2⟩ | h
  · exact ⟨n + 1 + l, by omega, by omega, h2⟩
  · rw [show n + 1 + (n0 - n) = n0 + 1 by omega] at h
    obtain ⟨k, hk, h'⟩ := owed_sent hw hL hl hq (Nat.lt_succ_self n0) h
    exact ⟨n0 + 1 + k, by omega, by omega, h'⟩

/-! ### a masked vector in the way -/

def c6 : Cfg := ⟨6, false⟩

/-- vectors 0 and 1 are requested while both are masked; from cycle 10 on only vector 0 is -/
def bIn (n : Nat) : In :=
  { iv := n == 1 || n == 5, ii := if n = 1 then 0 else 1, trdy := true, en := true, gm := false,
    tbl := fun a => if a % 2 = 0 then 0xfee00000 + 8 * a else if a = 1 ∨ n < 10 then 2 ^ 32 + a else a }

set_option maxRecDepth 1000000 in
/-- A pending vector that stays masked keeps all others from being sent: both requests are taken, vector 1 is not masked from cycle 10 on, and no message is ever sent. -/
theorem C81_masked_blocks : Taken c6 bIn 1 0 ∧ Taken c6 bIn 5 1 ∧ (∀ n, 10 ≤ n → ((bIn n).tbl 3).testBit 32 = false) ∧ ∀ n, ¬ Appears c6 bIn n := by
  refine ⟨by decide, by decide, ?_, ?_⟩
  · intro n hn
    have : (bIn n).tbl 3 = 3 := by
      show (if 3 % 2 = 0 then 0xfee00000 + 8 * 3 else if 3 = 1 ∨ n < 10 then 2 ^ 32 + 3 else 3) = 3
      rw [if_neg (by omega), if_neg (by omega)]
    rw [this]; decide
  · intro n
    by_cases hn : n < 71
    · have : ∀ k ∈ List.range 71, ¬ Appears c6 bIn k := by decide
      exact this n (List.mem_range.2 hn)
    · refine stuck (n := 71) (i := 0) (by omega) (Nat.pow_pos (by omega)) ?_ (by decide) (by decide) (by decide) (by decide) (by decide) (by decide) n (by omega)
      intro k hk
      refine ⟨?_, ?_, rfl, rfl⟩
      · show (k == 1 || k == 5) = false
        simp; omega
      · show (if (2 * 0 + 1) % 2 = 0 then 0xfee00000 + 8 * (2 * 0 + 1) else if (2 * 0 + 1 : Nat) = 1 ∨ k < 10 then 2 ^ 32 + (2 * 0 + 1) else (2 * 0 + 1)).testBit 32 = true
        rw [if_neg (by omega), if_pos (by omega)]; decide

/-! ### vectors 32 and up -/

theorem high_inv (hw : c.w = 6) (hL : Legal c ins) : ∀ k, (st c ins k).idx < 64 ∧ ((st c ins k).rdy = true → (st c ins k).ph = .idle) ∧ (∀ a b, 32 ≤ b → (st c ins k).pba a b = false) ∧
    (∀ b, 32 ≤ b → (st c ins k).pbd b = false) ∧
    ((st c ins k).ph ≠ .idle → 32 ≤ (st c ins k).idx → ∃ m, m < k ∧ Taken c ins m (st c ins k).idx ∧ (∀ j, m < j → j ≤ k → (st c ins j).ph ≠ .idle) ∧
      ((st c ins k).ph = .rd1 → k = m + 1) ∧ ((st c ins k).ph = .rd2 → k = m + 2 ∧ (st c ins k).tq = (ins (m + 1)).tbl (2 * (st c ins k).idx + 1)) ∧
      ((st c ins k).ph = .send → (ins (m + 1)).en = true ∧ (ins (m + 1)).gm = false ∧ ((ins (m + 1)).tbl (2 * (st c ins k).idx + 1)).testBit 32 = false))
  | 0 => ⟨(by show 0 < 64; decide), (by intro h; cases h), fun _ _ _ => rfl, fun _ _ => rfl, fun h => absurd rfl h⟩
  | k + 1 => by
    obtain ⟨i1, i2, i3, i4, i5⟩ := high_inv hw hL k
    have hw6 : 2 ^ c.w = 64 := by rw [hw]
    have hii : (ins k).ii < 64 := by rw [← hw6]; exact (hL k).1
    have hwp : ∀ v a b, 32 ≤ b → writePba c (st c ins k) v a b = false := by
      intro v a b hb
      unfold writePba
      split
      · rename_i hlt
        have h32 : (st c ins k).idx < 32 := by
          unfold Cfg.wrAddr Cfg.words Cfg.pw at hlt
          rw [hw] at hlt
          simp only [Nat.lt_irrefl, gt_iff_lt, if_false] at hlt
          omega
        unfold updW updB
        split
        · dsimp only
          rw [if_neg (by omega)]; exact i4 b hb
        · exact i3 a b hb
      · exact i3 a b hb
    have keep : (st c ins (k + 1)).ph ≠ .idle → ∀ m, (∀ j, m < j → j ≤ k → (st c ins j).ph ≠ .idle) → ∀ j, m < j → j ≤ k + 1 → (st c ins j).ph ≠ .idle := by
      intro h m hm j h1 h2
      by_cases hj : j = k + 1
      · rw [hj]; exact h
      · exact hm j h1 (by omega)
    have hen : (st c ins k).en = true → ∀ m, k = m + 2 → (ins (m + 1)).en = true := by rintro h m rfl; exact h
    have hgm : (st c ins k).gm = false → ∀ m, k = m + 2 → (ins (m + 1)).gm = false := by rintro h m rfl; exact h
    have hph : (st c ins (k + 1)).ph = (fsm c (st c ins k) (ins k)).ph := rfl
    have hidx : (st c ins (k + 1)).idx = (fsm c (st c ins k) (ins k)).idx := rfl
    have htq : (st c ins (k + 1)).tq = (fsm c (st c ins k) (ins k)).tq := rfl
    have hpba : (st c ins (k + 1)).pba = (fsm c (st c ins k) (ins k)).pba := rfl
    have hpbd : (st c ins (k + 1)).pbd = (fsm c (st c ins k) (ins k)).pbd := rfl
    have hrdy : (st c ins (k + 1)).rdy = (fsm c (st c ins k) (ins k)).rdy := rfl
    cases hp : (st c ins k).ph with
    | idle =>
      by_cases c1 : ((ins k).iv && (st c ins k).rdy) = true
      · have e : fsm c (st c ins k) (ins k) = { (st c ins k) with ph := .rd1, idx := (ins k).ii, tq := (ins k).tbl (2 * (ins k).ii), pbd := (st c ins k).pba (c.rdAddr (ins k).ii), rdy := false } := by
          unfold fsm; rw [hp]; simp only [c1, if_true]
        rw [e] at hph hidx htq hpba hpbd hrdy
        rw [Bool.and_eq_true] at c1
        refine ⟨by rw [hidx]; exact hii, (by rw [hrdy]; intro h; cases h), by rw [hpba]; exact i3, by rw [hpbd]; exact fun b hb => i3 _ b hb, ?_⟩
        intro h _
        refine ⟨k, by omega, ⟨c1.1, c1.2, by rw [hidx]⟩, keep h k (fun j h1 h2 => by omega), fun _ => rfl, ?_, ?_⟩
        · intro q; rw [hph] at q; cases q
        · intro q; rw [hph] at q; cases q
      · by_cases c2 : (!(ins k).iv && (st c ins k).en && !(st c ins k).gm) = true
        · by_cases c3 : (st c ins k).pbd ((st c ins k).idx % 64) = true
          · have e : fsm c (st c ins k) (ins k) = { (st c ins k) with ph := .rd1, tq := (ins k).tbl (2 * (st c ins k).idx), pbd := (st c ins k).pba (c.rdAddr (st c ins k).idx), rdy := false } := by
              unfold fsm; rw [hp]; simp [c1, c2, c3]
            rw [e] at hph hidx htq hpba hpbd hrdy
            refine ⟨by rw [hidx]; exact i1, (by rw [hrdy]; intro h; cases h), by rw [hpba]; exact i3, by rw [hpbd]; exact fun b hb => i3 _ b hb, ?_⟩
            intro _ h
            rw [hidx] at h
            rw [Nat.mod_eq_of_lt i1, i4 _ h] at c3; cases c3
          · have e : fsm c (st c ins k) (ins k) = { (st c ins k) with ph := .idle, idx := scan c (st c ins k), pbd := (st c ins k).pba (c.rdAddr (scan c (st c ins k))), rdy := true } := by
              unfold fsm; rw [hp]; simp [c1, c2, c3]
            rw [e] at hph hidx htq hpba hpbd hrdy
            refine ⟨?_, fun _ => hph, by rw [hpba]; exact i3, by rw [hpbd]; exact fun b hb => i3 _ b hb, fun h => absurd hph h⟩
            rw [hidx]; dsimp only; unfold scan; rw [hw6]; split <;> omega
        · have e : fsm c (st c ins k) (ins k) = { (st c ins k) with ph := .idle, rdy := true } := by
            unfold fsm; rw [hp]; simp [c1, c2]
          rw [e] at hph hidx htq hpba hpbd hrdy
          exact ⟨by rw [hidx]; exact i1, fun _ => hph, by rw [hpba]; exact i3, by rw [hpbd]; exact i4, fun h => absurd hph h⟩
    | rd1 =>
      have e : fsm c (st c ins k) (ins k) = { (st c ins k) with ph := .rd2, tq := (ins k).tbl (2 * (st c ins k).idx + 1), vaddr := (st c ins k).tq / 4 * 4, rdy := false } := by
        unfold fsm; rw [hp]
      rw [e] at hph hidx htq hpba hpbd hrdy
      refine ⟨by rw [hidx]; exact i1, (by rw [hrdy]; intro h; cases h), by rw [hpba]; exact i3, by rw [hpbd]; exact i4, ?_⟩
      intro h h'
      rw [hidx] at h'
      obtain ⟨m, m1, m2, m3, m4, _, _⟩ := i5 (by rw [hp]; exact Ph.noConfusion) h'
      have := m4 hp
      refine ⟨m, by omega, by rw [hidx]; exact m2, keep h m m3, ?_, ?_, ?_⟩
      · intro q; rw [hph] at q; cases q
      · intro _; refine ⟨by omega, ?_⟩; rw [htq, hidx, this]
      · intro q; rw [hph] at q; cases q
    | rd2 =>
      by_cases c1 : ((st c ins k).en && !(st c ins k).gm && !(st c ins k).tq.testBit 32) = true
      · have e : fsm c (st c ins k) (ins k) = { (st c ins k) with ph := .send, vdata := (st c ins k).tq % 2 ^ 32, rdy := false } := by
          unfold fsm; rw [hp]; simp only [c1, if_true]
        rw [e] at hph hidx htq hpba hpbd hrdy
        refine ⟨by rw [hidx]; exact i1, (by rw [hrdy]; intro h; cases h), by rw [hpba]; exact i3, by rw [hpbd]; exact i4, ?_⟩
        intro h h'
        rw [hidx] at h'
        obtain ⟨m, m1, m2, m3, _, m5, _⟩ := i5 (by rw [hp]; exact Ph.noConfusion) h'
        obtain ⟨q1, q2⟩ := m5 hp
        simp only [Bool.and_eq_true, Bool.not_eq_true'] at c1
        refine ⟨m, by omega, by rw [hidx]; exact m2, keep h m m3, ?_, ?_, ?_⟩
        · intro q; rw [hph] at q; cases q
        · intro q; rw [hph] at q; cases q
        · intro _; refine ⟨hen c1.1.1 m q1, hgm c1.1.2 m q1, ?_⟩; rw [hidx, ← q2]; exact c1.2
      · have e : fsm c (st c ins k) (ins k) = { (st c ins k) with ph := .idle, vdata := (st c ins k).tq % 2 ^ 32, pba := writePba c (st c ins k) true, rdy := true } := by
          unfold fsm; rw [hp]; simp [c1]
        rw [e] at hph hidx htq hpba hpbd hrdy
        exact ⟨by rw [hidx]; exact i1, fun _ => hph, by rw [hpba]; exact hwp true, by rw [hpbd]; exact i4, fun h => absurd hph h⟩
    | send =>
      by_cases c1 : load (st c ins k) (ins k) = true
      · have e : fsm c (st c ins k) (ins k) = { (st c ins k) with ph := .idle, pba := writePba c (st c ins k) false, idx := ((st c ins k).idx + 1) % 2 ^ c.w, rdy := true } := by
          unfold fsm; rw [hp]; simp only [c1, if_true]
        rw [e] at hph hidx htq hpba hpbd hrdy
        exact ⟨by rw [hidx, hw6]; dsimp only; omega, fun _ => hph, by rw [hpba]; exact hwp false, by rw [hpbd]; exact i4, fun h => absurd hph h⟩
      · have e : fsm c (st c ins k) (ins k) = { (st c ins k) with ph := .send, rdy := false } := by
          unfold fsm; rw [hp]; simp [c1]
        rw [e] at hph hidx htq hpba hpbd hrdy
        refine ⟨by rw [hidx]; exact i1, (by rw [hrdy]; intro h; cases h), by rw [hpba]; exact i3, by rw [hpbd]; exact i4, ?_⟩
        intro h h'
        rw [hidx] at h'
        obtain ⟨m, m1, m2, m3, _, _, m6⟩ := i5 (by rw [hp]; exact Ph.noConfusion) h'
        refine ⟨m, by omega, by rw [hidx]; exact m2, keep h m m3, ?_, ?_, ?_⟩
        · intro q; rw [hph] at q; cases q
        · intro q; rw [hph] at q; cases q
        · intro _; rw [hidx]; exact m6 hp

/-- With 64 vectors (most mqnic configurations) a request of one of the vectors 32 to 63 that is taken while the function is not enabled or while it or the vector is masked is lost: no message follows,
however long the vector is unmasked, unless it is requested again. -/
theorem C82_masked_high_lost (hw : c.w = 6) (hL : Legal c ins) {n i : Nat} (hi : 32 ≤ i) (ht : Taken c ins n i)
    (hm : (ins (n + 1)).en = false ∨ (ins (n + 1)).gm = true ∨ ((ins (n + 1)).tbl (2 * i + 1)).testBit 32 = true) {k : Nat} (hk : n < k) (hs : Sent c ins k i) :
    ∃ m, n < m ∧ m < k ∧ Taken c ins m i := by
  have hp := load_ph (appears_iff.1 hs.1)
  have hI := (high_inv hw hL k).2.2.2.2
  rw [hs.2] at hI
  obtain ⟨m, m1, m2, m3, _, _, m6⟩ := hI (by rw [hp]; exact Ph.noConfusion) hi
  have hni := (high_inv hw hL n).2.1 ht.2.1
  have h1 : n ≤ m := by
    apply Classical.byContradiction; intro h
    exact m3 n (by omega) (by omega) hni
  by_cases h2 : n = m
  · subst h2
    obtain ⟨a, b, d⟩ := m6 hp
    rcases hm with q | q | q
    · rw [a] at q; cases q
    · rw [b] at q; cases q
    · rw [d] at q; cases q
  · exact ⟨m, by omega, m1, m2⟩

/-- a request of vector `v` while the function is not enabled; it is from cycle 8 on -/
def hIn (v n : Nat) : In :=
  { iv := n == 1, ii := v, trdy := true, en := decide (8 ≤ n), gm := false, tbl := fun a => if a % 2 = 0 then 0xfee00000 + 8 * (a % 256) else a % 256 }

set_option maxRecDepth 1000000 in
/-- With 128 vectors the message of another vector is sent: only vector 32 is requested, and the message is that of vector 96. -/
theorem C82_wrong_vector : (∀ n j, Taken ⟨7, false⟩ (hIn 32) n j → j = 32) ∧ Sent ⟨7, false⟩ (hIn 32) 45 96 ∧ (st ⟨7, false⟩ (hIn 32) 46).tlp.addr = 0xfee00000 + 16 * 96 :=
  ⟨fun _ _ h => h.2.2.symm, by decide, by decide⟩

/-! ### examples -/

/-- C80, C81: vector 5 is requested while the function is not enabled, and its message is sent later -/
example : Taken c6 (hIn 5) 1 5 ∧ Sent c6 (hIn 5) 18 5 ∧ (st c6 (hIn 5) 19).tlp = ⟨false, (0xfee00000 + 16 * 5) / 4, 11⟩ ∧ sends c6 (hIn 5) 30 5 = 1 := by
  set_option maxRecDepth 1000000 in decide

/-- the hypotheses of C81_none_lost hold for it -/
example : Legal c6 (hIn 5) ∧ Low (hIn 5) ∧ Quiet c6 (hIn 5) 8 := by
  refine ⟨fun n => ⟨by show 5 < 64; decide, fun a => ?_⟩, fun n => by show 5 < 32; decide, fun n hn => ⟨?_, rfl, ?_, rfl, fun i _ => ?_⟩⟩
  · show (if a % 2 = 0 then 0xfee00000 + 8 * (a % 256) else a % 256) < 2 ^ 64
    split <;> omega
  · show (n == 1) = false; simp; omega
  · show decide (8 ≤ n) = true; simpa using hn
  · show (if (2 * i + 1) % 2 = 0 then 0xfee00000 + 8 * ((2 * i + 1) % 256) else (2 * i + 1) % 256).testBit 32 = false
    rw [if_neg (by omega)]
    exact Nat.testBit_lt_two_pow (by omega)

/-- C81_direct: a request of vector 40 after the function was enabled is sent three cycles later -/
example : Taken c6 (fun n => hIn 40 (if n = 9 then 1 else if n < 9 then 0 else n)) 9 40 ∧ Sent c6 (fun n => hIn 40 (if n = 9 then 1 else if n < 9 then 0 else n)) 12 40 := by
  set_option maxRecDepth 1000000 in decide

/-- C82: with 64 vectors the request of vector 40 while the function is not enabled is taken -/
example : Taken c6 (hIn 40) 1 40 ∧ (hIn 40 2).en = false ∧ ∀ n ∈ List.range 200, ¬ Sent c6 (hIn 40) n 40 := by
  set_option maxRecDepth 1000000 in decide

/-- C80_offered_until_taken: a message waits -/
example : (st c6 (fun n => { hIn 5 n with trdy := false }) 30).ov = true ∧ Sent c6 (fun n => { hIn 5 n with trdy := false }) 18 5 := by
  set_option maxRecDepth 1000000 in decide

end Corundum.Msix
