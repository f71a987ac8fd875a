import Verif.Spec.DmaRdReq

namespace Corundum.DmaRd

theorem dw_cases (c : Cfg) : c.dw = 32 ∨ c.dw = 64 ∨ c.dw = 128 ∨ c.dw = 256 ∨ c.dw = 512 ∨ c.dw = 1024 := by
  unfold Cfg.dw
  by_cases h : c.mrrs > 5
  · rw [if_pos h]; decide
  · rw [if_neg h]
    have : c.mrrs = 0 ∨ c.mrrs = 1 ∨ c.mrrs = 2 ∨ c.mrrs = 3 ∨ c.mrrs = 4 ∨ c.mrrs = 5 := by omega
    rcases this with h | h | h | h | h | h <;> rw [h] <;> decide

theorem dw_big (c : Cfg) : c.dw = 1024 ↔ 5 ≤ c.mrrs := by
  unfold Cfg.dw
  by_cases h : c.mrrs > 5
  · rw [if_pos h]; constructor
    · intro _; omega
    · intro _; decide
  · rw [if_neg h]
    have : c.mrrs = 0 ∨ c.mrrs = 1 ∨ c.mrrs = 2 ∨ c.mrrs = 3 ∨ c.mrrs = 4 ∨ c.mrrs = 5 := by omega
    rcases this with h | h | h | h | h | h <;> rw [h] <;> decide

theorem dw_spec (c : Cfg) : c.dw * 4 = 128 * 2 ^ min c.mrrs 5 := by
  unfold Cfg.dw
  by_cases h : c.mrrs > 5
  · rw [if_pos h, show min c.mrrs 5 = 5 by omega]
  · rw [if_neg h, show min c.mrrs 5 = c.mrrs by omega]; omega

/-- registers in the middle of an operation that is not one of the two bad cases -/
structure Good (c : Cfg) (r : Regs) : Prop where
  wide : 12 ≤ c.paw
  pos : 1 ≤ r.cnt
  fits : r.cnt < 2 ^ c.lw
  nowrap : r.cnt + r.addr % 4 < 2 ^ max c.lw 13
  space : r.addr + r.cnt ≤ 2 ^ c.paw

/-- with `PageEnd` for the rest, the only bad pass: a whole page left -/
def Whole (c : Cfg) (r : Regs) : Prop := c.dw = 1024 ∧ r.cnt = 4096 ∧ r.addr % 4096 = 0

structure Step (c : Cfg) (r : Regs) : Prop where
  pos : 1 ≤ tlpCount c r
  le : tlpCount c r ≤ r.cnt
  last : ¬ Whole c r → (lastTlp c r = true ↔ tlpCount c r = r.cnt)
  dword : dwordCount c r = (tlpCount c r + r.addr % 4 + 3) / 4
  max : dwordCount c r ≤ c.dw
  page : r.addr % 4096 + tlpCount c r ≤ 4096
  data : tlpCount c r = r.cnt ∧ dataFc c r = (dwordCount c r + 3) / 4 ∨ dataFc c r = (dwordCount c r + r.addr % 16 / 4 + 3) / 4
  hdr : hdrFc c r = (r.addr % c.boundary + tlpCount c r + (c.boundary - 1)) / c.boundary

theorem step_ok (c : Cfg) (r : Regs) (g : Good c r) : Step c r := by
  obtain ⟨_, h1, h2, h3, h4⟩ := g
  have hs : small c r = decide (r.cnt + r.addr % 4 ≤ c.dw * 4) := by unfold small; rw [Nat.mod_eq_of_lt h3]
  have hx : crossS r = decide (4096 ≤ r.addr % 4096 + r.cnt) := by
    unfold crossS
    rw [Bool.eq_iff_iff]
    simp only [Bool.or_eq_true, bne_iff_ne, ne_eq, decide_eq_true_eq]
    omega
  have hl : crossL c r = decide (4096 ≤ r.addr % 4096 + c.dw * 4) := by
    unfold crossL
    rw [Bool.eq_iff_iff]
    simp only [bne_iff_ne, ne_eq, decide_eq_true_eq]
    have := dw_cases c
    omega
  have hc := dw_cases c
  have hb : c.boundary = 128 ∧ c.rcb = true ∨ c.boundary = 64 ∧ c.rcb = false := by
    unfold Cfg.boundary; cases c.rcb <;> simp
  by_cases a : r.cnt + r.addr % 4 ≤ c.dw * 4
  · by_cases b : 4096 ≤ r.addr % 4096 + r.cnt
    · have ht : tlpCount c r = 4096 - r.addr % 4096 := by simp [tlpCount, hs, hx, a, b]
      have hd : dwordCount c r = 1024 - r.addr % 4096 / 4 := by simp [dwordCount, hs, hx, a, b]
      have hla : lastTlp c r = ((r.addr % 4096 + r.cnt % 4096) % 4096 == 0 && r.cnt / 4096 == 0) := by simp [lastTlp, hs, hx, a, b]
      have hda : dataFc c r = 256 - r.addr % 4096 / 16 := by simp [dataFc, hs, hx, a, b]
      refine ⟨by omega, by omega, ?_, by omega, by omega, by omega, by right; omega, ?_⟩
      · intro hw
        rw [hla, ht]; simp only [Bool.and_eq_true, beq_iff_eq]
        unfold Whole at hw
        omega
      · rcases hb with ⟨hb, hr⟩ | ⟨hb, hr⟩
        · have : hdrFc c r = 32 - r.addr % 4096 / 128 := by simp [hdrFc, hs, hx, a, b, hr]
          rw [this, ht, hb]; omega
        · have : hdrFc c r = 64 - r.addr % 4096 / 64 := by simp [hdrFc, hs, hx, a, b, hr]
          rw [this, ht, hb]; omega
    · have ht : tlpCount c r = r.cnt := by simp only [tlpCount, hs, hx, a, b]; simp; omega
      have hd : dwordCount c r = (r.cnt + r.addr % 4 + 3) / 4 := by simp only [dwordCount, hs, hx, a, b]; simp; omega
      have hla : lastTlp c r = true := by simp [lastTlp, hs, hx, a, b]
      have hda : dataFc c r = (r.cnt + r.addr % 4 + 15) / 16 := by simp only [dataFc, hs, hx, a, b]; simp; omega
      refine ⟨by omega, by omega, ?_, by omega, by omega, by omega, by left; exact ⟨ht, by omega⟩, ?_⟩
      · intro _; rw [hla, ht]; simp
      · rcases hb with ⟨hb, hr⟩ | ⟨hb, hr⟩
        · have : hdrFc c r = (r.addr % 128 + r.cnt + 127) / 128 := by simp only [hdrFc, hs, hx, a, b, hr]; simp; omega
          rw [this, ht, hb]
        · have : hdrFc c r = (r.addr % 64 + r.cnt + 63) / 64 := by simp only [hdrFc, hs, hx, a, b, hr]; simp; omega
          rw [this, ht, hb]
  · have hla : lastTlp c r = false := by simp [lastTlp, hs, a]
    by_cases b : 4096 ≤ r.addr % 4096 + c.dw * 4
    · have ht : tlpCount c r = 4096 - r.addr % 4096 := by simp [tlpCount, hs, hl, a, b]
      have hd : dwordCount c r = 1024 - r.addr % 4096 / 4 := by simp [dwordCount, hs, hl, a, b]
      have hda : dataFc c r = 256 - r.addr % 4096 / 16 := by simp [dataFc, hs, hl, a, b]
      refine ⟨by omega, by omega, ?_, by omega, by omega, by omega, by right; omega, ?_⟩
      · intro _; rw [hla, ht]; simp; omega
      · rcases hb with ⟨hb, hr⟩ | ⟨hb, hr⟩
        · have : hdrFc c r = 32 - r.addr % 4096 / 128 := by simp [hdrFc, hs, hl, a, b, hr]
          rw [this, ht, hb]; omega
        · have : hdrFc c r = 64 - r.addr % 4096 / 64 := by simp [hdrFc, hs, hl, a, b, hr]
          rw [this, ht, hb]; omega
    · have ht : tlpCount c r = c.dw * 4 - r.addr % 128 := by simp [tlpCount, hs, hl, a, b]
      have hd : dwordCount c r = c.dw - r.addr % 128 / 4 := by simp [dwordCount, hs, hl, a, b]
      have hda : dataFc c r = c.dw / 4 - r.addr % 128 / 16 := by simp [dataFc, hs, hl, a, b]
      refine ⟨by omega, by omega, ?_, by omega, by omega, by omega, by right; omega, ?_⟩
      · intro _; rw [hla, ht]; simp; omega
      · rcases hb with ⟨hb, hr⟩ | ⟨hb, hr⟩
        · have : hdrFc c r = c.dw / 32 := by simp [hdrFc, hs, hl, a, b, hr]
          rw [this, ht, hb]; omega
        · have : hdrFc c r = c.dw / 16 - r.addr / 64 % 2 := by simp [hdrFc, hs, hl, a, b, hr]
          rw [this, ht, hb]; omega

theorem next_ok (c : Cfg) (r : Regs) (g : Good c r) (h : tlpCount c r < r.cnt) :
    nextAddr c r = r.addr + tlpCount c r ∧ (r.addr + tlpCount c r) % 128 = 0 := by
  obtain ⟨_, h1, h2, h3, h4⟩ := g
  have hs : small c r = decide (r.cnt + r.addr % 4 ≤ c.dw * 4) := by unfold small; rw [Nat.mod_eq_of_lt h3]
  have hx : crossS r = decide (4096 ≤ r.addr % 4096 + r.cnt) := by
    unfold crossS
    rw [Bool.eq_iff_iff]
    simp only [Bool.or_eq_true, bne_iff_ne, ne_eq, decide_eq_true_eq]
    omega
  have hl : crossL c r = decide (4096 ≤ r.addr % 4096 + c.dw * 4) := by
    unfold crossL
    rw [Bool.eq_iff_iff]
    simp only [bne_iff_ne, ne_eq, decide_eq_true_eq]
    have := dw_cases c
    omega
  have hc := dw_cases c
  by_cases a : r.cnt + r.addr % 4 ≤ c.dw * 4
  · by_cases b : 4096 ≤ r.addr % 4096 + r.cnt
    · have ht : tlpCount c r = 4096 - r.addr % 4096 := by simp [tlpCount, hs, hx, a, b]
      have hn : nextAddr c r = (r.addr / 4096 + 1) * 4096 % 2 ^ c.paw := by simp [nextAddr, hs, hx, a, b]
      rw [Nat.mod_eq_of_lt (by omega)] at hn
      omega
    · have ht : tlpCount c r = r.cnt := by simp only [tlpCount, hs, hx, a, b]; simp; omega
      omega
  · by_cases b : 4096 ≤ r.addr % 4096 + c.dw * 4
    · have ht : tlpCount c r = 4096 - r.addr % 4096 := by simp [tlpCount, hs, hl, a, b]
      have hn : nextAddr c r = (r.addr / 4096 + 1) * 4096 % 2 ^ c.paw := by simp [nextAddr, hs, hl, a, b]
      rw [Nat.mod_eq_of_lt (by omega)] at hn
      omega
    · have ht : tlpCount c r = c.dw * 4 - r.addr % 128 := by simp [tlpCount, hs, hl, a, b]
      have hn : nextAddr c r = r.addr / 4096 * 4096 + (r.addr % 4096 / 128 * 32 + c.dw) * 4 % 4096 := by simp [nextAddr, hs, hl, a, b]
      rw [Nat.mod_eq_of_lt (by omega)] at hn
      omega

theorem after_cnt (c : Cfg) (r : Regs) (g : Good c r) : (after c r).cnt = r.cnt - tlpCount c r := by
  have := step_ok c r g
  have h1 := this.le
  have h2 := g.fits
  simp only [after]
  rw [Nat.mod_eq_of_lt (by omega : tlpCount c r < 2 ^ c.lw), show r.cnt + 2 ^ c.lw - tlpCount c r = r.cnt - tlpCount c r + 2 ^ c.lw by omega,
    Nat.add_mod_right, Nat.mod_eq_of_lt (by omega)]

theorem after_good (c : Cfg) (r : Regs) (g : Good c r) (h : tlpCount c r < r.cnt) : Good c (after c r) := by
  have hn := next_ok c r g h
  have hc := after_cnt c r g
  have s := step_ok c r g
  have h1 := s.pos
  have ha : (after c r).addr = r.addr + tlpCount c r := hn.1
  have h2 := g.nowrap
  have h3 := g.space
  have h4 := g.fits
  refine ⟨g.wide, by omega, by omega, ?_, by omega⟩
  rw [ha, hc]
  have : (r.addr + tlpCount c r) % 4 = 0 := by omega
  omega

/-- the register contents at the requests of an operation -/
inductive Walk (c : Cfg) : Regs → List Regs → Prop
  | last (r) : Good c r → tlpCount c r = r.cnt → Walk c r [r]
  | cons (r rs) : Good c r → tlpCount c r < r.cnt → Walk c (after c r) rs → Walk c r (r :: rs)

theorem walk_exists (c : Cfg) : ∀ (n : Nat) (r : Regs), r.cnt ≤ n → Good c r → ∃ rs, Walk c r rs
  | 0, r, h, g => by have := g.pos; omega
  | n + 1, r, h, g => by
    have s := step_ok c r g
    rcases Nat.lt_or_ge (tlpCount c r) r.cnt with hl | hl
    · obtain ⟨rs, hw⟩ := walk_exists c n (after c r) (by rw [after_cnt c r g]; have := s.pos; omega) (after_good c r g hl)
      exact ⟨_, .cons r rs g hl hw⟩
    · exact ⟨_, .last r g (by have := s.le; omega)⟩

/-- the request made when nothing is left -/
def extra (c : Cfg) (r : Regs) : Req where
  dwAddr := (r.addr + r.cnt) % 2 ^ c.paw / 4
  len := 0
  fbe := 15
  lbe := 15
  ramEnd := (r.ram + r.cnt) % 2 ^ c.raw
  hfc := 0
  dfc := 0
  zero := false

theorem walk_good {c : Cfg} {r : Regs} {rs : List Regs} (w : Walk c r rs) : Good c r := by
  cases w <;> assumption

theorem not_whole {c : Cfg} {r : Regs} (h : ¬ PageEnd c r.addr r.cnt) : ¬ Whole c r := by
  rintro ⟨h1, h2, h3⟩
  exact h ⟨(dw_big c).1 h1, by omega, by omega⟩

theorem pageEnd_after {c : Cfg} {r : Regs} (g : Good c r) (hl : tlpCount c r < r.cnt) (h : PageEnd c (after c r).addr (after c r).cnt) :
    PageEnd c r.addr r.cnt := by
  obtain ⟨h1, h2, h3⟩ := h
  have hc := after_cnt c r g
  have ha : (after c r).addr = r.addr + tlpCount c r := (next_ok c r g hl).1
  refine ⟨h1, by omega, ?_⟩
  rw [ha, hc] at h3
  rw [← h3]; congr 1; omega

theorem requests_walk (c : Cfg) (r : Regs) (rs : List Regs) (w : Walk c r rs) (hp : ¬ PageEnd c r.addr r.cnt) :
    ∀ n, r.cnt ≤ n → requests c n r = some (rs.map (req c)) := by
  induction w with
  | last r g ht =>
    intro n hn
    obtain ⟨m, rfl⟩ : ∃ m, n = m + 1 := ⟨n - 1, by have := g.pos; omega⟩
    have := ((step_ok c r g).last (not_whole hp)).2 ht
    simp [requests, this]
  | cons r rs g ht w ih =>
    intro n hn
    obtain ⟨m, rfl⟩ : ∃ m, n = m + 1 := ⟨n - 1, by have := g.pos; omega⟩
    have s := step_ok c r g
    have : lastTlp c r = false := by
      rw [← Bool.not_eq_true, s.last (not_whole hp)]; omega
    have hi := ih (fun h => hp (pageEnd_after g ht h)) m (by rw [after_cnt c r g]; have := s.pos; omega)
    simp [requests, this, hi]

theorem whole_step {c : Cfg} {r : Regs} (g : Good c r) (h : Whole c r) : tlpCount c r = 4096 ∧ lastTlp c r = false ∧ nextAddr c r = (r.addr + 4096) % 2 ^ c.paw := by
  obtain ⟨h1, h2, h3⟩ := h
  have h0 : r.addr % 4 = 0 := by omega
  have hs : small c r = true := by
    unfold small
    have := g.nowrap
    rw [Nat.mod_eq_of_lt this, h1, h2, h0]; rfl
  have hx : crossS r = true := by unfold crossS; rw [h2, h3]; rfl
  refine ⟨?_, ?_, ?_⟩
  · simp [tlpCount, hs, hx, h3]
  · simp [lastTlp, hs, hx, h2]
  · simp only [nextAddr, hs, hx, if_true]; congr 1; omega

theorem empty_step {c : Cfg} {r : Regs} (h : r.cnt = 0) (h0 : r.addr % 4096 = 0) :
    lastTlp c r = true ∧ tlpCount c r = 0 ∧ dwordCount c r = 0 ∧ hdrFc c r = 0 ∧ dataFc c r = 0 := by
  have h1 : r.addr % 4 = 0 := by omega
  have hs : small c r = true := by unfold small; rw [h, h1]; simp
  have hx : crossS r = false := by unfold crossS; rw [h, h0]; rfl
  refine ⟨?_, ?_, ?_, ?_, ?_⟩ <;> simp [lastTlp, tlpCount, dwordCount, hdrFc, dataFc, hs, hx, h, h1]
  have : r.addr % 128 = 0 := by omega
  have : r.addr % 64 = 0 := by omega
  simp [*]

theorem requests_extra (c : Cfg) (r : Regs) (rs : List Regs) (w : Walk c r rs) (hz : r.zero = false) (hp : PageEnd c r.addr r.cnt) :
    ∀ n, r.cnt ≤ n → requests c n r = some (rs.map (req c) ++ [extra c r]) := by
  induction w with
  | last r g ht =>
    intro n hn
    obtain ⟨h1, h2, h3⟩ := hp
    have s := step_ok c r g
    have hw : Whole c r := ⟨(dw_big c).2 h1, by have := s.page; omega, by have := s.page; omega⟩
    obtain ⟨w1, w2, w3⟩ := whole_step g hw
    obtain ⟨m, rfl⟩ : ∃ m, n = m + 2 := ⟨n - 2, by omega⟩
    have hc : (after c r).cnt = 0 := by rw [after_cnt c r g]; omega
    have ha : (after c r).addr = (r.addr + r.cnt) % 2 ^ c.paw := by rw [hw.2.1]; exact w3
    have hm : (after c r).addr % 4096 = 0 := by
      rw [ha]
      have := g.space
      rcases Nat.lt_or_ge (r.addr + r.cnt) (2 ^ c.paw) with hh | hh
      · rw [Nat.mod_eq_of_lt hh]; exact h3
      · rw [show r.addr + r.cnt = 2 ^ c.paw by omega, Nat.mod_self]
    obtain ⟨e1, e2, e3, e4, e5⟩ := @empty_step c (after c r) hc hm
    have : req c (after c r) = extra c r := by
      have e0 : (after c r).addr % 4 = 0 := by omega
      have ez : (after c r).zero = false := hz
      have er : (after c r).ram = (r.ram + r.cnt) % 2 ^ c.raw := by simp only [after, ht]
      simp only [req, extra, e2, e3, e4, e5, ez, er, ← ha, firstBe, lastBe, e0]
      simp
    simp [requests, w2, e1, this]
  | cons r rs g ht w ih =>
    intro n hn
    obtain ⟨m, rfl⟩ : ∃ m, n = m + 1 := ⟨n - 1, by have := g.pos; omega⟩
    have s := step_ok c r g
    have hnw : ¬ Whole c r := by
      intro hw
      have := (whole_step g hw).1
      have := hw.2.1
      omega
    have : lastTlp c r = false := by
      rw [← Bool.not_eq_true, s.last hnw]; omega
    have hc := after_cnt c r g
    have ha : (after c r).addr = r.addr + tlpCount c r := (next_ok c r g ht).1
    have hsum : (after c r).addr + (after c r).cnt = r.addr + r.cnt := by omega
    obtain ⟨h1, h2, h3⟩ := hp
    have hp' : PageEnd c (after c r).addr (after c r).cnt := by
      refine ⟨h1, ?_, by rw [hsum]; exact h3⟩
      have := s.pos
      have := s.page
      have := next_ok c r g ht
      have hK := (dw_big c).2 h1
      have hx : small c r = decide (r.cnt + r.addr % 4 ≤ 4096) := by unfold small; rw [Nat.mod_eq_of_lt g.nowrap, hK]
      have hpg : (r.addr + tlpCount c r) % 4096 = 0 := by
        have hs : small c r = decide (r.cnt + r.addr % 4 ≤ c.dw * 4) := by unfold small; rw [Nat.mod_eq_of_lt g.nowrap]
        by_cases a : r.cnt + r.addr % 4 ≤ c.dw * 4
        · have hxx : crossS r = true := by
            unfold crossS
            simp only [Bool.or_eq_true, bne_iff_ne, ne_eq]
            omega
          have ht : tlpCount c r = 4096 - r.addr % 4096 := by simp [tlpCount, hs, hxx, a]
          omega
        · have hll : crossL c r = true := by
            unfold crossL
            simp only [bne_iff_ne, ne_eq, hK]
            omega
          have ht : tlpCount c r = 4096 - r.addr % 4096 := by simp [tlpCount, hs, hll, a]
          omega
      omega
    have hi := ih hz hp' m (by have := s.pos; omega)
    have he : extra c (after c r) = extra c r := by
      have : ((after c r).ram + (after c r).cnt) % 2 ^ c.raw = (r.ram + r.cnt) % 2 ^ c.raw := by
        rw [hc]; simp only [after]; rw [Nat.mod_add_mod]; congr 1; omega
      simp only [extra, hsum, this]
    simp [requests, *]

theorem fbe_bit : ∀ a j : Fin 4, (15 * 2 ^ a.val % 16).testBit j.val = decide (a.val ≤ j.val) := by decide

theorem lbe_bit : ∀ e j : Fin 4, (15 / 2 ^ (3 - e.val)).testBit j.val = decide (j.val ≤ e.val) := by decide

theorem all_bit : ∀ j : Fin 4, (15 : Nat).testBit j.val = true := by decide

theorem filter_interval (a b : Nat) : ∀ n, b ≤ n → (List.range n).filter (fun o => decide (a ≤ o ∧ o < b)) = List.range' a (b - a)
  | 0, h => by rw [show b - a = 0 by omega]; rfl
  | n + 1, h => by
    rw [List.range_succ, List.filter_append]
    rcases Nat.lt_or_ge n b with hb | hb
    · have hb : b = n + 1 := by omega
      subst hb
      have := filter_interval a n n (Nat.le_refl _)
      have e : (List.range n).filter (fun o => decide (a ≤ o ∧ o < n + 1)) = (List.range n).filter (fun o => decide (a ≤ o ∧ o < n)) := by
        apply List.filter_congr
        intro o ho
        have := List.mem_range.1 ho
        rw [decide_eq_decide]; omega
      rw [e, this]
      rcases Nat.lt_or_ge n a with ha | ha
      · rw [show n - a = 0 by omega, show n + 1 - a = 0 by omega]; simp; omega
      · rw [show n + 1 - a = (n - a) + 1 by omega, List.range'_concat]
        simp [ha]
    · rw [filter_interval a b n hb]
      simp; omega

theorem req_dwords (c : Cfg) (r : Regs) (g : Good c r) : (req c r).dwords = dwordCount c r := by
  have s := step_ok c r g
  have h1 := s.dword
  have h2 := s.max
  have h3 := s.pos
  have := dw_cases c
  unfold Req.dwords req
  dsimp only
  by_cases h : dwordCount c r = 1024
  · rw [h]; rfl
  · have : dwordCount c r % 1024 = dwordCount c r := Nat.mod_eq_of_lt (by omega)
    rw [this, if_neg (by omega)]

theorem req_bytes (c : Cfg) (r : Regs) (g : Good c r) (hz : r.zero = false) : (req c r).bytes = List.range' r.addr (tlpCount c r) := by
  have s := step_ok c r g
  have h1 := s.dword
  have h3 := s.pos
  unfold Req.bytes
  rw [req_dwords c r g]
  have e : (List.range (dwordCount c r * 4)).filter (fun o => ((req c r).be (o / 4)).testBit (o % 4)) =
      (List.range (dwordCount c r * 4)).filter (fun o => decide (r.addr % 4 ≤ o ∧ o < r.addr % 4 + tlpCount c r)) := by
    apply List.filter_congr
    intro o ho
    have ho := List.mem_range.1 ho
    unfold Req.be
    rw [req_dwords c r g]
    have f := fbe_bit ⟨r.addr % 4, by omega⟩ ⟨o % 4, by omega⟩
    have l := lbe_bit ⟨(r.addr % 4 + tlpCount c r % 4 + 3) % 4, by omega⟩ ⟨o % 4, by omega⟩
    have m := all_bit ⟨o % 4, by omega⟩
    dsimp only at f l m
    have f' : (firstBe r).testBit (o % 4) = decide (r.addr % 4 ≤ o % 4) := f
    have l' : (lastBe c r).testBit (o % 4) = decide (o % 4 ≤ (r.addr % 4 + tlpCount c r % 4 + 3) % 4) := l
    by_cases h0 : o / 4 = 0
    · rw [if_pos h0]
      by_cases hd : dwordCount c r = 1
      · have : (req c r).fbe = firstBe r &&& lastBe c r := by simp [req, hz, hd]
        rw [this, Nat.testBit_and, f', l', ← Bool.decide_and, decide_eq_decide]
        omega
      · have : (req c r).fbe = firstBe r := by simp [req, hz, hd]
        rw [this, f', decide_eq_decide]
        omega
    · rw [if_neg h0]
      by_cases hd : o / 4 = dwordCount c r - 1
      · have : (req c r).lbe = lastBe c r := by
          have : dwordCount c r ≠ 1 := by omega
          simp [req, hz, this]
        rw [if_pos hd, this, l', decide_eq_decide]
        omega
      · rw [if_neg hd, m]
        symm
        rw [decide_eq_true_eq]
        omega
  rw [e, filter_interval _ _ _ (by omega), show r.addr % 4 + tlpCount c r - r.addr % 4 = tlpCount c r by omega]
  have : (req c r).dwAddr * 4 = r.addr - r.addr % 4 := by simp only [req]; omega
  rw [this, List.map_add_range', show r.addr - r.addr % 4 + r.addr % 4 = r.addr by omega]

theorem req_bytes_zero (c : Cfg) (r : Regs) (g : Good c r) (hz : r.zero = true) (h1 : dwordCount c r = 1) : (req c r).bytes = [] := by
  unfold Req.bytes
  rw [req_dwords c r g, h1]
  rw [List.map_eq_nil_iff, List.filter_eq_nil_iff]
  intro o ho
  have := List.mem_range.1 ho
  have e : o / 4 = 0 := by omega
  rw [e]
  simp [Req.be, req, hz]

theorem req_ok (c : Cfg) (r : Regs) (g : Good c r) : (req c r).Ok c := by
  have s := step_ok c r g
  have h1 := s.dword
  have h2 := s.max
  have h3 := s.page
  constructor
  · rw [req_dwords c r g, ← dw_spec]; omega
  · rw [req_dwords c r g]
    simp only [req]
    omega

theorem split_bound (B : Nat) (hB : B = 16 ∨ B = 32) : ∀ (ps : List Nat) (a : Nat), (∀ p ∈ ps, 0 < p) →
    (∀ k, 0 < k → k < ps.length → (a + (ps.take k).sum) % B = 0) → ps ≠ [] →
    ps.length ≤ (a % B + ps.sum + (B - 1)) / B ∧ dataCredits ps ≤ (a % 4 + ps.sum + 3) / 4
  | [], _, _, _, h => absurd rfl h
  | [p], a, hp, _, _ => by
    have := hp p (by simp)
    simp only [List.length_singleton, List.sum_singleton, dataCredits, List.map_cons, List.map_nil]
    rcases hB with rfl | rfl <;> omega
  | p :: q :: qs, a, hp, hc, _ => by
    have h0 := hp p (by simp)
    have ih := split_bound B hB (q :: qs) (a + p) (fun x hx => hp x (by simp [hx])) (by
      intro k hk hl
      have := hc (k + 1) (by omega) (by simp at hl ⊢; omega)
      rw [List.take_succ_cons, List.sum_cons, ← Nat.add_assoc] at this
      exact this) (by simp)
    have h1 := hc 1 (by omega) (by simp)
    simp only [List.take_succ_cons, List.take_zero, List.sum_cons, List.sum_nil, Nat.add_zero] at h1
    simp only [List.length_cons, List.sum_cons, dataCredits, List.map_cons] at ih ⊢
    generalize (List.map (fun p => (p + 3) / 4) qs).sum = z at *
    generalize qs.sum = y at *
    generalize qs.length = x at *
    rcases hB with rfl | rfl <;> omega

theorem req_credits (c : Cfg) (r : Regs) (g : Good c r) (ps : List Nat) (h : (req c r).Split c.boundary ps) :
    ps.length ≤ (req c r).hfc ∧ dataCredits ps ≤ (req c r).dfc + 1 ∧ ((tlpCount c r < r.cnt ∨ (req c r).dwAddr % 4 = 0) → dataCredits ps ≤ (req c r).dfc) := by
  obtain ⟨h1, h2, h3⟩ := h
  have s := step_ok c r g
  have hd := s.dword
  have hp := s.pos
  have hda := s.data
  have hh := s.hdr
  rw [req_dwords c r g] at h2
  have hne : ps ≠ [] := by rintro rfl; simp at h2; omega
  have hb : c.boundary = 128 ∨ c.boundary = 64 := by unfold Cfg.boundary; cases c.rcb <;> simp
  have hB : c.boundary / 4 = 16 ∨ c.boundary / 4 = 32 := by omega
  have := split_bound (c.boundary / 4) hB ps (r.addr / 4) h1 (by
    intro k hk hl
    have := h3 k hk hl
    simp only [req] at this
    rcases hb with hb | hb <;> rw [hb] at this ⊢ <;> omega) hne
  rw [h2] at this
  have e1 : (req c r).hfc = hdrFc c r := rfl
  have e2 : (req c r).dfc = dataFc c r := rfl
  have e3 : (req c r).dwAddr = r.addr / 4 := rfl
  rw [e1, e2, e3]
  refine ⟨?_, ?_, ?_⟩
  · rw [hh]
    rcases hb with hb | hb <;> rw [hb] at this ⊢ <;> omega
  · omega
  · omega

theorem walk_zero {c : Cfg} {r : Regs} {rs : List Regs} (w : Walk c r rs) : ∀ x ∈ rs, Good c x ∧ x.zero = r.zero := by
  induction w with
  | last r g h => intro x hx; rw [List.mem_singleton] at hx; subst hx; exact ⟨g, rfl⟩
  | cons r rs g h w ih =>
    intro x hx
    rcases List.mem_cons.1 hx with rfl | hx
    · exact ⟨g, rfl⟩
    · exact ih x hx

theorem walk_bytes {c : Cfg} {r : Regs} {rs : List Regs} (w : Walk c r rs) (hz : r.zero = false) :
    (rs.map (req c)).flatMap Req.bytes = List.range' r.addr r.cnt := by
  induction w with
  | last r g h => simp [req_bytes c r g hz, h]
  | cons r rs g h w ih =>
    rw [List.map_cons, List.flatMap_cons, ih hz, req_bytes c r g hz, after_cnt c r g, show (after c r).addr = r.addr + tlpCount c r from (next_ok c r g h).1]
    have := @List.range'_append r.addr (tlpCount c r) (r.cnt - tlpCount c r) 1
    rw [Nat.one_mul] at this
    rw [this]; congr 1; omega

theorem walk_ram {c : Cfg} {r : Regs} {rs : List Regs} (w : Walk c r rs) (hz : r.zero = false) : ∀ (k : Nat) (t : Req), (rs.map (req c))[k]? = some t →
    t.ramEnd = (r.ram + (((rs.map (req c)).take (k + 1)).flatMap Req.bytes).length) % 2 ^ c.raw := by
  induction w with
  | last r g h =>
    intro k t ht
    cases k with
    | zero => simp at ht; subst ht; simp [req_bytes c r g hz]; rfl
    | succ k => simp at ht
  | cons r rs g h w ih =>
    intro k t ht
    cases k with
    | zero => simp at ht; subst ht; simp [req_bytes c r g hz]; rfl
    | succ k =>
      have := ih hz k t (by simpa using ht)
      rw [this, List.map_cons, List.take_succ_cons, List.flatMap_cons, List.length_append, req_bytes c r g hz, List.length_range']
      simp only [after]
      rw [Nat.mod_add_mod, Nat.add_assoc]

theorem walk_dropLast {c : Cfg} {r : Regs} {rs : List Regs} (w : Walk c r rs) : ∀ x ∈ rs.dropLast, tlpCount c x < x.cnt := by
  induction w with
  | last r g h => intro x hx; simp at hx
  | cons r rs g h w ih =>
    intro x hx
    have hne : rs ≠ [] := by cases w <;> simp
    rw [List.dropLast_cons_of_ne_nil hne] at hx
    rcases List.mem_cons.1 hx with rfl | hx
    · exact h
    · exact ih x hx

end Corundum.DmaRd
