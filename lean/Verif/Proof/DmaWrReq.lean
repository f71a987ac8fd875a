import Verif.Spec.DmaWrReq
import Verif.Proof.DmaRdReq
import Verif.Proof.DmaRdCpl

namespace Corundum.DmaWr

export DmaRd (Sizes mod_two seg_gap)

/-- the sizes, without powers -/
structure Dims (c : Cfg) (M : Nat) : Prop where
  z : Sizes c.ram M
  dws : c.ram.bus = 4 * c.dws
  dpos : 0 < c.dws
  dlt : c.dws ≤ 512
  cyc : c.ram.bus * c.cycles = 8192
  max : c.max = 128 ∨ c.max = 256 ∨ c.max = 512 ∨ c.max = 1024 ∨ c.max = 2048
  maxEq : c.max = 128 * 2 ^ c.mps
  wide : 12 ≤ c.paw
  len : 1 ≤ c.lw

theorem dims (c : Cfg) (h : c.Ok) : ∃ M, Dims c M := by
  obtain ⟨M, z⟩ := DmaRd.sizes c.ram h.ram
  obtain ⟨q, hq, hq0⟩ := z.four
  have hd : c.dws = q := by unfold Cfg.dws; omega
  have hb := h.bus
  have hm := h.mps
  have hme : c.max = 128 * 2 ^ c.mps := by unfold Cfg.max; rw [if_neg (by omega)]
  refine ⟨M, z, by omega, by omega, by omega, ?_, ?_, hme, h.wide, h.len⟩
  · obtain ⟨i, j, h1, h2, h3, h4⟩ := h.ram.pow
    have hl : c.ram.lanes = 2 * 2 ^ (i + j) := by
      unfold DmaRd.Ram.lanes; rw [h1, h2, ← Nat.pow_add, ← Nat.pow_succ']; congr 1; omega
    have hbp : c.ram.bus = 2 ^ (i + j) := by unfold DmaRd.Ram.bus; rw [hl]; omega
    have hij : i + j ≤ 11 := by
      have : 2 ^ (i + j) ≤ 2 ^ 11 := by rw [← hbp]; exact hb
      exact (Nat.pow_le_pow_iff_right (by omega)).1 this
    unfold Cfg.cycles
    apply Nat.mul_div_cancel'
    rw [hbp, show 8192 = 2 ^ 13 from rfl]
    exact Nat.pow_dvd_pow 2 (by omega)
  · rw [hme]
    have : c.mps = 0 ∨ c.mps = 1 ∨ c.mps = 2 ∨ c.mps = 3 ∨ c.mps = 4 := by omega
    rcases this with h | h | h | h | h <;> rw [h] <;> decide

/-- registers in the middle of an operation -/
structure Good (c : Cfg) (r : Regs) : Prop where
  pos : 1 ≤ r.cnt
  fits : r.cnt < 2 ^ c.lw
  space : r.addr + r.cnt ≤ 2 ^ c.paw

structure Step (c : Cfg) (r : Regs) : Prop where
  pos : 1 ≤ tlpCount c r
  le : tlpCount c r ≤ r.cnt
  max : (tlpCount c r + r.addr % 4 + 3) / 4 * 4 ≤ c.max
  page : r.addr % 4096 + tlpCount c r ≤ 4096

variable {c : Cfg} {M : Nat}

theorem step_ok (hD : Dims c M) (r : Regs) (g : Good c r) : Step c r := by
  obtain ⟨h1, h2, h4⟩ := g
  have hc := hD.max
  have hx : crossS r = decide (4096 ≤ r.addr % 4096 + r.cnt) := by
    unfold crossS
    rw [Bool.eq_iff_iff]
    simp only [Bool.or_eq_true, bne_iff_ne, ne_eq, decide_eq_true_eq]
    omega
  have hl : crossL c r = decide (4096 ≤ r.addr % 4096 + c.max) := by
    unfold crossL
    rw [Bool.eq_iff_iff]
    simp only [bne_iff_ne, ne_eq, decide_eq_true_eq]
    omega
  by_cases a : r.cnt ≤ c.max - r.addr % 4
  · have hs : small c r = true := by unfold small; exact decide_eq_true a
    by_cases b : 4096 ≤ r.addr % 4096 + r.cnt
    · have ht : tlpCount c r = 4096 - r.addr % 4096 := by simp [tlpCount, hs, hx, b]
      exact ⟨by omega, by omega, by omega, by omega⟩
    · have ht : tlpCount c r = r.cnt := by simp only [tlpCount, hs, hx, b]; simp; omega
      exact ⟨by omega, by omega, by omega, by omega⟩
  · have hs : small c r = false := by unfold small; exact decide_eq_false a
    by_cases b : 4096 ≤ r.addr % 4096 + c.max
    · have ht : tlpCount c r = 4096 - r.addr % 4096 := by simp [tlpCount, hs, hl, b]
      exact ⟨by omega, by omega, by omega, by omega⟩
    · have ht : tlpCount c r = c.max - r.addr % 4 := by simp [tlpCount, hs, hl, b]
      exact ⟨by omega, by omega, by omega, by omega⟩

theorem after_cnt (hD : Dims c M) (r : Regs) (g : Good c r) : (after c r).cnt = r.cnt - tlpCount c r := by
  have h1 := (step_ok hD r g).le
  have h2 := g.fits
  simp only [after]
  rw [Nat.mod_eq_of_lt (by omega : tlpCount c r < 2 ^ c.lw), show r.cnt + 2 ^ c.lw - tlpCount c r = r.cnt - tlpCount c r + 2 ^ c.lw by omega,
    Nat.add_mod_right, Nat.mod_eq_of_lt (by omega)]

theorem after_addr (r : Regs) (g : Good c r) (h : tlpCount c r < r.cnt) : (after c r).addr = r.addr + tlpCount c r := by
  have := g.space
  simp only [after]
  exact Nat.mod_eq_of_lt (by omega)

theorem after_good (hD : Dims c M) (r : Regs) (g : Good c r) (h : tlpCount c r < r.cnt) : Good c (after c r) := by
  have h1 := after_cnt hD r g
  have h2 := after_addr r g h
  have h3 := (step_ok hD r g).pos
  have h4 := g.fits
  have h5 := g.space
  exact ⟨by omega, by omega, by omega⟩

section
variable {Byte : Type}

/-- bytes sent for a descriptor, counting the dummy byte of an empty one -/
def Desc.total (d : Desc Byte) : Nat := if d.len = 0 then 1 else d.len

/-- RAM address of the first byte -/
def Desc.base (d : Desc Byte) : Nat := if d.imm.isSome then 0 else d.ram

/-- an entry for bytes `lo` to `lo + T - 1` of a descriptor -/
structure EntOk (c : Cfg) (d : Desc Byte) (lo T : Nat) (e : Ent Byte) : Prop where
  pos : 1 ≤ T
  addr : e.addr = d.addr + lo
  sel : e.sel = if d.imm.isSome then 0 else d.sel
  ram : e.ram = (d.base + lo) % 2 ^ c.ram.aw
  len : e.len = T
  zero : e.zero = (d.len == 0)
  dw : e.dw = (T + e.addr % 4 + 3) / 4
  cyc : e.cyc = (T + e.addr % 4 - 1) / c.ram.bus
  off : e.off = (e.addr % 4 + c.ram.lanes - e.ram % c.ram.lanes) % c.ram.lanes
  tag : e.tag = d.tag
  imm : e.imm = d.imm
  max : e.dw * 4 ≤ c.max
  page : e.addr % 4096 + T ≤ 4096
  fits : T < 2 ^ c.lw
  le : lo + T ≤ d.total
  last : e.last = decide (lo + T = d.total)

/-- the entries of a descriptor from byte `lo` on -/
inductive Cov (c : Cfg) (d : Desc Byte) : Nat → List (Ent Byte) → Prop
  | last (lo T e) : EntOk c d lo T e → lo + T = d.total → Cov c d lo [e]
  | cons (lo T e es) : EntOk c d lo T e → lo + T < d.total → Cov c d (lo + T) es → Cov c d lo (e :: es)

theorem ent_ok (hD : Dims c M) (d : Desc Byte) (r : Regs) (g : Good c r) (lo : Nat) (ha : r.addr = d.addr + lo) (hr : r.ram = (d.base + lo) % 2 ^ c.ram.aw) (hc : r.cnt = d.total - lo)
    (hlo : lo < d.total) : EntOk c d lo (tlpCount c r) (ent c d r) := by
  have s := step_ok hD r g
  have h1 := s.pos
  have h2 := s.le
  have h3 := s.max
  have h4 := s.page
  have h5 := g.fits
  have hm := hD.max
  have hb := hD.cyc
  have hd := hD.dws
  have hdp := hD.dpos
  have hdw : (tlpCount c r + r.addr % 4 + 3) / 4 % 1024 = (tlpCount c r + r.addr % 4 + 3) / 4 := Nat.mod_eq_of_lt (by omega)
  have hT : tlpCount c r ≤ 2048 := by omega
  refine ⟨h1, ha, rfl, hr, Nat.mod_eq_of_lt (by omega), rfl, hdw, ?_, rfl, rfl, rfl, ?_, h4, by omega, by omega, ?_⟩
  · show (tlpCount c r + r.addr % 4 - 1) / c.ram.bus % c.cycles = _
    apply Nat.mod_eq_of_lt
    rw [Nat.div_lt_iff_lt_mul (by omega), Nat.mul_comm, hb]
    omega
  · show (tlpCount c r + r.addr % 4 + 3) / 4 % 1024 * 4 ≤ _
    rw [hdw]; exact h3
  · show (r.cnt == tlpCount c r) = _
    rw [Bool.eq_iff_iff]
    simp only [beq_iff_eq, decide_eq_true_eq]
    omega

theorem ents_cov (hD : Dims c M) (d : Desc Byte) : ∀ (n : Nat) (r : Regs) (lo : Nat), Good c r → r.addr = d.addr + lo → r.ram = (d.base + lo) % 2 ^ c.ram.aw → r.cnt = d.total - lo →
    lo < d.total → r.cnt ≤ n → ∃ es, ents c d n r = some es ∧ Cov c d lo es
  | 0, r, lo, g, _, _, _, _, hn => by have := g.pos; omega
  | n + 1, r, lo, g, ha, hr, hc, hlo, hn => by
    have k := ent_ok hD d r g lo ha hr hc hlo
    have s := step_ok hD r g
    have h1 := s.pos
    have h2 := s.le
    by_cases h : lo + tlpCount c r = d.total
    · have : (ent c d r).last = true := by rw [k.last]; simp [h]
      exact ⟨_, by simp [ents, this], .last _ _ _ k h⟩
    · have hl : (ent c d r).last = false := by rw [k.last]; simp [h]
      have ht : tlpCount c r < r.cnt := by omega
      obtain ⟨es, h3, h4⟩ := ents_cov hD d n (after c r) (lo + tlpCount c r) (after_good hD r g ht) (by rw [after_addr r g ht]; omega)
        (by simp only [after]; rw [hr, Nat.mod_add_mod, Nat.add_assoc]) (by rw [after_cnt hD r g]; omega) (by omega) (by rw [after_cnt hD r g]; omega)
      exact ⟨_, by simp [ents, hl, h3], .cons _ _ _ _ k (by omega) h4⟩

theorem desc_cov (hD : Dims c M) (d : Desc Byte) (h : d.Given c) (n : Nat) (hn : d.len < n) : ∃ es, ents c d n (start d) = some es ∧ Cov c d 0 es := by
  have h1 := h.fits
  have h2 := h.space
  have h3 := h.inside
  have hl : 2 ^ 1 ≤ 2 ^ c.lw := Nat.pow_le_pow_right (by omega) hD.len
  have ht : (start d).cnt = d.total := rfl
  have hp : 1 ≤ d.total ∧ d.total < 2 ^ c.lw ∧ d.addr + d.total ≤ 2 ^ c.paw ∧ d.total ≤ n := by
    unfold Desc.total; split <;> omega
  refine ents_cov hD d n (start d) 0 ⟨by omega, by omega, ?_⟩ rfl ?_ (by omega) (by omega) (by omega)
  · show d.addr + _ ≤ _; omega
  · show (if d.imm.isSome then 0 else d.ram) = d.base % _
    have : d.base < 2 ^ c.ram.aw := by unfold Desc.base; have := h.ram; split <;> omega
    rw [Nat.mod_eq_of_lt this]; rfl

/-! the registers of the TLP state machine at beat `k` -/

def txAt (c : Cfg) (e : Ent Byte) (k : Nat) : Tx Byte :=
  ⟨e, e.dw - k * c.dws, (e.off + k * c.ram.bus) % c.ram.lanes, e.cyc - k, e.cyc - k == 0, k != 0⟩

variable {d : Desc Byte} {lo T : Nat} {e : Ent Byte}

theorem off_lt (hD : Dims c M) (h : EntOk c d lo T e) : e.off < c.ram.lanes := by
  rw [h.off]; apply Nat.mod_lt
  have := hD.z.lanes; have := hD.dws; have := hD.dpos; omega

theorem cyc_mul (hD : Dims c M) (h : EntOk c d lo T e) : e.cyc * c.ram.bus ≤ T + e.addr % 4 - 1 ∧ T + e.addr % 4 - 1 < e.cyc * c.ram.bus + c.ram.bus := by
  have hb : 0 < c.ram.bus := by have := hD.dws; have := hD.dpos; omega
  have h1 := Nat.div_add_mod (T + e.addr % 4 - 1) c.ram.bus
  have h2 := Nat.mod_lt (T + e.addr % 4 - 1) hb
  rw [← h.cyc, Nat.mul_comm] at h1
  omega

theorem cyc_lt (hD : Dims c M) (h : EntOk c d lo T e) : e.cyc < c.cycles := by
  have h1 := cyc_mul hD h
  have h2 := h.max
  have h3 := h.dw
  have h4 := hD.max
  have h5 := hD.cyc
  have h6 := h.pos
  have : e.cyc * c.ram.bus < c.cycles * c.ram.bus := by rw [Nat.mul_comm c.cycles, h5]; omega
  exact Nat.lt_of_mul_lt_mul_right this

theorem tx_zero (hD : Dims c M) (h : EntOk c d lo T e) : txAt c e 0 = Tx.start e := by
  unfold txAt Tx.start
  rw [Nat.zero_mul, Nat.zero_mul, Nat.add_zero, Nat.mod_eq_of_lt (off_lt hD h)]
  rfl

theorem dw_ge (hD : Dims c M) (h : EntOk c d lo T e) {k : Nat} (hk : k ≤ e.cyc) : k * c.dws < e.dw := by
  have h1 := (cyc_mul hD h).1
  have h2 : k * c.dws ≤ e.cyc * c.dws := Nat.mul_le_mul_right _ hk
  have h3 : e.cyc * c.ram.bus = 4 * (e.cyc * c.dws) := by rw [hD.dws]; rw [← Nat.mul_assoc, Nat.mul_comm e.cyc 4, Nat.mul_assoc]
  have h4 := h.dw
  have h5 := h.pos
  generalize e.cyc * c.dws = x at *
  generalize k * c.dws = y at *
  omega

theorem tx_succ (hD : Dims c M) (h : EntOk c d lo T e) {k : Nat} (hk : k < e.cyc) : txAt c e (k + 1) = (txAt c e k).next c := by
  have h1 := cyc_lt hD h
  have h2 := dw_ge hD h (k := k + 1) (by omega)
  have h3 := hD.dlt
  have h4 := h.max
  have h5 := hD.max
  have e1 : (e.cyc - k + c.cycles - 1) % c.cycles = e.cyc - (k + 1) := by
    rw [show e.cyc - k + c.cycles - 1 = (e.cyc - (k + 1)) + c.cycles by omega, Nat.add_mod_right, Nat.mod_eq_of_lt (by omega)]
  have e2 : (e.dw - k * c.dws + 1024 - c.dws % 1024) % 1024 = e.dw - (k + 1) * c.dws := by
    rw [Nat.mod_eq_of_lt (by omega : c.dws < 1024)]
    rw [Nat.add_mul, Nat.one_mul] at h2 ⊢
    rw [show e.dw - k * c.dws + 1024 - c.dws = (e.dw - (k * c.dws + c.dws)) + 1024 by omega, Nat.add_mod_right, Nat.mod_eq_of_lt (by omega)]
  have e3 : ((e.off + k * c.ram.bus) % c.ram.lanes + c.ram.bus) % c.ram.lanes = (e.off + (k + 1) * c.ram.bus) % c.ram.lanes := by
    rw [Nat.mod_add_mod, Nat.add_assoc, Nat.add_mul, Nat.one_mul]
  simp only [Tx.next, txAt, e1, e2, e3]
  simp

/-! the registers of the read state machine at beat `k` -/

/-- the first byte of beat `k` -/
def lowAt (c : Cfg) (e : Ent Byte) (k : Nat) : Nat := if k = 0 then 0 else k * c.ram.bus - e.addr % 4

def rdAt (c : Cfg) (e : Ent Byte) (k : Nat) : Rd where
  sel := e.sel
  addr := (e.ram + lowAt c e k) % 2 ^ c.ram.aw
  len := e.len - lowAt c e k
  cyc := min (lowAt c e (k + 1)) e.len - lowAt c e k
  left := e.cyc - k
  last := e.cyc - k == 0
  imm := e.imm.isSome

theorem bus_pos (hD : Dims c M) : 4 ≤ c.ram.bus := by have := hD.dws; have := hD.dpos; omega

theorem rd_zero (hD : Dims c M) (h : EntOk c d lo T e) : rdAt c e 0 = Rd.start c e := by
  have : e.ram < 2 ^ c.ram.aw := by rw [h.ram]; exact Nat.mod_lt _ (Nat.two_pow_pos _)
  have hb := bus_pos hD
  unfold rdAt Rd.start lowAt
  simp only [if_true, Nat.add_zero, Nat.mod_eq_of_lt this, Nat.sub_zero, Nat.zero_add, Nat.one_ne_zero, if_false, Nat.one_mul, Rd.mk.injEq, true_and, and_true]
  split <;> omega

theorem low_le (hD : Dims c M) (h : EntOk c d lo T e) {k : Nat} (hk : k ≤ e.cyc) : lowAt c e k < T := by
  have h1 := (cyc_mul hD h).1
  have h2 : k * c.ram.bus ≤ e.cyc * c.ram.bus := Nat.mul_le_mul_right _ hk
  have h5 := h.pos
  unfold lowAt
  split <;> omega

theorem low_step (hD : Dims c M) (k : Nat) : lowAt c e k < lowAt c e (k + 1) ∧ (k ≠ 0 → lowAt c e (k + 1) = lowAt c e k + c.ram.bus) ∧ lowAt c e (k + 1) ≤ lowAt c e k + c.ram.bus := by
  have hb := bus_pos hD
  unfold lowAt
  rw [if_neg (by omega : ¬ k + 1 = 0), Nat.add_mul, Nat.one_mul]
  by_cases hk : k = 0
  · subst hk; simp only [if_true, Nat.zero_mul]; refine ⟨by omega, by omega, by omega⟩
  · rw [if_neg hk]
    have : 1 * c.ram.bus ≤ k * c.ram.bus := Nat.mul_le_mul_right _ (by omega)
    refine ⟨by omega, by omega, by omega⟩

theorem rd_succ (hD : Dims c M) (h : EntOk c d lo T e) {k : Nat} (hk : k < e.cyc) : rdAt c e (k + 1) = (rdAt c e k).next c := by
  have h1 := cyc_lt hD h
  have h2 := low_le hD h (k := k + 1) (by omega)
  have h3 := @low_step _ _ _ e hD k
  have h4 := @low_step _ _ _ e hD (k + 1)
  have h5 := h.len
  have h6 := h.fits
  have e1 : (e.cyc - k + c.cycles - 1) % c.cycles = e.cyc - (k + 1) := by
    rw [show e.cyc - k + c.cycles - 1 = (e.cyc - (k + 1)) + c.cycles by omega, Nat.add_mod_right, Nat.mod_eq_of_lt (by omega)]
  have e2 : min (lowAt c e (k + 1)) e.len - lowAt c e k = lowAt c e (k + 1) - lowAt c e k := by omega
  have e3 : ((e.ram + lowAt c e k) % 2 ^ c.ram.aw + (lowAt c e (k + 1) - lowAt c e k)) % 2 ^ c.ram.aw = (e.ram + lowAt c e (k + 1)) % 2 ^ c.ram.aw := by
    rw [Nat.mod_add_mod, show e.ram + lowAt c e k + (lowAt c e (k + 1) - lowAt c e k) = e.ram + lowAt c e (k + 1) by omega]
  have e4 : (e.len - lowAt c e k + 2 ^ c.lw - (lowAt c e (k + 1) - lowAt c e k) % 2 ^ c.lw) % 2 ^ c.lw = e.len - lowAt c e (k + 1) := by
    rw [Nat.mod_eq_of_lt (by omega : lowAt c e (k + 1) - lowAt c e k < 2 ^ c.lw),
      show e.len - lowAt c e k + 2 ^ c.lw - (lowAt c e (k + 1) - lowAt c e k) = (e.len - lowAt c e (k + 1)) + 2 ^ c.lw by omega, Nat.add_mod_right, Nat.mod_eq_of_lt (by omega)]
  simp only [Rd.next, rdAt, e1, e2, e3, e4, Rd.mk.injEq, true_and, and_true]
  have := h4.2.1 (by omega)
  split <;> omega

/-- every byte of a beat is among those read -/
theorem rd_hit (z : Sizes c.ram M) (b : Rd) (ha : b.addr < 2 ^ c.ram.aw) (hc : b.cyc ≤ c.ram.bus) (k : Nat) (hk : k < b.cyc) :
    b.mask c ((b.addr + k) % c.ram.lanes / c.ram.segBytes) = true ∧ b.row c ((b.addr + k) % c.ram.lanes / c.ram.segBytes) = (b.addr + k) % 2 ^ c.ram.aw / c.ram.lanes := by
  have hb := z.bus
  have hs := z.seg
  have hl := z.lanes
  have hL : 0 < c.ram.lanes := by omega
  have hx2 : (b.addr + k) % 2 ^ c.ram.aw / c.ram.lanes = (b.addr + k) / c.ram.lanes % M := by rw [z.words]; exact Nat.mod_mul_left_div_self _ _ _
  have hM : 2 ^ c.ram.aw / c.ram.lanes = M := by rw [z.words]; exact Nat.mul_div_cancel _ hL
  have hdm := Nat.div_add_mod b.addr c.ram.lanes
  have hfl := Nat.mod_lt b.addr hL
  have hq : b.addr / c.ram.lanes < M := by rw [Nat.div_lt_iff_lt_mul hL, ← z.words]; exact ha
  have e1 : (b.addr + k) % c.ram.lanes = (b.first c + k) % c.ram.lanes := by
    unfold Rd.first; rw [Nat.mod_add_mod]
  have e2 : (b.addr + k) / c.ram.lanes = b.addr / c.ram.lanes + (b.first c + k) / c.ram.lanes := by
    unfold Rd.first
    have h := Nat.mul_add_div hL (b.addr / c.ram.lanes) (b.addr % c.ram.lanes + k)
    rw [← Nat.add_assoc, hdm] at h
    exact h
  have hf : b.first c < c.ram.lanes := hfl
  have hen : b.ends c = b.first c + b.cyc - 1 := by
    unfold Rd.ends
    rw [show b.first c + b.cyc + 2 * c.ram.lanes - 1 = (b.first c + b.cyc - 1) + 2 * c.ram.lanes by omega, Nat.add_mod_right, Nat.mod_eq_of_lt (by omega)]
  have t1 := @mod_two (b.first c + b.cyc - 1) c.ram.lanes (by omega)
  have t2 := @mod_two (b.first c + k) c.ram.lanes (by omega)
  have hwr : b.wrap c = ((b.first c + b.cyc - 1) / c.ram.lanes != 0) := by unfold Rd.wrap; rw [hen]
  have hm1 : ∀ i, b.mask1 c i = decide (i ≤ (b.first c + b.cyc - 1) % c.ram.lanes / c.ram.segBytes) := by intro i; unfold Rd.mask1; rw [hen]
  rw [hx2, e1, e2]
  unfold Rd.mask Rd.row
  rcases t1 with ⟨w1, w2, w3⟩ | ⟨w1, w2, w3⟩
  · have hw : b.wrap c = false := by rw [hwr, w1]; rfl
    rcases t2 with ⟨v1, v2, v3⟩ | ⟨v1, v2, v3⟩
    · rw [v1, v2]
      simp only [hw, hm1, w2, Rd.mask0, Bool.false_and, Bool.and_eq_true, decide_eq_true_eq, if_false, Bool.false_eq_true]
      refine ⟨⟨Nat.div_le_div_right (by omega), Nat.div_le_div_right (by omega)⟩, ?_⟩
      rw [Nat.add_zero, Nat.mod_eq_of_lt hq]
    · omega
  · have hw : b.wrap c = true := by rw [hwr, w1]; rfl
    rcases t2 with ⟨v1, v2, v3⟩ | ⟨v1, v2, v3⟩
    · rw [v1, v2]
      have hg : (b.first c + b.cyc - 1 - c.ram.lanes) / c.ram.segBytes < b.first c / c.ram.segBytes := seg_gap z (by omega)
      have hk' : b.first c / c.ram.segBytes ≤ (b.first c + k) / c.ram.segBytes := Nat.div_le_div_right (by omega)
      have hm : b.mask1 c ((b.first c + k) / c.ram.segBytes) = false := by
        rw [hm1, w2, decide_eq_false_iff_not]; omega
      simp only [hw, hm, Rd.mask0, Bool.true_and, Bool.or_eq_true, decide_eq_true_eq, if_true, Bool.false_eq_true, if_false, or_false]
      refine ⟨hk', ?_⟩
      rw [Nat.add_zero, Nat.mod_eq_of_lt hq]
    · rw [v1, v2]
      have hm : b.mask1 c ((b.first c + k - c.ram.lanes) / c.ram.segBytes) = true := by
        rw [hm1, w2, decide_eq_true_eq]; exact Nat.div_le_div_right (by omega)
      simp only [hw, hm, Bool.true_and, Bool.or_true, if_true, hM, and_self]

/-- byte `q` of the stream of a TLP is in beat `q / bus`; there it is byte `q - (first byte)` -/
theorem rd_covers (hD : Dims c M) (h : EntOk c d lo T e) {q : Nat} (hq : q < T) :
    let k := (q + e.addr % 4) / c.ram.bus
    k ≤ e.cyc ∧ lowAt c e k ≤ q ∧ q < lowAt c e k + (rdAt c e k).cyc ∧ (rdAt c e k).cyc ≤ c.ram.bus := by
  intro k
  have hb := bus_pos hD
  have h1 := Nat.div_add_mod (q + e.addr % 4) c.ram.bus
  have h2 := Nat.mod_lt (q + e.addr % 4) (by omega : 0 < c.ram.bus)
  have h1 : k * c.ram.bus + (q + e.addr % 4) % c.ram.bus = q + e.addr % 4 := by rw [Nat.mul_comm]; exact h1
  have hk : k ≤ e.cyc := by rw [h.cyc]; exact Nat.div_le_div_right (by omega)
  have h3 := @low_step _ _ _ e hD k
  have h4 := h.len
  have hc : (rdAt c e k).cyc = min (lowAt c e (k + 1)) e.len - lowAt c e k := rfl
  have h5 : lowAt c e (k + 1) = k * c.ram.bus + c.ram.bus - e.addr % 4 := by unfold lowAt; rw [if_neg (Nat.succ_ne_zero k), Nat.add_mul, Nat.one_mul]
  have h6 : lowAt c e k ≤ q := by unfold lowAt; split <;> omega
  refine ⟨hk, h6, by omega, by omega⟩

/-- the lane a byte of the TLP is taken from is the lane it was read in -/
theorem tx_lane (hD : Dims c M) (h : EntOk c d lo T e) (q : Nat) :
    ((q + e.addr % 4) % c.ram.bus + c.ram.lanes - (txAt c e ((q + e.addr % 4) / c.ram.bus)).off) % c.ram.lanes = (e.ram + q) % c.ram.lanes := by
  have hb := bus_pos hD
  have hl := hD.z.lanes
  have hL : 0 < c.ram.lanes := by omega
  set a := e.addr % 4 with ha
  set k := (q + a) / c.ram.bus with hk
  have h1 := Nat.div_add_mod (q + a) c.ram.bus
  rw [← hk] at h1
  have ho : (txAt c e k).off = (e.off + k * c.ram.bus) % c.ram.lanes := rfl
  have hx := Nat.mod_lt (e.off + k * c.ram.bus) hL
  -- both sides agree after adding the offset
  have key : ((q + a) % c.ram.bus + c.ram.lanes - (txAt c e k).off) + (txAt c e k).off ≡ (e.ram + q) + (txAt c e k).off [MOD c.ram.lanes] := by
    rw [ho, Nat.sub_add_cancel (by omega)]
    have h2 : (e.off + k * c.ram.bus) % c.ram.lanes ≡ e.off + k * c.ram.bus [MOD c.ram.lanes] := Nat.mod_modEq _ _
    have h3 : e.ram + e.off ≡ a [MOD c.ram.lanes] := by
      have hr := Nat.mod_lt e.ram hL
      have : e.off ≡ a + c.ram.lanes - e.ram % c.ram.lanes [MOD c.ram.lanes] := by rw [h.off]; exact Nat.mod_modEq _ _
      have h4 : e.ram ≡ e.ram % c.ram.lanes [MOD c.ram.lanes] := (Nat.mod_modEq _ _).symm
      have h5 := h4.add this
      rw [show e.ram % c.ram.lanes + (a + c.ram.lanes - e.ram % c.ram.lanes) = a + c.ram.lanes by omega] at h5
      exact h5.trans (by unfold Nat.ModEq; rw [Nat.add_mod_right])
    have h6 : (e.ram + q) + (e.off + k * c.ram.bus) ≡ a + q + k * c.ram.bus [MOD c.ram.lanes] := by
      rw [show e.ram + q + (e.off + k * c.ram.bus) = (e.ram + e.off) + (q + k * c.ram.bus) by omega, show a + q + k * c.ram.bus = a + (q + k * c.ram.bus) by omega]
      exact h3.add_right _
    refine Nat.ModEq.trans ?_ ((Nat.ModEq.add_left _ h2).trans h6).symm
    have h8 : k * c.ram.bus + (q + a) % c.ram.bus = q + a := by rw [Nat.mul_comm]; exact h1
    have h9 : k * c.ram.lanes = 2 * (k * c.ram.bus) := by rw [hl, ← Nat.mul_assoc, Nat.mul_comm k 2, Nat.mul_assoc]
    have h7 : a + q + k * c.ram.bus = (q + a) % c.ram.bus + k * c.ram.lanes := by omega
    rw [h7]
    unfold Nat.ModEq
    rw [Nat.add_mod_right, Nat.add_mul_mod_self_right]
  have := Nat.ModEq.add_right_cancel' _ key
  exact this

end

end Corundum.DmaWr
