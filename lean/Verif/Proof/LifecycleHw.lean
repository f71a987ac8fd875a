import Verif.Model.Lifecycle
/-! What the register writes of the driver leave in the queue managers. -/
namespace Corundum.Lifecycle
open Corundum.QueueManager (mergeStrb)

theorem or_add (n k x : Nat) (h : x < 2 ^ n) : k * 2 ^ n ||| x = k * 2 ^ n + x := by
  rw [Nat.mul_comm, Nat.two_pow_add_eq_or_of_lt h]

theorem and_page (x : Nat) : x &&& 0xfffff000 = x % 2 ^ 32 / 4096 * 4096 := by
  apply Nat.eq_of_testBit_eq
  intro i
  have e : x % 2 ^ 32 / 4096 * 4096 = ((x % 2 ^ 32) >>> 12) <<< 12 := by
    rw [Nat.shiftLeft_eq, Nat.shiftRight_eq_div_pow]
  have e2 : (0xfffff000 : Nat) = (2 ^ 20 - 1) <<< 12 := by decide
  rw [e, e2, Nat.testBit_and, Nat.testBit_shiftLeft, Nat.testBit_shiftLeft, Nat.testBit_two_pow_sub_one, Nat.testBit_shiftRight, Nat.testBit_mod_two_pow]
  by_cases h : 12 ≤ i
  · have h1 : 12 + (i - 12) = i := by omega
    rw [h1]
    by_cases h2 : i < 32
    · have h3 : i - 12 < 20 := by omega
      simp [h, h2, h3]
    · have h3 : ¬ (i - 12 < 20) := by omega
      simp [h, h2, h3]
  · simp [h]

theorem and_ffff (x : Nat) : x &&& 0xffff = x % 65536 := Nat.and_two_pow_sub_one_eq_mod x 16

theorem merge_page (old v : Nat) (hv : v < 2 ^ 32) (h : v % 4096 = 0) (ho : old % 4096 = 0) : mergeStrb (0xf &&& 0xE) old (v / 4096 * 4096 + old % 4096) = v := by
  have e : v / 4096 * 4096 + old % 4096 = v := by omega
  rw [e]
  simp only [mergeStrb]
  have t0 : (0xf &&& 0xE : Nat).testBit 0 = false := by decide
  have t1 : (0xf &&& 0xE : Nat).testBit 1 = true := by decide
  have t2 : (0xf &&& 0xE : Nat).testBit 2 = true := by decide
  have t3 : (0xf &&& 0xE : Nat).testBit 3 = true := by decide
  simp only [t0, t1, t2, t3, if_true, Bool.false_eq_true, if_false]
  omega

theorem merge_all (old v : Nat) (hv : v < 2 ^ 32) : mergeStrb 0xf old v = v := by
  simp only [mergeStrb]
  have t0 : (0xf : Nat).testBit 0 = true := by decide
  have t1 : (0xf : Nat).testBit 1 = true := by decide
  have t2 : (0xf : Nat).testBit 2 = true := by decide
  have t3 : (0xf : Nat).testBit 3 = true := by decide
  simp only [t0, t1, t2, t3, if_true]
  omega

/-! ### queues -/

theorem regBase : BASE / 4 = 0 := by decide
theorem regBaseHi : (BASE + 4) / 4 = 1 := by decide
theorem regCtrl : CTRL / 4 = 2 := by decide

theorem wrQ_base (w : QW) (v : Nat) (hw : w.en = false) (hv : v < 2 ^ 32) (h : v % 4096 = 0) (ho : w.baseLo % 4096 = 0) : wrQ w (BASE, v) = { w with baseLo := v } := by
  unfold wrQ
  simp only [regBase, Corundum.QueueManager.writeReg, hw, Bool.false_eq_true, if_false]
  rw [merge_page _ _ hv h ho]

theorem wrQ_baseHi (w : QW) (v : Nat) (hw : w.en = false) (hv : v < 2 ^ 32) : wrQ w (BASE + 4, v) = { w with baseHi := v } := by
  unfold wrQ
  simp only [regBaseHi, Corundum.QueueManager.writeReg, hw, Bool.false_eq_true, if_false]
  rw [merge_all _ _ hv]

/-- the control register -/
def ctrlQ (w : QW) (v : Nat) : QW :=
  if v >>> 16 = 0x8001 then w
  else if v >>> 16 = 0x8002 then if w.en then w else { w with logSize := v % 256 % 16, logBlock := v / 256 % 256 % 4, en := w.en }
  else if v >>> 24 = 0xC0 then if w.en then w else { w with cplq := v % 2 ^ 24 % 2 ^ 16 }
  else if v >>> 16 = 0x8080 then { w with prod := v % 65536 }
  else if v >>> 16 = 0x8090 then if w.en then w else { w with cons := v % 65536 }
  else if v >>> 8 = 0x400001 then { w with logSize := w.logSize, logBlock := w.logBlock, en := v.testBit 0 }
  else w

theorem wrQ_ctrl (w : QW) (v : Nat) : wrQ w (CTRL, v) = ctrlQ w v := by
  unfold wrQ ctrlQ
  simp only [regCtrl, Corundum.QueueManager.writeReg]
  by_cases h1 : v >>> 16 = 0x8001
  · rw [if_pos h1, if_pos h1]
  · rw [if_neg h1, if_neg h1]
    by_cases h2 : v >>> 16 = 0x8002
    · rw [if_pos h2, if_pos h2]
    · rw [if_neg h2, if_neg h2]
      by_cases h3 : v >>> 24 = 0xC0
      · rw [if_pos h3, if_pos h3]
      · rw [if_neg h3, if_neg h3]
        by_cases h4 : v >>> 16 = 0x8080
        · rw [if_pos h4, if_pos h4]
        · rw [if_neg h4, if_neg h4]
          by_cases h5 : v >>> 16 = 0x8090
          · rw [if_pos h5, if_pos h5]
          · rw [if_neg h5, if_neg h5]
            by_cases h6 : v >>> 8 = 0x400001
            · rw [if_pos h6, if_pos h6]
            · rw [if_neg h6, if_neg h6]

theorem wrQ_off (w : QW) : wrQ w (CTRL, SET_ENABLE ||| 0) = { w with en := false } := by
  rw [wrQ_ctrl]
  have e : SET_ENABLE ||| 0 = 0x40000100 := by decide
  rw [e]
  rfl
theorem wrQ_on (w : QW) : wrQ w (CTRL, SET_ENABLE ||| 1) = { w with en := true } := by
  rw [wrQ_ctrl]
  have e : SET_ENABLE ||| 1 = 0x40000101 := by decide
  rw [e]
  rfl

theorem wrQ_size (w : QW) (log blk : Nat) (hw : w.en = false) (hl : log < 256) (hb : blk < 256) :
    wrQ w (CTRL, SET_SIZE ||| blk <<< 8 ||| log) = { w with logSize := log % 16, logBlock := blk % 4 } := by
  have e : SET_SIZE ||| blk <<< 8 ||| log = 0x80020000 + (blk * 256 + log) := by
    rw [Nat.or_assoc, Nat.shiftLeft_eq, or_add 8 blk log (by omega)]
    exact or_add 16 0x8002 _ (by omega)
  rw [wrQ_ctrl, e]
  generalize hx : blk * 256 + log = x
  have h1 : (0x80020000 + x) >>> 16 = 0x8002 := by rw [Nat.shiftRight_eq_div_pow]; omega
  have h2 : (0x80020000 + x) % 256 = log := by omega
  have h3 : (0x80020000 + x) / 256 % 256 = blk := by omega
  unfold ctrlQ
  rw [h1, h2, h3, hw]
  rfl

theorem wrQ_idx (w : QW) (m : Nat) (hw : w.en = false) (hm : m < 2 ^ 16) : wrQ w (CTRL, SET_IDX ||| m) = { w with cplq := m } := by
  have e : SET_IDX ||| m = 0xC0000000 + m := or_add 24 0xC0 m (by omega)
  rw [wrQ_ctrl, e]
  have h1 : (0xC0000000 + m) >>> 16 = 0xC000 := by rw [Nat.shiftRight_eq_div_pow]; omega
  have h2 : (0xC0000000 + m) >>> 24 = 0xC0 := by rw [Nat.shiftRight_eq_div_pow]; omega
  have h3 : (0xC0000000 + m) % 2 ^ 24 % 2 ^ 16 = m := by omega
  unfold ctrlQ
  rw [h1, h2, h3, hw]
  rfl

theorem wrQ_prod (w : QW) (k : Nat) : wrQ w (CTRL, SET_PROD_PTR ||| (k &&& 0xffff)) = { w with prod := k % 65536 } := by
  have e : SET_PROD_PTR ||| (k &&& 0xffff) = 0x80800000 + k % 65536 := by rw [and_ffff]; exact or_add 16 0x8080 _ (by omega)
  rw [wrQ_ctrl, e]
  have h1 : (0x80800000 + k % 65536) >>> 16 = 0x8080 := by rw [Nat.shiftRight_eq_div_pow]; omega
  have h2 : (0x80800000 + k % 65536) >>> 24 = 0x80 := by rw [Nat.shiftRight_eq_div_pow]; omega
  have h3 : (0x80800000 + k % 65536) % 65536 = k % 65536 := by omega
  unfold ctrlQ
  rw [h1, h2, h3]
  rfl

theorem wrQ_cons (w : QW) (k : Nat) (hw : w.en = false) : wrQ w (CTRL, SET_CONS_PTR ||| (k &&& 0xffff)) = { w with cons := k % 65536 } := by
  have e : SET_CONS_PTR ||| (k &&& 0xffff) = 0x80900000 + k % 65536 := by rw [and_ffff]; exact or_add 16 0x8090 _ (by omega)
  rw [wrQ_ctrl, e]
  have h1 : (0x80900000 + k % 65536) >>> 16 = 0x8090 := by rw [Nat.shiftRight_eq_div_pow]; omega
  have h2 : (0x80900000 + k % 65536) >>> 24 = 0x80 := by rw [Nat.shiftRight_eq_div_pow]; omega
  have h3 : (0x80900000 + k % 65536) % 65536 = k % 65536 := by omega
  unfold ctrlQ
  rw [h1, h2, h3, hw]
  rfl

/-- the word of a queue after `open` (before `refill_buffers`) -/
theorem progQ7_eq (w : QW) (base log blk m : Nat) (ho : w.baseLo % 4096 = 0) (hb : base < 2 ^ 64) (hl : log < 256) (hk : blk < 256) (hm : m < 2 ^ 16) :
    progQ w (progQ7 base log blk m) =
      { w with prod := 0, cons := 0, cplq := m, logSize := log % 16, logBlock := blk % 4, en := false, baseLo := base % 2 ^ 32 / 4096 * 4096, baseHi := base / 2 ^ 32 } := by
  show wrQ (wrQ (wrQ (wrQ (wrQ (wrQ (wrQ w (CTRL, SET_ENABLE ||| 0)) (BASE, base &&& 0xfffff000)) (BASE + 4, base >>> 32)) (CTRL, SET_SIZE ||| blk <<< 8 ||| log)) (CTRL, SET_IDX ||| m))
    (CTRL, SET_PROD_PTR ||| (0 &&& 0xffff))) (CTRL, SET_CONS_PTR ||| (0 &&& 0xffff)) = _
  rw [wrQ_off, and_page, Nat.shiftRight_eq_div_pow, wrQ_base _ _ (by rfl) (by omega) (by omega) (by exact ho), wrQ_baseHi _ _ (by rfl) (by omega), wrQ_size _ _ _ (by rfl) hl hk, wrQ_idx _ _ (by rfl) hm, wrQ_prod, wrQ_cons _ _ (by rfl)]

/-- the word of a queue whose `open` failed at the completion queue number -/
theorem progQ4_eq (w : QW) (base log blk : Nat) (ho : w.baseLo % 4096 = 0) (hb : base < 2 ^ 64) (hl : log < 256) (hk : blk < 256) :
    progQ w (progQ4 base log blk) =
      { w with logSize := log % 16, logBlock := blk % 4, en := false, baseLo := base % 2 ^ 32 / 4096 * 4096, baseHi := base / 2 ^ 32 } := by
  show wrQ (wrQ (wrQ (wrQ w (CTRL, SET_ENABLE ||| 0)) (BASE, base &&& 0xfffff000)) (BASE + 4, base >>> 32)) (CTRL, SET_SIZE ||| blk <<< 8 ||| log) = _
  rw [wrQ_off, and_page, Nat.shiftRight_eq_div_pow, wrQ_base _ _ (by rfl) (by omega) (by omega) (by exact ho), wrQ_baseHi _ _ (by rfl) (by omega), wrQ_size _ _ _ (by rfl) hl hk]

/-! ### completion and event queues -/

variable (p : Corundum.CplQueue.Params)

theorem wrC_base (w : CW) (v : Nat) (hw : w.en = false) (hv : v < 2 ^ 32) (h : v % 4096 = 0) (ho : w.baseLo % 4096 = 0) : wrC p w (BASE, v) = { w with baseLo := v } := by
  unfold wrC
  simp only [regBase, Corundum.CplQueue.writeReg, hw, Bool.false_eq_true, if_false]
  have e : Corundum.CplQueue.mergeStrb (0xf <<< 1 &&& 0xE) w.baseLo (v / 4096 * 4096 + w.baseLo % 4096) = v := by
    rw [show (0xf <<< 1 &&& 0xE : Nat) = 0xf &&& 0xE by decide]
    exact merge_page _ _ hv h ho
  rw [e]

theorem wrC_baseHi (w : CW) (v : Nat) (hw : w.en = false) (hv : v < 2 ^ 32) : wrC p w (BASE + 4, v) = { w with baseHi := v } := by
  unfold wrC
  simp only [regBaseHi, Corundum.CplQueue.writeReg, hw, Bool.false_eq_true, if_false]
  have e : Corundum.CplQueue.mergeStrb 0xf w.baseHi v = v := merge_all _ _ hv
  rw [e]

/-- the control register -/
def ctrlC (w : CW) (v : Nat) : CW :=
  if v >>> 16 = 0x8001 then w
  else if v >>> 16 = 0x8002 then if w.en then w else { w with logSize := v % 65536 % 16, cont := w.cont, armed := w.armed, en := w.en }
  else if v >>> 24 = 0xC0 then if w.en then w else { w with evn := v % 2 ^ 24 % 2 ^ 16 }
  else if v >>> 16 = 0x8080 then if w.en then w else { w with prod := v % 65536 }
  else if v >>> 16 = 0x8090 then { w with cons := v % 65536 }
  else if v >>> 16 = 0x8091 then if w.en && w.prod != v % 65536 then { w with cons := v % 65536, armed := false } else { w with cons := v % 65536, armed := true }
  else if v >>> 8 = 0x400001 then { w with en := v.testBit 0 }
  else if v >>> 8 = 0x400002 then if w.en && v.testBit 0 && w.prod != w.cons then { w with armed := false } else { w with armed := v.testBit 0 }
  else w

theorem wrC_ctrl (w : CW) (v : Nat) : wrC p w (CTRL, v) = ctrlC w v := by
  unfold wrC ctrlC
  simp only [regCtrl, Corundum.CplQueue.writeReg]
  by_cases h1 : v >>> 16 = 0x8001
  · rw [if_pos h1, if_pos h1]
  · rw [if_neg h1, if_neg h1]
    by_cases h2 : v >>> 16 = 0x8002
    · rw [if_pos h2, if_pos h2]
    · rw [if_neg h2, if_neg h2]
      by_cases h3 : v >>> 24 = 0xC0
      · rw [if_pos h3, if_pos h3]
      · rw [if_neg h3, if_neg h3]
        by_cases h4 : v >>> 16 = 0x8080
        · rw [if_pos h4, if_pos h4]
        · rw [if_neg h4, if_neg h4]
          by_cases h5 : v >>> 16 = 0x8090
          · rw [if_pos h5, if_pos h5]
          · rw [if_neg h5, if_neg h5]
            by_cases h6 : v >>> 16 = 0x8091
            · rw [if_pos h6, if_pos h6]
              split
              · rfl
              · rfl
            · rw [if_neg h6, if_neg h6]
              by_cases h7 : v >>> 8 = 0x400001
              · rw [if_pos h7, if_pos h7]
              · rw [if_neg h7, if_neg h7]
                by_cases h8 : v >>> 8 = 0x400002
                · rw [if_pos h8, if_pos h8]
                  split
                  · rfl
                  · rfl
                · rw [if_neg h8, if_neg h8]

theorem wrC_off (w : CW) : wrC p w (CTRL, SET_ENABLE ||| 0) = { w with en := false } := by
  rw [wrC_ctrl]
  have e : SET_ENABLE ||| 0 = 0x40000100 := by decide
  rw [e]
  rfl
theorem wrC_on (w : CW) : wrC p w (CTRL, SET_ENABLE ||| 1) = { w with en := true } := by
  rw [wrC_ctrl]
  have e : SET_ENABLE ||| 1 = 0x40000101 := by decide
  rw [e]
  rfl

theorem wrC_arm (w : CW) : ∃ b, wrC p w (CTRL, SET_ARM ||| 1) = { w with armed := b } := by
  refine ⟨!(w.en && true && w.prod != w.cons), ?_⟩
  rw [wrC_ctrl]
  have e : SET_ARM ||| 1 = 0x40000201 := by decide
  rw [e]
  show (if w.en && true && w.prod != w.cons then { w with armed := false } else { w with armed := true } : CW) = _
  cases h : (w.en && true && w.prod != w.cons)
  · rfl
  · rfl

theorem wrC_size (w : CW) (log : Nat) (hw : w.en = false) (hl : log < 65536) : wrC p w (CTRL, SET_SIZE ||| log) = { w with logSize := log % 16 } := by
  have e : SET_SIZE ||| log = 0x80020000 + log := or_add 16 0x8002 _ (by omega)
  rw [wrC_ctrl, e]
  have h1 : (0x80020000 + log) >>> 16 = 0x8002 := by rw [Nat.shiftRight_eq_div_pow]; omega
  have h2 : (0x80020000 + log) % 65536 = log := by omega
  unfold ctrlC
  rw [if_neg (by rw [h1]; decide), if_pos h1, h2, hw]
  rfl

theorem wrC_idx (w : CW) (m : Nat) (hw : w.en = false) (hm : m < 2 ^ 16) : wrC p w (CTRL, SET_IDX ||| m) = { w with evn := m } := by
  have e : SET_IDX ||| m = 0xC0000000 + m := or_add 24 0xC0 m (by omega)
  rw [wrC_ctrl, e]
  have h1 : (0xC0000000 + m) >>> 16 = 0xC000 := by rw [Nat.shiftRight_eq_div_pow]; omega
  have h2 : (0xC0000000 + m) >>> 24 = 0xC0 := by rw [Nat.shiftRight_eq_div_pow]; omega
  have h3 : (0xC0000000 + m) % 2 ^ 24 % 2 ^ 16 = m := by omega
  unfold ctrlC
  rw [if_neg (by rw [h1]; decide), if_neg (by rw [h1]; decide), if_pos h2, h3, hw]
  rfl

theorem wrC_prod (w : CW) (k : Nat) (hw : w.en = false) : wrC p w (CTRL, SET_PROD_PTR ||| (k &&& 0xffff)) = { w with prod := k % 65536 } := by
  have e : SET_PROD_PTR ||| (k &&& 0xffff) = 0x80800000 + k % 65536 := by rw [and_ffff]; exact or_add 16 0x8080 _ (by omega)
  rw [wrC_ctrl, e]
  have h1 : (0x80800000 + k % 65536) >>> 16 = 0x8080 := by rw [Nat.shiftRight_eq_div_pow]; omega
  have h2 : (0x80800000 + k % 65536) >>> 24 = 0x80 := by rw [Nat.shiftRight_eq_div_pow]; omega
  have h3 : (0x80800000 + k % 65536) % 65536 = k % 65536 := by omega
  unfold ctrlC
  rw [if_neg (by rw [h1]; decide), if_neg (by rw [h1]; decide), if_neg (by rw [h2]; decide), if_pos h1, h3, hw]
  rfl

theorem wrC_cons (w : CW) (k : Nat) : wrC p w (CTRL, SET_CONS_PTR ||| (k &&& 0xffff)) = { w with cons := k % 65536 } := by
  have e : SET_CONS_PTR ||| (k &&& 0xffff) = 0x80900000 + k % 65536 := by rw [and_ffff]; exact or_add 16 0x8090 _ (by omega)
  rw [wrC_ctrl, e]
  have h1 : (0x80900000 + k % 65536) >>> 16 = 0x8090 := by rw [Nat.shiftRight_eq_div_pow]; omega
  have h2 : (0x80900000 + k % 65536) >>> 24 = 0x80 := by rw [Nat.shiftRight_eq_div_pow]; omega
  have h3 : (0x80900000 + k % 65536) % 65536 = k % 65536 := by omega
  unfold ctrlC
  rw [if_neg (by rw [h1]; decide), if_neg (by rw [h1]; decide), if_neg (by rw [h2]; decide), if_neg (by rw [h1]; decide), if_pos h1, h3]

/-- the word of a completion or event queue after `open` -/
theorem progC8_eq (w : CW) (base log m : Nat) (ho : w.baseLo % 4096 = 0) (hb : base < 2 ^ 64) (hl : log < 65536) (hm : m < 2 ^ 16) :
    progC p w (progC8 base log m) =
      { w with prod := 0, cons := 0, evn := m, logSize := log % 16, en := true, baseLo := base % 2 ^ 32 / 4096 * 4096, baseHi := base / 2 ^ 32 } := by
  show wrC p (wrC p (wrC p (wrC p (wrC p (wrC p (wrC p (wrC p w (CTRL, SET_ENABLE ||| 0)) (BASE, base &&& 0xfffff000)) (BASE + 4, base >>> 32)) (CTRL, SET_SIZE ||| log)) (CTRL, SET_IDX ||| m))
    (CTRL, SET_PROD_PTR ||| (0 &&& 0xffff))) (CTRL, SET_CONS_PTR ||| (0 &&& 0xffff))) (CTRL, SET_ENABLE ||| 1) = _
  rw [wrC_off, and_page, Nat.shiftRight_eq_div_pow, wrC_base _ _ _ (by rfl) (by omega) (by omega) (by exact ho), wrC_baseHi _ _ _ (by rfl) (by omega), wrC_size _ _ _ (by rfl) hl, wrC_idx _ _ _ (by rfl) hm,
    wrC_prod _ _ _ (by rfl), wrC_cons, wrC_on]

end Corundum.Lifecycle
