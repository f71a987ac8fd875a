import Verif.Model.DmaSink
import Verif.Proof.AxiLanes

namespace Corundum.DmaSink
open Corundum.Spec

/-- parameters accepted by the assertions of lines 143-180, a length that fits a lane count, and more than one lane
or only one part -/
structure Cfg.Ok (c : Cfg) : Prop where
  parts : 0 < c.ko ∨ c.po = 0
  segs : c.so ≤ c.ko + c.po
  addr : c.ko + c.po ≤ c.aw
  len : c.ko ≤ c.lw
  len32 : c.lw ≤ 32

theorem ones_bit (n i : Nat) : (2 ^ n - 1).testBit i = decide (i < n) := Nat.testBit_two_pow_sub_one n i

theorem ones_and (n m : Nat) : (2 ^ n - 1) &&& (2 ^ m - 1) = 2 ^ min n m - 1 := by
  apply Nat.eq_of_testBit_eq
  intro i
  rw [Nat.testBit_and, ones_bit, ones_bit, ones_bit, Bool.eq_iff_iff]
  simp only [Bool.and_eq_true, decide_eq_true_eq]
  omega

theorem ones_shr (n m : Nat) (h : m ≤ n) : (2 ^ n - 1) >>> (n - m) = 2 ^ m - 1 := by
  apply Nat.eq_of_testBit_eq
  intro i
  rw [Nat.testBit_shiftRight, ones_bit, ones_bit, Bool.eq_iff_iff]
  simp only [decide_eq_true_eq]
  omega

theorem k_pos (c : Cfg) : 0 < c.k := Nat.two_pow_pos _

theorem mask_eq (c : Cfg) (r : Nat) (h : 0 < r) : mask c ((r - 1) / c.k) (r % c.k) = 2 ^ min r c.k - 1 := by
  have hk := k_pos c
  unfold mask
  by_cases h1 : r ≤ c.k
  · have e : (r - 1) / c.k = 0 := Nat.div_eq_of_lt (by omega)
    by_cases h2 : r = c.k
    · rw [h2, Nat.mod_self, if_neg (by omega), Nat.min_self]
    · rw [Nat.mod_eq_of_lt (by omega), if_pos ⟨e, by omega⟩, ones_shr _ _ h1, Nat.min_eq_left h1]
  · have e : 0 < (r - 1) / c.k := Nat.div_pos (by omega) hk
    rw [if_neg (by omega), Nat.min_eq_right (by omega)]

theorem cycleSize_aux (n : Nat) : ∀ (r x : Nat),
    (List.range r).reverse.foldl (fun x i => if !(2 ^ n - 1).testBit i then i else x) x = if n < r then n else x
  | 0, x => by simp
  | r + 1, x => by
    rw [List.range_succ, List.reverse_append, List.reverse_singleton, List.singleton_append, List.foldl_cons,
      cycleSize_aux n r, ones_bit]
    by_cases h : r < n
    · simp only [h, decide_true, Bool.not_true, Bool.false_eq_true, if_false]
      rw [if_neg (by omega), if_neg (by omega)]
    · simp only [h, decide_false, Bool.not_false, if_true]
      by_cases h2 : n < r
      · rw [if_pos h2, if_pos (by omega)]
      · rw [if_neg h2, if_pos (by omega)]; omega

theorem cycleSize_eq (c : Cfg) (n : Nat) (h : n ≤ c.k) : cycleSize c (2 ^ n - 1) = n := by
  unfold cycleSize
  rw [cycleSize_aux]
  split <;> omega

theorem w_eq (c : Cfg) : c.w = c.k * 2 ^ c.po := Nat.pow_add ..

theorem segs_mul (c : Cfg) (h : c.Ok) : c.segs * 2 ^ c.so = c.w := by
  unfold Cfg.segs Cfg.w
  rw [← Nat.pow_add, Nat.sub_add_cancel h.segs]

/-- the part of an aligned address -/
theorem part_eq (c : Cfg) (a : Nat) (ha : c.k ∣ a) : a &&& ((2 ^ c.po - 1) <<< c.ko) = a % c.w := by
  obtain ⟨q, rfl⟩ := ha
  apply Nat.eq_of_testBit_eq
  intro i
  unfold Cfg.w Cfg.k
  rw [Nat.testBit_and, Nat.testBit_shiftLeft, ones_bit, Nat.testBit_mod_two_pow, Nat.testBit_two_pow_mul]
  rw [Bool.eq_iff_iff]
  simp only [Bool.and_eq_true, decide_eq_true_eq]
  constructor
  · rintro ⟨⟨h1, h2⟩, _, h3⟩; exact ⟨by omega, h1, h2⟩
  · rintro ⟨h1, h2, h3⟩; exact ⟨⟨h2, h3⟩, h2, by omega⟩

theorem fits (c : Cfg) (a : Nat) (ha : c.k ∣ a) : a % c.w + c.k ≤ c.w ∧ c.k ∣ a % c.w := by
  obtain ⟨q, rfl⟩ := ha
  rw [w_eq, Nat.mul_mod_mul_left]
  have h1 : q % 2 ^ c.po < 2 ^ c.po := Nat.mod_lt _ (Nat.two_pow_pos _)
  refine ⟨?_, Nat.dvd_mul_right _ _⟩
  rw [← Nat.mul_succ]
  exact Nat.mul_le_mul_left _ h1

theorem enables_bit (c : Cfg) (hc : c.Ok) (s : St) (b : Beat) (n : Nat) (hn : n ≤ c.k) (ha : c.k ∣ s.addr)
    (hkm : b.keep &&& s.keepMask = 2 ^ n - 1) (i : Nat) (hi : i < c.w) :
    (enables c s b).testBit i = decide (s.addr % c.w ≤ i ∧ i < s.addr % c.w + n) := by
  unfold enables
  simp only [hkm]
  by_cases hp : c.po > 0
  · have hpo : c.partOffsetWidth = c.ko := by
      unfold Cfg.partOffsetWidth
      have : 0 < c.ko := by rcases hc.parts with h | h <;> omega
      have h1 : c.k > 1 := Nat.one_lt_two_pow (by omega)
      rw [if_pos h1]
    rw [if_pos hp, hpo, part_eq c _ ha, Nat.testBit_mod_two_pow, Nat.testBit_shiftLeft, ones_bit, Bool.eq_iff_iff]
    simp only [Bool.and_eq_true, decide_eq_true_eq]
    omega
  · have h0 : c.po = 0 := by omega
    have hw : c.w = c.k := by rw [w_eq, h0, Nat.pow_zero, Nat.mul_one]
    rw [if_neg hp, ones_bit, hw, Nat.mod_eq_zero_of_dvd ha, Bool.eq_iff_iff]
    simp only [decide_eq_true_eq]
    omega

theorem ramCmd_eq (c : Cfg) (m : Nat → Nat) (x : Cmd) (y : Nat) :
    ramCmd c m x y = if (x.addr * c.segs + x.seg) * 2 ^ c.so ≤ y ∧ y < (x.addr * c.segs + x.seg) * 2 ^ c.so + 2 ^ c.so ∧
      x.be.testBit (y - (x.addr * c.segs + x.seg) * 2 ^ c.so) = true then
      x.data.getD (y - (x.addr * c.segs + x.seg) * 2 ^ c.so) 0 else m y :=
  Axi.fold_bytes ((x.addr * c.segs + x.seg) * 2 ^ c.so) (fun j => x.be.testBit j) (fun j => x.data.getD j 0)
    (2 ^ c.so) m y

theorem segs_fold (c : Cfg) (a be : Nat) (v : Nat → Nat) (m : Nat → Nat) (y : Nat) : ∀ (N : Nat),
    (((List.range N).filter fun n => decide (segBe c be n ≠ 0)).map fun n =>
      (⟨n, a, segBe c be n, (List.range (2 ^ c.so)).map fun j => v (n * 2 ^ c.so + j)⟩ : Cmd)).foldl (ramCmd c) m y =
      if a * c.segs * 2 ^ c.so ≤ y ∧ y < a * c.segs * 2 ^ c.so + N * 2 ^ c.so ∧
        be.testBit (y - a * c.segs * 2 ^ c.so) = true then v (y - a * c.segs * 2 ^ c.so) else m y
  | 0 => by
    rw [if_neg (by rw [Nat.zero_mul]; omega)]
    rfl
  | N + 1 => by
    have ih := segs_fold c a be v m y N
    rw [List.range_succ, List.filter_append, List.map_append, List.foldl_append]
    have hb : ∀ j, (segBe c be N).testBit j = (decide (j < 2 ^ c.so) && be.testBit (N * 2 ^ c.so + j)) := by
      intro j
      unfold segBe
      rw [Nat.testBit_mod_two_pow, Nat.testBit_shiftRight]
    have e1 : (N + 1) * 2 ^ c.so = N * 2 ^ c.so + 2 ^ c.so := Nat.succ_mul _ _
    have e2 : (a * c.segs + N) * 2 ^ c.so = a * c.segs * 2 ^ c.so + N * 2 ^ c.so := Nat.add_mul _ _ _
    by_cases hz : segBe c be N = 0
    · rw [List.filter_cons_of_neg (by simp [hz])]
      simp only [List.filter_nil, List.map_nil, List.foldl_nil]
      rw [ih, e1]
      have hb0 : ∀ j, j < 2 ^ c.so → be.testBit (N * 2 ^ c.so + j) = false := by
        intro j hj
        have := hb j
        rw [hz, Nat.zero_testBit] at this
        simpa [hj] using this.symm
      generalize a * c.segs * 2 ^ c.so = p at *
      generalize N * 2 ^ c.so = q at *
      generalize 2 ^ c.so = S at *
      by_cases h : p ≤ y ∧ y < p + q ∧ be.testBit (y - p) = true
      · rw [if_pos h, if_pos ⟨h.1, by omega, h.2.2⟩]
      · rw [if_neg h, if_neg]
        rintro ⟨h1, h2, h3⟩
        apply h
        refine ⟨h1, ?_, h3⟩
        apply Classical.byContradiction
        intro h4
        have := hb0 (y - p - q) (by omega)
        rw [show q + (y - p - q) = y - p from by omega, h3] at this
        cases this
    · rw [List.filter_cons_of_pos (by simp [hz])]
      simp only [List.filter_nil, List.map_cons, List.map_nil, List.foldl_cons, List.foldl_nil]
      rw [ramCmd_eq]
      dsimp only
      rw [hb, ih, e1, e2]
      generalize hp : a * c.segs * 2 ^ c.so = p at *
      generalize hq : N * 2 ^ c.so = q at *
      by_cases h : p + q ≤ y ∧ y < p + q + 2 ^ c.so
      · have ee : q + (y - (p + q)) = y - p := by omega
        have hj : y - (p + q) < 2 ^ c.so := by omega
        rw [ee]
        by_cases hbit : be.testBit (y - p) = true
        · rw [if_pos ⟨h.1, h.2, by simp [hj, hbit]⟩, if_pos ⟨by omega, by omega, hbit⟩]
          simp [List.getD_eq_getElem?_getD, hj, ee]
        · rw [if_neg (fun h' => hbit (by have := h'.2.2; simp [hj] at this; exact this)),
            if_neg (fun h' => hbit h'.2.2), if_neg (fun h' => hbit h'.2.2)]
      · rw [if_neg (fun h' => h ⟨h'.1, h'.2.1⟩)]
        by_cases h2 : p ≤ y ∧ y < p + q ∧ be.testBit (y - p) = true
        · rw [if_pos h2, if_pos ⟨h2.1, Nat.lt_of_lt_of_le h2.2.1 (Nat.add_le_add_left (Nat.le_add_right _ _) _), h2.2.2⟩]
        · rw [if_neg h2, if_neg (fun h' => h2 ⟨h'.1, by have := h'.2.1; omega, h'.2.2⟩)]

/-- a transfer writes its bytes at the address -/
theorem beat_mem (c : Cfg) (hc : c.Ok) (s : St) (b : Beat) (n : Nat) (hn : n ≤ c.k) (ha : c.k ∣ s.addr)
    (hlt : s.addr < 2 ^ c.aw) (hl : b.data.length = c.k)
    (hkm : b.keep &&& s.keepMask = 2 ^ n - 1) (m : Nat → Nat) :
    (cmds c s b).foldl (ramCmd c) m = flatWrite (2 ^ c.aw) m s.addr (b.data.take n) := by
  funext y
  have hk := k_pos c
  have hw : 0 < c.w := Nat.two_pow_pos _
  have hs := segs_fold c (s.addr >>> (c.ko + c.po)) (enables c s b) (fun i => b.data.getD (i % c.k) 0) m y c.segs
  unfold cmds
  rw [hs]
  have ew : s.addr >>> (c.ko + c.po) * c.segs * 2 ^ c.so = s.addr / c.w * c.w := by
    rw [Nat.mul_assoc, segs_mul c hc, Nat.shiftRight_eq_div_pow]
    rfl
  rw [ew, segs_mul c hc]
  have hdm := Nat.div_add_mod s.addr c.w
  rw [Nat.mul_comm] at hdm
  obtain ⟨f1, f2⟩ := fits c s.addr ha
  have hwd : c.w ∣ 2 ^ c.aw := Nat.pow_dvd_pow 2 hc.addr
  have hend : s.addr / c.w * c.w + c.w ≤ 2 ^ c.aw := by
    obtain ⟨q, hq⟩ := hwd
    have h1 : s.addr / c.w < q := by
      apply Nat.div_lt_of_lt_mul
      rw [← hq]; exact hlt
    rw [hq, ← Nat.succ_mul, Nat.mul_comm c.w q]
    exact Nat.mul_le_mul_right _ h1
  have htl : (b.data.take n).length = n := by rw [List.length_take]; omega
  rw [Axi.flat_block _ _ _ _ _ (by rw [htl, Nat.mod_eq_of_lt hlt]; omega)]
  simp only [Nat.mod_eq_of_lt hlt, htl]
  generalize hB : s.addr / c.w * c.w = B at *
  by_cases hy : B ≤ y ∧ y < B + c.w
  · have hbit := enables_bit c hc s b n hn ha hkm (y - B) (by omega)
    rw [hbit]
    by_cases h : s.addr ≤ y ∧ y < s.addr + n
    · rw [dif_pos h, if_pos ⟨hy.1, hy.2, by simp only [decide_eq_true_eq]; omega⟩]
      have hmod : (y - B) % c.k = y - s.addr := by
        obtain ⟨q, hq⟩ := f2
        rw [show y - B = (y - s.addr) + c.k * q from by omega, Nat.add_mul_mod_self_left]
        exact Nat.mod_eq_of_lt (by omega)
      rw [hmod, List.getElem_take, List.getD_eq_getElem?_getD, List.getElem?_eq_getElem (by omega)]
      rfl
    · rw [dif_neg h, if_neg]
      rintro ⟨_, _, h3⟩
      rw [decide_eq_true_eq] at h3
      omega
  · rw [if_neg (fun h => hy ⟨h.1, h.2.1⟩), dif_neg (by omega)]

/-- in the middle of a descriptor: next address, bytes stored, bytes left -/
structure Inv (c : Cfg) (s : St) (a L R tag : Nat) : Prop where
  phase : s.phase = .write
  addr : s.addr = a
  dvd : c.k ∣ a
  lt : a < 2 ^ c.aw
  pos : 0 < R
  mask : s.keepMask = 2 ^ min R c.k - 1
  off : s.lastOffset = R % c.k
  len : s.length = L
  fit : L + R < 2 ^ c.lw
  count : s.count = (R - 1) / c.k
  last : s.last = decide (R ≤ c.k)
  tag : s.tag = tag

theorem count_lt (c : Cfg) (hc : c.Ok) (r : Nat) (h : r < 2 ^ c.lw) : (r - 1) / c.k < 2 ^ c.countWidth := by
  unfold Cfg.countWidth
  apply Nat.div_lt_of_lt_mul
  unfold Cfg.k
  rw [← Nat.pow_add]
  have : 2 ^ c.lw ≤ 2 ^ (c.ko + (c.lw - c.ko + 1)) := Nat.pow_le_pow_right (by omega) (by have := hc.len; omega)
  omega

theorem last_eq (c : Cfg) (r : Nat) (h : 0 < r) : decide ((r - 1) / c.k = 0) = decide (r ≤ c.k) := by
  have hk := k_pos c
  rw [decide_eq_decide]
  constructor
  · intro h0
    apply Classical.byContradiction
    intro h1
    have := Nat.div_pos (a := r - 1) (b := c.k) (by omega) hk
    omega
  · intro h1
    exact Nat.div_eq_of_lt (by omega)

theorem aligned (c : Cfg) (hc : c.Ok) (x : Nat) (h : c.k ∣ x) : c.k ∣ x % 2 ^ c.aw :=
  (Nat.dvd_mod_iff (Nat.pow_dvd_pow 2 (by have := hc.addr; omega))).2 h

theorem Inv_load (c : Cfg) (hc : c.Ok) (d : Desc) (h0 : 0 < d.len) (h1 : d.len < 2 ^ c.lw) :
    Inv c (load c d) (d.addr / c.k * c.k % 2 ^ c.aw) 0 d.len d.tag := by
  have hp : 2 ^ c.lw ≤ 2 ^ 32 := Nat.pow_le_pow_right (by omega) hc.len32
  have e : ((d.len + 2 ^ 32 - 1) % 2 ^ 32) >>> c.ko % 2 ^ c.countWidth = (d.len - 1) / c.k := by
    rw [show (d.len + 2 ^ 32 - 1) % 2 ^ 32 = d.len - 1 from by omega, Nat.shiftRight_eq_div_pow]
    exact Nat.mod_eq_of_lt (count_lt c hc _ h1)
  refine ⟨rfl, rfl, aligned c hc _ (Nat.dvd_mul_left _ _), Nat.mod_lt _ (Nat.two_pow_pos _), h0, ?_, rfl, rfl,
    by omega, e, ?_, rfl⟩
  · show DmaSink.mask c _ _ = _
    rw [e, mask_eq c _ h0]
  · show decide (_ = 0) = _
    rw [e, last_eq c _ h0]

/-- a transfer that is not the last and after which bytes are left -/
theorem write_more (c : Cfg) (hc : c.Ok) {s : St} {a L R tag : Nat} (i : Inv c s a L R tag) (b : Beat)
    (hb : b.last = false) (hR : c.k < R) :
    Inv c (write c s b).1 ((a + c.k) % 2 ^ c.aw) (L + c.k) (R - c.k) tag ∧ (write c s b).2.2.last = false := by
  have hk := k_pos c
  have hl : s.last = false := by rw [i.last]; simp; omega
  have hfit := i.fit
  have hcnt : (s.count + 2 ^ c.countWidth - 1) % 2 ^ c.countWidth = (R - c.k - 1) / c.k := by
    have h1 : (R - 1) / c.k = (R - c.k - 1) / c.k + 1 := by
      rw [show R - 1 = (R - c.k - 1) + c.k from by omega, Nat.add_div_right _ hk]
    have h2 := count_lt c hc (R - c.k) (by omega)
    rw [i.count, h1]
    generalize (R - c.k - 1) / c.k = q at *
    rw [show q + 1 + 2 ^ c.countWidth - 1 = q + 2 ^ c.countWidth from by omega, Nat.add_mod_right]
    exact Nat.mod_eq_of_lt h2
  have hoff : s.lastOffset = (R - c.k) % c.k := by rw [i.off]; exact Nat.mod_eq_sub_mod (by omega)
  unfold write
  simp only [hb, hl, Bool.false_eq_true, if_false]
  refine ⟨⟨i.phase, by rw [i.addr], aligned c hc _ ((Nat.dvd_add_right i.dvd).2 (Nat.dvd_refl _)),
    Nat.mod_lt _ (Nat.two_pow_pos _), by omega, ?_, hoff, ?_, by omega, hcnt, ?_, i.tag⟩, trivial⟩
  · show DmaSink.mask c _ _ = _
    rw [hcnt, hoff, mask_eq c _ (by omega)]
  · rw [i.len]; exact Nat.mod_eq_of_lt (by omega)
  · show decide (_ = 0) = _
    rw [hcnt, last_eq c _ (by omega)]

/-- the transfer with the last byte wanted, but not the end of the frame -/
theorem write_full (c : Cfg) {s : St} {a L R tag : Nat} (i : Inv c s a L R tag) (b : Beat)
    (hb : b.last = false) (hR : R ≤ c.k) :
    (write c s b).1.phase = .drop ∧
      ∃ mk, (write c s b).2.2 = ⟨L + R, tag, b.user, mk, true⟩ := by
  have hl : s.last = true := by rw [i.last]; simpa using hR
  have hfit := i.fit
  have hpos := i.pos
  unfold write
  simp only [hb, hl, Bool.false_eq_true, if_false, if_true]
  refine ⟨trivial, segMask c (enables c s b), ?_⟩
  rw [i.tag, i.off, i.len]
  congr 1
  by_cases h : R = c.k
  · subst h
    rw [Nat.mod_self, if_neg (by omega)]
    exact Nat.mod_eq_of_lt hfit
  · rw [Nat.mod_eq_of_lt (by omega), if_pos hpos]
    exact Nat.mod_eq_of_lt hfit

/-- the transfer that ends the frame -/
theorem write_last (c : Cfg) {s : St} {a L R tag : Nat} (i : Inv c s a L R tag) (b : Beat) (n : Nat)
    (hb : b.last = true) (hn : n ≤ c.k) (hkp : b.keep = 2 ^ n - 1) :
    (write c s b).1.phase = .idle ∧
      ∃ mk, (write c s b).2.2 = ⟨L + min n R, tag, b.user, mk, true⟩ := by
  have hfit := i.fit
  have hkm : b.keep &&& s.keepMask = 2 ^ min n R - 1 := by
    rw [hkp, i.mask, ones_and]
    congr 2
    omega
  unfold write
  simp only [hb, if_true]
  refine ⟨trivial, segMask c (enables c s b), ?_⟩
  rw [hkm, cycleSize_eq c _ (by omega), i.tag, i.len]
  congr 1
  have hle : (L + min n R) % 2 ^ c.lw = L + min n R := Nat.mod_eq_of_lt (by omega)
  rw [hle]
  split
  · rename_i h
    rw [i.last, i.off] at h
    simp only [Bool.and_eq_true, decide_eq_true_eq] at h
    have hm : R % c.k = R := by
      rcases Nat.lt_or_ge R c.k with h1 | h1
      · exact Nat.mod_eq_of_lt h1
      · have : R = c.k := by omega
        subst this
        rw [Nat.mod_self] at h
        omega
    rw [if_pos]
    rw [List.all_eq_true]
    intro x hx
    rw [i.off, hm, ones_shr _ _ h.1, ones_bit, ones_bit]
    by_cases h1 : x < min n R
    · have : x < R := by omega
      simp [this]
    · simp only [h1, decide_false, Bool.false_and, Bool.not_false]
  · rfl

end Corundum.DmaSink
