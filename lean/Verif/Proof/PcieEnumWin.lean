import Verif.Proof.PcieEnumBars

/-! The window and bus number registers of a bridge hold what enumeration computed. -/
namespace Corundum.PcieEnum
open Corundum

theorem tb_range {a b i : Nat} (h : a ≤ b) : (2 ^ b - 2 ^ a).testBit i = decide (a ≤ i ∧ i < b) := by
  have h1 : 2 ^ b - 2 ^ a = 2 ^ a * (2 ^ (b - a) - 1) + 0 := by
    rw [Nat.mul_sub, ← Nat.pow_add, Nat.add_sub_cancel' h]; omega
  rw [h1, Nat.testBit_two_pow_mul_add _ (Nat.two_pow_pos a), tb_low]
  by_cases hi : i < a
  · rw [if_pos hi, Nat.zero_testBit, decide_eq_false (by omega)]
  · rw [if_neg hi]
    by_cases h2 : i < b
    · rw [decide_eq_true (by omega), decide_eq_true (by omega)]
    · rw [decide_eq_false (by omega), decide_eq_false (by omega)]

theorem t2 (i : Nat) : (2 : Nat).testBit i = decide (1 ≤ i ∧ i < 2) := tb_range (a := 1) (b := 2) (by decide)
theorem t12 (i : Nat) : (12 : Nat).testBit i = decide (2 ≤ i ∧ i < 4) := tb_range (a := 2) (b := 4) (by decide)
theorem t240 (i : Nat) : (240 : Nat).testBit i = decide (4 ≤ i ∧ i < 8) := tb_range (a := 4) (b := 8) (by decide)
theorem tf000 (i : Nat) : (61440 : Nat).testBit i = decide (12 ≤ i ∧ i < 16) := tb_range (a := 12) (b := 16) (by decide)
theorem tfff0 (i : Nat) : (65520 : Nat).testBit i = decide (4 ≤ i ∧ i < 16) := tb_range (a := 4) (b := 16) (by decide)
theorem tfff00000 (i : Nat) : (4293918720 : Nat).testBit i = decide (20 ≤ i ∧ i < 32) := tb_range (a := 20) (b := 32) (by decide)
theorem tfff (i : Nat) : (4095 : Nat).testBit i = decide (i < 12) := tb_low 12 i
theorem tfffff (i : Nat) : (1048575 : Nat).testBit i = decide (i < 20) := tb_low 20 i
theorem t1 (i : Nat) : (1 : Nat).testBit i = decide (i < 1) := tb_low 1 i

/-- the largest address below an aligned limit has all low bits set -/
theorem tb_ones {x n i : Nat} (h : x % 2 ^ n = 2 ^ n - 1) (hi : i < n) : x.testBit i = true := by
  have := Nat.testBit_mod_two_pow x n i
  rw [h, tb_low, decide_eq_true hi, Bool.true_and] at this
  exact this.symm

theorem pred_ones {x n : Nat} (h : x % 2 ^ n = 0) (hx : 0 < x) : (x - 1) % 2 ^ n = 2 ^ n - 1 := by
  obtain ⟨q, rfl⟩ := Nat.dvd_of_mod_eq_zero h
  have hp := Nat.two_pow_pos n
  cases q with
  | zero => simp at hx
  | succ q =>
    rw [Nat.mul_succ, Nat.add_sub_assoc hp, Nat.mul_add_mod, Nat.mod_eq_of_lt (by omega)]

theorem win_ioBase {old lo hi : Nat} (o1 : old % 2 ^ 12 = 0) (o2 : old < 2 ^ 32) (l1 : lo % 2 ^ 12 = 0) (l2 : lo < 2 ^ 32) :
    bmu (bmu old ((0x3 &&& 1) <<< 1) ((((lo >>> 8) &&& 0xf0) ||| (((hi >>> 8) &&& 0xf0) <<< 8)) <<< 8) (some 0xf000))
      ((0xf &&& 3) <<< 2) (pack2 (lo >>> 16) (hi >>> 16) <<< 16) none = lo := by
  apply ext_lt
  intro i
  rw [bmu_bit, bmu_bit]
  simp only [show (0xf &&& 3) <<< 2 = 12 from rfl, show (0x3 &&& 1) <<< 1 = 2 from rfl, t12, t2, t240, tf000, Option.mem_def,
    Option.some.injEq, forall_eq', Nat.testBit_shiftLeft, Nat.testBit_shiftRight, Nat.testBit_or, Nat.testBit_and, pack2,
    reduceCtorEq, false_implies, implies_true, and_true, decide_eq_true_eq]
  by_cases c1 : 32 ≤ i
  · rw [if_neg (by omega), if_neg (by omega), tb_big o2 c1, tb_big l2 c1]
  · by_cases c2 : 16 ≤ i
    · rw [if_pos (by omega), decide_eq_true (by omega), decide_eq_false (by omega : ¬ i - 16 ≥ 16), show 16 + (i - 16) = i by omega]
      simp
    · rw [if_neg (by omega)]
      by_cases c3 : 12 ≤ i
      · rw [if_pos (by omega), decide_eq_true (by omega), decide_eq_true (by omega), decide_eq_false (by omega : ¬ i - 8 ≥ 8),
          show 8 + (i - 8) = i by omega]
        simp
      · rw [if_neg (by omega), tb_mod o1 (by omega), tb_mod l1 (by omega)]

theorem win_ioLimit {old lo x : Nat} (o2 : old < 2 ^ 32) (hlo : lo < 2 ^ 32) (l1 : x % 2 ^ 12 = 2 ^ 12 - 1) (l2 : x < 2 ^ 32) :
    bmu (bmu old (0x3 &&& 2) (((lo >>> 8) &&& 0xf0) ||| (((x >>> 8) &&& 0xf0) <<< 8)) (some 0xf000) ||| 0xfff)
      (0xf &&& 0xc) (pack2 (lo >>> 16) (x >>> 16)) none = x := by
  apply ext_lt
  intro i
  rw [bmu_bit, Nat.testBit_or, bmu_bit]
  simp only [show (0xf &&& 0xc) = 12 from rfl, show (0x3 &&& 2) = 2 from rfl, t12, t2, t240, tf000, tfff, Option.mem_def,
    Option.some.injEq, forall_eq', Nat.testBit_shiftLeft, Nat.testBit_shiftRight, Nat.testBit_or, Nat.testBit_and, pack2,
    reduceCtorEq, false_implies, implies_true, and_true, decide_eq_true_eq]
  by_cases c1 : 32 ≤ i
  · rw [if_neg (by omega), if_neg (by omega), tb_big o2 c1, tb_big l2 c1, decide_eq_false (by omega)]; rfl
  · by_cases c2 : 16 ≤ i
    · rw [if_pos (by omega), decide_eq_true (by omega), show 16 + (i - 16) = i by omega, tb_big hlo (by omega : 32 ≤ 16 + i)]
      simp
    · rw [if_neg (by omega)]
      by_cases c3 : 12 ≤ i
      · rw [if_pos (by omega), decide_eq_true (by omega : i ≥ 8), decide_eq_true (by omega : 4 ≤ i - 8 ∧ i - 8 < 8),
          decide_eq_false (by omega : ¬ (4 ≤ i ∧ i < 8)), decide_eq_false (by omega : ¬ i < 12), show 8 + (i - 8) = i by omega]
        simp
      · rw [if_neg (by omega), tb_ones l1 (by omega), decide_eq_true (by omega : i < 12), Bool.or_true]

theorem win_memBase {old lo hi : Nat} (o1 : old % 2 ^ 20 = 0) (l1 : lo % 2 ^ 20 = 0) (i : Nat) :
    (bmu old ((0xf &&& 3) <<< 2) (pack2 ((lo >>> 16) &&& 0xfff0) ((hi >>> 16) &&& 0xfff0) <<< 16) (some 0xfff00000)).testBit i =
      if i < 32 then lo.testBit i else old.testBit i := by
  rw [bmu_bit]
  simp only [show (0xf &&& 3) <<< 2 = 12 from rfl, t12, tfff0, tfff00000, Option.mem_def,
    Option.some.injEq, forall_eq', Nat.testBit_shiftLeft, Nat.testBit_shiftRight, Nat.testBit_or, Nat.testBit_and, pack2,
    decide_eq_true_eq]
  by_cases c1 : 32 ≤ i
  · rw [if_neg (by omega), if_neg (by omega)]
  · rw [if_pos (by omega : i < 32)]
    by_cases c2 : 20 ≤ i
    · rw [if_pos (by omega), decide_eq_true (by omega), decide_eq_true (by omega), decide_eq_false (by omega : ¬ i - 16 ≥ 16),
        show 16 + (i - 16) = i by omega]
      simp
    · rw [if_neg (by omega), tb_mod o1 (by omega), tb_mod l1 (by omega)]

theorem win_memLimit {old lo x : Nat} (hx : x % 2 ^ 20 = 2 ^ 20 - 1) (i : Nat) :
    (bmu old (0xf &&& 0xc) (pack2 ((lo >>> 16) &&& 0xfff0) ((x >>> 16) &&& 0xfff0)) (some 0xfff00000) ||| 0xfffff).testBit i =
      if i < 32 then x.testBit i else old.testBit i := by
  rw [Nat.testBit_or, bmu_bit]
  simp only [show (0xf &&& 0xc) = 12 from rfl, t12, tfff0, tfff00000, tfffff, Option.mem_def,
    Option.some.injEq, forall_eq', Nat.testBit_shiftLeft, Nat.testBit_shiftRight, Nat.testBit_or, Nat.testBit_and, pack2,
    decide_eq_true_eq]
  by_cases c1 : 32 ≤ i
  · rw [if_neg (by omega), if_neg (by omega), decide_eq_false (by omega), Bool.or_false]
  · rw [if_pos (by omega : i < 32)]
    by_cases c2 : 20 ≤ i
    · rw [if_pos (by omega), decide_eq_true (by omega : i ≥ 16), decide_eq_true (by omega : 4 ≤ i - 16 ∧ i - 16 < 16),
        decide_eq_false (by omega : ¬ (4 ≤ i ∧ i < 16)), decide_eq_false (by omega : ¬ i < 20), show 16 + (i - 16) = i by omega]
      simp
    · rw [if_neg (by omega), tb_ones hx (by omega), decide_eq_true (by omega), Bool.or_true]

theorem win_pf {cur x : Nat} (h : ∀ i, i < 32 → cur.testBit i = x.testBit i) (hc : cur < 2 ^ 64) (hx : x < 2 ^ 64) :
    bmu cur (0xf <<< 4) ((x >>> 32) <<< 32) none = x := by
  apply ext_lt
  intro i
  rw [bmu_bit]
  simp only [show (0xf <<< 4) = 240 from rfl, t240, Option.mem_def, Nat.testBit_shiftLeft, Nat.testBit_shiftRight,
    reduceCtorEq, false_implies, implies_true, and_true, decide_eq_true_eq]
  by_cases c1 : 64 ≤ i
  · rw [if_neg (by omega), tb_big hc c1, tb_big hx c1]
  · by_cases c2 : 32 ≤ i
    · rw [if_pos (by omega), decide_eq_true (by omega), Bool.true_and, show 32 + (i - 32) = i by omega]
    · rw [if_neg (by omega), h i (by omega)]

theorem lt_of_bits {x n : Nat} (h : ∀ i, n ≤ i → x.testBit i = false) : x < 2 ^ n := Nat.lt_pow_two_of_testBit x h

/-- window registers of a bridge that has been constructed or enumerated -/
structure BrOk (b : Br) : Prop where
  ioBase : b.ioBase % 2 ^ 12 = 0 ∧ b.ioBase < 2 ^ 32
  ioLimit : b.ioLimit < 2 ^ 32
  memBase : b.memBase % 2 ^ 20 = 0 ∧ b.memBase < 2 ^ 32
  memLimit : b.memLimit < 2 ^ 32
  pfBase : b.pfBase % 2 ^ 20 = 0 ∧ b.pfBase < 2 ^ 64
  pfLimit : b.pfLimit < 2 ^ 64
  bus : b.pri < 256 ∧ b.sec < 256 ∧ b.sub < 256

theorem BrOk.fresh : BrOk {} := ⟨by decide, by decide, by decide, by decide, by decide, by decide, by decide⟩

/-- limits aligned to window granularity -/
structure Aligned (l : Lim) : Prop where
  io : l.io % 2 ^ 12 = 0
  mem : l.mem % 2 ^ 20 = 0
  pf : l.pf % 2 ^ 20 = 0

theorem Lim.align_ok (l : Lim) : Aligned l.align ∧ l.le l.align := by
  have h1 := PcieAlloc.align_spec l.io 12
  have h2 := PcieAlloc.align_spec l.mem 20
  have h3 := PcieAlloc.align_spec l.pf 20
  rw [← align_eq] at h1 h2 h3
  exact ⟨⟨h1.2.1, h2.2.1, h3.2.1⟩, ⟨h1.1, h2.1, h3.1⟩⟩

theorem write_7 (b : Br) (d m : Nat) : b.write 7 d m = { b with
    ioBase := bmu b.ioBase ((m &&& 1) <<< 1) (d <<< 8) (some 0xf000)
    ioLimit := bmu b.ioLimit (m &&& 2) d (some 0xf000) ||| 0xfff } := rfl
theorem write_8 (b : Br) (d m : Nat) : b.write 8 d m = { b with
    memBase := bmu b.memBase ((m &&& 3) <<< 2) (d <<< 16) (some 0xfff00000)
    memLimit := bmu b.memLimit (m &&& 0xc) d (some 0xfff00000) ||| 0xfffff } := rfl
theorem write_9 (b : Br) (d m : Nat) : b.write 9 d m = { b with
    pfBase := bmu b.pfBase ((m &&& 3) <<< 2) (d <<< 16) (some 0xfff00000)
    pfLimit := bmu b.pfLimit (m &&& 0xc) d (some 0xfff00000) ||| 0xfffff } := rfl
theorem write_10 (b : Br) (d m : Nat) : b.write 10 d m = { b with pfBase := bmu b.pfBase (m <<< 4) (d <<< 32) none } := rfl
theorem write_11 (b : Br) (d m : Nat) : b.write 11 d m = { b with pfLimit := bmu b.pfLimit (m <<< 4) (d <<< 32) none } := rfl
theorem write_12 (b : Br) (d m : Nat) : b.write 12 d m = { b with
    ioBase := bmu b.ioBase ((m &&& 3) <<< 2) (d <<< 16) none
    ioLimit := bmu b.ioLimit (m &&& 0xc) d none } := rfl

theorem setWindows_spec {b : Br} {lo hi : Lim} (hb : BrOk b) (al : Aligned lo) (ah : Aligned hi)
    (h1 : lo.io < 2 ^ 32) (h2 : 0 < hi.io) (h3 : hi.io ≤ 2 ^ 32) (h4 : lo.mem < 2 ^ 32) (h5 : 0 < hi.mem) (h6 : hi.mem ≤ 2 ^ 32)
    (h7 : lo.pf < 2 ^ 64) (h8 : 0 < hi.pf) (h9 : hi.pf ≤ 2 ^ 64) :
    b.setWindows lo hi.pred = ⟨b.pri, b.sec, b.sub, lo.io, hi.io - 1, lo.mem, hi.mem - 1, lo.pf, hi.pf - 1⟩ := by
  have e1 := win_ioBase (hi := hi.io - 1) hb.ioBase.1 hb.ioBase.2 al.io h1
  have e2 := win_ioLimit (lo := lo.io) (x := hi.io - 1) hb.ioLimit h1 (pred_ones ah.io h2) (by omega)
  have e3 : bmu b.memBase ((0xf &&& 3) <<< 2) (pack2 ((lo.mem >>> 16) &&& 0xfff0) (((hi.mem - 1) >>> 16) &&& 0xfff0) <<< 16)
      (some 0xfff00000) = lo.mem := by
    apply ext_lt
    intro i
    rw [win_memBase hb.memBase.1 al.mem]
    split
    · rfl
    · rw [tb_big hb.memBase.2 (by omega), tb_big h4 (by omega)]
  have e4 : bmu b.memLimit (0xf &&& 0xc) (pack2 ((lo.mem >>> 16) &&& 0xfff0) (((hi.mem - 1) >>> 16) &&& 0xfff0))
      (some 0xfff00000) ||| 0xfffff = hi.mem - 1 := by
    apply ext_lt
    intro i
    rw [win_memLimit (pred_ones ah.mem h5)]
    split
    · rfl
    · rw [tb_big hb.memLimit (by omega), tb_big (n := 32) (x := hi.mem - 1) (by omega) (by omega)]
  have e5 := win_pf (x := lo.pf)
    (cur := bmu b.pfBase ((0xf &&& 3) <<< 2) (pack2 ((lo.pf >>> 16) &&& 0xfff0) (((hi.pf - 1) >>> 16) &&& 0xfff0) <<< 16) (some 0xfff00000))
    (fun i hi => by rw [win_memBase hb.pfBase.1 al.pf, if_pos hi])
    (lt_of_bits fun i hi => by rw [win_memBase hb.pfBase.1 al.pf, if_neg (by omega), tb_big hb.pfBase.2 hi]) h7
  have e6 := win_pf (x := hi.pf - 1)
    (cur := bmu b.pfLimit (0xf &&& 0xc) (pack2 ((lo.pf >>> 16) &&& 0xfff0) (((hi.pf - 1) >>> 16) &&& 0xfff0)) (some 0xfff00000) ||| 0xfffff)
    (fun i hi => by rw [win_memLimit (pred_ones ah.pf h8), if_pos hi])
    (lt_of_bits fun i hi => by rw [win_memLimit (pred_ones ah.pf h8), if_neg (by omega), tb_big hb.pfLimit hi]) (by omega)
  obtain ⟨pri, sec, sub, ib, il, mb, ml, pb, pl⟩ := b
  rw [Br.setWindows, Lim.pred]
  dsimp only
  rw [write_7, write_12, write_8, write_9, write_10, write_11]
  dsimp only
  dsimp only at e1 e2 e3 e4 e5 e6
  rw [e1, e2, e3, e4, e5, e6]

theorem bus_byte {old x sh : Nat} (ho : old < 256) (hx : x < 256) (y : Nat) (hy : ∀ i, i < 8 → (y >>> sh).testBit i = x.testBit i) :
    bmu old 1 (y >>> sh) none = x := by
  apply ext_lt
  intro i
  rw [bmu_bit]
  simp only [t1, Option.mem_def, reduceCtorEq, false_implies, implies_true, and_true, decide_eq_true_eq]
  by_cases c1 : 8 ≤ i
  · rw [if_neg (by omega), tb_big (n := 8) ho c1, tb_big (n := 8) hx c1]
  · rw [if_pos (by omega), hy i (by omega)]

theorem setBus_spec {b : Br} (hb : BrOk b) {pri sec sub : Nat} (h1 : pri < 256) (h2 : sec < 256) (h3 : sub < 256) :
    b.setBus pri sec sub = { b with pri := pri, sec := sec, sub := sub } := by
  have e1 := bus_byte (sh := 0) hb.bus.1 h1 (pri ||| (sec <<< 8) ||| (sub <<< 16)) (fun i hi => by
    simp only [Nat.testBit_shiftRight, Nat.testBit_or, Nat.testBit_shiftLeft]
    rw [decide_eq_false (by omega : ¬ 0 + i ≥ 8), decide_eq_false (by omega : ¬ 0 + i ≥ 16), Nat.zero_add]; simp)
  have e2 := bus_byte (sh := 8) hb.bus.2.1 h2 (pri ||| (sec <<< 8) ||| (sub <<< 16)) (fun i hi => by
    simp only [Nat.testBit_shiftRight, Nat.testBit_or, Nat.testBit_shiftLeft]
    rw [decide_eq_true (by omega : 8 + i ≥ 8), decide_eq_false (by omega : ¬ 8 + i ≥ 16), tb_big (n := 8) h1 (by omega),
      show 8 + i - 8 = i by omega]; simp)
  have e3 := bus_byte (sh := 16) hb.bus.2.2 h3 (pri ||| (sec <<< 8) ||| (sub <<< 16)) (fun i hi => by
    simp only [Nat.testBit_shiftRight, Nat.testBit_or, Nat.testBit_shiftLeft]
    rw [decide_eq_true (by omega : 16 + i ≥ 8), decide_eq_true (by omega : 16 + i ≥ 16), tb_big (n := 8) h1 (by omega),
      tb_big (n := 8) h2 (by omega), show 16 + i - 16 = i by omega]; simp)
  obtain ⟨p, s, u, ib, il, mb, ml, pb, pl⟩ := b
  simp only [Br.setBus, Br.write, if_true]
  rw [show (7 &&& 1 : Nat) = 1 from rfl, show ((7 >>> 1) &&& 1 : Nat) = 1 from rfl, show ((7 >>> 2) &&& 1 : Nat) = 1 from rfl]
  rw [Nat.shiftRight_zero] at e1
  rw [e1, e2, e3]

end Corundum.PcieEnum
