import Verif.Model.Crc
import Verif.Spec.Crc
import Verif.Props.Lfsr
import Verif.Model.Struct
/-! CRC-32 algebra and the link between lfsr.v and the bit-serial CRC. -/
namespace Corundum.Crc
open Spec Corundum.Struct

theorem poly_lt : (0xEDB88320 : Nat) < 2 ^ 32 := by decide

theorem crcBit_lt {c : Nat} (hc : c < 2 ^ 32) (b : Bool) : crcBit c b < 2 ^ 32 := by
  unfold crcBit
  refine Nat.xor_lt_two_pow ?_ ?_
  · rw [Nat.shiftRight_eq_div_pow]; omega
  · split <;> decide

theorem crcBits_lt : ∀ (l : List Bool) {c : Nat}, c < 2 ^ 32 → crcBits c l < 2 ^ 32
  | [], _, h => h
  | b :: l, _, h => crcBits_lt l (crcBit_lt h b)

theorem crcBits_append (c : Nat) (l1 l2 : List Bool) : crcBits c (l1 ++ l2) = crcBits (crcBits c l1) l2 := List.foldl_append

theorem bits_succ (n x : Nat) : bits (n + 1) x = x.testBit 0 :: bits n (x >>> 1) := by
  unfold bits
  rw [List.range_succ_eq_map, List.map_cons, List.map_map]
  refine congrArg _ (List.map_congr_left (fun i _ => ?_))
  simp [Nat.testBit_shiftRight, Nat.add_comm]

theorem crcBit_xor (c d : Nat) : crcBit (c ^^^ d) false = crcBit c (d.testBit 0) ^^^ (d >>> 1) := by
  unfold crcBit
  rw [Nat.shiftRight_xor_distrib, Nat.testBit_xor, Bool.xor_false, Nat.xor_assoc, Nat.xor_assoc, Nat.xor_comm (d >>> 1)]

/-- shifting in `d` is the same as adding `d` to the register and shifting in zeros -/
theorem crcBits_bits : ∀ (n c d : Nat), d < 2 ^ n → crcBits c (bits n d) = crcBits (c ^^^ d) (List.replicate n false)
  | 0, c, d, h => by
    have : d = 0 := by simpa using h
    subst this; simp [bits]
  | n + 1, c, d, h => by
    rw [bits_succ]
    show crcBits (crcBit c (d.testBit 0)) (bits n (d >>> 1)) = crcBits (crcBit (c ^^^ d) false) (List.replicate n false)
    rw [crcBits_bits n _ (d >>> 1) (by rw [Nat.shiftRight_eq_div_pow]; omega), crcBit_xor]

theorem residue : crcBits 0xFFFFFFFF (List.replicate 32 false) = 0xDEBB20E3 := by decide

theorem crcBit_top {c : Nat} (hc : c < 2 ^ 32) (b : Bool) : (crcBit c b).testBit 31 = (c.testBit 0 ^^ b) := by
  unfold crcBit
  rw [Nat.testBit_xor, Nat.testBit_shiftRight, Nat.testBit_lt_two_pow (show c < 2 ^ (1 + 31) from hc)]
  cases c.testBit 0 <;> cases b <;> rfl

theorem xor_cancel {a b c : Nat} (h : a ^^^ b = a ^^^ c) : b = c := by
  have := congrArg (a ^^^ ·) h
  simpa [← Nat.xor_assoc] using this

theorem crcBit_inj {c c' : Nat} (hc : c < 2 ^ 32) (hc' : c' < 2 ^ 32) (b : Bool) (h : crcBit c b = crcBit c' b) : c = c' := by
  have t : (c.testBit 0 ^^ b) = (c'.testBit 0 ^^ b) := by rw [← crcBit_top hc b, ← crcBit_top hc' b, h]
  have h0 : c.testBit 0 = c'.testBit 0 := by
    revert t; cases c.testBit 0 <;> cases c'.testBit 0 <;> cases b <;> simp
  unfold crcBit at h
  rw [t] at h
  have h1 : c >>> 1 = c' >>> 1 := xor_cancel (a := if (c'.testBit 0 ^^ b) = true then 3988292384 else 0) (by rw [Nat.xor_comm _ (c >>> 1), Nat.xor_comm _ (c' >>> 1)]; exact h)
  rw [Nat.shiftRight_eq_div_pow, Nat.shiftRight_eq_div_pow] at h1
  rw [Nat.testBit_zero, Nat.testBit_zero] at h0
  have : (c % 2 = 1) ↔ (c' % 2 = 1) := by simpa using h0
  omega

theorem crcBits_inj : ∀ (l : List Bool) {c c' : Nat}, c < 2 ^ 32 → c' < 2 ^ 32 → crcBits c l = crcBits c' l → c = c'
  | [], _, _, _, _, h => h
  | b :: l, _, _, hc, hc', h => crcBit_inj hc hc' b (crcBits_inj l (crcBit_lt hc b) (crcBit_lt hc' b) h)

theorem bits_of_list : ∀ (m : List Bool), ∃ d, d < 2 ^ m.length ∧ bits m.length d = m
  | [] => ⟨0, by simp, rfl⟩
  | b :: m => by
    obtain ⟨d, h1, h2⟩ := bits_of_list m
    refine ⟨2 * d + b.toNat, ?_, ?_⟩
    · rw [List.length_cons, Nat.pow_succ]
      have := Bool.toNat_le b
      omega
    · rw [List.length_cons, bits_succ]
      have hb := Bool.toNat_le b
      have e1 : (2 * d + b.toNat) >>> 1 = d := by rw [Nat.shiftRight_eq_div_pow]; omega
      have e2 : (2 * d + b.toNat).testBit 0 = b := by
        rw [Nat.testBit_zero]
        cases b <;> simp <;> omega
      rw [e1, e2, h2]

theorem crcBits_window {c : Nat} (hc : c < 2 ^ 32) {m m' : List Bool} (hl : m.length = m'.length) (h32 : m.length ≤ 32)
    (h : crcBits c m = crcBits c m') : m = m' := by
  obtain ⟨d, hd, e⟩ := bits_of_list m
  obtain ⟨d', hd', e'⟩ := bits_of_list m'
  rw [← hl] at hd' e'
  rw [← e, ← e', crcBits_bits _ _ _ hd, crcBits_bits _ _ _ hd'] at h
  have hp : 2 ^ m.length ≤ 2 ^ 32 := Nat.pow_le_pow_right (by decide) h32
  have := crcBits_inj _ (Nat.xor_lt_two_pow hc (by omega)) (Nat.xor_lt_two_pow hc (by omega)) h
  rw [← e, ← e', xor_cancel this]

theorem wire_append (a b : List Nat) : wire (a ++ b) = wire a ++ wire b := List.flatMap_append

theorem reg_lt (l : List Nat) : reg l < 2 ^ 32 := crcBits_lt _ (by decide)

theorem crc32_lt (l : List Nat) : crc32 l < 2 ^ 32 := Nat.xor_lt_two_pow (reg_lt l) (by decide)

theorem bits_add (m n x : Nat) : bits (m + n) x = bits m x ++ bits n (x >>> m) := by
  unfold bits
  rw [List.range_add, List.map_append, List.map_map]
  refine congrArg _ (List.map_congr_left (fun i _ => ?_))
  simp [Nat.testBit_shiftRight]

theorem bits_mod (n x : Nat) : bits n (x % 2 ^ n) = bits n x := by
  unfold bits
  refine List.map_congr_left (fun i hi => ?_)
  have := List.mem_range.mp hi
  simp [Nat.testBit_mod_two_pow, this]

/-- byte `i` of a bus word -/
def byteOf (x i : Nat) : Nat := x / 256 ^ i % 256

theorem wire_bytes : ∀ (n x : Nat), wire ((List.range n).map (byteOf x)) = bits (8 * n) x
  | 0, _ => rfl
  | n + 1, x => by
    rw [List.range_succ, List.map_append, wire_append, wire_bytes n x, show 8 * (n + 1) = 8 * n + 8 by omega, bits_add]
    refine congrArg _ ?_
    show bits 8 (byteOf x n) ++ [] = _
    rw [List.append_nil, byteOf, show (256 : Nat) = 2 ^ 8 by decide, ← Nat.pow_mul, ← Nat.shiftRight_eq_div_pow, bits_mod]

theorem wire_bytesLE (x : Nat) : wire (bytesLE 4 x) = bits 32 x := wire_bytes 4 x

theorem reg_fcs (l : List Nat) : reg (l ++ bytesLE 4 (crc32 l)) = 0xDEBB20E3 := by
  unfold reg
  rw [wire_append, crcBits_append, wire_bytesLE, crcBits_bits 32 _ _ (crc32_lt l)]
  unfold crc32
  show crcBits (reg l ^^^ (reg l ^^^ 0xFFFFFFFF)) _ = _
  rw [← Nat.xor_assoc, Nat.xor_self, Nat.zero_xor]
  exact residue

/-! ### the hardware -/

theorem ofBits_lt : ∀ (n : Nat) (f : Nat → Bool), ofBits n f < 2 ^ n
  | 0, _ => by simp [ofBits]
  | n + 1, f => by
    have := ofBits_lt n f
    unfold ofBits
    rw [Nat.pow_succ]
    split <;> omega

theorem ofBits_testBit : ∀ (n x : Nat) (f : Nat → Bool), x < 2 ^ n → (∀ i < n, f i = x.testBit i) → ofBits n f = x
  | 0, x, _, h, _ => by simp at h; simp [ofBits, h]
  | n + 1, x, f, h, hf => by
    unfold ofBits
    rw [ofBits_testBit n (x % 2 ^ n) f (Nat.mod_lt _ (Nat.two_pow_pos n)) (fun i hi => by
      rw [hf i (by omega), Nat.testBit_mod_two_pow]; simp [hi]), hf n (by omega)]
    have hdm := Nat.div_add_mod x (2 ^ n)
    have hq : x / 2 ^ n < 2 := by
      rw [Nat.div_lt_iff_lt_mul (Nat.two_pow_pos n)]; rw [Nat.pow_succ] at h; omega
    rw [Nat.testBit_eq_decide_div_mod_eq]
    by_cases hz : x / 2 ^ n = 0
    · rw [hz] at hdm ⊢; simpa using hdm
    · have h1 : x / 2 ^ n = 1 := Nat.le_antisymm (Nat.lt_succ_iff.mp hq) (Nat.pos_of_ne_zero hz)
      rw [h1, Nat.mul_one] at hdm; rw [h1]; simp; omega

theorem polyRev : ∀ n < 32, n ≠ 31 → (0xEDB88320 : Nat).testBit n = (0x4c11db7 : Nat).testBit (31 - n) := by decide

/-- one step of the reversed Galois register is one step of the reflected CRC -/
theorem gal_crcBit {c : Nat} (hc : c < 2 ^ 32) (s : Nat → Bool) (hs : ∀ j < 32, s j = c.testBit (31 - j)) (x : Bool) :
    ∀ j < 32, (Lfsr.Spec.gal 32 0x4c11db7 false s x).1 j = (crcBit c x).testBit (31 - j) := by
  intro j hj
  unfold Lfsr.Spec.gal
  simp only [Bool.false_eq_true, if_false]
  rw [hs (32 - 1) (by omega), show 31 - (32 - 1) = 0 from rfl]
  by_cases h0 : j = 0
  · subst h0
    rw [if_pos rfl, crcBit_top hc]
    cases x <;> cases c.testBit 0 <;> rfl
  · rw [if_neg h0, hs (j - 1) (by omega)]
    unfold crcBit
    rw [Nat.testBit_xor, Nat.testBit_shiftRight, show 1 + (31 - j) = 31 - (j - 1) by omega]
    have hp := polyRev (31 - j) (by omega) (by omega)
    rw [show 31 - (31 - j) = j by omega] at hp
    rw [← hp]
    refine congrArg _ ?_
    cases c.testBit 0 <;> cases x <;> simp

theorem gal_crcBits : ∀ (l : List Bool) {c : Nat}, c < 2 ^ 32 → ∀ (s : Nat → Bool), (∀ j < 32, s j = c.testBit (31 - j)) →
    ∀ j < 32, (Lfsr.Spec.shiftAll (Lfsr.Spec.gal 32 0x4c11db7 false) s l).1 j = (crcBits c l).testBit (31 - j)
  | [], _, _, _, hs => hs
  | x :: l, _, hc, s, hs => gal_crcBits l (crcBit_lt hc x) _ (gal_crcBit hc s hs x)

/-- the parallel CRC of lfsr.v over `n + 1` bytes is the serial CRC over those bytes -/
theorem crcNext_eq {c : Nat} (hc : c < 2 ^ 32) (data n : Nat) :
    crcNext c data n = crcBits c (wire ((List.range (n + 1)).map (byteOf data))) := by
  unfold crcNext
  refine ofBits_testBit 32 _ _ (crcBits_lt _ hc) (fun i hi => ?_)
  rw [(Lfsr.C28_parallel_eq_serial_reversed (crcCfg (8 * (n + 1))) (show 0 < 32 by decide) rfl _ _).1 i hi]
  have := gal_crcBits (bits (8 * (n + 1)) data) hc (fun j => c.testBit (32 - j - 1)) (fun j hj => by
    rw [show 32 - j - 1 = 31 - j by omega]) (32 - i - 1) (by omega)
  rw [show 31 - (32 - i - 1) = i by omega] at this
  rw [wire_bytes]
  exact this

theorem inv32_eq {x : Nat} (h : x < 2 ^ 32) : inv32 x = x ^^^ 0xFFFFFFFF := by
  unfold inv32
  apply Nat.eq_of_testBit_eq
  intro i
  rw [Nat.testBit_xor]
  by_cases hi : i < 32
  · have e1 : (0xFFFFFFFF : Nat).testBit i = true := by
      have := Nat.testBit_two_pow_sub_one 32 i
      simpa [hi] using this
    have := Nat.testBit_two_pow_sub_succ h i
    rw [show (2 : Nat) ^ 32 - (x + 1) = 0xFFFFFFFF - x by omega] at this
    rw [this, e1]; simp [hi]
  · have hp : (2 : Nat) ^ 32 ≤ 2 ^ i := Nat.pow_le_pow_right (by decide) (by omega)
    rw [Nat.testBit_lt_two_pow (show 0xFFFFFFFF - x < 2 ^ i by omega), Nat.testBit_lt_two_pow (show x < 2 ^ i by omega),
      Nat.testBit_lt_two_pow (show 0xFFFFFFFF < 2 ^ i by omega)]
    rfl

end Corundum.Crc
