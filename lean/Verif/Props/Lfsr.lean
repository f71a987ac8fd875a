import Verif.Proof.Lfsr
/-! Property theorems C28: parallel LFSR equals the bit-serial shift register. -/
namespace Corundum.Lfsr

/-- data bits in shift order: most significant first -/
def msbFirst (D : Nat) (d : Nat → Bool) : List Bool := (List.range D).map (fun j => d (D - 1 - j))
/-- least significant first -/
def lsbFirst (D : Nat) (d : Nat → Bool) : List Bool := (List.range D).map d

/-- **C28** without bit reversal: the parallel outputs are the state and the output bits of the serial register (either
configuration, feed-forward or not) after shifting in all data bits, most significant bit first. -/
theorem C28_parallel_eq_serial (c : Cfg) (hW : 0 < c.W) (hrev : c.rev = false) (s d : Nat → Bool) :
    (∀ n < c.W, stateOut c s d n = (Spec.shiftAll (if c.fib then Spec.fib c.W c.poly c.ff else Spec.gal c.W c.poly c.ff) s (msbFirst c.D d)).1 n) ∧
    msbFirst c.D (dataOut c s d) = (Spec.shiftAll (if c.fib then Spec.fib c.W c.poly c.ff else Spec.gal c.W c.poly c.ff) s (msbFirst c.D d)).2 := by
  obtain ⟨h1, h2⟩ := masks_ser c hW s d c.D (Nat.le_refl _)
  rw [ser_eq c s d c.D (Nat.le_refl _)] at h1 h2
  constructor
  · intro n hn
    unfold stateOut lfsrMask
    simp only [hrev, Bool.false_eq_true, if_false, if_pos hn]
    exact h1 n hn
  · apply List.ext_getElem?
    intro j
    unfold msbFirst
    by_cases hj : j < c.D
    · rw [List.getElem?_map, List.getElem?_range hj, Option.map_some]
      have := h2 (c.D - 1 - j) (by omega)
      unfold dataOut lfsrMask
      simp only [hrev, Bool.false_eq_true, if_false]
      rw [if_neg (show ¬ c.D - 1 - j + c.W < c.W by omega), Nat.add_sub_cancel, this]
      simp only
      rw [List.getElem?_reverse (by rw [shiftAll_length]; simp; omega), shiftAll_length]
      simp only [List.length_map, List.length_range]
      rw [show c.D - 1 - (c.D - 1 - j) = j by omega]
      rfl
    · rw [List.getElem?_eq_none (by simp; omega), List.getElem?_eq_none (by rw [shiftAll_length]; simp; omega)]

/-- **C28** with bit reversal: data bits are shifted least significant first, and bit `n` of the state is register
`W - 1 - n`. -/
theorem C28_parallel_eq_serial_reversed (c : Cfg) (hW : 0 < c.W) (hrev : c.rev = true) (s d : Nat → Bool) :
    (∀ n < c.W, stateOut c s d n = (Spec.shiftAll (if c.fib then Spec.fib c.W c.poly c.ff else Spec.gal c.W c.poly c.ff)
      (fun j => s (c.W - j - 1)) (lsbFirst c.D d)).1 (c.W - n - 1)) ∧
    lsbFirst c.D (dataOut c s d) = (Spec.shiftAll (if c.fib then Spec.fib c.W c.poly c.ff else Spec.gal c.W c.poly c.ff)
      (fun j => s (c.W - j - 1)) (lsbFirst c.D d)).2 := by
  obtain ⟨h1, h2⟩ := masks_ser c hW (fun j => s (c.W - j - 1)) (fun j => d (c.D - j - 1)) c.D (Nat.le_refl _)
  rw [ser_eq c _ _ c.D (Nat.le_refl _)] at h1 h2
  have e : (List.range c.D).map (fun j => (fun j => d (c.D - j - 1)) (c.D - 1 - j)) = lsbFirst c.D d := by
    unfold lsbFirst
    refine List.map_congr_left (fun j hj => ?_)
    have := List.mem_range.mp hj
    simp only
    rw [show c.D - (c.D - 1 - j) - 1 = j by omega]
  rw [e] at h1 h2
  constructor
  · intro n hn
    unfold stateOut lfsrMask
    simp only [hrev, if_true, if_pos hn]
    rw [select_rev]
    exact h1 (c.W - n - 1) (by omega)
  · apply List.ext_getElem?
    intro j
    show ((List.range c.D).map (dataOut c s d))[j]? = _
    by_cases hj : j < c.D
    · rw [List.getElem?_map, List.getElem?_range hj, Option.map_some]
      have := h2 (c.D - j - 1) (by omega)
      unfold dataOut lfsrMask
      simp only [hrev, if_true]
      rw [if_neg (show ¬ j + c.W < c.W by omega), Nat.add_sub_cancel, select_rev, this]
      simp only
      rw [List.getElem?_reverse (by rw [shiftAll_length]; simp [lsbFirst]; omega), shiftAll_length]
      simp only [lsbFirst, List.length_map, List.length_range]
      rw [show c.D - 1 - (c.D - j - 1) = j by omega]
      rfl
    · rw [List.getElem?_eq_none (by simp; omega), List.getElem?_eq_none (by rw [shiftAll_length]; simp [lsbFirst]; omega)]

/-- CRC-16/CCITT style register, 4 data bits per clock: state 0xFFFF, data 0b1010 -/
example : (List.range 16).map (stateOut ⟨16, 0x1021, false, false, false, 4⟩ (fun i => Nat.testBit 0xFFFF i) (fun i => Nat.testBit 10 i)) =
    (List.range 16).map (fun i => Nat.testBit 0xAF55 i) := by decide

end Corundum.Lfsr
