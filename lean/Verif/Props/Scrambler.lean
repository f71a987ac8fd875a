import Verif.Proof.Scrambler
/-! Property theorems C26: self-synchronising scrambler and descrambler. -/
namespace Corundum.Scrambler
open Lfsr Lfsr.Spec

attribute [local irreducible] stateOut dataOut

theorem app_congr {α : Type} {a b c d : List α} (h1 : a = b) (h2 : c = d) : a ++ c = b ++ d := by rw [h1, h2]

/-- **C26** bit level, for every register length and polynomial: scrambling `xs` from any state `s` and descrambling from any state
`t` returns `xs` from bit `W` on; when both registers start equal, it returns all of `xs`. -/
theorem C26_serial_sync (W poly : Nat) (hW : 0 < W) (s t : Nat → Bool) (xs : List Bool) :
    (shiftAll (fib W poly true) t (shiftAll (fib W poly false) s xs).2).2.drop W = xs.drop W ∧
    ((∀ j < W, s j = t j) → (shiftAll (fib W poly true) t (shiftAll (fib W poly false) s xs).2).2 = xs) := by
  constructor
  · exact (sync hW xs 0 s t (fun j hj => by omega)).1
  · intro h
    have := (sync (poly := poly) hW xs W s t (fun j _ hj => h j hj)).1
    simpa using this

/-- **C26** error multiplication: flipping line bit number `pre.length` changes exactly the descrambled bits at that
position and 39 and 58 bits later. -/
theorem C26_single_error (t : Nat → Bool) (pre post : List Bool) (b : Bool) (n : Nat) (hn : n < (pre ++ b :: post).length) :
    (shiftAll (fib 58 0x8000000001 true) t (pre ++ (!b) :: post)).2[n]? ≠ (shiftAll (fib 58 0x8000000001 true) t (pre ++ b :: post)).2[n]? ↔
      n = pre.length ∨ n = pre.length + 39 ∨ n = pre.length + 58 := by
  rw [shiftAll_append, shiftAll_append]
  simp only
  have hl : (shiftAll (fib 58 0x8000000001 true) t pre).2.length = pre.length := shiftAll_length _ _ _
  generalize (shiftAll (fib 58 0x8000000001 true) t pre).1 = u at *
  generalize (shiftAll (fib 58 0x8000000001 true) t pre).2 = o at *
  by_cases h : n < pre.length
  · rw [List.getElem?_append_left (by omega), List.getElem?_append_left (by omega)]
    constructor
    · intro c; exact absurd rfl c
    · intro c; omega
  · rw [List.getElem?_append_right (by omega), List.getElem?_append_right (by omega), hl]
    generalize hk : n - pre.length = k
    have hst : (fib 58 0x8000000001 true u (!b)).1 = flip 0 (fib 58 0x8000000001 true u b).1 := by
      funext i
      unfold fib flip
      cases i <;> simp
    unfold shiftAll
    rw [hst]
    simp only
    cases k with
    | zero =>
      simp only [List.getElem?_cons_zero, ne_eq, Option.some.injEq, out58]
      constructor
      · intro _; omega
      · intro _; cases b <;> cases u 57 <;> cases u 38 <;> decide
    | succ k =>
      simp only [List.getElem?_cons_succ, ne_eq]
      rw [run_flip post 0 _ k (by simp only [List.length_append, List.length_cons] at hn; omega)]
      omega

/-- **C26** for the hardware pair, any word width, bit reversed or not, any two power-up states: the received bit stream equals the
transmitted one from bit 58 on; completely when the states agree. -/
theorem C26_phy_sync (D : Nat) (rev : Bool) (s t : Nat → Bool) (ws : List (Nat → Bool)) :
    (stream D (words (rxStep D rev) t (words (txStep D rev) s ws))).drop 58 = (stream D ws).drop 58 ∧
    ((∀ j < 58, s j = t j) → stream D (words (rxStep D rev) t (words (txStep D rev) s ws)) = stream D ws) := by
  have hrx := words_stream 58 0x8000000001 D (by decide) true (brev rev D) (words (txStep D rev) s ws) t
  have htx : ∀ (ws : List (Nat → Bool)) (s : Nat → Bool), stream D ((words (txStep D rev) s ws).map (brev rev D)) = (shiftAll (fib 58 0x8000000001 false) (regs 58 s) (stream D ws)).2 := by
    intro ws s
    have h0 := words_stream 58 0x8000000001 D (by decide) false (fun w => w) ws s
    rw [List.map_id'] at h0
    rw [← h0]
    clear h0 hrx
    induction ws generalizing s with
    | nil => rfl
    | cons w ws ih =>
      show lsbFirst D _ ++ stream D _ = lsbFirst D _ ++ stream D _
      have e1 := lsbFirst_ext (brev_brev rev D (dataOut (scrCfg D false) s w))
      dsimp only
      exact app_congr e1 (ih (stateOut (scrCfg D false) s w))
  rw [htx ws s] at hrx
  have e : stream D (words (rxStep D rev) t (words (txStep D rev) s ws)) =
      (shiftAll (fib 58 0x8000000001 true) (regs 58 t) (shiftAll (fib 58 0x8000000001 false) (regs 58 s) (stream D ws)).2).2 := hrx
  rw [e]
  refine ⟨(C26_serial_sync 58 0x8000000001 (by decide) _ _ _).1, fun h => ?_⟩
  exact (C26_serial_sync 58 0x8000000001 (by decide) _ _ _).2 (fun j hj => h _ (by omega))

/-- **C26** for the PRBS31 generator and checker: on an error-free line the checker reports no bit in error from bit 31 on, whatever the
two states. -/
theorem C26_prbs_sync (N : Nat) (s t : Nat → Bool) (k : Nat) :
    (stream N (words (prbsRx N) t (words (fun s _ => prbsTx N s) s (List.replicate k (fun _ => false))))).drop 31 =
      List.replicate (N * k - 31) false := by
  have hrx := words_stream 31 0x10000001 N (by decide) true (fun w n => !w n) (words (fun s _ => prbsTx N s) s (List.replicate k (fun _ => false))) t
  have htx : ∀ (k : Nat) (s : Nat → Bool), stream N ((words (fun s _ => prbsTx N s) s (List.replicate k (fun _ => false))).map (fun w n => !w n)) =
      (shiftAll (fib 31 0x10000001 false) (regs 31 s) (stream N (List.replicate k (fun _ => false)))).2 := by
    intro k s
    have h0 := words_stream 31 0x10000001 N (by decide) false (fun w => w) (List.replicate k (fun _ => false)) s
    rw [List.map_id'] at h0
    rw [← h0]
    clear h0 hrx
    induction k generalizing s with
    | zero => rfl
    | succ k ih =>
      show lsbFirst N _ ++ stream N _ = lsbFirst N _ ++ stream N _
      exact app_congr (lsbFirst_ext (fun n _ => Bool.not_not _)) (ih _)
  rw [htx k s] at hrx
  have hz : stream N (List.replicate k (fun _ => false)) = List.replicate (N * k) false := by
    apply List.eq_replicate_iff.mpr
    refine ⟨by rw [stream_length]; simp, fun b hb => ?_⟩
    obtain ⟨w, hw, hb⟩ := List.mem_flatMap.mp hb
    rw [(List.mem_replicate.mp hw).2] at hb
    obtain ⟨_, _, e⟩ := List.mem_map.mp hb
    exact e.symm
  have e : stream N (words (prbsRx N) t (words (fun s _ => prbsTx N s) s (List.replicate k (fun _ => false)))) =
      (shiftAll (fib 31 0x10000001 true) (regs 31 t) (shiftAll (fib 31 0x10000001 false) (regs 31 s) (stream N (List.replicate k (fun _ => false)))).2).2 := hrx
  rw [e, (C26_serial_sync 31 0x10000001 (by decide) _ _ _).1, hz]
  simp

/-- **C26** for the Python endpoints: the scrambled word of the Python source is the hardware line word, and the descrambled word of the
Python sink is the hardware received word, for registers holding the same bits (the hardware stores them in reverse order); the
next states correspond again. -/
theorem C26_python_matches_rtl (D state data : Nat) (s : Nat → Bool) (h : ∀ j < 58, s (57 - j) = state.testBit j) :
    (∀ n < D, (pyScr state data D).2.testBit n = dataOut (scrCfg D false) s (fun i => data.testBit i) n) ∧
    (∀ j < 58, stateOut (scrCfg D false) s (fun i => data.testBit i) (57 - j) = (pyScr state data D).1.testBit j) ∧
    (∀ n < D, (pyDescr state data D).2.testBit n = dataOut (scrCfg D true) s (fun i => data.testBit i) n) ∧
    (∀ j < 58, stateOut (scrCfg D true) s (fun i => data.testBit i) (57 - j) = (pyDescr state data D).1.testBit j) := by
  have hreg : ∀ j < 58, (fun j => state.testBit j) j = (fun j => s (58 - j - 1)) j := fun j hj => by
    show state.testBit j = s (58 - j - 1)
    rw [← h j hj, show 57 - j = 58 - j - 1 by omega]
  obtain ⟨_, a1, a2⟩ := pyScr_spec state data D
  obtain ⟨_, b1, b2⟩ := pyDescr_spec state data D
  obtain ⟨c1, c2⟩ := C28_parallel_eq_serial_reversed (scrCfg D false) (show 0 < 58 by decide) rfl s (fun i => data.testBit i)
  obtain ⟨d1, d2⟩ := C28_parallel_eq_serial_reversed (scrCfg D true) (show 0 < 58 by decide) rfl s (fun i => data.testBit i)
  have ca := fib_congr (W := 58) (poly := 0x8000000001) (by decide) false (lsbFirst D (fun i => data.testBit i)) hreg
  have cb := fib_congr (W := 58) (poly := 0x8000000001) (by decide) true (lsbFirst D (fun i => data.testBit i)) hreg
  refine ⟨?_, ?_, ?_, ?_⟩
  · exact lsbFirst_congr ((a2.trans ca.2).trans c2.symm)
  · intro j hj
    rw [a1 j hj, ca.1 j hj]
    have := c1 (57 - j) (show 57 - j < 58 by omega)
    rw [show (scrCfg D false).W - (57 - j) - 1 = j from (show 58 - (57 - j) - 1 = j by omega)] at this
    exact this
  · exact lsbFirst_congr ((b2.trans cb.2).trans d2.symm)
  · intro j hj
    rw [b1 j hj, cb.1 j hj]
    have := d1 (57 - j) (show 57 - j < 58 by omega)
    rw [show (scrCfg D true).W - (57 - j) - 1 = j from (show 58 - (57 - j) - 1 = j by omega)] at this
    exact this

/-- The Python descrambler after the Python scrambler from the same state returns the word and the same state. -/
theorem C26_python_roundtrip (D state data : Nat) (hd : data < 2 ^ D) :
    (pyDescr state (pyScr state data D).2 D).2 = data ∧
    (∀ j < 58, (pyDescr state (pyScr state data D).2 D).1.testBit j = (pyScr state data D).1.testBit j) := by
  obtain ⟨_, a1, a2⟩ := pyScr_spec state data D
  obtain ⟨b0, b1, b2⟩ := pyDescr_spec state (pyScr state data D).2 D
  rw [a2] at b1 b2
  constructor
  · rw [(C26_serial_sync 58 0x8000000001 (by decide) _ _ _).2 (fun _ _ => rfl)] at b2
    apply Nat.eq_of_testBit_eq
    intro i
    by_cases hi : i < D
    · exact lsbFirst_congr b2 i hi
    · have hp : 2 ^ D ≤ 2 ^ i := Nat.pow_le_pow_right (by decide) (by omega)
      rw [Nat.testBit_lt_two_pow (by omega), Nat.testBit_lt_two_pow (by omega)]
  · intro j hj
    rw [b1 j hj, a1 j hj]
    exact ((sync (W := 58) (poly := 0x8000000001) (by decide) (lsbFirst D (fun i => data.testBit i)) 58 _ _ (fun _ _ _ => rfl)).2 j (by omega) hj).symm

set_option maxRecDepth 20000 in
/-- a non-trivial word: scrambling 0x1e (an idle block) from the all-ones state changes it -/
example : (pyScr (2 ^ 58 - 1) 0x1e 64).2 ≠ 0x1e := by decide

end Corundum.Scrambler
