import Verif.Model.Scrambler
import Verif.Props.Lfsr
/-! Serial scrambler theory and the link to the word-level hardware and the Python loops. -/
namespace Corundum.Scrambler
open Lfsr Lfsr.Spec

theorem fibTaps_congr {poly : Nat} {s t : Nat → Bool} : ∀ n, (∀ j < n, s j = t j) → fibTaps poly s n = fibTaps poly t n
  | 0, _ => rfl
  | n + 1, h => by unfold fibTaps; rw [fibTaps_congr n (fun j hj => h j (by omega)), h n (by omega)]

theorem fib_out_congr {W poly : Nat} (hW : 0 < W) (f g : Bool) {s t : Nat → Bool} (h : ∀ j < W, s j = t j) (x : Bool) :
    (fib W poly f s x).2 = (fib W poly g t x).2 := by
  unfold fib
  simp only
  rw [h (W - 1) (by omega), fibTaps_congr (W - 1) (fun j hj => h j (by omega))]

theorem fib_st_congr {W poly : Nat} (hW : 0 < W) (f : Bool) {s t : Nat → Bool} (h : ∀ j < W, s j = t j) (x : Bool) :
    ∀ j < W, (fib W poly f s x).1 j = (fib W poly f t x).1 j := by
  intro j hj
  have := fib_out_congr (poly := poly) hW f f h x
  unfold fib at *
  simp only at *
  by_cases h0 : j = 0
  · rw [if_pos h0, if_pos h0, this]
  · rw [if_neg h0, if_neg h0]; exact h _ (by omega)

theorem fib_congr {W poly : Nat} (hW : 0 < W) (f : Bool) : ∀ (l : List Bool) {s t : Nat → Bool}, (∀ j < W, s j = t j) →
    (∀ j < W, (shiftAll (fib W poly f) s l).1 j = (shiftAll (fib W poly f) t l).1 j) ∧
    (shiftAll (fib W poly f) s l).2 = (shiftAll (fib W poly f) t l).2
  | [], _, _, h => ⟨h, rfl⟩
  | x :: l, s, t, h => by
    obtain ⟨a, b⟩ := fib_congr (poly := poly) hW f l (fib_st_congr (poly := poly) hW f h x)
    exact ⟨a, by show _ :: _ = _ :: _; rw [b, fib_out_congr hW f f h x]⟩

/-- the scrambler output fed to the descrambler: after `k` bits the newest `k` registers agree -/
theorem sync {W poly : Nat} (hW : 0 < W) : ∀ (xs : List Bool) (k : Nat) (s t : Nat → Bool), (∀ j < k, j < W → s j = t j) →
    (shiftAll (fib W poly true) t (shiftAll (fib W poly false) s xs).2).2.drop (W - k) = xs.drop (W - k) ∧
    (∀ j < k + xs.length, j < W → (shiftAll (fib W poly false) s xs).1 j = (shiftAll (fib W poly true) t (shiftAll (fib W poly false) s xs).2).1 j)
  | [], k, s, t, h => by simpa [shiftAll] using h
  | x :: xs, k, s, t, h => by
    have hst : ∀ j < k + 1, j < W → (fib W poly false s x).1 j = (fib W poly true t (fib W poly false s x).2).1 j := by
      intro j hj hjW
      unfold fib
      simp only [Bool.false_eq_true, if_false, if_true]
      by_cases h0 : j = 0
      · rw [if_pos h0, if_pos h0]
      · rw [if_neg h0, if_neg h0]; exact h _ (by omega) (by omega)
    obtain ⟨a, b⟩ := sync hW xs (k + 1) _ _ hst
    constructor
    · show ((fib W poly true t (fib W poly false s x).2).2 :: _).drop (W - k) = (x :: xs).drop (W - k)
      by_cases hk : W ≤ k
      · rw [show W - k = 0 by omega, show W - (k + 1) = 0 by omega] at *
        simp only [List.drop_zero] at *
        have hh : ∀ j < W, s j = t j := fun j hj => h j (by omega) hj
        congr 1
        rw [show (fib W poly true t (fib W poly false s x).2).2 = (fib W poly true s (fib W poly false s x).2).2 from
          (fib_out_congr hW _ _ hh _).symm]
        unfold fib
        simp only
        cases x <;> cases s (W - 1) <;> cases fibTaps poly s (W - 1) <;> rfl
      · rw [show W - k = W - (k + 1) + 1 by omega, List.drop_succ_cons, List.drop_succ_cons]
        exact a
    · intro j hj hjW
      exact b j (by simp only [List.length_cons] at hj; omega) hjW

/-! #### error propagation of the 58-bit descrambler -/

/-- `t'` is `t` with register `j` flipped -/
def flip (j : Nat) (t : Nat → Bool) : Nat → Bool := fun i => if i = j then !t i else t i

/-- output of the x^58 + x^39 + 1 register -/
theorem out58 (ff : Bool) (s : Nat → Bool) (x : Bool) : (fib 58 0x8000000001 ff s x).2 = (x ^^ s 57 ^^ s 38) := by
  have h : fibTaps 0x8000000001 s 57 = s 38 := by
    have z : ∀ n, n ≤ 38 → fibTaps 0x8000000001 s n = false := by
      intro n
      induction n with
      | zero => intro _; rfl
      | succ n ih =>
        intro hn
        unfold fibTaps
        rw [ih (by omega)]
        have : ∀ m < 38, (0x8000000001 : Nat).testBit (m + 1) = false := by decide
        rw [this n (by omega)]; rfl
    have u : ∀ n, fibTaps 0x8000000001 s (39 + n) = s 38 := by
      intro n
      induction n with
      | zero =>
        show (fibTaps 0x8000000001 s 38 ^^ ((0x8000000001 : Nat).testBit 39 && s 38)) = _
        rw [z 38 (by omega), show (0x8000000001 : Nat).testBit 39 = true by decide]; simp
      | succ n ih =>
        show (fibTaps 0x8000000001 s (39 + n) ^^ ((0x8000000001 : Nat).testBit (39 + n + 1) && s (39 + n))) = _
        rw [ih, Nat.testBit_lt_two_pow (show (0x8000000001 : Nat) < 2 ^ (39 + n + 1) from
          Nat.lt_of_lt_of_le (show _ < 2 ^ 40 by decide) (Nat.pow_le_pow_right (by decide) (by omega)))]; simp
    exact u 18
  unfold fib
  simp only
  rw [show 58 - 1 = 57 from rfl, h]

theorem step_flip (j : Nat) (t : Nat → Bool) (x : Bool) :
    (fib 58 0x8000000001 true (flip j t) x).1 = flip (j + 1) (fib 58 0x8000000001 true t x).1 ∧
    (fib 58 0x8000000001 true (flip j t) x).2 = ((fib 58 0x8000000001 true t x).2 ^^ (decide (j = 38) ^^ decide (j = 57))) := by
  constructor
  · funext i
    unfold fib flip
    simp only [if_true]
    cases i with
    | zero => simp
    | succ i => simp
  · rw [out58, out58]
    unfold flip
    by_cases h1 : j = 38
    · subst h1
      cases x <;> cases t 57 <;> cases t 38 <;> rfl
    · by_cases h2 : j = 57
      · subst h2
        cases x <;> cases t 57 <;> cases t 38 <;> rfl
      · simp [h1, h2, Ne.symm h1, Ne.symm h2]

theorem run_flip : ∀ (l : List Bool) (j : Nat) (t : Nat → Bool) (n : Nat), n < l.length →
    ((shiftAll (fib 58 0x8000000001 true) (flip j t) l).2[n]? = (shiftAll (fib 58 0x8000000001 true) t l).2[n]? ↔ ¬ (j + n = 38 ∨ j + n = 57))
  | [], _, _, _, h => by simp at h
  | x :: l, j, t, n, h => by
    obtain ⟨e1, e2⟩ := step_flip j t x
    unfold shiftAll
    simp only
    rw [e1]
    cases n with
    | zero =>
      simp only [List.getElem?_cons_zero, Option.some.injEq, e2, Nat.add_zero]
      by_cases h1 : j = 38
      · subst h1; generalize (fib 58 0x8000000001 true t x).2 = b; cases b <;> simp
      · by_cases h2 : j = 57
        · subst h2; generalize (fib 58 0x8000000001 true t x).2 = b; cases b <;> simp
        · simp [h1, h2]
    | succ n =>
      simp only [List.getElem?_cons_succ]
      rw [run_flip l (j + 1) _ n (by simpa using h), show j + 1 + n = j + (n + 1) by omega]

/-! #### words -/

theorem lsbFirst_congr {D : Nat} {a b : Nat → Bool} (h : lsbFirst D a = lsbFirst D b) : ∀ n < D, a n = b n := by
  intro n hn
  have := congrArg (·[n]?) h
  simpa [lsbFirst, hn] using this

theorem lsbFirst_ext {D : Nat} {a b : Nat → Bool} (h : ∀ n < D, a n = b n) : lsbFirst D a = lsbFirst D b :=
  List.map_congr_left (fun n hn => h n (List.mem_range.mp hn))

theorem brev_brev (on : Bool) (D : Nat) (w : Nat → Bool) : ∀ n < D, brev on D (brev on D w) n = w n := by
  intro n hn
  unfold brev
  cases on
  · rfl
  · simp only [if_true]
    rw [show D - (D - n - 1) - 1 = n by omega]

/-- the bit stream of a list of words -/
def stream (D : Nat) (ws : List (Nat → Bool)) : List Bool := ws.flatMap (lsbFirst D)

/-- reversed state: register `j` is state bit `W - 1 - j` -/
def regs (W : Nat) (s : Nat → Bool) : Nat → Bool := fun j => s (W - j - 1)

/-- any word machine that is a reversed Fibonacci register per word is the serial register on the bit stream -/
theorem words_stream (W poly D : Nat) (hW : 0 < W) (ff : Bool) (pre : (Nat → Bool) → (Nat → Bool)) : ∀ (ws : List (Nat → Bool)) (s : Nat → Bool),
    stream D (words (fun s w => (stateOut ⟨W, poly, true, ff, true, D⟩ s (pre w), dataOut ⟨W, poly, true, ff, true, D⟩ s (pre w))) s ws) =
      (shiftAll (fib W poly ff) (regs W s) (stream D (ws.map pre))).2
  | [], _ => rfl
  | w :: ws, s => by
    obtain ⟨h1, h2⟩ := C28_parallel_eq_serial_reversed ⟨W, poly, true, ff, true, D⟩ hW rfl s (pre w)
    simp only [if_true] at h1 h2
    unfold words
    show lsbFirst D _ ++ stream D _ = (shiftAll _ _ (lsbFirst D (pre w) ++ stream D (ws.map pre))).2
    rw [shiftAll_append, h2, words_stream W poly D hW ff pre ws]
    refine congrArg _ ?_
    refine (fib_congr hW ff _ (fun j hj => ?_)).2
    show stateOut _ s (pre w) (W - j - 1) = _
    rw [h1 (W - j - 1) (by omega), show W - (W - j - 1) - 1 = j by omega]
    rfl

theorem stream_length (D : Nat) : ∀ ws : List (Nat → Bool), (stream D ws).length = D * ws.length
  | [] => rfl
  | w :: ws => by
    show (lsbFirst D w ++ stream D ws).length = _
    rw [List.length_append, stream_length D ws]
    simp [lsbFirst, Nat.mul_add, Nat.add_comm]

/-! #### Python -/

theorem and_bit (x i : Nat) : ((x &&& (1 <<< i)) != 0) = x.testBit i := by
  rw [Nat.one_shiftLeft]
  by_cases h : x.testBit i = true
  · rw [h, bne_iff_ne]
    intro hz
    have := congrArg (·.testBit i) hz
    simp [Nat.testBit_and, h, Nat.testBit_two_pow] at this
  · have h' : x.testBit i = false := by simpa using h
    rw [h']
    have : x &&& 2 ^ i = 0 := by
      apply Nat.eq_of_testBit_eq
      intro k
      rw [Nat.testBit_and, Nat.testBit_two_pow, Nat.zero_testBit]
      by_cases hk : i = k
      · subst hk; simp [h']
      · simp [hk]
    rw [this]; rfl

theorem shl_bit (s : Nat) (b : Bool) : ∀ j < 58, (((s &&& 0x1ffffffffffffff) <<< 1) ||| b.toNat).testBit j = if j = 0 then b else s.testBit (j - 1) := by
  intro j hj
  rw [Nat.testBit_or, Nat.testBit_shiftLeft, Nat.testBit_and, show (0x1ffffffffffffff : Nat) = 2 ^ 57 - 1 by decide, Nat.testBit_two_pow_sub_one]
  by_cases h0 : j = 0
  · subst h0; cases b <;> simp
  · have hb : b.toNat.testBit j = false := Nat.testBit_lt_two_pow (by
      have := Bool.toNat_le b
      have : 2 ^ 1 ≤ 2 ^ j := Nat.pow_le_pow_right (by decide) (by omega)
      omega)
    rw [hb, if_neg h0]
    simp [show 1 ≤ j by omega, show j - 1 < 57 by omega]

theorem or_bit_list (b i : Nat) (hb : b < 2 ^ i) (v : Bool) : (List.range (i + 1)).map (fun k => (if v then b ||| (1 <<< i) else b).testBit k) =
    (List.range i).map (fun k => b.testBit k) ++ [v] := by
  rw [List.range_succ, List.map_append]
  congr 1
  · refine List.map_congr_left (fun k hk => ?_)
    have := List.mem_range.mp hk
    cases v
    · rfl
    · simp only [if_true]
      rw [Nat.testBit_or, Nat.one_shiftLeft, Nat.testBit_two_pow]
      simp [show i ≠ k by omega]
  · simp only [List.map_cons, List.map_nil]
    cases v
    · simp [Nat.testBit_lt_two_pow hb]
    · simp only [if_true, Nat.testBit_or, Nat.one_shiftLeft, Nat.testBit_two_pow]; simp

theorem or_bit_lt (b i : Nat) (hb : b < 2 ^ i) (v : Bool) : (if v then b ||| (1 <<< i) else b) < 2 ^ (i + 1) := by
  have hp : 2 ^ i < 2 ^ (i + 1) := Nat.pow_lt_pow_right (by decide) (by omega)
  cases v
  · simp only [Bool.false_eq_true, if_false]; omega
  · simp only [if_true]; exact Nat.or_lt_two_pow (by omega) (by rw [Nat.one_shiftLeft]; exact hp)

theorem shiftAll_snoc {σ : Type} (f : σ → Bool → σ × Bool) (l : List Bool) (x : Bool) (s : σ) : shiftAll f s (l ++ [x]) =
    ((f (shiftAll f s l).1 x).1, (shiftAll f s l).2 ++ [(f (shiftAll f s l).1 x).2]) := shiftAll_append f l [x] s

theorem lsb_succ (D : Nat) (d : Nat → Bool) : lsbFirst (D + 1) d = lsbFirst D d ++ [d D] := by
  unfold lsbFirst; rw [List.range_succ, List.map_append]; rfl

theorem pyScr_spec (state data : Nat) : ∀ n,
    (pyScr state data n).2 < 2 ^ n ∧
    (∀ j < 58, (pyScr state data n).1.testBit j = (shiftAll (fib 58 0x8000000001 false) (fun j => state.testBit j) (lsbFirst n (fun i => data.testBit i))).1 j) ∧
    lsbFirst n (fun i => (pyScr state data n).2.testBit i) =
      (shiftAll (fib 58 0x8000000001 false) (fun j => state.testBit j) (lsbFirst n (fun i => data.testBit i))).2
  | 0 => ⟨by simp [pyScr], fun _ _ => rfl, rfl⟩
  | n + 1 => by
    obtain ⟨h0, h1, h2⟩ := pyScr_spec state data n
    have hbit : pyBit (pyScr state data n).1 data n = (fib 58 0x8000000001 false (shiftAll (fib 58 0x8000000001 false) (fun j => state.testBit j) (lsbFirst n (fun i => data.testBit i))).1 (data.testBit n)).2 := by
      unfold pyBit
      rw [and_bit, and_bit, and_bit, out58, ← h1 57 (by omega), ← h1 38 (by omega)]
      cases (pyScr state data n).1.testBit 38 <;> cases (pyScr state data n).1.testBit 57 <;> cases data.testBit n <;> rfl
    have e : pyScr state data (n + 1) = ((((pyScr state data n).1 &&& 0x1ffffffffffffff) <<< 1) ||| (pyBit (pyScr state data n).1 data n).toNat,
        if pyBit (pyScr state data n).1 data n then (pyScr state data n).2 ||| (1 <<< n) else (pyScr state data n).2) := by
      show (if pyBit (pyScr state data n).1 data n then _ else _) = _
      cases pyBit (pyScr state data n).1 data n <;> simp
    rw [e, lsb_succ, shiftAll_snoc]
    refine ⟨or_bit_lt _ _ h0 _, fun j hj => ?_, ?_⟩
    · rw [shl_bit _ _ j hj, hbit]
      show _ = if j = 0 then _ else _
      by_cases hj0 : j = 0
      · rw [if_pos hj0, if_pos hj0]; rfl
      · rw [if_neg hj0, if_neg hj0]; exact h1 _ (by omega)
    · show (List.range (n + 1)).map _ = _
      rw [or_bit_list _ _ h0, ← hbit, ← h2]
      rfl

theorem pyDescr_spec (state data : Nat) : ∀ n,
    (pyDescr state data n).2 < 2 ^ n ∧
    (∀ j < 58, (pyDescr state data n).1.testBit j = (shiftAll (fib 58 0x8000000001 true) (fun j => state.testBit j) (lsbFirst n (fun i => data.testBit i))).1 j) ∧
    lsbFirst n (fun i => (pyDescr state data n).2.testBit i) =
      (shiftAll (fib 58 0x8000000001 true) (fun j => state.testBit j) (lsbFirst n (fun i => data.testBit i))).2
  | 0 => ⟨by simp [pyDescr], fun _ _ => rfl, rfl⟩
  | n + 1 => by
    obtain ⟨h0, h1, h2⟩ := pyDescr_spec state data n
    have hbit : pyBit (pyDescr state data n).1 data n = (fib 58 0x8000000001 true (shiftAll (fib 58 0x8000000001 true) (fun j => state.testBit j) (lsbFirst n (fun i => data.testBit i))).1 (data.testBit n)).2 := by
      unfold pyBit
      rw [and_bit, and_bit, and_bit, out58, ← h1 57 (by omega), ← h1 38 (by omega)]
      cases (pyDescr state data n).1.testBit 38 <;> cases (pyDescr state data n).1.testBit 57 <;> cases data.testBit n <;> rfl
    have e : pyDescr state data (n + 1) = ((((pyDescr state data n).1 &&& 0x1ffffffffffffff) <<< 1) ||| (data.testBit n).toNat,
        if pyBit (pyDescr state data n).1 data n then (pyDescr state data n).2 ||| (1 <<< n) else (pyDescr state data n).2) := by
      show (((pyDescr state data n).1 &&& 0x1ffffffffffffff) <<< 1 ||| ((data &&& (1 <<< n)) != 0).toNat, _) = _
      rw [and_bit]
    rw [e, lsb_succ, shiftAll_snoc]
    refine ⟨or_bit_lt _ _ h0 _, fun j hj => ?_, ?_⟩
    · rw [shl_bit _ _ j hj]
      show _ = if j = 0 then _ else _
      by_cases hj0 : j = 0
      · rw [if_pos hj0, if_pos hj0]; rfl
      · rw [if_neg hj0, if_neg hj0]; exact h1 _ (by omega)
    · show (List.range (n + 1)).map _ = _
      rw [or_bit_list _ _ h0, ← hbit, ← h2]
      rfl

end Corundum.Scrambler
