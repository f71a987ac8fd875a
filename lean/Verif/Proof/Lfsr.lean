import Verif.Model.Lfsr
import Verif.Spec.Lfsr
/-! The generated masks compute the serial shift register. -/
namespace Corundum.Lfsr

theorem xsum_congr : ∀ (n : Nat) {f g : Nat → Bool}, (∀ i < n, f i = g i) → xsum n f = xsum n g
  | 0, _, _, _ => rfl
  | n + 1, f, g, h => by
    show (xsum n f ^^ f n) = (xsum n g ^^ g n)
    rw [xsum_congr n (fun i hi => h i (by omega)), h n (by omega)]

theorem xsum_xor : ∀ (n : Nat) (f g : Nat → Bool), xsum n (fun i => f i ^^ g i) = (xsum n f ^^ xsum n g)
  | 0, _, _ => rfl
  | n + 1, f, g => by
    show (xsum n (fun i => f i ^^ g i) ^^ (f n ^^ g n)) = ((xsum n f ^^ f n) ^^ (xsum n g ^^ g n))
    rw [xsum_xor n f g]
    cases xsum n f <;> cases xsum n g <;> cases f n <;> cases g n <;> rfl

theorem xsum_false : ∀ (n : Nat), xsum n (fun _ => false) = false
  | 0 => rfl
  | n + 1 => by show (xsum n (fun _ => false) ^^ false) = false; rw [xsum_false n]; rfl

theorem xsum_single : ∀ (n j : Nat) (f : Nat → Bool), j < n → xsum n (fun i => i == j && f i) = f j
  | 0, _, _, h => by omega
  | n + 1, j, f, h => by
    show (xsum n (fun i => i == j && f i) ^^ (n == j && f n)) = f j
    by_cases e : j = n
    · subst e
      have : xsum j (fun i => i == j && f i) = false := by
        rw [xsum_congr (g := fun _ => false) j (fun i hi => by
          have : (i == j) = false := by simpa using (show i ≠ j by omega)
          rw [this]; rfl)]
        exact xsum_false j
      rw [this]; simp
    · have hne : (n == j) = false := by simpa using (Ne.symm e)
      rw [xsum_single n j f (by omega), hne]; simp

theorem xsum_succ' : ∀ (n : Nat) (f : Nat → Bool), xsum (n + 1) f = (f 0 ^^ xsum n (fun i => f (i + 1)))
  | 0, f => by simp [xsum]
  | n + 1, f => by
    show (xsum (n + 1) f ^^ f (n + 1)) = (f 0 ^^ (xsum n (fun i => f (i + 1)) ^^ f (n + 1)))
    rw [xsum_succ' n f]
    cases f 0 <;> cases xsum n (fun i => f (i + 1)) <;> cases f (n + 1) <;> rfl

theorem xsum_rev : ∀ (n : Nat) (f : Nat → Bool), xsum n (fun i => f (n - i - 1)) = xsum n f
  | 0, _ => rfl
  | n + 1, f => by
    rw [xsum_succ']
    show (f (n + 1 - 0 - 1) ^^ _) = (xsum n f ^^ f n)
    rw [xsum_congr (g := fun i => f (n - i - 1)) n (fun i _ => by
      show f (n + 1 - (i + 1) - 1) = f (n - i - 1)
      rw [show n + 1 - (i + 1) - 1 = n - i - 1 by omega]), xsum_rev n f]
    show (f n ^^ xsum n f) = _
    cases f n <;> cases xsum n f <;> rfl

theorem select_xor (c : Cfg) (a b : Mask) (s d : Nat → Bool) : select c (a.xor b) s d = (select c a s d ^^ select c b s d) := by
  unfold select Mask.xor
  simp only
  rw [xsum_congr (g := fun i => (a.st i && s i) ^^ (b.st i && s i)) c.W (fun i _ => by cases a.st i <;> cases b.st i <;> simp),
    xsum_congr (g := fun i => (a.da i && d i) ^^ (b.da i && d i)) c.D (fun i _ => by cases a.da i <;> cases b.da i <;> simp),
    xsum_xor, xsum_xor]
  generalize xsum c.W _ = p1
  generalize xsum c.W _ = p2
  generalize xsum c.D _ = p3
  generalize xsum c.D _ = p4
  cases p1 <;> cases p2 <;> cases p3 <;> cases p4 <;> rfl

theorem select_state (c : Cfg) (j : Nat) (hj : j < c.W) (s d : Nat → Bool) : select c (Mask.state j) s d = s j := by
  unfold select Mask.state
  simp only
  rw [xsum_single c.W j s hj, xsum_congr (g := fun _ => false) c.D (fun i _ => by simp), xsum_false]; simp

theorem select_data (c : Cfg) (b : Nat) (hb : b < c.D) (s d : Nat → Bool) : select c (Mask.data b) s d = d b := by
  unfold select Mask.data
  simp only
  rw [xsum_single c.D b d hb, xsum_congr (g := fun _ => false) c.W (fun i _ => by simp), xsum_false]; simp

/-- the serial machine of a configuration -/
def serial (c : Cfg) : (Nat → Bool) → Bool → (Nat → Bool) × Bool :=
  if c.fib then Spec.fib c.W c.poly c.ff else Spec.gal c.W c.poly c.ff

/-- the serial state after the `k` most significant data bits, and the output bits, latest first -/
def ser (c : Cfg) (s d : Nat → Bool) : Nat → (Nat → Bool) × List Bool
  | 0 => (s, [])
  | k + 1 => ((serial c (ser c s d k).1 (d (c.D - 1 - k))).1, (serial c (ser c s d k).1 (d (c.D - 1 - k))).2 :: (ser c s d k).2)

theorem taps_select (c : Cfg) (lf : Nat → Mask) (v : Mask) (s d u : Nat → Bool) (h : ∀ j < c.W, select c (lf j) s d = u j) :
    ∀ n, n < c.W → select c (taps c.poly lf v n) s d = (select c v s d ^^ Spec.fibTaps c.poly u n)
  | 0, _ => by simp [taps, Spec.fibTaps]
  | n + 1, hn => by
    unfold taps Spec.fibTaps
    have ih := taps_select c lf v s d u h n (by omega)
    cases hp : c.poly.testBit (n + 1) with
    | false => simp [ih]
    | true =>
      simp only [if_true, Bool.true_and]
      rw [select_xor, ih, h n (by omega)]
      cases u n <;> cases select c v s d <;> cases Spec.fibTaps c.poly u n <;> rfl

theorem masks_ser (c : Cfg) (hW : 0 < c.W) (s d : Nat → Bool) : ∀ k, k ≤ c.D →
    (∀ j < c.W, select c ((masks c k).lf j) s d = (ser c s d k).1 j) ∧
    (∀ j < k, some (select c ((masks c k).out j) s d) = (ser c s d k).2[j]?)
  | 0, _ => ⟨fun j hj => select_state c j hj s d, fun j hj => by omega⟩
  | k + 1, hk => by
    obtain ⟨h1, h2⟩ := masks_ser c hW s d k (by omega)
    have hb : c.D - 1 - k < c.D := by omega
    have hv0 : select c (((masks c k).lf (c.W - 1)).xor (Mask.data (c.D - 1 - k))) s d = (d (c.D - 1 - k) ^^ (ser c s d k).1 (c.W - 1)) := by
      rw [select_xor, h1 (c.W - 1) (by omega), select_data c _ hb]
      cases d (c.D - 1 - k) <;> cases (ser c s d k).1 (c.W - 1) <;> rfl
    have hv : select c (if c.fib then taps c.poly (masks c k).lf (((masks c k).lf (c.W - 1)).xor (Mask.data (c.D - 1 - k))) (c.W - 1)
        else ((masks c k).lf (c.W - 1)).xor (Mask.data (c.D - 1 - k))) s d = (serial c (ser c s d k).1 (d (c.D - 1 - k))).2 := by
      unfold serial
      cases hf : c.fib with
      | false => simp only [Bool.false_eq_true, if_false]; rw [hv0]; rfl
      | true =>
        simp only [if_true]
        rw [taps_select c _ _ s d _ h1 (c.W - 1) (by omega), hv0]; rfl
    have hw : select c (if c.ff then Mask.data (c.D - 1 - k) else (if c.fib then taps c.poly (masks c k).lf (((masks c k).lf (c.W - 1)).xor (Mask.data (c.D - 1 - k))) (c.W - 1)
        else ((masks c k).lf (c.W - 1)).xor (Mask.data (c.D - 1 - k)))) s d =
        (if c.ff then d (c.D - 1 - k) else (serial c (ser c s d k).1 (d (c.D - 1 - k))).2) := by
      cases hf : c.ff with
      | true => simp only [if_true]; exact select_data c _ hb s d
      | false => simp only [Bool.false_eq_true, if_false]; exact hv
    constructor
    · intro j hj
      show select c ((shift c (masks c k) (c.D - 1 - k)).lf j) s d = (serial c (ser c s d k).1 (d (c.D - 1 - k))).1 j
      unfold shift
      simp only
      by_cases hj0 : j = 0
      · simp only [if_pos hj0]
        rw [hw]
        unfold serial
        cases c.fib <;> simp [Spec.fib, Spec.gal, hj0]
      · simp only [if_neg hj0]
        cases hf : c.fib with
        | true =>
          simp only [Bool.not_true, Bool.false_and, Bool.false_eq_true, if_false]
          rw [h1 (j - 1) (by omega)]
          unfold serial
          simp [Spec.fib, hf, hj0]
        | false =>
          simp only [hf, Bool.not_false, Bool.true_and, Bool.false_eq_true, if_false] at hw ⊢
          unfold serial at hw ⊢
          simp only [hf, Bool.false_eq_true, if_false, Spec.gal, if_neg hj0] at hw ⊢
          cases hp : c.poly.testBit j with
          | false => simp only [Bool.false_eq_true, if_false]; rw [h1 (j - 1) (by omega)]; simp
          | true => simp only [if_true]; rw [select_xor, hw, h1 (j - 1) (by omega)]; rfl
    · intro j hj
      show some (select c ((shift c (masks c k) (c.D - 1 - k)).out j) s d) = ((serial c (ser c s d k).1 (d (c.D - 1 - k))).2 :: (ser c s d k).2)[j]?
      unfold shift
      simp only
      cases j with
      | zero => simp only [if_pos]; rw [hv]; rfl
      | succ j => simp only [Nat.succ_ne_zero, if_false, Nat.add_sub_cancel]; rw [h2 j (by omega)]; rfl

theorem ser_eq (c : Cfg) (s d : Nat → Bool) : ∀ k, k ≤ c.D →
    ser c s d k = ((Spec.shiftAll (serial c) s ((List.range k).map (fun j => d (c.D - 1 - j)))).1,
      (Spec.shiftAll (serial c) s ((List.range k).map (fun j => d (c.D - 1 - j)))).2.reverse)
  | 0, _ => rfl
  | k + 1, h => by
    have app : ∀ (l : List Bool) (x : Bool) (s : Nat → Bool), Spec.shiftAll (serial c) s (l ++ [x]) =
        ((serial c (Spec.shiftAll (serial c) s l).1 x).1, (Spec.shiftAll (serial c) s l).2 ++ [(serial c (Spec.shiftAll (serial c) s l).1 x).2]) := by
      intro l
      induction l with
      | nil => intro x s; rfl
      | cons y l ih => intro x s; simp only [List.cons_append, Spec.shiftAll, ih]
    rw [List.range_succ, List.map_append, List.map_cons, List.map_nil, app]
    unfold ser
    rw [ser_eq c s d k (by omega)]
    simp

theorem shiftAll_length {σ : Type} (f : σ → Bool → σ × Bool) : ∀ (l : List Bool) (s : σ), (Spec.shiftAll f s l).2.length = l.length
  | [], _ => rfl
  | x :: l, s => by simp [Spec.shiftAll, shiftAll_length f l]

theorem shiftAll_append {σ : Type} (f : σ → Bool → σ × Bool) : ∀ (l1 l2 : List Bool) (s : σ), Spec.shiftAll f s (l1 ++ l2) =
    ((Spec.shiftAll f (Spec.shiftAll f s l1).1 l2).1, (Spec.shiftAll f s l1).2 ++ (Spec.shiftAll f (Spec.shiftAll f s l1).1 l2).2)
  | [], _, _ => rfl
  | x :: l1, l2, s => by simp [Spec.shiftAll, shiftAll_append f l1 l2]

theorem select_rev (c : Cfg) (x : Mask) (s d : Nat → Bool) :
    select c ⟨fun i => x.st (c.W - i - 1), fun i => x.da (c.D - i - 1)⟩ s d = select c x (fun i => s (c.W - i - 1)) (fun i => d (c.D - i - 1)) := by
  unfold select
  simp only
  congr 1
  · rw [← xsum_rev c.W (fun i => x.st i && s (c.W - i - 1))]
    exact xsum_congr _ (fun i hi => by rw [show c.W - (c.W - i - 1) - 1 = i by omega])
  · rw [← xsum_rev c.D (fun i => x.da i && d (c.D - i - 1))]
    exact xsum_congr _ (fun i hi => by rw [show c.D - (c.D - i - 1) - 1 = i by omega])

end Corundum.Lfsr
