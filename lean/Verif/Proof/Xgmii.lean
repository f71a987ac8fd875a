import Verif.Spec.Xgmii
/-! Words and lanes, shape of the steps of source and sink. -/
namespace Corundum.Xgmii

/-! ### words -/

def packD : Nat → List Ch → Nat
  | _, [] => 0
  | i, x :: l => x.2 <<< (8 * i) ||| packD (i + 1) l

def packC : Nat → List Ch → Nat
  | _, [] => 0
  | i, x :: l => x.1.toNat <<< i ||| packC (i + 1) l

/-- the word with given characters -/
def W (l : List Ch) : Word := ⟨packD 0 l, packC 0 l⟩

def Byte (x : Ch) : Prop := x.2 < 256

theorem packD_bit : ∀ (l : List Ch) (i b : Nat), (∀ x ∈ l, Byte x) → (packD i l).testBit b = if i ≤ b / 8 then ((l[b / 8 - i]?.map Prod.snd).getD 0).testBit (b % 8) else false
  | [], i, b, _ => by simp [packD]
  | x :: l, i, b, h => by
    have hx : x.2 < 2 ^ 8 := h x List.mem_cons_self
    unfold packD
    rw [Nat.testBit_or, Nat.testBit_shiftLeft, packD_bit l (i + 1) b fun y hy => h y (List.mem_cons_of_mem _ hy)]
    rcases Nat.lt_trichotomy (b / 8) i with hb | hb | hb
    · rw [if_neg (by omega), if_neg (by omega), decide_eq_false (by omega : ¬ b ≥ 8 * i)]; rfl
    · rw [if_neg (by omega), if_pos (by omega), hb, Nat.sub_self, decide_eq_true (by omega : b ≥ 8 * i), show b - 8 * i = b % 8 by omega]; simp
    · rw [if_pos (by omega), if_pos (by omega), show b / 8 - i = b / 8 - (i + 1) + 1 by omega, List.getElem?_cons_succ,
        Nat.testBit_lt_two_pow (Nat.lt_of_lt_of_le hx (Nat.pow_le_pow_right (by omega) (by omega : 8 ≤ b - 8 * i)))]
      simp

theorem packC_bit : ∀ (l : List Ch) (i b : Nat), (packC i l).testBit b = if i ≤ b then ((l[b - i]?.map Prod.fst).getD false) else false
  | [], i, b => by simp [packC]
  | x :: l, i, b => by
    unfold packC
    rw [Nat.testBit_or, Nat.testBit_shiftLeft, packC_bit l (i + 1) b]
    rcases Nat.lt_trichotomy b i with hb | hb | hb
    · rw [if_neg (by omega), if_neg (by omega), decide_eq_false (by omega : ¬ b ≥ i)]; rfl
    · rw [if_neg (by omega), if_pos (by omega), hb, Nat.sub_self]
      cases h : x.1 <;> simp [h]
    · rw [if_pos (by omega), if_pos (by omega), show b - i = b - (i + 1) + 1 by omega, List.getElem?_cons_succ,
        Nat.testBit_lt_two_pow (x := x.1.toNat) (Nat.lt_of_lt_of_le (m := 2 ^ 1) (by cases x.1 <;> decide) (Nat.pow_le_pow_right (by omega) (by omega : 1 ≤ b - (i + 1) + 1)))]
      simp

theorem lane_W {l : List Ch} (h : ∀ x ∈ l, Byte x) {i : Nat} {x : Ch} (hx : l[i]? = some x) : (W l).lane i = x := by
  have hb : x.2 < 2 ^ 8 := h x (List.mem_of_getElem? hx)
  unfold Word.lane W
  refine Prod.ext ?_ ?_
  · dsimp only
    rw [show (1 : Nat) = 2 ^ 1 - 1 from rfl, Nat.and_two_pow_sub_one_eq_mod]
    have := packC_bit l 0 i
    rw [if_pos (by omega), Nat.sub_zero, hx, Option.map_some, Option.getD_some] at this
    rw [← this, Nat.testBit, Nat.one_and_eq_mod_two]
    have : packC 0 l >>> i % 2 = 0 ∨ packC 0 l >>> i % 2 = 1 := by omega
    rcases this with e | e <;> simp [e]
  · dsimp only
    apply Nat.eq_of_testBit_eq
    intro j
    rw [show (0xff : Nat) = 2 ^ 8 - 1 from rfl, Nat.and_two_pow_sub_one_eq_mod, Nat.testBit_mod_two_pow, Nat.testBit_shiftRight, packD_bit l 0 _ h]
    by_cases hj : j < 8
    · rw [if_pos (by omega), show (8 * i + j) / 8 - 0 = i by omega, show (8 * i + j) % 8 = j by omega, hx]; simp [hj]
    · rw [Nat.testBit_lt_two_pow (Nat.lt_of_lt_of_le hb (Nat.pow_le_pow_right (by omega) (by omega : 8 ≤ j)))]; simp [hj]

theorem lanes_W {l : List Ch} (h : ∀ x ∈ l, Byte x) : (List.range l.length).map (W l).lane = l := by
  apply List.ext_getElem (by simp)
  intro i h1 h2
  rw [List.getElem_map, List.getElem_range]
  exact lane_W h (List.getElem?_eq_getElem h2)

theorem lanes_from {l : List Ch} (h : ∀ x ∈ l, Byte x) (i : Nat) : (W l).lanes i l.length = l.drop i := by
  unfold Word.lanes
  apply List.ext_getElem (by simp)
  intro k h1 h2
  rw [List.getElem_map, List.getElem_range, List.getElem_drop]
  exact lane_W h (List.getElem?_eq_getElem _)

theorem idle_W {bw : Nat} (h : bw = 4 ∨ bw = 8) : idleWord bw = W (List.replicate bw IDLE) := by
  rcases h with rfl | rfl <;> rfl

/-! ### source -/

/-- the characters of a word -/
def fill (n : Nat) (dl : List Ch) : List Ch := dl.take n ++ List.replicate (n - dl.length) IDLE

theorem fill_length (n : Nat) (dl : List Ch) : (fill n dl).length = n := by
  unfold fill
  simp; omega

theorem fill_nil (n : Nat) : fill n [] = List.replicate n IDLE := by simp [fill]

theorem fill_cons (n : Nat) (x : Ch) (dl : List Ch) : fill (n + 1) (x :: dl) = x :: fill n dl := by
  unfold fill
  rw [List.take_succ_cons, List.length_cons, show n + 1 - (dl.length + 1) = n - dl.length by omega]; rfl

theorem fill_bytes {n : Nat} {dl : List Ch} (h : ∀ x ∈ dl, Byte x) : ∀ x ∈ fill n dl, Byte x := by
  intro x hx
  rcases List.mem_append.1 hx with hx | hx
  · exact h x (List.mem_of_mem_take hx)
  · rw [(List.mem_replicate.1 hx).2]; show (7 : Nat) < 256; decide

theorem emit_idle (c : Cfg) (df : Int) : ∀ n, n ≤ c.bw → ∀ w cnt, emit c df n [] w cnt = (⟨w.d ||| packD (c.bw - n) (List.replicate n IDLE), w.c ||| packC (c.bw - n) (List.replicate n IDLE)⟩, [], cnt)
  | 0, _, w, cnt => by simp [emit, packD, packC]
  | n + 1, h, w, cnt => by
    rw [emit, emit_idle c df n (by omega), List.replicate_succ, packD, packC]
    rw [Nat.or_assoc, Nat.or_assoc, show c.bw - (n + 1) + 1 = c.bw - n by omega]; rfl

theorem emit_eq (c : Cfg) (df : Int) : ∀ n, n ≤ c.bw → ∀ dl w cnt, emit c df n dl w cnt =
    (⟨w.d ||| packD (c.bw - n) (fill n dl), w.c ||| packC (c.bw - n) (fill n dl)⟩, dl.drop n, if dl ≠ [] ∧ dl.length ≤ n then (c.ifg : Int) - (n + 1 - dl.length : Int) + df else cnt)
  | n, h, [], w, cnt => by rw [emit_idle c df n h, fill_nil, if_neg (by simp), List.drop_nil]
  | 0, h, x :: dl, w, cnt => by simp [emit, fill, packD, packC]
  | n + 1, h, x :: dl, w, cnt => by
    rw [emit, emit_eq c df n (by omega), fill_cons, packD, packC, Nat.or_assoc, Nat.or_assoc, show c.bw - (n + 1) + 1 = c.bw - n by omega]
    refine Prod.ext rfl (Prod.ext rfl ?_)
    dsimp only
    by_cases hd : dl = []
    · subst hd
      rw [if_neg (by simp), if_pos (by simp), if_pos (by simp)]
      simp only [List.length_cons, List.length_nil]
      omega
    · have hne : dl.isEmpty = false := by cases dl with
        | nil => exact absurd rfl hd
        | cons => rfl
      rw [hne]
      by_cases hl : dl.length ≤ n
      · rw [if_pos (c := dl ≠ [] ∧ dl.length ≤ n) ⟨hd, hl⟩, if_pos (by simp; omega)]; simp only [List.length_cons]; omega
      · rw [if_neg (c := dl ≠ [] ∧ dl.length ≤ n) (fun e => hl e.2), if_neg (c := x :: dl ≠ [] ∧ (x :: dl).length ≤ n + 1) (by simp; omega)]; rfl

theorem emit_full (c : Cfg) (df : Int) (dl : List Ch) (cnt : Int) : emit c df c.bw dl ⟨0, 0⟩ cnt =
    (W (fill c.bw dl), dl.drop c.bw, if dl ≠ [] ∧ dl.length ≤ c.bw then (c.ifg : Int) - (c.bw + 1 - dl.length : Int) + df else cnt) := by
  rw [emit_eq c df c.bw (Nat.le_refl _), Nat.sub_self, Nat.zero_or, Nat.zero_or]; rfl

/-! ### sink -/

def takeL : List Ch → List Ch → List Rx → Snk
  | [], acc, q => ⟨q, some acc⟩
  | x :: l, acc, q => if x.1 then ⟨q ++ [parse (if x.2 ≠ TERM.2 then acc ++ [x] else acc)], none⟩ else takeL l (acc ++ [x]) q

theorem take_W {l : List Ch} (h : ∀ x ∈ l, Byte x) : ∀ n i acc q, i + n = l.length → take (W l) n i acc q = takeL (l.drop i) acc q
  | 0, i, acc, q, hi => by rw [List.drop_eq_nil_of_le (by omega)]; rfl
  | n + 1, i, acc, q, hi => by
    have hlt : i < l.length := by omega
    rw [List.drop_eq_getElem_cons hlt, take, takeL, lane_W h (List.getElem?_eq_getElem hlt)]
    split
    · rfl
    · exact take_W h n (i + 1) _ q (by omega)

/-- one clock of the sink on the characters of a word -/
def Snk.stepL (s : Snk) (l : List Ch) : Snk :=
  match s.cur with
  | none => if l[0]? = some START then ⟨s.queue, some ((false, PRE) :: l.drop 1)⟩ else if l.length = 8 ∧ l[4]? = some START then ⟨s.queue, some ((false, PRE) :: l.drop 5)⟩ else s
  | some acc => takeL l acc s.queue

theorem lane_iff {l : List Ch} (h : ∀ x ∈ l, Byte x) {i : Nat} (hi : i < l.length) (x : Ch) : (W l).lane i = x ↔ l[i]? = some x := by
  rw [List.getElem?_eq_getElem hi, Option.some.injEq, lane_W h (List.getElem?_eq_getElem hi)]

theorem step_W {l : List Ch} (h : ∀ x ∈ l, Byte x) (hl : l.length = 4 ∨ l.length = 8) (s : Snk) : s.step l.length (W l) = s.stepL l := by
  unfold Snk.step Snk.stepL
  split
  · rename_i hc
    rw [hc]; dsimp only
    by_cases h0 : l[0]? = some START
    · rw [if_pos h0, if_pos ((lane_iff h (by omega) _).2 h0), lanes_from h]
    · rw [if_neg h0, if_neg (fun e => h0 ((lane_iff h (by omega) _).1 e))]
      by_cases h8 : l.length = 8
      · by_cases h4 : l[4]? = some START
        · rw [if_pos (c := l.length = 8 ∧ l[4]? = some START) ⟨h8, h4⟩, if_pos ⟨h8, (lane_iff h (by omega) _).2 h4⟩, lanes_from h]
        · rw [if_neg (c := l.length = 8 ∧ l[4]? = some START) (fun e => h4 e.2), if_neg (fun e => h4 ((lane_iff h (by omega) _).1 e.2))]
      · rw [if_neg (fun e => h8 e.1), if_neg (fun e => h8 e.1)]
  · rename_i acc hc
    rw [hc]; dsimp only
    rw [take_W h _ 0 acc _ (by omega), List.drop_zero]

end Corundum.Xgmii
