import Verif.Model.AxisFrame
import Verif.Proof.Frames
namespace Corundum.AxisFrame
open Corundum.Frames (or_shift)

/-- little-endian value of a list of `WL`-bit words -/
def valLE (WL : Nat) : List Nat → Nat
  | [] => 0
  | x :: xs => x + 2 ^ WL * valLE WL xs

theorem valLE_lt {WL : Nat} : ∀ {xs : List Nat}, (∀ x ∈ xs, x < 2 ^ WL) → valLE WL xs < 2 ^ (xs.length * WL)
  | [], _ => by simp [valLE]
  | x :: xs, h => by
    have h1 := h x (by simp)
    have h2 := valLE_lt (xs := xs) (fun y hy => h y (by simp [hy]))
    simp only [valLE, List.length_cons]
    rw [Nat.succ_mul, Nat.pow_add, Nat.mul_comm (2 ^ (xs.length * WL))]
    calc x + 2 ^ WL * valLE WL xs < 2 ^ WL + 2 ^ WL * valLE WL xs := by omega
      _ = 2 ^ WL * (valLE WL xs + 1) := by rw [Nat.mul_add]; omega
      _ ≤ 2 ^ WL * 2 ^ (xs.length * WL) := Nat.mul_le_mul_left _ h2

theorem beat_spec (WL : Nat) : ∀ (n j : Nat) (f : List Nat) (data : Nat), data < 2 ^ (j * WL) →
    (∀ x ∈ f, x < 2 ^ WL) →
    beat WL j n f data (2 ^ j - 1) =
      (data + 2 ^ (j * WL) * valLE WL (f.take n), 2 ^ (j + min n f.length) - 1, f.drop n) := by
  intro n
  induction n with
  | zero => intro j f data _ _; simp [beat, valLE]
  | succ n ih =>
    intro j f data hd hf
    cases f with
    | nil => simp [beat, valLE]
    | cons x f =>
      have hx := hf x (by simp)
      have e1 : data ||| (x <<< (j * WL)) = data + x * 2 ^ (j * WL) := by
        rw [Nat.or_comm, or_shift hd]; omega
      have e2 : (2 ^ j - 1) ||| (1 <<< j) = 2 ^ (j + 1) - 1 := by
        have := Nat.pow_pos (n := j) (show 0 < 2 by omega)
        rw [Nat.or_comm, or_shift (by omega), Nat.pow_succ]; omega
      unfold beat
      rw [e1, e2, ih]
      · simp only [List.take_succ_cons, valLE, List.drop_succ_cons, List.length_cons]
        refine Prod.ext ?_ (Prod.ext ?_ rfl)
        · show _ = _
          simp only
          rw [Nat.succ_mul, Nat.pow_add, Nat.mul_add, Nat.mul_assoc, Nat.mul_comm x]; omega
        · simp only
          rw [show j + 1 + min n f.length = j + min (n + 1) (f.length + 1) by omega]
      · rw [Nat.succ_mul, Nat.pow_add]
        calc data + x * 2 ^ (j * WL) < 2 ^ (j * WL) + x * 2 ^ (j * WL) := by omega
          _ = (x + 1) * 2 ^ (j * WL) := by rw [Nat.add_mul]; omega
          _ ≤ 2 ^ WL * 2 ^ (j * WL) := Nat.mul_le_mul_right _ hx
          _ = 2 ^ (j * WL) * 2 ^ WL := Nat.mul_comm _ _
      · exact fun y hy => hf y (by simp [hy])

/-- lane extraction -/
theorem lanes (WL : Nat) : ∀ (xs : List Nat), (∀ x ∈ xs, x < 2 ^ WL) →
    (List.range xs.length).map (fun j => (valLE WL xs >>> (j * WL)) &&& (2 ^ WL - 1)) = xs := by
  intro xs
  induction xs with
  | nil => intro _; rfl
  | cons x xs ih =>
    intro h
    have hx := h x (by simp)
    rw [List.length_cons, List.range_succ_eq_map, List.map_cons, List.map_map]
    congr 1
    · simp only [valLE, Nat.zero_mul, Nat.shiftRight_zero, Nat.and_two_pow_sub_one_eq_mod]
      rw [Nat.add_mul_mod_self_left, Nat.mod_eq_of_lt hx]
    · conv => rhs; rw [← ih (fun y hy => h y (by simp [hy]))]
      apply List.map_congr_left
      intro j _
      simp only [Function.comp, valLE, Nat.succ_mul]
      congr 1
      rw [Nat.add_comm (j * WL), Nat.shiftRight_add, Nat.shiftRight_eq_div_pow (x + _),
        Nat.add_mul_div_left _ _ (Nat.pow_pos (by omega)), Nat.div_eq_of_lt hx, Nat.zero_add]

theorem keep_bit (c j : Nat) : (2 ^ c - 1) &&& (1 <<< j) ≠ 0 ↔ j < c := by
  rw [Nat.shiftLeft_eq, Nat.one_mul]
  constructor
  · intro h
    rcases Nat.lt_or_ge j c with hlt | hge
    · exact hlt
    · exfalso; apply h
      apply Nat.eq_of_testBit_eq
      intro i
      rw [Nat.testBit_and, Nat.testBit_two_pow_sub_one, Nat.testBit_two_pow, Nat.zero_testBit]
      by_cases hi : i < c
      · have : j ≠ i := by omega
        simp [this]
      · simp [hi]
  · intro h h0
    have := congrArg (fun v => Nat.testBit v j) h0
    simp only [Nat.testBit_and, Nat.testBit_two_pow_sub_one, Nat.testBit_two_pow, Nat.zero_testBit] at this
    simp [h] at this

theorem filterMap_range (c : Nat) (g : Nat → Nat) : ∀ M, c ≤ M →
    (List.range M).filterMap (fun j => if j < c then some (g j) else none) = (List.range c).map g := by
  intro M
  induction M with
  | zero => intro h; have : c = 0 := by omega
            subst this; rfl
  | succ M ih =>
    intro h
    rw [List.range_succ, List.filterMap_append]
    by_cases hc : c = M + 1
    · subst hc
      rw [List.range_succ, List.map_append]
      simp only [List.filterMap_cons, List.filterMap_nil, Nat.lt_succ_self, if_true, List.map_cons, List.map_nil]
      congr 1
      have : (List.range M).filterMap (fun j => if j < M + 1 then some (g j) else none) = (List.range M).filterMap (fun j => some (g j)) := by
        clear ih h
        suffices H : ∀ l : List Nat, (∀ j ∈ l, j < M + 1) →
            l.filterMap (fun j => if j < M + 1 then some (g j) else none) = l.filterMap (fun j => some (g j)) from
          H _ (fun j hj => by have := List.mem_range.mp hj; omega)
        intro l
        induction l with
        | nil => intro _; rfl
        | cons a l ih =>
          intro h
          rw [List.filterMap_cons, List.filterMap_cons, if_pos (h a (by simp)), ih (fun j hj => h j (by simp [hj]))]
      rw [this]
      exact List.filterMap_eq_map' ▸ rfl
    · rw [ih (by omega)]
      have : ¬ M < c := by omega
      simp [this]

theorem parse_beat (M WL : Nat) (xs : List Nat) (hM : xs.length ≤ M) (hx : ∀ x ∈ xs, x < 2 ^ WL) :
    (List.range M).filterMap (fun j =>
      if (2 ^ xs.length - 1) &&& (1 <<< j) ≠ 0 then some ((valLE WL xs >>> (j * WL)) &&& (2 ^ WL - 1)) else none) = xs := by
  have : (fun j => if (2 ^ xs.length - 1) &&& (1 <<< j) ≠ 0 then some ((valLE WL xs >>> (j * WL)) &&& (2 ^ WL - 1)) else none)
      = (fun j => if j < xs.length then some ((valLE WL xs >>> (j * WL)) &&& (2 ^ WL - 1)) else none) := by
    funext j
    by_cases h : j < xs.length
    · rw [if_pos ((keep_bit _ _).mpr h), if_pos h]
    · rw [if_neg (fun h' => h ((keep_bit _ _).mp h')), if_neg h]
  rw [this, filterMap_range _ _ _ hM, lanes WL xs hx]

/-- keep patterns of a frame: all lanes except possibly in the last beat -/
def Good (M : Nat) : List (Nat × Nat) → Prop
  | [] => True
  | [b] => ∃ c, 1 ≤ c ∧ c ≤ M ∧ b.2 = 2 ^ c - 1
  | b :: b' :: l => b.2 = 2 ^ M - 1 ∧ Good M (b' :: l)

theorem build_spec (M WL : Nat) (hM : 1 ≤ M) : ∀ (fuel : Nat) (f : List Nat), f.length ≤ fuel → (∀ x ∈ f, x < 2 ^ WL) →
    ∃ bs, buildLoop M WL fuel f = some bs ∧ parse M WL bs = f ∧ Good M bs ∧ bs.length = (f.length + M - 1) / M := by
  intro fuel
  induction fuel with
  | zero =>
    intro f h _
    have : f = [] := List.eq_nil_of_length_eq_zero (by omega)
    subst this
    exact ⟨[], by simp [buildLoop], rfl, trivial, by simp [Nat.div_eq_of_lt (show M - 1 < M by omega)]⟩
  | succ fuel ih =>
    intro f h hx
    cases f with
    | nil => exact ⟨[], by simp [buildLoop], rfl, trivial, by simp [Nat.div_eq_of_lt (show M - 1 < M by omega)]⟩
    | cons x f =>
      have hb := beat_spec WL M 0 (x :: f) 0 (by simp) hx
      simp only [Nat.pow_zero, Nat.sub_self, Nat.zero_mul, Nat.one_mul, Nat.zero_add] at hb
      unfold buildLoop
      simp only [hb]
      have hlen : ((x :: f).drop M).length = (x :: f).length - M := List.length_drop
      obtain ⟨bs, h1, h2, h3, h4⟩ := ih ((x :: f).drop M) (by rw [hlen]; simp at h ⊢; omega)
        (fun y hy => hx y (List.mem_of_mem_drop hy))
      refine ⟨_, by rw [h1]; rfl, ?_, ?_, ?_⟩
      · unfold parse at h2 ⊢
        rw [List.flatMap_cons, h2]
        have hl : min M (x :: f).length = ((x :: f).take M).length := by simp
        simp only
        rw [hl, parse_beat M WL ((x :: f).take M) (by simp; omega) (fun y hy => hx y (List.mem_of_mem_take hy)),
          List.take_append_drop]
      · cases bs with
        | nil => exact ⟨min M (x :: f).length, by simp; omega, by omega, rfl⟩
        | cons b bs =>
          refine ⟨?_, h3⟩
          simp only
          have : M ≤ (x :: f).length := by
            rcases Nat.lt_or_ge (x :: f).length M with hlt | hge
            · exfalso
              rw [List.drop_eq_nil_of_le (by omega)] at h1
              cases fuel <;> simp [buildLoop] at h1
            · exact hge
          rw [Nat.min_eq_left this]
      · rw [List.length_cons, h4, hlen]
        simp only [List.length_cons]
        rcases Nat.lt_or_ge f.length M with hlt | hge
        · rw [show f.length + 1 - M + M - 1 = M - 1 by omega, Nat.div_eq_of_lt (show M - 1 < M by omega),
            show f.length + 1 + M - 1 = f.length + M by omega, Nat.add_div_right _ (by omega), Nat.div_eq_of_lt hlt]
        · rw [show f.length + 1 - M + M - 1 = f.length by omega, show f.length + 1 + M - 1 = f.length + M by omega,
            Nat.add_div_right _ (by omega)]

theorem stripLow_zero (M c : Nat) (hc : 1 ≤ c) : stripLow 0 M (2 ^ c - 1) = 2 ^ c - 1 := by
  cases M with
  | zero => rfl
  | succ M =>
    unfold stripLow
    obtain ⟨d, rfl⟩ : ∃ d, c = d + 1 := ⟨c - 1, by omega⟩
    have := Nat.pow_pos (n := d) (show 0 < 2 by omega)
    rw [if_neg]; rw [Nat.pow_succ]; omega

theorem stripLow_one : ∀ (M c : Nat), c ≤ M → stripLow 1 M (2 ^ c - 1) = 0 := by
  intro M
  induction M with
  | zero => intro c h; have : c = 0 := by omega
            subst this; rfl
  | succ M ih =>
    intro c h
    cases c with
    | zero => simp [stripLow]
    | succ c =>
      unfold stripLow
      have := Nat.pow_pos (n := c) (show 0 < 2 by omega)
      rw [if_pos (by rw [Nat.pow_succ]; omega), show (2 ^ (c + 1) - 1) / 2 = 2 ^ c - 1 by rw [Nat.pow_succ]; omega]
      exact ih c (by omega)

theorem keepOk_good {M c : Nat} (first last : Bool) (h1 : 1 ≤ c) (h2 : c ≤ M) (h3 : last = false → c = M) :
    keepOk M first last (2 ^ c - 1) = true := by
  unfold keepOk
  rw [stripLow_zero M c h1, stripLow_one M c h2]
  have e1 : (2 ^ c - 1) &&& 1 ≠ 0 := by
    have := (keep_bit c 0).mpr (by omega)
    simpa using this
  have e0 : 2 ^ c - 1 ≠ 0 := by intro h; rw [h] at e1; simp at e1
  cases last with
  | true => simp [e0, show c ≠ 0 by omega]
  | false =>
    have e2 := (keep_bit c (M - 1)).mpr (by have := h3 rfl; omega)
    simp [e0, e2, show c ≠ 0 by omega]

theorem good_mid {M : Nat} : ∀ (got : List (Nat × Nat)) (b : Nat × Nat) (d : List (Nat × Nat)), Good M (got ++ b :: d) → 1 ≤ M →
    ∃ c, 1 ≤ c ∧ c ≤ M ∧ b.2 = 2 ^ c - 1 ∧ (d.isEmpty = false → c = M)
  | [], b, [], h, _ => by obtain ⟨c, h1, h2, h3⟩ := h; exact ⟨c, h1, h2, h3, by simp⟩
  | [], b, b' :: d, h, hM => ⟨M, hM, Nat.le_refl _, h.1, fun _ => rfl⟩
  | [g], b, d, h, hM => good_mid [] b d h.2 hM
  | g :: g' :: got, b, d, h, hM => good_mid (g' :: got) b d h.2 hM

/-- system invariant; `L` = frames sent so far -/
structure Inv (M WL : Nat) (s : Sys) (L : List (List Nat)) : Prop where
  err : s.error = false
  va : s.tvalid = true → s.active = true ∧ s.rdy = true
  idle : s.active = false → s.got = [] ∧ s.first = true ∧ L = s.out ++ s.queue
  act : s.active = true → ∃ fr bs, build M WL fr = some bs ∧ parse M WL bs = fr ∧ Good M bs ∧ bs = s.got ++ s.cur :: s.data ∧
    s.tlast = s.data.isEmpty ∧ L = s.out ++ fr :: s.queue

theorem inv_init (M WL : Nat) : Inv M WL init [] := by
  constructor <;> simp [init]

theorem inv_send {M WL s L} (h : Inv M WL s L) (f : List Nat) : Inv M WL (step M WL s (.send f)) (L ++ [f]) := by
  obtain ⟨err, va, idle, act⟩ := h
  refine ⟨err, va, ?_, ?_⟩
  · intro ha
    obtain ⟨h1, h2, h3⟩ := idle ha
    refine ⟨h1, h2, ?_⟩
    show L ++ [f] = s.out ++ (s.queue ++ [f])
    rw [h3, List.append_assoc]
  · intro ha
    obtain ⟨fr, bs, h1, h2, h3, h4, h5, h6⟩ := act ha
    refine ⟨fr, bs, h1, h2, h3, h4, h5, ?_⟩
    show L ++ [f] = s.out ++ fr :: (s.queue ++ [f])
    rw [h6]; simp

/-- loading the next queued frame -/
theorem load {M WL : Nat} (hM : 1 ≤ M) {f : List Nat} (hne : f ≠ []) (hf : ∀ x ∈ f, x < 2 ^ WL) :
    ∃ b d, build M WL f = some (b :: d) ∧ parse M WL (b :: d) = f ∧ Good M (b :: d) := by
  obtain ⟨bs, h1, h2, h3, h4⟩ := build_spec M WL hM f.length f (Nat.le_refl _) hf
  cases bs with
  | nil => exfalso; apply hne; rw [← h2]; rfl
  | cons b d => exact ⟨b, d, h1, h2, h3⟩

theorem inv_clk {M WL s L} (hM : 1 ≤ M) (h : Inv M WL s L) (hL : ∀ f ∈ L, f ≠ [] ∧ ∀ x ∈ f, x < 2 ^ WL) (ps pk : Bool) :
    Inv M WL (step M WL s (.clk ps pk)) L := by
  obtain ⟨queue, active, data, tvalid, cur, tlast, rdy, first, got, out, error⟩ := s
  obtain ⟨err, va, idle, act⟩ := h
  simp only at err va idle act
  subst err
  -- the frame at the head of the queue can be loaded
  have hload : ∀ f q, queue = f :: q → ∃ b d, build M WL f = some (b :: d) ∧ parse M WL (b :: d) = f ∧ Good M (b :: d) := by
    intro f q hq
    have hf : f ∈ L := by
      cases ha : active with
      | false => rw [(idle ha).2.2, hq]; simp
      | true => obtain ⟨fr, bs, _, _, _, _, _, h6⟩ := act ha; rw [h6, hq]; simp
    exact load hM (hL f hf).1 (hL f hf).2
  cases ha : active with
  | false =>
    subst ha
    obtain ⟨rfl, rfl, hLq⟩ := idle rfl
    have htv : tvalid = false := by
      cases ht : tvalid with
      | false => rfl
      | true => have := (va ht).1; simp at this
    subst htv
    cases queue with
    | nil =>
      simp only [step, srcClk, snkClk, Bool.and_false, Bool.false_and, Bool.false_eq_true, if_false, Bool.not_false, if_true]
      exact ⟨rfl, by simp, fun _ => ⟨rfl, rfl, hLq⟩, by simp⟩
    | cons f q =>
      obtain ⟨b, d, h1, h2, h3⟩ := hload f q rfl
      simp only [step, srcClk, snkClk, Bool.and_false, Bool.false_and, Bool.false_eq_true, if_false, Bool.not_false, if_true, h1]
      exact ⟨rfl, by simp, by simp, fun _ => ⟨f, b :: d, h1, h2, h3, rfl, rfl, hLq⟩⟩
  | true =>
    subst ha
    obtain ⟨fr, bs, h1, h2, h3, h4, h5, h6⟩ := act rfl
    by_cases htake : (tvalid && !pk) = true
    · -- the sink takes the current beat
      have ht : tvalid = true := by simp at htake; exact htake.1
      have hpk : pk = false := by simpa [ht] using htake
      have hr := (va ht).2
      subst ht hpk hr
      rw [h4] at h3
      obtain ⟨c, c1, c2, c3, c4⟩ := good_mid got cur data h3 hM
      have hk : keepOk M first tlast cur.2 = true := by
        rw [c3]; exact keepOk_good _ _ c1 c2 (fun hl => c4 (by rw [← h5]; exact hl))
      cases data with
      | cons b d =>
        simp only [List.isEmpty_cons] at h5
        subst h5
        simp only [step, srcClk, snkClk, Bool.not_false, Bool.and_true, if_true, hk, Bool.not_true, Bool.false_eq_true, if_false]
        refine ⟨rfl, by simp, by simp, fun _ => ⟨fr, bs, h1, h2, by rw [h4]; exact h3, by simp [h4], rfl, h6⟩⟩
      | nil =>
        simp only [List.isEmpty_nil] at h5
        subst h5
        have hout : out ++ [parse M WL (got ++ [cur])] = out ++ [fr] := by rw [← h4, h2]
        cases queue with
        | nil =>
          simp only [step, srcClk, snkClk, Bool.not_false, Bool.and_true, if_true, hk]
          refine ⟨rfl, by simp, fun _ => ⟨rfl, rfl, ?_⟩, by simp⟩
          show L = out ++ [parse M WL (got ++ [cur])] ++ []
          rw [hout, h6]; simp
        | cons f q =>
          obtain ⟨b, d, g1, g2, g3⟩ := hload f q rfl
          simp only [step, srcClk, snkClk, Bool.not_false, Bool.and_true, if_true, hk, g1]
          refine ⟨rfl, by simp, by simp, fun _ => ⟨f, b :: d, g1, g2, g3, rfl, rfl, ?_⟩⟩
          show L = out ++ [parse M WL (got ++ [cur])] ++ f :: q
          rw [hout, h6]; simp
    · -- nothing is transferred
      have hrt : (rdy && !pk && tvalid) = false := by
        cases tvalid <;> cases pk <;> simp_all
      have htk : (tvalid && !pk) = false := by simpa using htake
      simp only [step, srcClk, snkClk, hrt, htk, Bool.false_eq_true, if_false, Bool.not_true]
      exact ⟨rfl, by simp, by simp, fun _ => ⟨fr, bs, h1, h2, h3, h4, h5, h6⟩⟩

/-- beats a frame occupies -/
def nb (M : Nat) (f : List Nat) : Nat := (f.length + M - 1) / M

/-- twice the beats not yet transferred, plus one for a start-up cycle -/
def mu (M : Nat) (s : Sys) : Nat :=
  2 * ((s.queue.map (nb M)).sum + (if s.active then s.data.length + 1 else 0)) + (if s.tvalid then 0 else 1)

theorem load' {M WL : Nat} (hM : 1 ≤ M) {f : List Nat} (hne : f ≠ []) (hf : ∀ x ∈ f, x < 2 ^ WL) :
    ∃ b d, build M WL f = some (b :: d) ∧ d.length + 1 = nb M f := by
  obtain ⟨bs, h1, h2, h3, h4⟩ := build_spec M WL hM f.length f (Nat.le_refl _) hf
  cases bs with
  | nil => exfalso; apply hne; rw [← h2]; rfl
  | cons b d => exact ⟨b, d, h1, h4⟩

/-- an unpaused clock either makes progress or there is nothing left -/
theorem clk_progress {M WL s L} (hM : 1 ≤ M) (h : Inv M WL s L) (hL : ∀ f ∈ L, f ≠ [] ∧ ∀ x ∈ f, x < 2 ^ WL) :
    mu M (step M WL s (.clk false false)) < mu M s ∨ (s.active = false ∧ s.queue = []) := by
  obtain ⟨queue, active, data, tvalid, cur, tlast, rdy, first, got, out, error⟩ := s
  obtain ⟨err, va, idle, act⟩ := h
  simp only at err va idle act
  have hload : ∀ f q, queue = f :: q → ∃ b d, build M WL f = some (b :: d) ∧ d.length + 1 = nb M f := by
    intro f q hq
    have hf : f ∈ L := by
      cases ha : active with
      | false => rw [(idle ha).2.2, hq]; simp
      | true => obtain ⟨fr, bs, _, _, _, _, _, h6⟩ := act ha; rw [h6, hq]; simp
    exact load' hM (hL f hf).1 (hL f hf).2
  cases active with
  | false =>
    have htv : tvalid = false := by
      cases ht : tvalid with
      | false => rfl
      | true => have := (va ht).1; simp at this
    subst htv
    cases queue with
    | nil => exact .inr ⟨rfl, rfl⟩
    | cons f q =>
      left
      obtain ⟨b, d, g1, g2⟩ := hload f q rfl
      simp only [step, srcClk, snkClk, Bool.and_false, Bool.false_and, Bool.false_eq_true, if_false, Bool.not_false, if_true, g1, mu,
        List.map_cons, List.sum_cons]
      omega
  | true =>
    left
    cases tvalid with
    | false =>
      simp only [step, srcClk, snkClk, Bool.and_false, Bool.false_and, Bool.false_eq_true, if_false, Bool.not_false, if_true, mu,
        Bool.not_true, Bool.or_true, Bool.and_true]
      omega
    | true =>
      have hr := (va rfl).2
      subst hr
      cases data with
      | cons b d =>
        simp only [step, srcClk, snkClk, Bool.and_true, Bool.false_eq_true, if_false, Bool.not_false, if_true, Bool.not_true]
        split <;> split <;> simp [mu] <;> omega
      | nil =>
        cases queue with
        | nil =>
          simp only [step, srcClk, snkClk, Bool.and_true, Bool.not_false, if_true]
          split <;> split <;> simp [mu]
        | cons f q =>
          obtain ⟨b, d, g1, g2⟩ := hload f q rfl
          simp only [step, srcClk, snkClk, Bool.and_true, Bool.not_false, if_true, g1]
          split <;> split <;> simp [mu] <;> omega

theorem clk_idle {M WL : Nat} {s : Sys} {L} (h : Inv M WL s L) (ha : s.active = false) (hq : s.queue = []) :
    (step M WL s (.clk false false)).active = false ∧ (step M WL s (.clk false false)).queue = [] := by
  obtain ⟨queue, active, data, tvalid, cur, tlast, rdy, first, got, out, error⟩ := s
  simp only at ha hq
  subst ha hq
  have htv : tvalid = false := by
    cases ht : tvalid with
    | false => rfl
    | true => have := (h.va ht).1; simp at this
  subst htv
  simp [step, srcClk, snkClk]

theorem drain {M WL : Nat} (hM : 1 ≤ M) {L : List (List Nat)} (hL : ∀ f ∈ L, f ≠ [] ∧ ∀ x ∈ f, x < 2 ^ WL) :
    ∀ (n : Nat) (s : Sys), Inv M WL s L → (mu M s ≤ n ∨ (s.active = false ∧ s.queue = [])) →
    (run M WL s (List.replicate n (.clk false false))).out = L := by
  intro n
  induction n with
  | zero =>
    intro s h hm
    have : s.active = false ∧ s.queue = [] := by
      rcases hm with hm | hm
      · rcases clk_progress hM h hL with h' | h'
        · omega
        · exact h'
      · exact hm
    have := h.idle this.1
    simp only [List.replicate_zero, run, List.foldl_nil]
    rw [this.2.2, ‹s.active = false ∧ s.queue = []›.2, List.append_nil]
  | succ n ih =>
    intro s h hm
    rw [List.replicate_succ]
    show (run M WL (step M WL s (.clk false false)) (List.replicate n (.clk false false))).out = L
    apply ih _ (inv_clk hM h hL _ _)
    rcases hm with hm | hm
    · rcases clk_progress hM h hL with h' | h'
      · left; omega
      · right; exact clk_idle h h'.1 h'.2
    · right; exact clk_idle h hm.1 hm.2

/-- the frames handed to `send` in an op list -/
def sent : List Op → List (List Nat)
  | [] => []
  | .send f :: ops => f :: sent ops
  | .clk _ _ :: ops => sent ops

theorem inv_run {M WL : Nat} (hM : 1 ≤ M) : ∀ (ops : List Op) (s : Sys) (L : List (List Nat)), Inv M WL s L →
    (∀ f ∈ L ++ sent ops, f ≠ [] ∧ ∀ x ∈ f, x < 2 ^ WL) → Inv M WL (run M WL s ops) (L ++ sent ops) := by
  intro ops
  induction ops with
  | nil => intro s L h _; simpa [sent, run] using h
  | cons o ops ih =>
    intro s L h hL
    cases o with
    | send f =>
      have := ih (step M WL s (.send f)) (L ++ [f]) (inv_send h f) (by simpa [sent] using hL)
      simpa [sent, run] using this
    | clk ps pk =>
      exact ih _ L (inv_clk hM h (fun f hf => hL f (List.mem_append_left _ hf)) ps pk) hL

end Corundum.AxisFrame
