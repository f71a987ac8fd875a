import Verif.Spec.ArbMux
import Verif.Props.Arbiter

namespace Corundum.ArbMux

variable {α : Type} {c : Cfg} {ins : Nat → In α}

theorem bits_lt (n : Nat) (f : Nat → Bool) : bits n f < 2 ^ n := by
  induction n with
  | zero => simp [bits]
  | succ n ih => unfold bits; rw [Nat.pow_succ]; split <;> omega

theorem bits_bit (n : Nat) (f : Nat → Bool) (j : Nat) : (bits n f).testBit j = (decide (j < n) && f j) := by
  induction n with
  | zero => simp [bits]
  | succ n ih =>
    unfold bits
    have hlt := bits_lt n f
    by_cases hf : f n = true
    · rw [if_pos hf, Nat.add_comm]
      by_cases h : j = n
      · subst h
        rw [Nat.testBit_two_pow_add_eq, Nat.testBit_lt_two_pow hlt, hf]; simp
      · by_cases h2 : j < n
        · rw [Nat.testBit_two_pow_add_gt h2, ih]; simp [h2, show j < n + 1 by omega]
        · rw [Nat.testBit_lt_two_pow (Nat.lt_of_lt_of_le (show 2 ^ n + bits n f < 2 ^ (n + 1) by rw [Nat.pow_succ]; omega) (Nat.pow_le_pow_right (by omega) (by omega)))]
          simp [show ¬ j < n + 1 by omega]
    · rw [if_neg hf, Nat.add_zero, ih]
      by_cases h : j = n
      · subst h; simp at hf; simp [hf]
      · have : decide (j < n + 1) = decide (j < n) := by rw [decide_eq_decide]; omega
        rw [this]

/-! ### arbiter -/

structure Inv (c : Cfg) (s : St α) : Prop where
  good : Arbiter.Good c.arb s.arb
  temp : s.out.ready = true → s.out.temp = none

theorem inv_init : Inv c (init : St α) := ⟨⟨by simp [init, Arbiter.init], by simp [init, Arbiter.init]⟩, by simp [init]⟩

theorem skid_temp {β : Type} {e : Bool} {s : Skid β} {o : Option β} {r : Bool} (h : s.ready = true → s.temp = none) : (s.step e o r).ready = true → (s.step e o r).temp = none := by
  unfold Skid.step
  obtain ⟨rd, m, t⟩ := s
  cases rd <;> cases r <;> cases m <;> cases t <;> cases o <;> cases e <;> simp_all

theorem inv_step {s : St α} {i : In α} (I : Inv c s) : Inv c (step c s i) := ⟨Arbiter.step_good _ _ _ I.good, skid_temp I.temp⟩

theorem inv_st (n : Nat) : Inv c (st c ins n) := by
  induction n with
  | zero => exact inv_init
  | succ n ih => exact inv_step ih

theorem grant_bit {s : St α} (I : Inv c s) (p : Nat) : s.arb.grant.testBit p = (s.arb.valid && decide (p = s.arb.enc)) := by
  cases hv : s.arb.valid
  · rw [(I.good.2 hv).1]; simp
  · rw [(I.good.1 hv).2, Nat.testBit_two_pow]; simp [eq_comm]

/-- what passes comes from the granted input and empties its register -/
theorem pass_some {s : St α} {x : Nat × Beat α} (h : pass s = some x) : s.out.ready = true ∧ s.arb.valid = true ∧ s.arb.enc = x.1 ∧ s.reg x.1 = some x.2 := by
  unfold pass at h
  split at h
  · rename_i hr
    rw [Bool.and_eq_true] at hr
    cases hb : s.reg s.arb.enc with
    | none => rw [hb] at h; cases h
    | some b =>
      rw [hb] at h
      simp only [Option.map_some, Option.some.injEq] at h
      subst h
      exact ⟨hr.1, hr.2, rfl, hb⟩
  · cases h

theorem pass_of {s : St α} (h1 : s.out.ready = true) (h2 : s.arb.valid = true) {b : Beat α} (h3 : s.reg s.arb.enc = some b) : pass s = some (s.arb.enc, b) := by
  unfold pass; rw [h1, h2, h3]; rfl

theorem sready_iff {s : St α} (I : Inv c s) (p : Nat) : sready s p = true ↔ s.reg p = none ∨ ∃ b, pass s = some (p, b) := by
  unfold sready
  rw [grant_bit I]
  cases hr : s.reg p with
  | none => simp
  | some b =>
    simp only [Option.isNone_some, Bool.false_or, Bool.and_eq_true, decide_eq_true_eq, false_or, reduceCtorEq]
    constructor
    · rintro ⟨h1, h2, h3⟩
      subst h3
      exact ⟨b, pass_of h1 h2 hr⟩
    · rintro ⟨b', h⟩
      obtain ⟨h1, h2, h3, _⟩ := pass_some h
      exact ⟨h1, h2, h3.symm⟩

theorem ack_bit {s : St α} (I : Inv c s) : (ack c s).testBit s.arb.enc = true ↔ s.arb.enc < c.ports ∧ ∃ b, pass s = some (s.arb.enc, b) ∧ (c.frames = true → b.last = true) := by
  unfold ack
  rw [bits_bit, Bool.and_eq_true, decide_eq_true_eq]
  refine and_congr_right fun _ => ?_
  cases hr : s.reg s.arb.enc with
  | none =>
    simp only [Bool.false_eq_true, false_iff]
    rintro ⟨b, h, _⟩
    have := (pass_some h).2.2.2
    rw [hr] at this; cases this
  | some b =>
    simp only [grant_bit I, Bool.and_eq_true, Bool.or_eq_true, Bool.not_eq_true', decide_true, and_true]
    constructor
    · rintro ⟨⟨h1, h2⟩, h3⟩
      refine ⟨b, pass_of h2 h1 hr, fun h => ?_⟩
      rcases h3 with q | q
      · rw [h] at q; cases q
      · exact q
    · rintro ⟨b', h, hl⟩
      obtain ⟨h1, h2, _, h4⟩ := pass_some h
      rw [hr] at h4
      cases h4
      refine ⟨⟨h2, h1⟩, ?_⟩
      cases hf : c.frames
      · exact Or.inl rfl
      · exact Or.inr (hl hf)

/-- the grant is held unless the end of a frame passes -/
theorem hold_iff {s : St α} {i : In α} (I : Inv c s) : Arbiter.hold c.arb s.arb { req := req c s i, ack := ack c s } = true ↔
    s.arb.valid = true ∧ ∀ b, pass s = some (s.arb.enc, b) → c.frames = true ∧ b.last = false := by
  rw [Arbiter.C32_blocking _ _ _ I.good]
  show (true && s.arb.valid && !(ack c s).testBit s.arb.enc) = true ↔ _
  rw [Bool.true_and, Bool.and_eq_true, Bool.not_eq_true']
  refine and_congr_right fun hv => ?_
  have he : s.arb.enc < c.ports := (I.good.1 hv).1
  have := ack_bit I
  constructor
  · intro h b hb
    have hn : ¬ (ack c s).testBit s.arb.enc = true := by rw [h]; simp
    rw [this] at hn
    cases hf : c.frames
    · exact absurd ⟨he, b, hb, fun q => by rw [hf] at q; cases q⟩ hn
    · refine ⟨rfl, ?_⟩
      cases hl : b.last
      · rfl
      · exact absurd ⟨he, b, hb, fun _ => hl⟩ hn
  · intro h
    cases hb : (ack c s).testBit s.arb.enc
    · rfl
    · obtain ⟨_, b, hp, hl⟩ := this.1 hb
      obtain ⟨q1, q2⟩ := h b hp
      rw [hl q1] at q2; cases q2

/-! ### nothing lost, order kept -/

def inOut (s : St α) : List (Nat × Beat α) := s.out.m.toList ++ s.out.temp.toList

theorem skid_flow {β : Type} {e : Bool} {s : Skid β} {o : Option β} {r : Bool} (h : s.ready = true → s.temp = none) (ho : s.ready = false → o = none) :
    (if r then s.m.toList else []) ++ ((s.step e o r).m.toList ++ (s.step e o r).temp.toList) = s.m.toList ++ s.temp.toList ++ o.toList := by
  unfold Skid.step
  obtain ⟨rd, m, t⟩ := s
  cases rd <;> cases r <;> cases m <;> cases t <;> cases o <;> simp_all

theorem pass_ready {s : St α} : s.out.ready = false → pass s = none := by
  intro h; unfold pass; rw [h]; rfl

theorem flow (n : Nat) : delivered c ins (n + 1) ++ inOut (st c ins (n + 1)) = delivered c ins n ++ inOut (st c ins n) ++ (pass (st c ins n)).toList := by
  have := skid_flow (e := c.eager) (s := (st c ins n).out) (o := pass (st c ins n)) (r := (ins n).mready) (inv_st n).temp pass_ready
  show (delivered c ins n ++ _) ++ (((st c ins n).out.step c.eager (pass (st c ins n)) (ins n).mready).m.toList ++ ((st c ins n).out.step c.eager (pass (st c ins n)) (ins n).mready).temp.toList) = _
  rw [List.append_assoc, this]
  simp only [inOut, List.append_assoc]

theorem ofPort_append (p : Nat) (a b : List (Nat × Beat α)) : ofPort p (a ++ b) = ofPort p a ++ ofPort p b := List.filterMap_append

theorem accepted_eq (p : Nat) (n : Nat) : accepted c ins p n = ofPort p (delivered c ins n ++ inOut (st c ins n)) ++ ((st c ins n).reg p).toList := by
  induction n with
  | zero => rfl
  | succ n ih =>
    rw [flow, ofPort_append]
    show accepted c ins p n ++ _ = _ ++ (if sready (st c ins n) p then (ins n).offer p else (st c ins n).reg p).toList
    rw [ih]
    by_cases h : sready (st c ins n) p = true
    · rw [if_pos h, if_pos h]
      rcases (sready_iff (inv_st n) p).1 h with h | ⟨b, h⟩
      · have : ofPort p (pass (st c ins n)).toList = [] := by
          cases hp : pass (st c ins n) with
          | none => rfl
          | some x =>
            have := (pass_some hp).2.2.2
            by_cases he : x.1 = p
            · rw [he, h] at this; cases this
            · simp [ofPort, he]
        rw [h, this]; simp
      · have e := (pass_some h).2.2.2
        rw [h, show (st c ins n).reg p = some b from e]; simp [ofPort]
    · rw [if_neg h, if_neg h]
      have : ofPort p (pass (st c ins n)).toList = [] := by
        cases hp : pass (st c ins n) with
        | none => rfl
        | some x =>
          by_cases he : x.1 = p
          · refine absurd ((sready_iff (inv_st n) p).2 (Or.inr ⟨x.2, ?_⟩)) h
            rw [hp, ← he]
          · simp [ofPort, he]
      rw [this]; simp

/-! ### frames -/

theorem whole_snoc : ∀ (l : List (Nat × Beat α)) (x : Nat × Beat α), Whole l → (∀ y, l.getLast? = some y → y.2.last = false → x.1 = y.1) → Whole (l ++ [x])
  | [], _, _, _ => trivial
  | [a], x, _, h => ⟨h a rfl, trivial⟩
  | a :: b :: l, x, hw, h => by
    refine ⟨hw.1, ?_⟩
    exact whole_snoc (b :: l) x hw.2 (fun y hy => h y (by rw [List.getLast?_cons_cons]; exact hy))

theorem whole_prefix : ∀ (l r : List (Nat × Beat α)), Whole (l ++ r) → Whole l
  | [], _, _ => trivial
  | [_], _, _ => trivial
  | a :: b :: l, r, h => ⟨h.1, whole_prefix (b :: l) r h.2⟩

theorem frames_inv (hf : c.frames = true) (n : Nat) : Whole (delivered c ins n ++ inOut (st c ins n)) ∧
    ∀ y, (delivered c ins n ++ inOut (st c ins n)).getLast? = some y → y.2.last = false → (st c ins n).arb.valid = true ∧ (st c ins n).arb.enc = y.1 := by
  induction n with
  | zero => exact ⟨trivial, fun y h => by cases h⟩
  | succ n ih =>
    obtain ⟨i1, i2⟩ := ih
    rw [flow]
    have I := inv_st (c := c) (ins := ins) n
    have hold : ∀ (y : Nat × Beat α), (st c ins n).arb.valid = true → (∀ b, pass (st c ins n) = some ((st c ins n).arb.enc, b) → b.last = false) → (st c ins (n + 1)).arb = (st c ins n).arb := by
      intro y h1 h2
      have h := (hold_iff (i := ins n) I).2 ⟨h1, fun b hb => ⟨hf, h2 b hb⟩⟩
      show Arbiter.step c.arb (st c ins n).arb { req := req c (st c ins n) (ins n), ack := ack c (st c ins n) } = _
      simp [Arbiter.step, h]
    cases hp : pass (st c ins n) with
    | none =>
      rw [Option.toList_none, List.append_nil]
      refine ⟨i1, fun y h1 h2 => ?_⟩
      obtain ⟨a, b⟩ := i2 y h1 h2
      rw [hold y a (fun b hb => by rw [hp] at hb; cases hb)]
      exact ⟨a, b⟩
    | some x =>
      obtain ⟨q1, q2, q3, q4⟩ := pass_some hp
      rw [Option.toList_some]
      refine ⟨whole_snoc _ _ i1 (fun y h1 h2 => by rw [← q3]; exact (i2 y h1 h2).2), fun y h1 h2 => ?_⟩
      rw [List.getLast?_append, List.getLast?_singleton, Option.some_or] at h1
      cases h1
      rw [hold x q2 (fun b hb => by rw [hp] at hb; cases hb; exact h2)]
      exact ⟨q2, q3⟩

end Corundum.ArbMux
