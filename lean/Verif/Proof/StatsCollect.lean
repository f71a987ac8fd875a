import Verif.Spec.StatsCollect
import Verif.Proof.CplWrite

namespace Corundum.StatsCollect
open Corundum.CplWrite (upd upd_same upd_ne)

theorem le_clog2 (n : Nat) : n ≤ 2 ^ RxHash.clog2 n := by
  unfold RxHash.clog2
  split
  · omega
  · have := Nat.lt_log2_self (n := n - 1)
    omega

theorem sumFor_append (a b : List (Nat × Nat)) (j : Nat) : sumFor (a ++ b) j = sumFor a j + sumFor b j := by
  unfold sumFor; rw [List.filter_append, List.map_append, List.sum_append]

theorem sumFor_one (k d j : Nat) : sumFor [(k, d)] j = if k = j then d else 0 := by
  unfold sumFor
  by_cases h : k = j
  · subst h; simp
  · simp [h]

theorem sumFor_nil (j : Nat) : sumFor [] j = 0 := rfl

/-- the part of a counter kept in the memory -/
def part (s : S) (j : Nat) : Nat := if s.zero j then 0 else s.mem j

/-- cycles since the accumulator was last cleared -/
def age (P : Params) (s : S) (j : Nat) : Nat :=
  if j < s.count then 2 * (s.count - j) + s.wr.toNat - 1 else 2 * (s.count + P.n - j) + s.wr.toNat - 1

structure Inv (P : Params) (s : S) : Prop where
  cnt : s.count < P.n
  rdok : s.wr = true → s.rd = s.mem s.count
  acc : ∀ j, j < P.n → s.acc j ≤ age P s j * (2 ^ P.iw - 1)
  timer : s.timer ≤ (P.period - 1) % 2 ^ P.pw

theorem age_le {P : Params} {s : S} {j : Nat} (hc : s.count < P.n) (hj : j < P.n) : 1 ≤ age P s j ∧ age P s j ≤ 2 * P.n ∧
    (age P s j = 2 * P.n ↔ s.wr = true ∧ s.count = j) := by
  unfold age
  have hb := Bool.toNat_le s.wr
  by_cases h : j < s.count
  · rw [if_pos h]
    refine ⟨by omega, by omega, ⟨fun _ => by omega, fun _ => by omega⟩⟩
  · rw [if_neg h]
    refine ⟨by omega, by omega, ⟨fun e => ?_, fun e => ?_⟩⟩
    · cases hw : s.wr with
      | true => rw [hw] at e; have e : 2 * (s.count + P.n - j) + 1 - 1 = _ := e; exact ⟨rfl, by omega⟩
      | false => rw [hw] at e; have e : 2 * (s.count + P.n - j) + 0 - 1 = _ := e; omega
    · rw [e.1, e.2]; show 2 * (j + P.n - j) + 1 - 1 = _; omega

theorem age_next {P : Params} {s : S} {i : In} {j : Nat} (hc : s.count < P.n) (hj : j < P.n) :
    age P (next P s i) j = if s.wr && j == s.count then 1 else age P s j + 1 := by
  have h1 : (next P s i).wr = !s.wr := rfl
  have h2 : (next P s i).count = if s.wr then (if s.count = P.n - 1 then 0 else s.count + 1) else s.count := rfl
  unfold age
  rw [h1, h2]
  cases hw : s.wr with
  | false =>
    simp only [Bool.false_eq_true, if_false, Bool.not_false, Bool.toNat_true, Bool.toNat_false, Bool.false_and]
    split <;> omega
  | true =>
    simp only [if_true, Bool.not_true, Bool.toNat_true, Bool.toNat_false, Bool.true_and, beq_iff_eq]
    by_cases hl : s.count = P.n - 1
    · rw [if_pos hl]
      by_cases hjc : j = s.count
      · rw [if_pos hjc, if_neg (by omega)]; omega
      · rw [if_neg hjc, if_neg (by omega), if_pos (by omega)]; omega
    · rw [if_neg hl]
      by_cases hjc : j = s.count
      · rw [if_pos hjc, if_pos (by omega)]; omega
      · rw [if_neg hjc]
        by_cases hlt : j < s.count
        · rw [if_pos hlt, if_pos (by omega)]; omega
        · rw [if_neg hlt, if_neg (by omega)]; omega

theorem acc_fits {P : Params} {a x k : Nat} (hk : k + 1 ≤ 2 * P.n) (ha : a ≤ k * (2 ^ P.iw - 1)) (hx : x < 2 ^ P.iw) : a + x ≤ (k + 1) * (2 ^ P.iw - 1) ∧ a + x < 2 ^ P.aw := by
  have h1 : a + x ≤ (k + 1) * (2 ^ P.iw - 1) := by rw [Nat.add_mul]; omega
  refine ⟨h1, ?_⟩
  have h2 : (k + 1) * (2 ^ P.iw - 1) ≤ 2 * P.n * (2 ^ P.iw - 1) := Nat.mul_le_mul_right _ hk
  have h3 : 2 * P.n ≤ 2 * 2 ^ RxHash.clog2 P.n := Nat.mul_le_mul_left _ (le_clog2 _)
  have h4 : 2 * P.n * (2 ^ P.iw - 1) < 2 * P.n * 2 ^ P.iw := Nat.mul_lt_mul_of_pos_left (by omega) (by omega)
  have h5 : 2 * P.n * 2 ^ P.iw ≤ 2 * 2 ^ RxHash.clog2 P.n * 2 ^ P.iw := Nat.mul_le_mul_right _ h3
  have h6 : 2 ^ P.aw = 2 * 2 ^ RxHash.clog2 P.n * 2 ^ P.iw := by
    unfold Params.aw
    rw [Nat.pow_add, Nat.pow_add, Nat.pow_one, Nat.mul_comm, Nat.mul_comm (2 ^ P.iw), Nat.mul_assoc]
  omega

theorem acc_next {P : Params} {s : S} {i : In} {j : Nat} (h : Inv P s) (hf : Fits P i) (hj : j < P.n) :
    (next P s i).acc j = (if s.wr && j == s.count then 0 else s.acc j) + (i.inc j).getD 0 ∧
    (next P s i).acc j ≤ age P (next P s i) j * (2 ^ P.iw - 1) := by
  rw [age_next h.cnt hj]
  obtain ⟨a1, a2, a3⟩ := age_le h.cnt hj
  have ha := h.acc j hj
  show accNext P (s.wr && j == s.count) (s.acc j) (i.inc j) = _ ∧ accNext P (s.wr && j == s.count) (s.acc j) (i.inc j) ≤ _
  unfold accNext
  cases hc : (s.wr && j == s.count) with
  | true =>
    cases hi : i.inc j with
    | none => simp
    | some x => have := hf j x hi; simp; omega
  | false =>
    have hne : age P s j ≠ 2 * P.n := by
      intro e
      obtain ⟨e1, e2⟩ := a3.mp e
      rw [e1, e2] at hc; simp at hc
    cases hi : i.inc j with
    | none =>
      simp only [Bool.false_eq_true, if_false]
      refine ⟨rfl, ?_⟩
      rw [Nat.add_mul]; omega
    | some x =>
      have := acc_fits (P := P) (a := s.acc j) (x := x) (k := age P s j) (by omega) ha (hf j x hi)
      simp only [Bool.false_eq_true, if_false]
      rw [Nat.mod_eq_of_lt this.2]
      exact ⟨rfl, this.1⟩

theorem inv_step {P : Params} {s : S} {i : In} (h : Inv P s) (hf : Fits P i) : Inv P (next P s i) := by
  refine ⟨?_, fun hw => ?_, fun j hj => (acc_next h hf hj).2, ?_⟩
  · show (if s.wr then (if s.count = P.n - 1 then 0 else s.count + 1) else s.count) < P.n
    have := h.cnt
    repeat' split
    all_goals omega
  · have hw : (!s.wr) = true := hw
    have hw : s.wr = false := by simpa using hw
    show (if s.wr then s.rd else s.mem s.count) = (if s.wr then upd s.mem s.count _ else s.mem) (if s.wr then _ else s.count)
    rw [hw]; rfl
  · show (if s.timer = 0 then (P.period - 1) % 2 ^ P.pw else s.timer - 1) ≤ _
    have := h.timer
    split <;> omega

theorem inv_init (P : Params) (hn : 0 < P.n) (mem : Nat → Nat) : Inv P (init P mem) :=
  ⟨hn, fun h => (by cases h), fun _ _ => Nat.zero_le _, Nat.le_refl _⟩

theorem sum_eq {P : Params} {s : S} (h : Inv P s) (hw : s.wr = true) : sum s = part s s.count + s.acc s.count := by
  unfold sum part
  rw [h.rdok hw]
  cases s.zero s.count <;> simp

/-- what one clock edge does to the books of a counter -/
theorem books {P : Params} {x : Sys} {i : In} (h : Inv P x.s) (hf : Fits P i) {j : Nat} (hj : j < P.n) :
    let v := part x.s j + x.s.acc j
    let y := step P x i
    if x.s.wr && j == x.s.count then
      if emit x.s then reported y j = reported x j + v % 2 ^ P.sw ∧ part y.s j + y.s.acc j = (i.inc j).getD 0
      else reported y j = reported x j ∧ part y.s j + y.s.acc j = v % 2 ^ P.sw + (i.inc j).getD 0
    else reported y j = reported x j ∧ part y.s j + y.s.acc j = v + (i.inc j).getD 0 := by
  intro v y
  have hacc := (acc_next h hf hj).1
  have hacc : y.s.acc j = _ := hacc
  have hrep0 : emit x.s = false → reported y j = reported x j := by
    intro he
    show sumFor ((x.g.outs ++ (if x.s.valid && i.ready then [(x.s.id, x.s.data)] else [])) ++ if (if emit x.s then decide (sum x.s ≠ 0) else x.s.valid && !i.ready) then
      [((if emit x.s then x.s.count else x.s.id), (if emit x.s then sum x.s % 2 ^ P.sw else x.s.data))] else []) j = sumFor (x.g.outs ++ if x.s.valid then [(x.s.id, x.s.data)] else []) j
    rw [he]
    simp only [Bool.false_eq_true, if_false, sumFor_append]
    cases x.s.valid <;> cases i.ready <;> simp [sumFor_nil]
  have hrep1 : emit x.s = true → reported y j = reported x j + if x.s.count = j then sum x.s % 2 ^ P.sw else 0 := by
    intro he
    have hv : x.s.valid = false := by
      unfold emit at he
      simp only [Bool.and_eq_true, Bool.not_eq_true'] at he
      exact he.1.2
    show sumFor ((x.g.outs ++ (if x.s.valid && i.ready then [(x.s.id, x.s.data)] else [])) ++ if (if emit x.s then decide (sum x.s ≠ 0) else x.s.valid && !i.ready) then
      [((if emit x.s then x.s.count else x.s.id), (if emit x.s then sum x.s % 2 ^ P.sw else x.s.data))] else []) j = sumFor (x.g.outs ++ if x.s.valid then [(x.s.id, x.s.data)] else []) j + _
    rw [he, hv]
    simp only [if_true, Bool.false_and, Bool.false_eq_true, if_false, List.append_nil, sumFor_append, decide_eq_true_eq]
    by_cases hz : sum x.s = 0
    · rw [if_neg (fun hc => hc hz), hz]; simp [sumFor_nil]
    · rw [if_pos hz, sumFor_one]
  have hpart : part y.s j = if x.s.wr && j == x.s.count then (if emit x.s then 0 else sum x.s % 2 ^ P.sw) else part x.s j := by
    show (if (if x.s.wr then upd x.s.zero x.s.count false else x.s.zero) j then 0 else (if x.s.wr then upd x.s.mem x.s.count (if emit x.s then 0 else sum x.s % 2 ^ P.sw) else x.s.mem) j) = _
    cases hw : x.s.wr with
    | false => rfl
    | true =>
      by_cases hc : j = x.s.count
      · subst hc; simp [upd_same]
      · simp only [if_true, Bool.true_and]
        have hb : (j == x.s.count) = false := by simpa using hc
        rw [upd_ne _ _ _ _ hc, upd_ne _ _ _ _ hc, hb]
        rfl
  cases hwc : (x.s.wr && j == x.s.count) with
  | false =>
    rw [hwc] at hacc hpart
    simp only [Bool.false_eq_true, if_false] at hacc hpart ⊢
    refine ⟨?_, by rw [hacc, hpart]; omega⟩
    cases he : emit x.s with
    | false => exact hrep0 he
    | true =>
      rw [hrep1 he, if_neg]
      · rfl
      · intro e
        unfold emit at he
        simp only [Bool.and_eq_true] at he
        rw [he.1.1, e] at hwc
        simp at hwc
  | true =>
    rw [hwc] at hacc hpart
    simp only [Bool.and_eq_true, beq_iff_eq] at hwc
    have hs : sum x.s = v := by rw [sum_eq h hwc.1, ← hwc.2]
    simp only [if_true] at hacc hpart ⊢
    cases he : emit x.s with
    | false =>
      rw [he] at hpart
      simp only [Bool.false_eq_true, if_false] at hpart ⊢
      exact ⟨hrep0 he, by rw [hacc, hpart, hs]; omega⟩
    | true =>
      rw [he] at hpart
      simp only [if_true] at hpart ⊢
      refine ⟨?_, by rw [hacc, hpart]; omega⟩
      rw [hrep1 he, if_pos hwc.2.symm, hs]

theorem total_step (P : Params) (x : Sys) (i : In) (j : Nat) : (step P x i).g.total j = x.g.total j + (i.inc j).getD 0 := rfl

/-- nothing is lost up to multiples of `2 ^ STAT_INC_WIDTH` -/
theorem cons_mod {P : Params} (is : List In) : ∀ (x : Sys), Inv P x.s → (∀ i ∈ is, Fits P i) → ∀ j, j < P.n →
    (reported x j + (part x.s j + x.s.acc j)) % 2 ^ P.sw = x.g.total j % 2 ^ P.sw →
    (reported (run P x is) j + (part (run P x is).s j + (run P x is).s.acc j)) % 2 ^ P.sw = (run P x is).g.total j % 2 ^ P.sw := by
  induction is with
  | nil => intro x _ _ j _ hc; exact hc
  | cons i is ih =>
    intro x h hf j hj hc
    have hfi := hf i (by simp)
    refine ih (step P x i) (inv_step h hfi) (fun k hk => hf k (by simp [hk])) j hj ?_
    have hb := books h hfi hj
    rw [total_step]
    rw [Nat.add_mod (x.g.total j), ← hc, ← Nat.add_mod]
    dsimp only at hb
    split at hb
    · split at hb
      · obtain ⟨h1, h2⟩ := hb
        rw [h1, h2, Nat.add_right_comm, Nat.add_assoc (reported x j) _ ((part x.s j + x.s.acc j) % _), Nat.add_comm (i.inc j |>.getD 0), ← Nat.add_assoc,
          Nat.add_assoc, Nat.add_assoc (reported x j), Nat.add_mod, Nat.add_mod ((part x.s j + x.s.acc j) % _), Nat.mod_mod, ← Nat.add_mod (part x.s j + x.s.acc j), ← Nat.add_mod]
      · obtain ⟨h1, h2⟩ := hb
        rw [h1, h2, Nat.add_assoc (reported x j), Nat.add_mod, Nat.add_mod ((part x.s j + x.s.acc j) % _), Nat.mod_mod, ← Nat.add_mod (part x.s j + x.s.acc j), ← Nat.add_mod]
    · obtain ⟨h1, h2⟩ := hb
      rw [h1, h2]; congr 1; omega

/-- nothing is lost if the sums fit -/
theorem cons_exact {P : Params} (is : List In) : ∀ (x : Sys), Inv P x.s → (∀ i ∈ is, Fits P i) → ∀ j, j < P.n → Calm P j x is →
    reported x j + (part x.s j + x.s.acc j) = x.g.total j →
    reported (run P x is) j + (part (run P x is).s j + (run P x is).s.acc j) = (run P x is).g.total j := by
  induction is with
  | nil => intro x _ _ j _ _ hc; exact hc
  | cons i is ih =>
    rintro x h hf j hj ⟨hca, hcb⟩ hc
    have hfi := hf i (by simp)
    refine ih (step P x i) (inv_step h hfi) (fun k hk => hf k (by simp [hk])) j hj hcb ?_
    have hb := books h hfi hj
    rw [total_step]
    dsimp only at hb
    rw [Nat.mod_eq_of_lt (show part x.s j + x.s.acc j < 2 ^ P.sw by omega)] at hb
    split at hb
    · split at hb
      · omega
      · omega
    · omega

theorem inv_run {P : Params} (is : List In) : ∀ (x : Sys), Inv P x.s → (∀ i ∈ is, Fits P i) → Inv P (run P x is).s := by
  induction is with
  | nil => intro x h _; exact h
  | cons i is ih => intro x h hf; exact ih _ (inv_step h (hf i (by simp))) fun k hk => hf k (by simp [hk])

theorem run_append (P : Params) (x : Sys) (a b : List In) : run P x (a ++ b) = run P (run P x a) b := List.foldl_append

/-! ### Promptness -/

/-- the next visit of counter `j` is `d` cycles away -/
theorem visit {P : Params} {j : Nat} (hj : j < P.n) {s : S} {i : In} (hc : s.count < P.n) (hv : ¬ (s.wr = true ∧ s.count = j)) :
    age P (next P s i) j = age P s j + 1 := by
  rw [age_next hc hj, if_neg]
  intro e
  simp only [Bool.and_eq_true, beq_iff_eq] at e
  exact hv ⟨e.1, e.2.symm⟩

theorem due_keep {P : Params} {s : S} {i : In} {j : Nat} (hv : ¬ (s.wr = true ∧ s.count = j)) (hd : s.due j = true) : (next P s i).due j = true := by
  show (if i.update || s.timer == 0 then fun _ => true else if emit s then upd s.due s.count false else s.due) j = true
  split
  · rfl
  · split
    · rename_i he
      unfold emit at he
      simp only [Bool.and_eq_true] at he
      rw [upd_ne _ _ _ _ (fun e => hv ⟨he.1.1, e.symm⟩)]; exact hd
    · exact hd

theorem reported_mono {P : Params} {x : Sys} {i : In} (h : Inv P x.s) (hf : Fits P i) {j : Nat} (hj : j < P.n) : reported x j ≤ reported (step P x i) j := by
  have hb := books h hf hj
  dsimp only at hb
  split at hb
  · split at hb <;> omega
  · omega

theorem reported_mono_run {P : Params} (is : List In) : ∀ {x : Sys}, Inv P x.s → (∀ i ∈ is, Fits P i) → ∀ {j : Nat}, j < P.n → reported x j ≤ reported (run P x is) j := by
  induction is with
  | nil => intro x _ _ j _; exact Nat.le_refl _
  | cons i is ih =>
    intro x h hf j hj
    exact Nat.le_trans (reported_mono h (hf i (by simp)) hj) (ih (inv_step h (hf i (by simp))) (fun k hk => hf k (by simp [hk])) hj)

/-- with a ready receiver the output is free at every visit -/
theorem free_next {P : Params} {s : S} {i : In} (hr : i.ready = true) (hw : (next P s i).wr = true) : (next P s i).valid = false := by
  have hw : (!s.wr) = true := hw
  have hw : s.wr = false := by simpa using hw
  show (if emit s then decide (sum s ≠ 0) else s.valid && !i.ready) = false
  unfold emit
  rw [hw, hr]
  cases s.valid <;> rfl

/-- a counter that is due is reported within one round -/
theorem reports {P : Params} (is : List In) : ∀ (x : Sys), Inv P x.s → (∀ i ∈ is, Fits P i) → (∀ i ∈ is, i.ready = true) → ∀ j, j < P.n →
    x.s.due j = true → (x.s.wr = true → x.s.valid = false) → Calm P j x is → reported x j + (part x.s j + x.s.acc j) = x.g.total j →
    2 * P.n < is.length + age P x.s j → x.g.total j ≤ reported (run P x is) j := by
  induction is with
  | nil =>
    intro x h _ _ j hj _ _ _ _ hl
    have := (age_le h.cnt hj).2.1
    exact absurd hl (by show ¬ _ < 0 + _; omega)
  | cons i is ih =>
    rintro x h hf hr j hj hd hv ⟨hca, hcb⟩ hc hl
    have hfi := hf i (by simp)
    have hfr : ∀ k ∈ is, Fits P k := fun k hk => hf k (by simp [hk])
    have hmono := reported_mono_run is (x := step P x i) (inv_step h hfi) hfr hj
    have hb := books h hfi hj
    by_cases hvis : x.s.wr = true ∧ x.s.count = j
    · have hem : emit x.s = true := by
        unfold emit
        rw [hvis.1, hv hvis.1, hvis.2, hd]; rfl
      dsimp only at hb
      rw [if_pos (by rw [hvis.1, hvis.2]; simp), if_pos hem, Nat.mod_eq_of_lt (show part x.s j + x.s.acc j < 2 ^ P.sw by omega)] at hb
      exact Nat.le_trans (show x.g.total j ≤ _ by omega) hmono
    · have hwc : ¬ ((x.s.wr && j == x.s.count) = true) := by
        intro e
        simp only [Bool.and_eq_true, beq_iff_eq] at e
        exact hvis ⟨e.1, e.2.symm⟩
      dsimp only at hb
      rw [if_neg hwc] at hb
      have hage := visit (i := i) hj h.cnt hvis
      have := ih (step P x i) (inv_step h hfi) hfr (fun k hk => hr k (by simp [hk])) j hj (due_keep hvis hd) (free_next (hr i (by simp))) hcb
        (by rw [total_step]; omega) (by rw [List.length_cons] at hl; show _ < is.length + age P (next P x.s i) j; omega)
      rw [total_step] at this
      exact Nat.le_trans (Nat.le_add_right _ _) this

theorem calm_append {P : Params} {j : Nat} (a : List In) : ∀ {x : Sys} {b : List In}, Calm P j x (a ++ b) → Calm P j (run P x a) b := by
  induction a with
  | nil => intro x b h; exact h
  | cons i a ih => rintro x b ⟨_, h⟩; exact ih h

theorem calm_left {P : Params} {j : Nat} (a : List In) : ∀ {x : Sys} {b : List In}, Calm P j x (a ++ b) → Calm P j x a := by
  induction a with
  | nil =>
    intro x b h
    cases b with
    | nil => exact h
    | cons i b => exact h.1
  | cons i a ih => rintro x b ⟨h0, h⟩; exact ⟨h0, ih h⟩

theorem total_mono {P : Params} (is : List In) (j : Nat) : ∀ (x : Sys), x.g.total j ≤ (run P x is).g.total j := by
  induction is with
  | nil => intro x; exact Nat.le_refl _
  | cons i is ih => intro x; exact Nat.le_trans (by rw [total_step]; omega) (ih (step P x i))

/-- the timer makes every counter due -/
theorem timer_due {P : Params} (is : List In) : ∀ (x : Sys), is.length = x.s.timer + 1 → ∀ j, (run P x is).s.due j = true := by
  induction is with
  | nil => intro x hl; simp at hl
  | cons i is ih =>
    intro x hl j
    by_cases ht : x.s.timer = 0
    · have : is = [] := by rw [ht] at hl; simpa using hl
      subst this
      show (if i.update || x.s.timer == 0 then fun _ => true else _) j = true
      rw [ht]; simp
    · refine ih (step P x i) ?_ j
      show _ = (if x.s.timer = 0 then (P.period - 1) % 2 ^ P.pw else x.s.timer - 1) + 1
      rw [if_neg ht]
      rw [List.length_cons] at hl
      omega

end Corundum.StatsCollect
