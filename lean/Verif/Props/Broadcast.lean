import Verif.Model.Broadcast
/-!
C157: every output of the broadcaster gets every beat of the input once and in order.
-/
namespace Corundum.Broadcast
variable {m : Nat} {α : Type}

/-- beats inside that an output has still to get -/
def inside (s : St m α) (k : Fin m) : List α := (if s.valid k then [s.data] else []) ++ (if s.tvalid then [s.tdata] else [])

/-- the input is ready only with the second register free -/
def Inv (s : St m α) : Prop := s.ready = true → s.tvalid = false

theorem taken_iff (s : St m α) (i : In m α) : taken s i = true ↔ ∀ k, s.valid k = true → i.ready k = true := by
  unfold taken
  rw [decide_eq_true_eq]
  constructor
  · intro h k hk
    have := h k
    rw [hk, Bool.and_true] at this
    exact this
  · intro h k
    cases hk : s.valid k
    · simp
    · simp [h k hk]

theorem empty_iff (s : St m α) : empty s = true ↔ ∀ k, s.valid k = false := by
  unfold empty
  rw [decide_eq_true_eq]

theorem empty_taken (s : St m α) (i : In m α) (h : empty s = true) : taken s i = true := by
  rw [taken_iff]
  intro k hk
  rw [(empty_iff s).mp h k] at hk
  cases hk

theorem inv_step (s : St m α) (i : In m α) (h : Inv s) : Inv (step s i) := by
  have he := empty_taken s i
  unfold Inv step at *
  cases hr : s.ready <;> cases ht : taken s i <;> cases hv : s.tvalid <;> cases hm : empty s <;> cases hi : i.valid <;> simp_all

theorem step_inside (s : St m α) (i : In m α) (h : Inv s) (k : Fin m) :
    inside s k ++ (if i.valid && s.ready then [i.data] else []) = (if s.valid k && i.ready k then [s.data] else []) ++ inside (step s i) k := by
  have he := empty_taken s i
  have ht := (taken_iff s i).mp
  unfold Inv at h
  unfold inside step
  cases hr : s.ready
  · cases hc : taken s i
    · cases hk : s.valid k <;> cases hi : i.ready k <;> simp [hk, hi]
    · have := ht hc k
      cases hk : s.valid k <;> cases hv : s.tvalid <;> simp_all
  · have hv := h hr
    cases hc : taken s i
    · have hm : empty s = false := by
        cases hm : empty s
        · rfl
        · rw [he hm] at hc; cases hc
      cases hk : s.valid k <;> cases hi : i.ready k <;> cases hx : i.valid <;> simp [hk, hi, hv, hm, hx]
    · have := ht hc k
      cases hk : s.valid k <;> cases hx : i.valid <;> simp_all

theorem run_inside : ∀ (is : List (In m α)) (s : St m α), Inv s → ∀ k,
    inside s k ++ accepted s is = given k s is ++ inside (run s is) k ∧ Inv (run s is)
  | [], s, h, k => by simp [accepted, given, run, h]
  | i :: is, s, h, k => by
    have ih := run_inside is (step s i) (inv_step s i h) k
    refine ⟨?_, ih.2⟩
    rw [accepted, given, ← List.append_assoc, step_inside s i h k, List.append_assoc, ih.1, List.append_assoc]
    rfl

theorem inv_init (m : Nat) (x : α) : Inv (St.init m x) := by
  intro h
  cases h

/-- C157. In every run, whatever each output does, each output has been given a prefix of the beats taken from the input, all but at most two. -/
theorem C157_lossless (m : Nat) (x : α) (is : List (In m α)) (k : Fin m) :
    ∃ rest, accepted (St.init m x) is = given k (St.init m x) is ++ rest ∧ rest.length ≤ 2 := by
  have h := (run_inside is _ (inv_init m x) k).1
  refine ⟨inside (run (St.init m x) is) k, ?_, ?_⟩
  · rw [← h]; simp [inside, St.init]
  · unfold inside; split <;> split <;> simp

/-- C157. No output is ever more than one beat ahead of another. -/
theorem C157_spread (m : Nat) (x : α) (is : List (In m α)) (k l : Fin m) :
    (given k (St.init m x) is).length ≤ (given l (St.init m x) is).length + 1 := by
  have h1 := congrArg List.length (run_inside is _ (inv_init m x) k).1
  have h2 := congrArg List.length (run_inside is _ (inv_init m x) l).1
  simp only [List.length_append] at h1 h2
  have e : ∀ j : Fin m, (inside (St.init m x) j).length = 0 := fun j => by simp [inside, St.init]
  rw [e] at h1 h2
  have b : (inside (run (St.init m x) is) l).length ≤ (inside (run (St.init m x) is) k).length + 1 := by
    unfold inside
    simp only [List.length_append]
    split <;> split <;> split <;> simp
  omega

/-- C157. A beat that an output does not take is still offered to it in the next cycle, unchanged. -/
theorem C157_stable (s : St m α) (i : In m α) (k : Fin m) (hv : s.valid k = true) (hr : i.ready k = false) :
    (step s i).valid k = true ∧ (step s i).data = s.data := by
  have hc : taken s i = false := by
    cases hc : taken s i
    · rfl
    · rw [(taken_iff s i).mp hc k hv] at hr; cases hr
  have hm : empty s = false := by
    cases hm : empty s
    · rfl
    · rw [(empty_iff s).mp hm k] at hv; cases hv
  unfold step
  cases hx : s.ready <;> simp [hc, hm, hv, hr]

/-- C157. Every run can be ended so that every output has been given everything: two cycles with all outputs ready and no input do. -/
theorem C157_drained (m : Nat) (x : α) (is : List (In m α)) (i j : In m α) (hi : i.valid = false) (hj : j.valid = false)
    (ri : ∀ k, i.ready k = true) (rj : ∀ k, j.ready k = true) (k : Fin m) :
    given k (St.init m x) (is ++ [i, j]) = accepted (St.init m x) (is ++ [i, j]) := by
  have h := run_inside (is ++ [i, j]) _ (inv_init m x) k
  have hv := (run_inside is _ (inv_init m x) k).2
  have e : run (St.init m x) (is ++ [i, j]) = step (step (run (St.init m x) is) i) j := by simp [run]
  generalize hs : run (St.init m x) is = s at *
  have z : inside (step (step s i) j) k = [] := by
    have t1 : ∀ s : St m α, taken s i = true := fun s => (taken_iff s i).mpr fun k _ => ri k
    have t2 : ∀ s : St m α, taken s j = true := fun s => (taken_iff s j).mpr fun k _ => rj k
    unfold Inv at hv
    unfold inside step
    cases hr : s.ready <;> simp_all
  have h1 := h.1
  rw [e, z, List.append_nil] at h1
  rw [← h1]
  simp [inside, St.init]

/-- C157. With all outputs ready, the input is ready in the next cycle: no cycle is lost. -/
theorem C157_rate (s : St m α) (i : In m α) (h : ∀ k, s.valid k = true → i.ready k = true) : (step s i).ready = true := by
  have ht := (taken_iff s i).mpr h
  unfold step
  cases hr : s.ready <;> simp [ht]

/-- inputs of a case with three outputs, one of them slow -/
def exIn : List (In 3 Nat) :=
  [⟨false, 0, fun _ => false⟩, ⟨true, 1, fun _ => false⟩, ⟨true, 2, fun k => k == 0⟩, ⟨true, 3, fun k => k != 2⟩, ⟨true, 3, fun k => k == 2⟩,
   ⟨true, 3, fun k => k == 0⟩]

/-- a case: output 0 has been given two beats, output 2 one, three have been taken -/
example : accepted (St.init 3 0) exIn = [1, 2, 3] ∧ given 0 (St.init 3 0) exIn = [1, 2] ∧ given 2 (St.init 3 0) exIn = [1] := by decide

end Corundum.Broadcast
