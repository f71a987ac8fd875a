import Verif.Model.PulseMerge
/-!
C148: pulses are neither lost nor made up by the merge.
-/
namespace Corundum.PulseMerge

/-- pulses on the inputs in a cycle -/
def pulses (ins : List Bool) : Nat := ins.count true

/-- registers after a run, and the number of cycles with a pulse on the output after the first clock edge -/
def run (w : Nat) : St → List (List Bool) → St × Nat
  | s, [] => (s, 0)
  | s, i :: is => ((run w (s.step w i) is).1, (run w (s.step w i) is).2 + (s.step w i).pulse.toNat)

/-- pulses waiting if one leaves per cycle, without limit -/
def backlog : Nat → List (List Bool) → Nat
  | b, [] => b
  | b, i :: is => backlog (b - 1 + pulses i) is

/-- the backlog never passes `n` -/
def Below (n : Nat) : Nat → List (List Bool) → Prop
  | _, [] => True
  | b, i :: is => b - 1 + pulses i ≤ n ∧ Below n (b - 1 + pulses i) is

def total (is : List (List Bool)) : Nat := (is.map pulses).sum

theorem fold_eq (w : Nat) : ∀ (ins : List Bool) (n : Nat), n < 2 ^ w →
    ins.foldl (fun n b => (n + b.toNat) % 2 ^ w) n = (n + pulses ins) % 2 ^ w
  | [], n, h => by simp [pulses, Nat.mod_eq_of_lt h]
  | b :: ins, n, h => by
    rw [List.foldl_cons, fold_eq w ins _ (Nat.mod_lt _ (Nat.two_pow_pos w)), Nat.mod_add_mod, Nat.add_assoc]
    congr 2
    cases b <;> simp [pulses, List.count_cons]
    omega

theorem step_count (w : Nat) (s : St) (i : List Bool) (h : s.count < 2 ^ w) :
    (s.step w i).count = (s.count - 1 + pulses i) % 2 ^ w := by
  have e : (if s.count > 0 then s.count - 1 else s.count) = s.count - 1 := by split <;> omega
  unfold St.step
  dsimp only
  rw [e, fold_eq w i _ (by omega)]

theorem run_spec (w : Nat) : ∀ (is : List (List Bool)) (s : St), s.count < 2 ^ w → Below (2 ^ w - 1) s.count is →
    (run w s is).1.count = backlog s.count is ∧ s.count + total is = (run w s is).2 + (run w s is).1.count
  | [], s, _, _ => by simp [run, backlog, total]
  | i :: is, s, h, hb => by
    obtain ⟨h1, h2⟩ := hb
    have hp : 0 < 2 ^ w := Nat.two_pow_pos w
    have hc : (s.step w i).count = s.count - 1 + pulses i := by
      rw [step_count w s i h, Nat.mod_eq_of_lt (by omega)]
    rw [← hc] at h2
    obtain ⟨k1, k2⟩ := run_spec w is (s.step w i) (by rw [hc]; omega) h2
    refine ⟨?_, ?_⟩
    · rw [backlog, ← hc]
      exact k1
    · have ht : total (i :: is) = pulses i + total is := by simp [total]
      have hpl : (s.step w i).pulse.toNat = if 0 < s.count then 1 else 0 := by
        unfold St.step
        by_cases h0 : s.count > 0 <;> simp [h0]
      show _ = (run w (s.step w i) is).2 + (s.step w i).pulse.toNat + (run w (s.step w i) is).1.count
      rw [ht, hpl]
      split <;> omega

/-- C148. As long as the backlog does not pass what the counter holds, each pulse on each input, also of several in the same
cycle, gives one cycle of output pulse: pulses put out and pulses still to come (`count_out`) add up to those that came in, and the count is
the backlog of a queue that gives one per cycle. -/
theorem C148_conserved (w : Nat) (is : List (List Bool)) (h : Below (2 ^ w - 1) 0 is) :
    total is = (run w .init is).2 + (run w .init is).1.count ∧ (run w .init is).1.count = backlog 0 is := by
  obtain ⟨h1, h2⟩ := run_spec w is .init (Nat.two_pow_pos w) h
  exact ⟨by simpa [St.init] using h2, h1⟩

theorem run_append (w : Nat) : ∀ (is js : List (List Bool)) (s : St),
    (run w s (is ++ js)).1 = (run w (run w s is).1 js).1 ∧
      (run w s (is ++ js)).2 = (run w s is).2 + (run w (run w s is).1 js).2
  | [], js, s => by simp [run]
  | i :: is, js, s => by
    obtain ⟨h1, h2⟩ := run_append w is js (s.step w i)
    rw [List.cons_append]
    refine ⟨h1, ?_⟩
    show (run w (s.step w i) (is ++ js)).2 + _ = (run w (s.step w i) is).2 + _ + _
    rw [h2]
    show _ = (run w (s.step w i) is).2 + (s.step w i).pulse.toNat + (run w (run w (s.step w i) is).1 js).2
    omega

theorem below_append (n : Nat) : ∀ (is js : List (List Bool)) (b : Nat), Below n b is → Below n (backlog b is) js →
    Below n b (is ++ js)
  | [], _, _, _, h => h
  | _ :: is, js, _, h, h' => ⟨h.1, below_append n is js _ h.2 h'⟩

theorem backlog_append : ∀ (is js : List (List Bool)) (b : Nat), backlog b (is ++ js) = backlog (backlog b is) js
  | [], _, _ => rfl
  | _ :: is, js, _ => backlog_append is js _

theorem quiet (n : Nat) : ∀ (js : List (List Bool)) (b : Nat), (∀ j ∈ js, pulses j = 0) → b ≤ n →
    Below n b js ∧ backlog b js = b - js.length
  | [], _, _, _ => ⟨trivial, rfl⟩
  | j :: js, b, h, hb => by
    have h0 := h j (List.mem_cons_self ..)
    obtain ⟨k1, k2⟩ := quiet n js (b - 1) (fun x hx => h x (List.mem_cons_of_mem _ hx)) (by omega)
    refine ⟨⟨by omega, by rw [h0]; exact k1⟩, ?_⟩
    rw [backlog, h0, Nat.add_zero, k2, List.length_cons]
    omega

/-- C148. All pulses have come out once the inputs have been quiet for as many cycles as there was backlog. -/
theorem C148_drained (w : Nat) (is js : List (List Bool)) (h : Below (2 ^ w - 1) 0 is) (hq : ∀ j ∈ js, ∀ b ∈ j, b = false)
    (hl : backlog 0 is ≤ js.length) : (run w .init (is ++ js)).2 = total is := by
  have hz : ∀ j ∈ js, pulses j = 0 := fun j hj => List.count_eq_zero.2 fun hm => by
    have := hq j hj true hm
    cases this
  have hbl : backlog 0 is ≤ 2 ^ w - 1 := by
    obtain ⟨h1, _⟩ := run_spec w is .init (Nat.two_pow_pos w) h
    have : (run w .init is).1.count < 2 ^ w := by
      clear h1 hl h
      have : ∀ (is : List (List Bool)) (s : St), s.count < 2 ^ w → (run w s is).1.count < 2 ^ w := by
        intro is
        induction is with
        | nil => intro s hs; exact hs
        | cons i is ih =>
          intro s hs
          exact ih _ (by rw [step_count w s i hs]; exact Nat.mod_lt _ (Nat.two_pow_pos w))
      exact this is .init (Nat.two_pow_pos w)
    rw [show backlog 0 is = (run w .init is).1.count from h1.symm]
    omega
  obtain ⟨q1, q2⟩ := quiet (2 ^ w - 1) js _ hz hbl
  obtain ⟨c1, c2⟩ := C148_conserved w (is ++ js) (below_append _ is js 0 h q1)
  rw [backlog_append, q2] at c2
  have ht : total (is ++ js) = total is := by
    have hj : (js.map pulses).sum = 0 := List.sum_eq_zero_iff_forall_eq_nat.2 fun x hx => by
      obtain ⟨j, hj, rfl⟩ := List.mem_map.1 hx
      exact hz j hj
    simp [total, hj]
  rw [ht] at c1
  omega

/-- C148, failing case, for every width. If as many pulses come in one cycle as the counter has values, none of them comes out. -/
theorem C148_overflow_counterexample (w : Nat) (n : Nat) :
    (run w .init (List.replicate (2 ^ w) true :: List.replicate n [])).2 = 0 ∧
      total (List.replicate (2 ^ w) true :: List.replicate n []) = 2 ^ w := by
  have hz : ∀ n, total (List.replicate n []) = 0 := by
    intro n
    induction n with
    | zero => rfl
    | succ n ih =>
      rw [List.replicate_succ]
      show pulses [] + total (List.replicate n []) = 0
      rw [ih]; rfl
  refine ⟨?_, ?_⟩
  · have hc : (St.init.step w (List.replicate (2 ^ w) true)) = .init := by
      have := step_count w .init (List.replicate (2 ^ w) true) (Nat.two_pow_pos w)
      rw [show pulses (List.replicate (2 ^ w) true) = 2 ^ w by simp [pulses],
        show St.init.count - 1 + 2 ^ w = 2 ^ w from Nat.zero_add _, Nat.mod_self] at this
      unfold St.step at this ⊢
      dsimp only at this
      rw [this]
      rfl
    show (run w (St.init.step w (List.replicate (2 ^ w) true)) _).2 + (St.init.step w (List.replicate (2 ^ w) true)).pulse.toNat = 0
    rw [hc]
    have : ∀ n, (run w .init (List.replicate n [])).2 = 0 := by
      intro n
      have hb := (quiet (2 ^ w - 1) (List.replicate n []) 0 (fun j hj => by rw [List.eq_of_mem_replicate hj]; rfl) (Nat.zero_le _)).1
      have := (C148_conserved w (List.replicate n []) hb).1
      rw [hz n] at this
      omega
    rw [this n]
    rfl
  · show pulses (List.replicate (2 ^ w) true) + total (List.replicate n []) = 2 ^ w
    rw [hz n]
    simp [pulses]

/-- a case: three pulses at once and one more in the next cycle come out in four cycles -/
example : Below (2 ^ 4 - 1) 0 [[true, true, true], [false, true, false]] ∧
    (run 4 .init ([[true, true, true], [false, true, false]] ++ List.replicate 4 [])).2 = 4 := by
  refine ⟨⟨by decide, by decide, trivial⟩, by decide +kernel⟩

end Corundum.PulseMerge
