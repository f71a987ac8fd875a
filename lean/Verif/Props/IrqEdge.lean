import Verif.Model.IrqEdge
/-!
C140: edge triggered interrupts of the simulation driver.
-/
namespace Corundum.IrqEdge

/-- the values of the signal, one for each change, after 0 -/
def values : List Ev → List Nat
  | [] => []
  | .change v :: es => v :: values es
  | .serve _ :: es => values es

/-- rising edges of line x in a list of values after `prev` -/
def rises (x : Nat) : Nat → List Nat → Nat
  | _, [] => 0
  | prev, v :: vs => (if v.testBit x && !prev.testBit x then 1 else 0) + rises x v vs

/-- changes of the signal with line x high -/
def highs (x : Nat) (vs : List Nat) : Nat := vs.countP (·.testBit x)

theorem fold_put (l : List Nat) (hn : l.Nodup) (q : Nat → Nat) (y : Nat) : l.foldl put q y = q y + if y ∈ l then 1 else 0 := by
  induction l generalizing q with
  | nil => simp
  | cons x l ih =>
    rw [List.nodup_cons] at hn
    rw [List.foldl_cons, ih hn.2]
    unfold put
    by_cases e : y = x
    · subst e; simp [hn.1]
    · simp [e]

theorem edge_mem (count val x : Nat) : x ∈ edge count val 0 ↔ x < count ∧ val.testBit x = true := by
  unfold edge; simp

theorem edge_nodup (count val last : Nat) : (edge count val last).Nodup := List.Nodup.sublist List.filter_sublist List.nodup_range

theorem values_append (a b : List Ev) : values (a ++ b) = values a ++ values b := by
  induction a with
  | nil => rfl
  | cons e a ih => cases e <;> simp [values, ih]

theorem run_snoc (count : Nat) (es : List Ev) (e : Ev) : run count (es ++ [e]) = step count (run count es) e := by
  unfold run; rw [List.foldl_append]; rfl

theorem snoc_ind {P : List Ev → Prop} (h0 : P []) (h1 : ∀ es e, P es → P (es ++ [e])) (es : List Ev) : P es := by
  have : ∀ n, ∀ es : List Ev, es.length = n → P es := by
    intro n
    induction n with
    | zero => intro es h; rw [List.length_eq_zero_iff.1 h]; exact h0
    | succ n ih =>
      intro es h
      have hne : es ≠ [] := by intro e; rw [e] at h; cases h
      rw [← List.dropLast_concat_getLast hne]
      exact h1 _ _ (ih _ (by rw [List.length_dropLast]; omega))
  exact this _ es rfl

theorem count_inv (count : Nat) (es : List Ev) (x : Nat) : (run count es).last = 0 ∧
    (run count es).runs.count x + (run count es).queue x = if x < count then highs x (values es) else 0 := by
  induction es using snoc_ind with
  | h0 => simp [run, init, values, highs]
  | h1 es e ih =>
    obtain ⟨i1, i2⟩ := ih
    rw [run_snoc, values_append]
    cases e with
    | change v =>
      refine ⟨i1, ?_⟩
      show (run count es).runs.count x + (edge count v (run count es).last).foldl put (run count es).queue x = _
      rw [i1, fold_put _ (edge_nodup _ _ _), ← Nat.add_assoc, i2]
      unfold highs
      rw [List.countP_append]
      simp only [values, List.countP_cons, List.countP_nil, edge_mem]
      by_cases h : x < count <;> by_cases h2 : v.testBit x = true <;> simp [h, h2]
    | serve y =>
      have e0 : values [Ev.serve y] = [] := rfl
      rw [e0, List.append_nil, ← i2]
      unfold step
      dsimp only
      by_cases hq : (run count es).queue y = 0
      · rw [if_pos hq]; exact ⟨i1, rfl⟩
      · rw [if_neg hq]
        refine ⟨i1, ?_⟩
        dsimp only
        by_cases e : x = y
        · subst e
          rw [List.count_cons_self, if_pos rfl]; omega
        · rw [List.count_cons_of_ne (fun h => e h.symm), if_neg e]

theorem rises_le (x prev : Nat) (vs : List Nat) : rises x prev vs ≤ highs x vs := by
  unfold highs
  induction vs generalizing prev with
  | nil => simp [rises]
  | cons v vs ih =>
    have := ih v
    rw [rises, List.countP_cons]
    cases v.testBit x <;> cases prev.testBit x <;> simp <;> omega

/-- **C140.** No rising edge is lost: once the queue of a line has been worked off, its handler has run at least once
for each rising edge of the line. -/
theorem C140_not_lost (count : Nat) (es : List Ev) (x : Nat) (hx : x < count) (hq : (run count es).queue x = 0) :
    rises x 0 (values es) ≤ (run count es).runs.count x := by
  have := (count_inv count es x).2
  rw [if_pos hx, hq] at this
  have h2 := rises_le x 0 (values es)
  omega

/-- **C140.** Each element waiting is served: serving a line as often as its queue is long works it off. -/
theorem C140_served (count : Nat) (es : List Ev) (x k : Nat) (hk : (run count es).queue x ≤ k) :
    (run count (es ++ List.replicate k (.serve x))).queue x = 0 ∧
    (run count (es ++ List.replicate k (.serve x))).runs.count x = (run count es).runs.count x + (run count es).queue x := by
  have h0 : (run count (es ++ List.replicate k (.serve x))).queue x = 0 := by
    unfold run
    rw [List.foldl_append]
    change (run count es).queue x ≤ k at hk
    unfold run at hk
    generalize es.foldl (step count) init = s at hk
    induction k generalizing s with
    | zero => simpa using hk
    | succ k ih =>
      rw [List.replicate_succ, List.foldl_cons]
      apply ih
      unfold step
      dsimp only
      by_cases hq : s.queue x = 0
      · rw [if_pos hq]; omega
      · rw [if_neg hq]; simp; omega
  refine ⟨h0, ?_⟩
  have h1 := (count_inv count es x).2
  have h2 := (count_inv count (es ++ List.replicate k (.serve x)) x).2
  have e : values (es ++ List.replicate k (.serve x)) = values es := by
    rw [values_append]
    have : ∀ k, values (List.replicate k (Ev.serve x)) = [] := by
      intro k
      induction k with
      | zero => rfl
      | succ k ih => rw [List.replicate_succ]; exact ih
    rw [this, List.append_nil]
  rw [e] at h2
  omega

/-- **C140.** A handler runs only for a line that has been high: a line that is low in all values of the signal has no run. -/
theorem C140_only_high (count : Nat) (es : List Ev) (x : Nat) (hl : ∀ v ∈ values es, v.testBit x = false) :
    x ∉ (run count es).runs := by
  have := (count_inv count es x).2
  have h0 : highs x (values es) = 0 := by
    unfold highs
    rw [List.countP_eq_zero]
    intro v hv; rw [hl v hv]; simp
  rw [h0] at this
  intro hm
  have := List.count_pos_iff.2 hm
  split at * <;> omega

theorem runs_change (count : Nat) (es : List Ev) (h : ∀ e ∈ es, ∃ v, e = .change v) : (run count es).runs = [] := by
  induction es using snoc_ind with
  | h0 => rfl
  | h1 es e ih =>
    rw [run_snoc]
    obtain ⟨v, rfl⟩ := h e (by simp)
    exact ih (fun x hx => h x (by simp [hx]))

/-- **C140.** But a run is not caused by a rising edge of its line alone: while line x stays high, each change of another
line y runs the handler of x again.  `last_val` is never updated (:1761-1769). -/
theorem C140_repeated_counterexample (count x y : Nat) (hx : x < count) (hxy : x ≠ y) (n : Nat) :
    let es := (List.replicate n [Ev.change (2 ^ x + 2 ^ y), Ev.change (2 ^ x)]).flatten
    rises x 0 (values es) ≤ 1 ∧ (run count es).queue x = 2 * n := by
  intro es
  have hxx : (2 ^ x).testBit x = true := Nat.testBit_two_pow_self
  have hyx : (2 ^ x + 2 ^ y).testBit x = true := by
    rcases Nat.lt_or_gt_of_ne hxy with h | h
    · have : 2 ^ y = 2 ^ (x + 1) * 2 ^ (y - x - 1) := by rw [← Nat.pow_add]; congr 1; omega
      rw [this, Nat.add_comm, Nat.testBit_two_pow_mul_add]
      · simp
      · exact Nat.pow_lt_pow_right (by omega) (by omega)
    · have := Nat.testBit_two_pow_mul_add (i := x) 1 (b := 2 ^ y) (Nat.pow_lt_pow_right (by omega) h) x
      rw [Nat.mul_one] at this
      rw [this]; simp
  have hv : values es = (List.replicate n [2 ^ x + 2 ^ y, 2 ^ x]).flatten := by
    show values (List.replicate n [Ev.change (2 ^ x + 2 ^ y), Ev.change (2 ^ x)]).flatten = _
    induction n with
    | zero => rfl
    | succ n ih =>
      rw [List.replicate_succ, List.flatten_cons, values_append, List.replicate_succ, List.flatten_cons]
      show _ ++ values _ = _
      rw [ih]; rfl
  have hall : ∀ v ∈ values es, v.testBit x = true := by
    rw [hv]
    intro v h
    rw [List.mem_flatten] at h
    obtain ⟨l, hl, h⟩ := h
    rw [List.eq_of_mem_replicate hl] at h
    simp at h
    rcases h with rfl | rfl
    · exact hyx
    · exact hxx
  refine ⟨?_, ?_⟩
  · have stay : ∀ (vs : List Nat) (prev : Nat), prev.testBit x = true → (∀ v ∈ vs, v.testBit x = true) → rises x prev vs = 0 := by
      intro vs
      induction vs with
      | nil => intro _ _ _; rfl
      | cons v vs ih =>
        intro prev hp h
        rw [rises, hp, ih v (h v (by simp)) (fun w hw => h w (by simp [hw]))]; simp
    cases hvs : values es with
    | nil => simp [rises]
    | cons v vs =>
      rw [hvs] at hall
      rw [rises, stay vs v (hall v (by simp)) (fun w hw => hall w (by simp [hw]))]
      split <;> omega
  · have h := (count_inv count es x).2
    have hr : (run count es).runs = [] := runs_change count es (by
      intro e he
      rw [List.mem_flatten] at he
      obtain ⟨l, hl, he⟩ := he
      rw [List.eq_of_mem_replicate hl] at he
      simp at he
      rcases he with rfl | rfl <;> exact ⟨_, rfl⟩)
    rw [if_pos hx, hr, hv] at h
    simp only [List.count_nil, Nat.zero_add] at h
    rw [h]
    unfold highs
    rw [← hv]
    have : (values es).countP (·.testBit x) = (values es).length := List.countP_eq_length.2 hall
    rw [this, hv, List.length_flatten]
    simp; omega

/-- **C140.** And an interrupt made by `Interrupt.from_edge` never runs its handler, whatever the signal does. -/
theorem C140_from_edge_counterexample (es : List Ev) : (es.foldl stepFromEdge init).runs = [] := by
  have : ∀ s : St, s.runs = [] → (∀ x, s.queue x = 0) → (es.foldl stepFromEdge s).runs = [] := by
    induction es with
    | nil => intro s h _; exact h
    | cons e es ih =>
      intro s h h2
      rw [List.foldl_cons]
      cases e with
      | change v => exact ih s h h2
      | serve x =>
        have : stepFromEdge s (.serve x) = s := by unfold stepFromEdge; dsimp only; rw [if_pos (h2 x)]
        rw [this]; exact ih s h h2
  exact this init rfl (fun _ => rfl)

/-- two lines: line 1 comes while line 0 is high -/
example : (run 2 [.change 1, .serve 0, .change 3, .serve 1, .serve 0, .change 2]).runs = [0, 1, 0] := by decide
example : (run 2 [.change 1, .serve 0, .change 3, .serve 1, .serve 0, .change 2]).queue 0 = 0 := by decide
example : rises 0 0 (values [.change 1, .serve 0, .change 3, .serve 1, .serve 0, .change 2]) = 1 := by decide
end Corundum.IrqEdge
