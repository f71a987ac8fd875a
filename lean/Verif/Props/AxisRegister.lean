import Verif.Model.AxisRegister
/-!
C35: register slices are transparent.
-/
namespace Corundum.AxisRegister
variable {α : Type}

theorem Skid.step_inv (s : Skid α) (i : In α) (h : s.ready = true → s.temp = none) : (s.step i).ready = true → (s.step i).temp = none := by
  obtain ⟨o, mr, r⟩ := i
  obtain ⟨rd, m, t⟩ := s
  cases r <;> cases mr <;> cases rd <;> cases m <;> cases t <;> cases o <;> simp_all [Skid.step]

/-- one cycle: delivered then stored = stored then accepted -/
theorem Skid.step_key (s : Skid α) (i : In α) (h : s.ready = true → s.temp = none) (hi : i.rst = false) :
    (if i.mready then s.m.toList else []) ++ ((s.step i).m.toList ++ (s.step i).temp.toList) =
      (s.m.toList ++ s.temp.toList) ++ (if s.ready then i.offer.toList else []) := by
  obtain ⟨o, mr, r⟩ := i
  obtain ⟨rd, m, t⟩ := s
  simp only at hi h
  subst hi
  cases mr <;> cases rd <;> cases m <;> cases t <;> cases o <;> simp_all [Skid.step]

/-- **C35** Skid buffer: under any schedule of offers and `tready`, the beats delivered, followed by the (at most two) beats stored, are the beats stored at the
start followed by exactly the beats accepted, in order. -/
theorem C35_skid_order : ∀ (is : List (In α)) (s : Skid α), (s.ready = true → s.temp = none) → (∀ i ∈ is, i.rst = false) →
    delivered Skid.step Skid.m s is ++ ((run Skid.step s is).m.toList ++ (run Skid.step s is).temp.toList) =
      (s.m.toList ++ s.temp.toList) ++ accepted Skid.step Skid.ready s is := by
  intro is
  induction is with
  | nil => intro s _ _; simp [delivered, accepted, run]
  | cons i is ih =>
    intro s h hr
    have hi := hr i (by simp)
    have e : run Skid.step s (i :: is) = run Skid.step (s.step i) is := rfl
    have key := Skid.step_key s i h hi
    rw [delivered, accepted, e, List.append_assoc, ih (s.step i) (Skid.step_inv s i h) (fun j hj => hr j (by simp [hj])),
      ← List.append_assoc _ _ (accepted _ _ _ _), key, List.append_assoc (_ ++ _)]

/-- **C35** From reset: the delivered beats are a prefix of the accepted beats and at most two are in flight. -/
theorem C35_skid_prefix (is : List (In α)) (hr : ∀ i ∈ is, i.rst = false) :
    ∃ rest, rest.length ≤ 2 ∧ accepted Skid.step Skid.ready (⟨false, none, none⟩ : Skid α) is =
      delivered Skid.step Skid.m (⟨false, none, none⟩ : Skid α) is ++ rest := by
  refine ⟨(run Skid.step (⟨false, none, none⟩ : Skid α) is).m.toList ++ (run Skid.step (⟨false, none, none⟩ : Skid α) is).temp.toList, ?_, ?_⟩
  · cases (run Skid.step (⟨false, none, none⟩ : Skid α) is).m <;> cases (run Skid.step (⟨false, none, none⟩ : Skid α) is).temp <;> simp
  · have := C35_skid_order is (⟨false, none, none⟩ : Skid α) (by simp) hr
    simpa using this.symm

/-- **C35** Stability: a beat offered at the output and not taken is offered again, unchanged, in the next cycle. -/
theorem C35_skid_stable (s : Skid α) (i : In α) (b : α) (hr : i.rst = false) (hm : s.m = some b) (hn : i.mready = false) : (s.step i).m = some b := by
  obtain ⟨o, mr, r⟩ := i
  obtain ⟨rd, m, t⟩ := s
  simp only at *
  subst hr hm hn
  cases rd <;> simp [Skid.step]

/-- **C35** No bubbles: in every cycle after one with `m_axis_tready`, the slice accepts; a sink that is always ready therefore receives every
offered beat exactly one cycle later. -/
theorem C35_skid_throughput (s : Skid α) (i : In α) (hr : i.rst = false) (hn : i.mready = true) :
    (s.step i).ready = true ∧ (s.ready = true → (s.step i).m = i.offer) := by
  obtain ⟨o, mr, r⟩ := i
  obtain ⟨rd, m, t⟩ := s
  simp only at *
  subst hr hn
  cases rd <;> simp [Skid.step]

/-- **C35** Liveness: with an empty buffer the slice becomes ready without waiting for the sink. -/
theorem C35_skid_idle_ready (s : Skid α) (i : In α) (hr : i.rst = false) (hm : s.m = none) (ht : s.temp = none) : (s.step i).ready = true := by
  obtain ⟨o, mr, r⟩ := i
  obtain ⟨rd, m, t⟩ := s
  simp only at *
  subst hr hm ht
  cases rd <;> cases mr <;> simp [Skid.step]

/-- **C35** Simple register: same statement, at most one beat in flight. -/
theorem C35_simple_order : ∀ (is : List (In α)) (s : Simple α), (s.ready = true → s.m = none) → (∀ i ∈ is, i.rst = false) →
    delivered Simple.step Simple.m s is ++ (run Simple.step s is).m.toList = s.m.toList ++ accepted Simple.step Simple.ready s is := by
  intro is
  induction is with
  | nil => intro s _ _; simp [delivered, accepted, run]
  | cons i is ih =>
    intro s h hr
    have hi := hr i (by simp)
    have e : run Simple.step s (i :: is) = run Simple.step (s.step i) is := rfl
    have hinv : (s.step i).ready = true → (s.step i).m = none := by
      obtain ⟨o, mr, r⟩ := i
      simp only at hi
      subst hi
      simp only [Simple.step, Bool.false_eq_true, if_false]
      intro h; simpa using h
    rw [delivered, accepted, e, List.append_assoc, ih (s.step i) hinv (fun j hj => hr j (by simp [hj])), ← List.append_assoc, ← List.append_assoc]
    congr 1
    obtain ⟨o, mr, r⟩ := i
    obtain ⟨rd, m⟩ := s
    simp only at hi h
    subst hi
    cases mr <;> cases rd <;> cases m <;> cases o <;> simp_all [Simple.step]

/-- **C35** Simple register: stability, and readiness as soon as it is empty. -/
theorem C35_simple_stable (s : Simple α) (i : In α) (hr : i.rst = false) (hinv : s.ready = true → s.m = none) :
    (∀ b, s.m = some b → i.mready = false → (s.step i).m = some b) ∧ ((s.step i).m = none → (s.step i).ready = true) := by
  obtain ⟨o, mr, r⟩ := i
  obtain ⟨rd, m⟩ := s
  simp only at *
  subst hr
  cases rd <;> simp_all [Simple.step]

/-- a schedule with back-pressure: both beats buffered, then drained -/
example : delivered Skid.step Skid.m (⟨false, none, none⟩ : Skid Nat)
    [⟨none, false, false⟩, ⟨some 1, false, false⟩, ⟨some 2, false, false⟩, ⟨some 3, false, false⟩, ⟨some 3, true, false⟩, ⟨some 3, true, false⟩, ⟨none, true, false⟩] = [1, 2, 3] := by decide

end Corundum.AxisRegister
