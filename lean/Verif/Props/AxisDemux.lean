import Verif.Model.AxisDemux
/-!
C158: the demultiplexer gives each frame to the output chosen at its first beat.
-/
namespace Corundum.AxisDemux
variable {m : Nat} {α : Type}

/-- beats an output should get: those of the frames for which it was chosen at the first beat; `cur` is the choice for the frame under way -/
def wanted (k : Fin m) : Option (Option (Fin m)) → List ((α × Bool) × Option (Fin m)) → List (α × Bool)
  | _, [] => []
  | cur, (b, d) :: bs => (if cur.getD d = some k then [b] else []) ++ wanted k (if b.2 then none else some (cur.getD d)) bs

/-- the frame under way -/
def cur (s : St m α) : Option (Option (Fin m)) := if s.frame then some (if s.drop then none else some s.sel) else none

/-- beats inside for an output -/
def only (k : Fin m) (o : Option (Fin m × α × Bool)) : List (α × Bool) :=
  match o with
  | some b => if b.1 = k then [b.2] else []
  | none => []

def inside (k : Fin m) (s : St m α) : List (α × Bool) := only k s.out ++ only k s.tmp

structure Inv (s : St m α) : Prop where
  idle : s.frame = false → s.drop = false
  room : s.iready = true → s.tmp = none
  rdy : s.sready = true → s.iready = true
  free : s.drop = true → s.tmp = none

theorem inv_init (z : Fin m) : Inv (St.init z : St m α) := ⟨fun _ => rfl, fun _ => rfl, (by intro h; cases h), (by intro _; rfl)⟩

theorem drop_int (s : St m α) (i : In m α) (h : dropCtl s i = true) : int s i = none := by
  simp [int, h]

theorem drop_tmp (s : St m α) (i : In m α) (h : Inv s) (hd : dropCtl s i = true) : s.tmp = none := by
  unfold dropCtl start at hd
  cases hf : fire s i
  · rw [hf, Bool.and_false] at hd
    exact h.free (by simpa using hd)
  · refine h.room (h.rdy ?_)
    unfold fire at hf
    simp only [Bool.and_eq_true] at hf
    exact hf.1.2

theorem stage_tmp (s : St m α) (i : In m α) (ht : s.tmp = none) (hn : int s i = none) : (stage s i).2 = none := by
  unfold stage
  cases s.iready <;> cases gone s i <;> cases s.out <;> simp [ht, hn]

theorem inv_step (s : St m α) (i : In m α) (h : Inv s) : Inv (step s i) := by
  have hdt := drop_tmp s i h
  have hdi := drop_int s i
  have hst := stage_tmp s i
  obtain ⟨h1, h2, h3, h4⟩ := h
  refine ⟨?_, ?_, ?_, ?_⟩
  · simp only [step, start]
    by_cases hf : s.frame = true <;> by_cases hx : fire s i = true <;> by_cases hl : i.last = true <;> simp_all
  · simp only [step, early, stage]
    intro h
    cases hr : s.iready <;> cases hg : gone s i <;> cases ho : s.out <;> cases ht : s.tmp <;> cases hn : int s i <;> simp_all
  · simp only [step]
    intro h
    cases hd : dropCtl s i
    · rw [hd, Bool.or_false] at h
      exact h
    · simp [early, hdt hd, hdi hd]
  · intro hd
    have hc : dropCtl s i = true := by
      simp only [step] at hd
      unfold dropCtl at hd ⊢
      cases hs : start s i <;> cases hl : i.last <;> cases hf : fire s i <;> simp_all
      · unfold start at hs; simp_all
    exact hst (hdt hc) (hdi hc)

theorem dest_cases (i : In m α) : i.dest = none ∨ ∃ j, i.dest = some j := by
  cases i.dest <;> simp

theorem cur_step (s : St m α) (i : In m α) (h : Inv s) :
    cur (step s i) = if fire s i then (if i.last then none else some ((cur s).getD i.dest)) else cur s := by
  have := h.idle
  simp only [cur, step, start, dropCtl, selCtl]
  by_cases hf : s.frame = true <;> by_cases hx : fire s i = true <;> by_cases hl : i.last = true <;> rcases dest_cases i with hd | ⟨j, hd⟩ <;> by_cases hp : s.drop = true <;> simp_all

theorem int_spec (s : St m α) (i : In m α) :
    int s i = if fire s i then ((cur s).getD i.dest).map (fun k => (k, i.data, i.last)) else none := by
  simp only [int, cur, start, dropCtl, selCtl]
  by_cases hf : s.frame = true <;> by_cases hx : fire s i = true <;> rcases dest_cases i with hd | ⟨j, hd⟩ <;> by_cases hp : s.drop = true <;> simp_all

theorem only_int (k : Fin m) (s : St m α) (i : In m α) :
    only k (int s i) = if fire s i then (if (cur s).getD i.dest = some k then [(i.data, i.last)] else []) else [] := by
  rw [int_spec]
  cases hx : fire s i
  · rfl
  · cases hc : (cur s).getD i.dest with
    | none => simp [only]
    | some j =>
      by_cases hj : j = k
      · simp [only, hj]
      · simp [only, hj]

/-- what an output is given in a cycle -/
def now (k : Fin m) (s : St m α) (i : In m α) : List (α × Bool) :=
  match s.out with
  | some b => if b.1 = k ∧ i.ready k = true then [b.2] else []
  | none => []

theorem now_gone (k : Fin m) (s : St m α) (i : In m α) : now k s i = if gone s i then only k s.out else [] := by
  unfold now gone only
  cases ho : s.out with
  | none => simp
  | some b =>
    by_cases hb : b.1 = k
    · subst hb
      cases hr : i.ready b.1 <;> simp [hr]
    · simp [hb]

theorem stage_eq (k : Fin m) (s : St m α) (i : In m α) (h : Inv s) (hr : s.iready = true) :
    inside k s ++ only k (int s i) = now k s i ++ inside k (step s i) := by
  have ht := h.room hr
  rw [now_gone]
  simp only [inside, step, stage, hr, if_true, ht]
  cases hg : gone s i <;> cases ho : s.out <;> simp_all [only, gone]

theorem stage_off (k : Fin m) (s : St m α) (i : In m α) (hr : s.iready = false) :
    inside k s = now k s i ++ inside k (step s i) := by
  rw [now_gone]
  simp only [inside, step, stage, hr]
  cases hg : gone s i <;> simp [only]

theorem run_eq (k : Fin m) : ∀ (is : List (In m α)) (s : St m α), Inv s →
    ∃ s', inside k s ++ wanted k (cur s) (accepted s is) = given k s is ++ inside k s'
  | [], s, _ => ⟨s, by simp [given, accepted, wanted]⟩
  | i :: is, s, h => by
    obtain ⟨s', ih⟩ := run_eq k is (step s i) (inv_step s i h)
    have e1 : wanted k (cur s) (accepted s (i :: is)) = only k (int s i) ++ wanted k (cur (step s i)) (accepted (step s i) is) := by
      rw [accepted, only_int, cur_step s i h]
      cases hx : fire s i <;> simp [wanted]
    have e2 : given k s (i :: is) = now k s i ++ given k (step s i) is := rfl
    refine ⟨s', ?_⟩
    rw [e1, e2]
    cases hr : s.iready
    · have hf : fire s i = false := by
        unfold fire
        cases hq : s.sready
        · simp
        · rw [h.rdy hq] at hr; cases hr
      have hn : only k (int s i) = [] := by rw [only_int, hf]; rfl
      rw [hn, List.nil_append, stage_off k s i hr, List.append_assoc, ih, List.append_assoc]
    · rw [← List.append_assoc, stage_eq k s i h hr, List.append_assoc, ih, List.append_assoc]

theorem inside_len (k : Fin m) (s : St m α) : (inside k s).length ≤ 2 := by
  unfold inside only
  rw [List.length_append]
  have : ∀ o : Option (Fin m × α × Bool), (match o with | some b => if b.1 = k then [b.2] else [] | none => ([] : List (α × Bool))).length ≤ 1 := by
    intro o
    cases o with
    | none => simp
    | some b => dsimp only; split <;> simp
  have h1 := this s.out
  have h2 := this s.tmp
  omega

/-- C158. In every run, whatever the outputs do and whatever frames are dropped, an output has been given the beats of the frames for which it was
chosen at the first beat, in order, all but at most the last two. -/
theorem C158_lossless (z : Fin m) (is : List (In m α)) (k : Fin m) :
    ∃ rest, wanted k none (accepted (St.init z) is) = given k (St.init z) is ++ rest ∧ rest.length ≤ 2 := by
  obtain ⟨s', e⟩ := run_eq k is (St.init z) (inv_init z)
  refine ⟨inside k s', ?_, inside_len k s'⟩
  simpa [inside, only, St.init, cur] using e

/-- C158. A beat that its output does not take is still offered to it in the next cycle, unchanged. -/
theorem C158_stable (s : St m α) (i : In m α) (b : Fin m × α × Bool) (h : s.out = some b) (hr : i.ready b.1 = false) :
    (step s i).out = some b := by
  have hg : gone s i = false := by unfold gone; rw [h]; exact hr
  simp only [step, stage, hg]
  cases s.iready <;> simp [h]

/-- C158. With the beat of the output register taken, or none in it and the second register free, the input is ready in the next cycle. -/
theorem C158_rate (s : St m α) (i : In m α)
    (h : (∃ b, s.out = some b ∧ i.ready b.1 = true) ∨ (s.out = none ∧ s.tmp = none)) : (step s i).sready = true := by
  simp only [step, early, gone]
  rcases h with ⟨b, hb, hr⟩ | ⟨ho, ht⟩
  · simp [hb, hr]
  · simp [ho, ht]

theorem run_inv : ∀ (is : List (In m α)) (s : St m α), Inv s → Inv (is.foldl step s)
  | [], _, h => h
  | i :: is, s, h => run_inv is _ (inv_step s i h)

/-- C158. While a frame is dropped the input is ready in every cycle, whatever the outputs do. -/
theorem C158_drop_ready (z : Fin m) (is : List (In m α)) (i : In m α) (h : (is.foldl step (St.init z)).drop = true) :
    (step (is.foldl step (St.init z)) i).sready = true := by
  generalize hs : is.foldl step (St.init z) = s at *
  have hf : s.frame = true := by
    have := (hs ▸ run_inv is _ (inv_init z) : Inv s).idle
    cases hf : s.frame
    · rw [this hf] at h; cases h
    · rfl
  simp [step, dropCtl, start, hf, h]

/-- inputs of a case: a frame of two beats for output 0, which takes nothing, a frame dropped, one for output 1 -/
def exIn : List (In 2 Nat) :=
  [⟨true, false, 0, false, some 0, fun _ => false⟩, ⟨true, true, 1, false, some 0, fun _ => false⟩, ⟨true, true, 2, true, some 1, fun _ => false⟩,
   ⟨true, false, 0, false, some 0, fun _ => true⟩, ⟨true, true, 3, false, none, fun _ => false⟩, ⟨true, true, 4, true, some 0, fun _ => false⟩,
   ⟨true, true, 5, true, some 1, fun k => k == 0⟩, ⟨true, false, 0, false, some 0, fun _ => true⟩]

/-- what the outputs have been given in that case -/
example : (accepted (St.init (0 : Fin 2)) exIn).map (·.1.1) = [1, 2, 3, 4, 5] ∧ given 0 (St.init (0 : Fin 2)) exIn = [(1, false), (2, true)] ∧
    given 1 (St.init (0 : Fin 2)) exIn = [(5, true)] := by decide

end Corundum.AxisDemux
