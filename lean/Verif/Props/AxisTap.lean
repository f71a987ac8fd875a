import Verif.Model.AxisTap
/-!
C159: a frame that the tap puts out without the mark is a whole frame of the monitored stream.
-/
namespace Corundum.AxisTap
variable {α : Type}

/-- beats since the last one with the flag of the last beat, given those before -/
def partOf (p : List α) : List (α × Bool) → List α
  | [] => p
  | (x, last) :: bs => partOf (if last then [] else p ++ [x]) bs

/-- beats put out since the end of the last frame put out -/
def openOf (p : List α) : List (Out α) → List α
  | [] => p
  | .beat x last :: os => openOf (if last then [] else p ++ [x]) os
  | .cut :: os => openOf [] os

/-- the monitored stream in a run -/
def seen (is : List (In α)) : List (α × Bool) := is.filterMap (·.tap)

theorem partOf_append (bs cs : List (α × Bool)) : ∀ p : List α, partOf p (bs ++ cs) = partOf (partOf p bs) cs := by
  induction bs with
  | nil => intro p; rfl
  | cons b bs ih => intro p; obtain ⟨x, l⟩ := b; exact ih _

theorem openOf_append (bs cs : List (Out α)) : ∀ p : List α, openOf p (bs ++ cs) = openOf (openOf p bs) cs := by
  induction bs with
  | nil => intro p; rfl
  | cons b bs ih =>
    intro p
    cases b with
    | beat x l => exact ih _
    | cut => exact ih _

/-- the frame monitored, `p`, and the one put out, `q`, in each state; in `truncate` the frame cut off may be over -/
def Inv (s : St) (p q : List α) : Prop :=
  match s.st with
  | .idle => p = [] ∧ q = []
  | .transfer => p = q ∧ p ≠ []
  | .truncate => q ≠ []
  | .wait => q = []

/-- `frame_reg` -/
def Fr (s : St) (p : List α) : Prop := s.frame = false ↔ p = []

theorem inv_step (s : St) (i : In α) (p q : List α) (h : Inv s p q) (hf : Fr s p) :
    Inv (step s i).1 (partOf p i.tap.toList) (openOf q (step s i).2.toList) ∧ Fr (step s i).1 (partOf p i.tap.toList) := by
  obtain ⟨st, fr⟩ := s
  obtain ⟨tap, ready⟩ := i
  unfold Inv Fr at *
  cases st <;> rcases tap with _ | ⟨x, l⟩ <;> cases ready <;> (try cases l) <;> simp_all [step, frameNext, partOf, openOf]
  all_goals first
    | exact h.1 ▸ h.2
    | (cases fr <;> simp_all)

theorem outs_append : ∀ (is js : List (In α)) (s : St), outs s (is ++ js) = outs s is ++ outs (run s is) js
  | [], _, _ => rfl
  | i :: is, js, s => by
    rw [List.cons_append, outs, outs, outs_append is js, List.append_assoc]
    rfl

theorem run_inv : ∀ (is : List (In α)) (s : St) (p q : List α), Inv s p q → Fr s p →
    Inv (run s is) (partOf p (seen is)) (openOf q (outs s is)) ∧ Fr (run s is) (partOf p (seen is))
  | [], _, _, _, h, hf => ⟨h, hf⟩
  | i :: is, s, p, q, h, hf => by
    have k := inv_step s i p q h hf
    have ih := run_inv is (step s i).1 _ _ k.1 k.2
    have e1 : seen (i :: is) = i.tap.toList ++ seen is := by
      unfold seen
      cases ht : i.tap <;> simp [ht]
    rw [e1, outs, partOf_append, openOf_append]
    exact ih

theorem init_inv (is : List (In α)) : Inv (run St.init is) (partOf [] (seen is)) (openOf [] (outs St.init is)) ∧
    Fr (run St.init is) (partOf [] (seen is)) :=
  run_inv is St.init [] [] ⟨rfl, rfl⟩ (by simp [Fr, St.init])

/-- C159. Whenever a beat of the monitored stream is put out, it is the one passing, and all beats of its frame before it, and nothing else,
have been put out as the beats of the same frame. So a frame put out without the mark is a whole frame of the monitored stream. -/
theorem C159_copy (is : List (In α)) (i : In α) (x : α) (last : Bool) (h : (step (run St.init is) i).2 = some (.beat x last)) :
    i.tap = some (x, last) ∧ openOf [] (outs St.init is) = partOf [] (seen is) := by
  have k := (init_inv is).1
  generalize run St.init is = s at *
  obtain ⟨st, fr⟩ := s
  obtain ⟨tap, ready⟩ := i
  unfold Inv at k
  cases st <;> rcases tap with _ | ⟨y, l⟩ <;> cases ready <;> simp_all [step]

/-- C159. A frame is cut off only after some of its beats have been put out. -/
theorem C159_cut (is : List (In α)) (i : In α) (h : (step (run St.init is) i).2 = some .cut) : openOf [] (outs St.init is) ≠ [] := by
  have k := (init_inv is).1
  generalize run St.init is = s at *
  obtain ⟨st, fr⟩ := s
  obtain ⟨tap, ready⟩ := i
  unfold Inv at k
  cases st <;> rcases tap with _ | ⟨y, l⟩ <;> cases ready <;> simp_all [step]

/-- C159. If the output stage is always ready, every beat is put out and nothing else. -/
theorem C159_all (is : List (In α)) (h : ∀ i ∈ is, i.ready = true) : outs St.init is = (seen is).map fun b => .beat b.1 b.2 := by
  have aux : ∀ (is : List (In α)) (s : St), (∀ i ∈ is, i.ready = true) → s.st = .idle ∨ s.st = .transfer →
      outs s is = (seen is).map fun b => .beat b.1 b.2 := by
    intro is
    induction is with
    | nil => intro _ _ _; rfl
    | cons i is ih =>
      intro s h hs
      have hr := h i (List.mem_cons_self ..)
      have ht := fun s' => ih s' (fun j hj => h j (List.mem_cons_of_mem _ hj))
      obtain ⟨st, fr⟩ := s
      obtain ⟨tap, ready⟩ := i
      dsimp only at hr hs
      subst hr
      rcases hs with hs | hs <;> subst hs <;> rcases tap with _ | ⟨y, l⟩ <;> (try cases l) <;>
        simp [outs, step, seen] <;> exact ht _ (by simp)
  exact aux is St.init h (.inl rfl)

/-- C159. A frame cut off is ended, and the tap is ready for a new frame, as soon as the output stage is ready and no frame is under way. -/
theorem C159_recover (is : List (In α)) (i : In α) (hs : (run St.init is).st = .truncate) (hr : i.ready = true)
    (hp : partOf [] (seen (is ++ [i])) = []) : (step (run St.init is) i).2 = some .cut ∧ (run St.init (is ++ [i])).st = .idle := by
  have k := (init_inv (is ++ [i])).2
  unfold Fr at k
  have e : run St.init (is ++ [i]) = (step (run St.init is) i).1 := by simp [run]
  rw [hp, e] at k
  rw [e]
  generalize run St.init is = s at *
  obtain ⟨st, fr⟩ := s
  obtain ⟨tap, ready⟩ := i
  dsimp only at hs hr
  subst hs hr
  have := k.mpr rfl
  rcases tap with _ | ⟨y, l⟩ <;> simp_all [step]

/-- C159. A frame of one beat that comes while the output stage is not ready makes the tap skip the next frame as well, though the output stage is
ready for all of it. -/
theorem C159_skip_counterexample : let is : List (In Nat) := [⟨some (1, true), false⟩, ⟨none, true⟩, ⟨some (2, false), true⟩, ⟨some (3, true), true⟩]
    partOf [] (seen (is.take 2)) = [] ∧ openOf [] (outs St.init (is.take 2)) = [] ∧ outs St.init is = [] := by decide

/-- a case: a whole frame, a frame cut off, a frame skipped, a whole frame -/
example : outs St.init ([⟨some (1, false), true⟩, ⟨some (2, true), true⟩, ⟨some (3, false), true⟩, ⟨some (4, true), false⟩, ⟨some (5, false), true⟩,
    ⟨some (6, true), true⟩, ⟨some (7, true), true⟩] : List (In Nat)) = [.beat 1 false, .beat 2 true, .beat 3 false, .cut, .beat 7 true] := by decide

end Corundum.AxisTap
