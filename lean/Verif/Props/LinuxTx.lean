import Verif.Proof.LinuxTx
/-! C44 — transmit ring of the Linux driver: property theorems, for every interleaving of the transmit path and the
completion path. -/
namespace Corundum.LinuxTx

/-- C44a: a transmit call that is accepted always finds its slot free: no skb that is still owned by the device is ever
overwritten, and at most `size` (indeed `size/2 + 1`) descriptors are outstanding. -/
theorem C44_slot_free (k : Nat) (ops : List Op) :
    let s := run (init k) ops
    s.prod - s.cons ≤ 2 ^ k / 2 + 1 ∧ s.prod - s.cons ≤ 2 ^ k ∧
    (s.x = .idle → s.stopped = false → s.prod - s.cons < 2 ^ k ∧ s.skb (s.prod % 2 ^ k) = none) := by
  intro s
  obtain ⟨hF, hR⟩ := inv_run ops (init k) (finv_init k) (ri_init k)
  have hk : s.size = 2 ^ k := by show 2 ^ (run (init k) ops).k = _; rw [k_run]; rfl
  have hsz := fullSize_lt s
  rw [hk] at hsz
  obtain ⟨f1, f2, f3, f4, f5, f6, f7⟩ := hF
  have f3 : s.prod - s.cons ≤ s.fullSize + 1 := f3
  refine ⟨by omega, by omega, ?_⟩
  intro hx hst
  have f4 : xCond s.fullSize (s.prod - s.cons) s.stopped s.p (s.hw = s.prod) s.x := f4
  rw [hx, hst] at f4
  simp only [xCond] at f4
  have hD := (f4.1 trivial).1
  have f1 : s.cons ≤ s.prod := f1
  have hR : RI s := hR
  have := hR.free s.prod (Nat.le_refl _) (by rw [hk]; omega)
  rw [hk, hx] at this
  refine ⟨by omega, ?_⟩
  rcases this with h | h
  · simp [isMapped] at h
  · exact h

/-- C44b: every completion releases exactly the skb that was queued at the completed position, each position once. -/
theorem C44_frees_exact (k : Nat) (ops : List Op) :
    let s := run (init k) ops
    s.freed = s.done.map (fun p => (p, s.sent[p]?)) ∧ s.done.Nodup ∧ (∀ p ∈ s.done, p < s.sent.length) := by
  intro s
  obtain ⟨hF, hR⟩ := inv_run ops (init k) (finv_init k) (ri_init k)
  refine ⟨hR.freed, hR.nodup, ?_⟩
  intro p hp
  have h1 := hR.donelt p hp
  have h2 : s.sent.length = s.prod + (if isMapped s.x then 1 else 0) := hR.len
  have h1 : p < s.prod := h1
  omega

/-- C44c, no lost wake-up: whenever the stack's queue is stopped and neither path is in the middle of a call, the ring really is
full and the device still owes the completion of the oldest outstanding descriptor, about which it has been told; so
another completion (and hence another pass of the completion path) is due. -/
theorem C44_no_lost_wake (k : Nat) (hk : 1 ≤ k) (ops : List Op) :
    let s := run (init k) ops
    s.x = .idle → s.p = .idle → s.stopped = true →
      2 ^ k / 2 ≤ s.prod - s.cons ∧ s.cons < s.hw ∧ s.cons ∉ s.done := by
  intro s hx hp hst
  obtain ⟨hF, hR⟩ := inv_run ops (init k) (finv_init k) (ri_init k)
  have hF : FInv s := hF
  have hR : RI s := hR
  have hk' : s.size = 2 ^ k := by show 2 ^ (run (init k) ops).k = _; rw [k_run]; rfl
  have hsz := fullSize_lt s
  rw [hk'] at hsz
  have h2 : 2 ≤ 2 ^ k := by
    calc 2 = 2 ^ 1 := rfl
      _ ≤ 2 ^ k := Nat.pow_le_pow_right (by omega) hk
  obtain ⟨f1, f2, f3, f4, f5, f6, f7⟩ := hF
  have hfull := f6 hst
  rw [hx, hp] at hfull
  simp [xLate, pLate] at hfull
  rw [hx] at f4
  simp only [xCond] at f4
  have heq := f4.2 hst
  have hpr := hR.pr
  rw [hp] at hpr
  simp only [pRing] at hpr
  refine ⟨by omega, by omega, hpr (by omega)⟩

/-- C44d: conversely, once the completion path has handled the oldest descriptors so that the ring is no longer full and it
finishes its call, the queue is not left stopped. -/
theorem C44_wakes (k : Nat) (ops : List Op) :
    let s := run (init k) ops
    s.x = .idle → s.p = .idle → s.prod - s.cons < 2 ^ k / 2 → s.stopped = false := by
  intro s hx hp hD
  obtain ⟨hF, hR⟩ := inv_run ops (init k) (finv_init k) (ri_init k)
  have hF : FInv s := hF
  have hk' : s.size = 2 ^ k := by show 2 ^ (run (init k) ops).k = _; rw [k_run]; rfl
  have hsz := fullSize_lt s
  rw [hk'] at hsz
  obtain ⟨f1, f2, f3, f4, f5, f6, f7⟩ := hF
  cases hst : s.stopped with
  | false => rfl
  | true =>
    have hfull := f6 hst
    rw [hx, hp] at hfull
    simp [xLate, pLate] at hfull
    omega

/-- The `more` flag of the last transmit call that was accepted (not dropped) in a run; `false` if there is none. -/
def lastMore : St → Bool → List Op → Bool
  | _, m, [] => m
  | s, m, o :: os =>
    lastMore (step s o) (match o with
      | .xmit _ more false => if s.x = .idle ∧ s.stopped = false then more else m
      | _ => m) os

private def Bell (s : St) (lm : Bool) : Prop := match s.x with
  | .idle => s.hw = s.prod ∨ lm = true
  | .mapped m => m = lm
  | .check m => m = lm
  | .stop m => m = lm
  | .bell m _ => m = lm
  | .recheck => s.hw = s.prod
  | .wake => s.hw = s.prod

private theorem bell_run (ops : List Op) : ∀ s lm, Bell s lm → Bell (run s ops) (lastMore s lm ops) := by
  induction ops with
  | nil => intro s lm h; exact h
  | cons o os ih =>
    intro s lm h
    refine ih _ _ ?_
    obtain ⟨k, skb, prod, cons, hw, st, x, p, sent, done, freed⟩ := s
    cases o with
    | xmit b more drop =>
      cases drop with
      | true => simp only [step]; split <;> simpa using h
      | false =>
        simp only [step]
        by_cases hc : x = .idle ∧ st = false
        · simp [hc, Bell]
        · simp only [hc, if_false]; exact h
    | x =>
      rcases x with _ | _ | _ | _ | ⟨m, _ | _⟩ | _ | _
      · exact h
      · exact h
      · simp only [step]; split <;> exact h
      · exact h
      · simp only [Bell] at h; simp only [step, Bell]; subst h; cases m <;> simp
      · simp [step, Bell]
      · simp only [step]; split
        · exact Or.inl h
        · exact h
      · exact Or.inl h
    | poll => simp only [step]; split <;> exact h
    | cpl pos => simp only [step]; split <;> exact h
    | p =>
      cases p <;> simp only [step]
      all_goals (try split)
      all_goals (try split)
      all_goals exact h

/-- C45, partial: in every run, whenever no transmit call is in progress, the device has been told about every queued
descriptor unless the last accepted call announced that more frames follow.  Missing: bursts whose last frame
is dropped (then nobody rings the doorbell), see the counterexample. -/
theorem C45_doorbell_partial (k : Nat) (ops : List Op) :
    let s := run (init k) ops
    s.x = .idle → lastMore (init k) false ops = false → s.hw = s.prod := by
  intro s hx hl
  have h := bell_run ops (init k) false (Or.inl rfl)
  rw [hl] at h
  have h : Bell s false := h
  unfold Bell at h
  rw [hx] at h
  simpa using h

/-- C45, counterexample: the first frame of a burst is queued with `more = true`; the last is dropped (mapping or
linearisation failure).  Both calls have returned, the queue is not stopped, but the device was never told about the
first frame. -/
theorem C45_dropped_burst_counterexample :
    let s := run (init 4) [.xmit 7 true false, .x, .x, .x, .xmit 8 false true]
    s.x = .idle ∧ s.p = .idle ∧ s.stopped = false ∧ s.sent = [7] ∧ s.prod = 1 ∧ s.hw = 0 := by decide

/-! Non-vacuity: a run that stops the queue (C44c hypotheses) and one that wakes it. -/
def fill2 : List Op :=
  [.xmit 10 false false, .x, .x, .x, .xmit 11 false false, .x, .x, .x, .x, .x]
example : (run (init 2) fill2).x = .idle ∧ (run (init 2) fill2).p = .idle ∧ (run (init 2) fill2).stopped = true := by decide
example : let s := run (init 2) (fill2 ++ [.poll, .cpl 0, .p, .p, .p, .p, .p, .p, .p])
    s.stopped = false ∧ s.p = .idle ∧ s.freed = [(0, some 10)] := by decide
example : (run (init 2) fill2).hw = 2 ∧ lastMore (init 2) false fill2 = false := by decide

end Corundum.LinuxTx
