import Verif.Proof.AsyncFifo
import Verif.Proof.AxisFifoMark
/-!
Asynchronous FIFO: what is committed in a run, in the different modes.
-/
namespace Corundum.AsyncFifo
open AxisFifo (Beat Cfg Flags Status Act Inp Verdict tready inc adv Rep Ring vals actQ cmt frames kept Allowed FInv MInv Marked)

/-- the write logic is that of the synchronous FIFO -/
theorem wrLogic_eq (c : Cfg) (full fullWr : Bool) (f : Flags) (v : Bool) (b : Beat) (h : c.frameFifo = true ∨ c.markWhenFull = true ∨ f.drop = false) :
    wrLogic c full fullWr f v b = AxisFifo.wrLogic c full fullWr f v b := by
  unfold wrLogic AxisFifo.wrLogic
  cases hff : c.frameFifo
  · have : wrNormal c full fullWr f v b = AxisFifo.wrNormal c full fullWr f v b := by
      unfold wrNormal AxisFifo.wrNormal
      rcases h with h | h | h
      · rw [hff] at h; cases h
      · rw [h]; simp only [Bool.and_true]
      · rw [h]; simp only [Bool.false_and, Bool.false_eq_true, if_false]
    rw [this]
  · rfl

/-- the write side seen as a synchronous FIFO with read pointer `rd` -/
def wview (s : S) (rd : Nat) : AxisFifo.S := { view s s.w.commit with rd := rd, f := s.w.f }

variable {c : Cfg} {s : S} {R : Nat} {q p u o : List Beat}

theorem Inv.wfull (h : Inv c s R q p u o) (ha : 0 < c.aw) : ∃ rd, (wview s rd).full c = s.w.full c := by
  obtain ⟨r0, r1, r2, _, _, _, _, _, _, h6, _⟩ := h.back
  refine ⟨r2 % M c, ?_⟩
  unfold Wr.full
  rw [h.wrg, h6, full_eq _ _ _ ha]
  rfl

/-- what happens at an edge of `s_clk` -/
theorem wview_step (s : S) (rd : Nat) (v : Bool) (b : Beat) (hf : (wview s rd).full c = s.w.full c) (hm : c.frameFifo = true ∨ c.markWhenFull = true ∨ s.w.f.drop = false) :
    (wview s rd).act c ⟨v, b, false, false⟩ = s.w.act c v b ∧ (wview s rd).ready c = s.w.ready c ∧ (wview s rd).word c ⟨v, b, false, false⟩ = AxisFifo.sAxis c s.w.f b ∧
      ((wview s rd).step c ⟨v, b, false, false⟩).f = (sEdge c s v b).w.f ∧ ((wview s rd).step c ⟨v, b, false, false⟩).status = (sEdge c s v b).w.status := by
  have hw : (wview s rd).fullWr c = s.w.fullWr c := rfl
  refine ⟨?_, ?_, rfl, ?_, ?_⟩
  · unfold AxisFifo.S.act Wr.act; rw [hf, hw, wrLogic_eq _ _ _ _ _ _ hm]; rfl
  · unfold AxisFifo.S.ready Wr.ready; rw [hf, hw]
  · show (AxisFifo.wrLogic c ((wview s rd).full c) _ _ v b).1 = (wrLogic c (s.w.full c) (s.w.fullWr c) s.w.f v b).1
    rw [hf, hw, wrLogic_eq _ _ _ _ _ _ hm]; rfl
  · show (AxisFifo.wrLogic c ((wview s rd).full c) _ _ v b).2.1 = (wrLogic c (s.w.full c) (s.w.fullWr c) s.w.f v b).2.1
    rw [hf, hw, wrLogic_eq _ _ _ _ _ _ hm]; rfl

/-! ### modes that drop nothing -/

theorem lossless_run (c : Cfg) (hc : c.Lossless) : ∀ (es : List Ev) (s : S) (u : List Beat), s.w.f.drop = false → s.w.f.mark = false →
    committed c s u es ++ pend c s u es = u ++ accepted c true s es := by
  intro es
  induction es with
  | nil => intro s u _ _; simp [committed, pend, accepted]
  | cons e es ih =>
    intro s u hd hm
    rw [committed, pend, accepted]
    cases e with
    | s v b =>
      obtain ⟨a1, b1, e1⟩ := AxisFifo.lossless_step c hc (s.w.full c) (s.w.fullWr c) s.w.f v b u hd hm
      rw [← wrLogic_eq c _ _ _ _ _ (Or.inr (Or.inr hd))] at a1 b1 e1
      rw [List.append_assoc, ih _ _ a1 b1, ← List.append_assoc, ← List.append_assoc]
      congr 1
    | m a pr => exact ih (step c true s (.m a pr)) u hd hm
    | settle wr cm rd x y => exact ih (step c true s (.settle wr cm rd x y)) u hd hm

/-! ### frame mode -/

/-- verdicts reported in a run -/
def verdicts (c : Cfg) (fast : Bool) (s : S) (es : List Ev) : List Verdict := (statuses c fast s es).filterMap Status.verdict

theorem frame_run (c : Cfg) (ha : 0 < c.aw) (hff : c.frameFifo = true) (hdo : c.dropOversize = true) : ∀ (es : List Ev) (s : S) (R : Nat) (q p u o pre : List Beat), Inv c s R q p u o →
    (∀ rd, FInv c (wview s rd) u pre) →
    List.Forall₂ (Allowed c) (frames pre (accepted c true s es)).1 (verdicts c true s es) ∧ committed c s u es = kept (frames pre (accepted c true s es)).1 (verdicts c true s es) := by
  intro es
  induction es with
  | nil =>
    intro s R q p u o pre _ _
    exact ⟨by simp [accepted, frames, verdicts, statuses], by simp [accepted, frames, verdicts, statuses, kept, committed]⟩
  | cons e es ih =>
    intro s R q p u o pre h hf
    obtain ⟨R1, q1, p1, o1, h1, _⟩ := h.step ha e
    rw [accepted, committed]
    cases e with
    | s v b =>
      obtain ⟨rd, hrd⟩ := h.wfull ha
      obtain ⟨w1, w2, w3, w4, w5⟩ := wview_step s rd v b hrd (Or.inl hff)
      have hul : u.length ≤ c.size := by have := h.len; simp [AxisFifo.Cfg.size] at this ⊢; omega
      have k := AxisFifo.frame_step c hff hdo (wview s rd) ⟨v, b, false, false⟩ u pre (hf rd) h.fullWr hul
      rw [w1, w2, w3, w5] at k
      have tr : ∀ u' pre', FInv c ((wview s rd).step c ⟨v, b, false, false⟩) u' pre' → ∀ rd', FInv c (wview (step c true s (.s v b)) rd') u' pre' := by
        intro u' pre' k rd'
        have e1 := k.mark
        have e2 := k.keep
        have e3 := k.drop
        rw [w4] at e1 e2 e3
        exact ⟨e1, e2, e3⟩
      have hv : verdicts c true s (.s v b :: es) = ((step c true s (.s v b)).w.status.verdict).toList ++ verdicts c true (step c true s (.s v b)) es := by
        simp only [verdicts, statuses, List.singleton_append, List.filterMap_cons]
        cases (step c true s (.s v b)).w.status.verdict <;> rfl
      rw [hv]
      show List.Forall₂ (Allowed c) (frames pre ((if (s.w.ready c && v) = true then [b] else []) ++ _)).1 (((sEdge c s v b).w.status.verdict).toList ++ _) ∧
        cmt (s.w.act c v b) u (AxisFifo.sAxis c s.w.f b) ++ _ = kept (frames pre ((if (s.w.ready c && v) = true then [b] else []) ++ _)).1 (((sEdge c s v b).w.status.verdict).toList ++ _)
      split at k
      · rename_i ha'
        replace ha' : (s.w.ready c && v) = true := ha'
        simp only [ha', if_true, List.singleton_append, frames]
        split at k
        · rename_i hl
          replace hl : b.last = true := hl
          obtain ⟨v', k1, k2, k3, k4⟩ := k
          obtain ⟨a, b'⟩ := ih _ _ _ _ _ _ _ h1 (tr _ _ k4)
          simp only [hl, if_true, k1, Option.toList_some, List.singleton_append]
          refine ⟨List.Forall₂.cons k2 a, ?_⟩
          rw [b', k3]
          simp [kept]
        · rename_i hl
          replace hl : ¬ b.last = true := hl
          obtain ⟨k1, k2, k3⟩ := k
          simp only [hl, k1, k2, if_false, Option.toList_none, List.nil_append, Bool.false_eq_true]
          exact ih _ _ _ _ _ _ _ h1 (tr _ _ k3)
      · rename_i ha'
        replace ha' : ¬ (s.w.ready c && v) = true := ha'
        obtain ⟨k1, k2, k3⟩ := k
        simp only [ha', k1, k2, if_false, Option.toList_none, List.nil_append, Bool.false_eq_true]
        exact ih _ _ _ _ _ _ _ h1 (tr _ _ k3)
    | m a pr => exact ih _ _ _ _ _ _ _ h1 (fun rd => ⟨(hf rd).mark, (hf rd).keep, (hf rd).drop⟩)
    | settle wr cm rd x y => exact ih _ _ _ _ _ _ _ h1 (fun rd => ⟨(hf rd).mark, (hf rd).keep, (hf rd).drop⟩)

/-! ### marking mode -/

/-- frames completed at the input in a run, each with the overflow pulse reported for it -/
def ended (c : Cfg) (fast : Bool) : S → List Beat → List Ev → List (List Beat × Bool)
  | _, _, [] => []
  | s, pre, e :: es =>
    match acc c s e with
    | b :: _ =>
      if b.last then (pre ++ [b], (step c fast s e).w.status.overflow) :: ended c fast (step c fast s e) [] es else ended c fast (step c fast s e) (pre ++ [b]) es
    | [] => ended c fast (step c fast s e) pre es

theorem ended_frames (c : Cfg) (fast : Bool) : ∀ (es : List Ev) (s : S) (pre : List Beat), (ended c fast s pre es).map Prod.fst = (frames pre (accepted c fast s es)).1 := by
  intro es
  induction es with
  | nil => intro s pre; rfl
  | cons e es ih =>
    intro s pre
    rw [ended, accepted]
    have : acc c s e = [] ∨ ∃ b, acc c s e = [b] := by
      cases e with
      | s v b => simp only [acc]; split <;> simp
      | m a pr => exact Or.inl rfl
      | settle => exact Or.inl rfl
    rcases this with h | ⟨b, h⟩
    · rw [h]; exact ih _ _
    · rw [h]
      simp only [List.singleton_append, frames]
      split
      · rw [List.map_cons, ih]
      · exact ih _ _

theorem mark_run (c : Cfg) (ha : 0 < c.aw) (hff : c.frameFifo = false) (hmw : c.markWhenFull = true) : ∀ (es : List Ev) (s : S) (R : Nat) (q p u o : List Beat)
    (fs : List (List Beat × Bool)) (pre wr : List Beat), Inv c s R q p u o → (∀ rd, MInv c (wview s rd) fs pre wr) →
    ∀ rd, MInv c (wview (run c true s es) rd) (fs ++ ended c true s pre es) (frames pre (accepted c true s es)).2 (wr ++ committed c s [] es) := by
  intro es
  induction es with
  | nil => intro s R q p u o fs pre wr _ h rd; simpa [run, ended, frames, accepted, committed] using h rd
  | cons e es ih =>
    intro s R q p u o fs pre wr h hf
    obtain ⟨R1, q1, p1, o1, h1, _⟩ := h.step ha e
    rw [show run c true s (e :: es) = run c true (step c true s e) es from rfl, ended, accepted, committed, ← List.append_assoc]
    cases e with
    | s v b =>
      obtain ⟨rd, hrd⟩ := h.wfull ha
      obtain ⟨w1, w2, w3, w4, w5⟩ := wview_step s rd v b hrd (Or.inr (Or.inl hmw))
      obtain ⟨k1, k2, k3⟩ := AxisFifo.mark_step c hff hmw (wview s rd) ⟨v, b, false, false⟩ fs pre wr (hf rd)
      rw [w1, w3] at k1 k3
      rw [w2] at k2
      rw [w5] at k3
      have tr : ∀ fs' pre' wr', MInv c ((wview s rd).step c ⟨v, b, false, false⟩) fs' pre' wr' → ∀ rd', MInv c (wview (step c true s (.s v b)) rd') fs' pre' wr' := by
        intro fs' pre' wr' k rd'
        obtain ⟨e1, e2, e3, e4, e5⟩ := k
        rw [w4] at e1 e2 e3 e4 e5
        exact ⟨e1, e2, e3, e4, e5⟩
      have hp : pendEv c s [] (.s v b) = [] := k1
      have hac : acc c s (.s v b) = if v then [b] else [] := by simp only [acc, k2, Bool.true_and]
      rw [hp, hac]
      show ∀ rd, MInv c _ (fs ++ _) _ (wr ++ cmt (s.w.act c v b) [] (AxisFifo.sAxis c s.w.f b) ++ _)
      cases v
      · rw [if_neg (by simp)] at k3
        exact ih _ _ _ _ _ _ _ _ _ h1 (tr _ _ _ k3)
      · rw [if_pos rfl] at k3
        simp only [if_true, List.singleton_append, frames]
        cases hl : b.last
        · rw [if_neg (by simp [hl])] at k3
          exact ih _ _ _ _ _ _ _ _ _ h1 (tr _ _ _ k3)
        · rw [if_pos (by simp [hl])] at k3
          intro rd'
          have := ih _ _ _ _ _ _ _ _ _ h1 (tr _ _ _ k3) rd'
          rw [List.append_assoc] at this
          exact this
    | m a pr =>
      simp only [cmtEv, List.append_nil, acc, List.nil_append]
      exact ih _ _ _ _ _ _ _ _ _ h1 (fun rd => ⟨(hf rd).sf, (hf rd).ff, (hf rd).ft, (hf rd).tf, (hf rd).tt⟩)
    | settle wr cm rd x y =>
      simp only [cmtEv, List.append_nil, acc, List.nil_append]
      exact ih _ _ _ _ _ _ _ _ _ h1 (fun rd => ⟨(hf rd).sf, (hf rd).ff, (hf rd).ft, (hf rd).tf, (hf rd).tt⟩)

end Corundum.AsyncFifo
