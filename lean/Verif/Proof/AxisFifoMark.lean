import Verif.Proof.AxisFifoRun
/-!
AXI stream FIFO: MARK_WHEN_FULL mode.
-/
namespace Corundum.AxisFifo

/-- frames completed at the input in a run, each with the overflow pulse reported for it -/
def S.ended (c : Cfg) : S → List Beat → List Inp → List (List Beat × Bool)
  | _, _, [] => []
  | s, pre, i :: is =>
    if s.ready c && i.valid then
      if i.beat.last then (pre ++ [i.beat], (s.step c i).status.overflow) :: S.ended c (s.step c i) [] is
      else S.ended c (s.step c i) (pre ++ [i.beat]) is
    else S.ended c (s.step c i) pre is

/-- beats of the frame in progress after a run -/
def S.partialFrame (c : Cfg) : S → List Beat → List Inp → List Beat
  | _, pre, [] => pre
  | s, pre, i :: is =>
    if s.ready c && i.valid then
      if i.beat.last then S.partialFrame c (s.step c i) [] is else S.partialFrame c (s.step c i) (pre ++ [i.beat]) is
    else S.partialFrame c (s.step c i) pre is

theorem ended_frames (c : Cfg) : ∀ (is : List Inp) (s : S) (pre : List Beat),
    (s.ended c pre is).map Prod.fst = (frames pre (s.accepted c is)).1 ∧ s.partialFrame c pre is = (frames pre (s.accepted c is)).2 := by
  intro is
  induction is with
  | nil => intro s pre; exact ⟨rfl, rfl⟩
  | cons i is ih =>
    intro s pre
    rw [S.ended, S.partialFrame, S.accepted]
    by_cases ha : (s.ready c && i.valid) = true
    · simp only [ha, if_true, List.singleton_append, frames]
      by_cases hl : i.beat.last = true
      · simp only [hl, if_true, List.map_cons]
        exact ⟨by rw [(ih _ _).1], (ih _ _).2⟩
      · simp only [hl, if_false, Bool.false_eq_true]; exact ih _ _
    · simp only [ha, if_false, Bool.false_eq_true, List.nil_append]; exact ih _ _

/-- terminator of a truncated frame -/
def Term (c : Cfg) (t : Beat) : Prop := t.last = true ∧ t.user = c.badValue

/-- what may come out for an input frame: without overflow the frame itself; with overflow nothing, or a proper prefix followed by one marked last beat -/
def Marked (c : Cfg) (f : List Beat × Bool) (g : List Beat) : Prop :=
  (f.2 = false ∧ g = f.1) ∨ (f.2 = true ∧ (g = [] ∨ ∃ p t, p ≠ [] ∧ p <+: f.1 ∧ p.length < f.1.length ∧ Term c t ∧ g = p ++ [t]))

/-- all frames done, `wr` written, a terminator outstanding -/
def Owed (c : Cfg) (fs : List (List Beat × Bool)) (wr : List Beat) : Prop :=
  ∀ t, Term c t → ∃ gs, List.Forall₂ (Marked c) fs gs ∧ wr ++ [t] = gs.flatten

/-- the frame in progress was cut after `w` -/
def Cut (c : Cfg) (fs : List (List Beat × Bool)) (pre wr : List Beat) : Prop :=
  ∃ gs w, List.Forall₂ (Marked c) fs gs ∧ wr = gs.flatten ++ w ∧ w ≠ [] ∧ w <+: pre ∧ w.length < pre.length

structure MInv (c : Cfg) (s : S) (fs : List (List Beat × Bool)) (pre wr : List Beat) : Prop where
  sf : s.f.sframe = !pre.isEmpty
  ff : s.f.mark = false → s.f.drop = false → ∃ gs, List.Forall₂ (Marked c) fs gs ∧ wr = gs.flatten ++ pre
  ft : s.f.mark = false → s.f.drop = true → ∃ gs, List.Forall₂ (Marked c) fs gs ∧ wr = gs.flatten
  tf : s.f.mark = true → s.f.drop = false → pre = [] ∧ Owed c fs wr
  tt : s.f.mark = true → s.f.drop = true → Owed c fs wr ∨ Cut c fs pre wr

theorem f2_snoc {c : Cfg} {fs gs f g} (h : List.Forall₂ (Marked c) fs gs) (hm : Marked c f g) : List.Forall₂ (Marked c) (fs ++ [f]) (gs ++ [g]) :=
  List.rel_append h (List.Forall₂.cons hm List.Forall₂.nil)

theorem flatten_snoc (gs : List (List Beat)) (g : List Beat) : (gs ++ [g]).flatten = gs.flatten ++ g := by simp

theorem Owed.drop {c fs wr} (h : Owed c fs wr) (f : List Beat) : Owed c (fs ++ [(f, true)]) wr := by
  intro t ht
  obtain ⟨gs, h1, h2⟩ := h t ht
  exact ⟨gs ++ [[]], f2_snoc h1 (Or.inr ⟨rfl, Or.inl rfl⟩), by rw [flatten_snoc, ← h2]; simp⟩

theorem Cut.grow {c fs pre wr} (h : Cut c fs pre wr) (b : Beat) : Cut c fs (pre ++ [b]) wr := by
  obtain ⟨gs, w, h1, h2, h3, h4, h5⟩ := h
  exact ⟨gs, w, h1, h2, h3, h4.trans (List.prefix_append _ _), by simp; omega⟩

theorem Cut.owed {c fs pre wr} (h : Cut c fs pre wr) (b : Beat) : Owed c (fs ++ [(pre ++ [b], true)]) wr := by
  obtain ⟨gs, w, h1, h2, h3, h4, h5⟩ := h.grow b
  intro t ht
  refine ⟨gs ++ [w ++ [t]], f2_snoc h1 (Or.inr ⟨rfl, Or.inr ⟨w, t, h3, h4, h5, ht, rfl⟩⟩), ?_⟩
  rw [flatten_snoc, h2, List.append_assoc]

theorem mark_step (c : Cfg) (hff : c.frameFifo = false) (hmw : c.markWhenFull = true) (s : S) (i : Inp) (fs : List (List Beat × Bool)) (pre wr : List Beat) (h : MInv c s fs pre wr) :
    (actQ (s.act c i) [] [] (s.word c i)).2 = [] ∧ s.ready c = true ∧
    if i.valid then
      if i.beat.last then MInv c (s.step c i) (fs ++ [(pre ++ [i.beat], (s.step c i).status.overflow)]) [] (wr ++ cmt (s.act c i) [] (s.word c i))
      else MInv c (s.step c i) fs (pre ++ [i.beat]) (wr ++ cmt (s.act c i) [] (s.word c i))
    else MInv c (s.step c i) fs pre (wr ++ cmt (s.act c i) [] (s.word c i)) := by
  have hrd : s.ready c = true := by simp [S.ready, tready, hff, hmw]
  have hrd' : tready c (s.full c) (s.fullWr c) = true := hrd
  have hf : (s.step c i).f = (wrLogic c (s.full c) (s.fullWr c) s.f i.valid i.beat).1 := rfl
  have hst : (s.step c i).status = (wrLogic c (s.full c) (s.fullWr c) s.f i.valid i.beat).2.1 := rfl
  have hact : s.act c i = (wrLogic c (s.full c) (s.fullWr c) s.f i.valid i.beat).2.2 := rfl
  have hterm : s.f.mark = true → Term c (s.word c i) := by
    intro hm; simp [Term, S.word, sAxis, hm]
  have hword : s.f.mark = false → s.word c i = i.beat := by
    intro hm; simp [S.word, sAxis, hm]
  refine ⟨?_, hrd, ?_⟩
  · rw [hact]
    unfold wrLogic wrNormal
    simp only [hff, Bool.false_eq_true, if_false]
    repeat' split
    all_goals rfl
  cases hv : i.valid
  · simp only [Bool.false_eq_true, if_false]
    by_cases hc : (!s.full c && !s.f.drop && s.f.mark) = true
    · have e : wrLogic c (s.full c) (s.fullWr c) s.f i.valid i.beat = ({ s.f with mark := false }, {}, .storeCommit) := by
        unfold wrLogic wrNormal
        simp only [hff, hv, Bool.and_false, Bool.false_eq_true, if_false, hc, hmw, Bool.and_self, if_true]
      simp only [Bool.and_eq_true, Bool.not_eq_true'] at hc
      obtain ⟨p1, p2⟩ := h.tf hc.2 hc.1.2
      obtain ⟨gs, g1, g2⟩ := p2 _ (hterm hc.2)
      refine ⟨by rw [hf, e]; exact h.sf, ?_, ?_, ?_, ?_⟩
      · intro _ _
        exact ⟨gs, g1, by rw [hact, e, p1]; simpa [cmt] using g2⟩
      · intro _ hd; rw [hf, e] at hd; rw [hc.1.2] at hd; simp at hd
      · intro hm; rw [hf, e] at hm; simp at hm
      · intro hm; rw [hf, e] at hm; simp at hm
    · have e : wrLogic c (s.full c) (s.fullWr c) s.f i.valid i.beat = (s.f, {}, .nop) := by
        unfold wrLogic wrNormal
        simp only [hff, hv, Bool.and_false, Bool.false_eq_true, if_false, hc, hmw, Bool.false_and]
      have hw : wr ++ cmt (s.act c i) [] (s.word c i) = wr := by rw [hact, e]; simp [cmt]
      rw [hw]
      refine ⟨by rw [hf, e]; exact h.sf, ?_, ?_, ?_, ?_⟩ <;> rw [hf, e]
      · exact h.ff
      · exact h.ft
      · exact h.tf
      · exact h.tt
  · simp only [if_true]
    have ht : (tready c (s.full c) (s.fullWr c) && true) = true := by rw [hrd']; rfl
    cases hd : s.f.drop
    · by_cases hfm : (s.full c || s.f.mark) = true
      · -- branch 2
        have e : wrLogic c (s.full c) (s.fullWr c) s.f i.valid i.beat =
            ({ s.f with drop := !i.beat.last, mark := s.f.mark || s.f.sframe, sframe := !i.beat.last }, { overflow := i.beat.last }, .nop) := by
          unfold wrLogic wrNormal
          simp only [hff, hv, ht, hd, Bool.false_and, Bool.false_eq_true, if_false, hfm, hmw, Bool.and_self, if_true]
        have hw : wr ++ cmt (s.act c i) [] (s.word c i) = wr := by rw [hact, e]; simp [cmt]
        rw [hw, hst, e]
        simp only
        cases hl : i.beat.last
        · simp only [Bool.false_eq_true, if_false]
          refine ⟨by rw [hf, e]; simp [hl], ?_, ?_, ?_, ?_⟩ <;> rw [hf, e] <;> simp only [hl, Bool.not_false, reduceCtorEq, false_imp_iff, implies_true]
          · intro hm _
            simp only [Bool.or_eq_false_iff] at hm
            obtain ⟨gs, g1, g2⟩ := h.ff hm.1 hd
            have hp : pre = [] := by have := h.sf; rw [hm.2] at this; simpa using this
            exact ⟨gs, g1, by rw [g2, hp]; simp⟩
          · intro hm _
            cases hmk : s.f.mark
            · right
              obtain ⟨gs, g1, g2⟩ := h.ff hmk hd
              rw [hmk, Bool.false_or] at hm
              have hp : pre ≠ [] := by have := h.sf; rw [hm] at this; intro hc; rw [hc] at this; simp at this
              exact ⟨gs, pre, g1, g2, hp, List.prefix_append _ _, by simp⟩
            · exact Or.inl (h.tf hmk hd).2
        · simp only [if_true]
          refine ⟨by rw [hf, e]; simp [hl], ?_, ?_, ?_, ?_⟩ <;> rw [hf, e] <;> simp only [hl, Bool.not_true, reduceCtorEq, false_imp_iff, implies_true]
          · intro hm _
            simp only [Bool.or_eq_false_iff] at hm
            obtain ⟨gs, g1, g2⟩ := h.ff hm.1 hd
            have hp : pre = [] := by have := h.sf; rw [hm.2] at this; simpa using this
            refine ⟨gs ++ [[]], f2_snoc g1 (Or.inr ⟨rfl, Or.inl rfl⟩), by rw [g2, hp]; simp⟩
          · intro hm _
            refine ⟨trivial, ?_⟩
            cases hmk : s.f.mark
            · obtain ⟨gs, g1, g2⟩ := h.ff hmk hd
              rw [hmk, Bool.false_or] at hm
              have hp : pre ≠ [] := by have := h.sf; rw [hm] at this; intro hc; rw [hc] at this; simp at this
              intro t htm
              refine ⟨gs ++ [pre ++ [t]], f2_snoc g1 (Or.inr ⟨rfl, Or.inr ⟨pre, t, hp, List.prefix_append _ _, by simp, htm, rfl⟩⟩), ?_⟩
              rw [flatten_snoc, g2, List.append_assoc]
            · exact (h.tf hmk hd).2.drop _
      · -- transfer
        have hfm' : (s.full c || s.f.mark) = false := Bool.not_eq_true _ ▸ hfm
        have hmk : s.f.mark = false := by simp only [Bool.or_eq_false_iff] at hfm'; exact hfm'.2
        have e : wrLogic c (s.full c) (s.fullWr c) s.f i.valid i.beat = ({ s.f with sframe := !i.beat.last }, {}, .storeCommit) := by
          unfold wrLogic wrNormal
          simp only [hff, hv, ht, hd, Bool.false_and, Bool.false_eq_true, if_false, hfm', if_true]
        obtain ⟨gs, g1, g2⟩ := h.ff hmk hd
        have hw : wr ++ cmt (s.act c i) [] (s.word c i) = gs.flatten ++ (pre ++ [i.beat]) := by rw [hact, e, hword hmk, g2]; simp [cmt]
        rw [hw, hst, e]
        simp only
        cases hl : i.beat.last
        · simp only [Bool.false_eq_true, if_false]
          refine ⟨by rw [hf, e]; simp [hl], ?_, ?_, ?_, ?_⟩ <;> rw [hf, e] <;> simp only [hmk, hd, reduceCtorEq, false_imp_iff, implies_true]
          intro _ _; exact ⟨gs, g1, rfl⟩
        · simp only [if_true]
          refine ⟨by rw [hf, e]; simp [hl], ?_, ?_, ?_, ?_⟩ <;> rw [hf, e] <;> simp only [hmk, hd, reduceCtorEq, false_imp_iff, implies_true]
          intro _ _
          exact ⟨gs ++ [pre ++ [i.beat]], f2_snoc g1 (Or.inl ⟨rfl, rfl⟩), by rw [flatten_snoc]; simp⟩
    · -- dropping
      cases hl : i.beat.last
      · have e : wrLogic c (s.full c) (s.fullWr c) s.f i.valid i.beat = ({ s.f with sframe := true }, {}, .nop) := by
          unfold wrLogic wrNormal
          simp only [hff, hv, ht, hd, hmw, Bool.and_self, if_true, hl, Bool.false_eq_true, if_false, Bool.not_false]
        have hw : wr ++ cmt (s.act c i) [] (s.word c i) = wr := by rw [hact, e]; simp [cmt]
        rw [hw]
        simp only [Bool.false_eq_true, if_false]
        refine ⟨by rw [hf, e]; simp, ?_, ?_, ?_, ?_⟩ <;> rw [hf, e] <;> simp only [hd, reduceCtorEq, false_imp_iff, implies_true]
        · intro hm _; exact h.ft hm hd
        · intro hm _
          rcases h.tt hm hd with k | k
          · exact Or.inl k
          · exact Or.inr (k.grow _)
      · simp only [if_true]
        by_cases hfm : (!s.full c && s.f.mark) = true
        · have e : wrLogic c (s.full c) (s.fullWr c) s.f i.valid i.beat = ({ s.f with mark := false, drop := false, sframe := false }, { overflow := true }, .storeCommit) := by
            unfold wrLogic wrNormal
            simp only [hff, hv, ht, hd, hmw, Bool.and_self, if_true, hl, hfm, Bool.false_eq_true, if_false, Bool.not_true]
          have hmk : s.f.mark = true := by simp only [Bool.and_eq_true] at hfm; exact hfm.2
          have ho : Owed c (fs ++ [(pre ++ [i.beat], true)]) wr := by
            rcases h.tt hmk hd with k | k
            · exact k.drop _
            · exact k.owed _
          obtain ⟨gs, g1, g2⟩ := ho _ (hterm hmk)
          have hw : wr ++ cmt (s.act c i) [] (s.word c i) = gs.flatten ++ [] := by rw [hact, e]; simpa [cmt] using g2
          rw [hw, hst, e]
          simp only
          refine ⟨by rw [hf, e]; simp, ?_, ?_, ?_, ?_⟩ <;> rw [hf, e] <;> simp only [reduceCtorEq, false_imp_iff, implies_true]
          intro _ _; exact ⟨gs, g1, rfl⟩
        · have e : wrLogic c (s.full c) (s.fullWr c) s.f i.valid i.beat = ({ s.f with drop := false, sframe := false }, { overflow := true }, .nop) := by
            unfold wrLogic wrNormal
            simp only [hff, hv, ht, hd, hmw, Bool.and_self, if_true, hl, hfm, Bool.false_eq_true, if_false, Bool.not_true]
          have hw : wr ++ cmt (s.act c i) [] (s.word c i) = wr := by rw [hact, e]; simp [cmt]
          rw [hw, hst, e]
          simp only
          refine ⟨by rw [hf, e]; simp, ?_, ?_, ?_, ?_⟩ <;> rw [hf, e] <;> simp only [reduceCtorEq, false_imp_iff, implies_true]
          · intro hm _
            obtain ⟨gs, g1, g2⟩ := h.ft hm hd
            exact ⟨gs ++ [[]], f2_snoc g1 (Or.inr ⟨rfl, Or.inl rfl⟩), by rw [g2]; simp⟩
          · intro hm _
            refine ⟨trivial, ?_⟩
            rcases h.tt hm hd with k | k
            · exact k.drop _
            · exact k.owed _

theorem mark_run (c : Cfg) (hff : c.frameFifo = false) (hmw : c.markWhenFull = true) : ∀ (is : List Inp) (s : S) (fs : List (List Beat × Bool)) (pre wr : List Beat), MInv c s fs pre wr →
    MInv c (s.run c is) (fs ++ s.ended c pre is) (s.partialFrame c pre is) (wr ++ s.commits c [] is) := by
  intro is
  induction is with
  | nil => intro s fs pre wr h; simpa [S.run, S.ended, S.partialFrame, S.commits] using h
  | cons i is ih =>
    intro s fs pre wr h
    obtain ⟨k1, k2, k3⟩ := mark_step c hff hmw s i fs pre wr h
    rw [S.commits, k1, S.ended, S.partialFrame, k2, Bool.true_and]
    rw [show s.run c (i :: is) = (s.step c i).run c is from rfl, ← List.append_assoc]
    cases hv : i.valid
    · simp only [hv, Bool.false_eq_true, if_false] at k3 ⊢
      exact ih _ _ _ _ k3
    · simp only [hv, if_true] at k3 ⊢
      cases hl : i.beat.last
      · simp only [hl, Bool.false_eq_true, if_false] at k3 ⊢
        exact ih _ _ _ _ k3
      · simp only [hl, if_true] at k3 ⊢
        have := ih _ _ _ _ k3
        rw [List.append_assoc] at this
        exact this

end Corundum.AxisFifo
