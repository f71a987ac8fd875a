import Mathlib.Data.List.Forall2
import Verif.Proof.AxisFifo
/-!
AXI stream FIFO: runs.
-/
namespace Corundum.AxisFifo

/-- uncommitted words after a run -/
def S.pend (c : Cfg) : S → List Beat → List Inp → List Beat
  | _, u, [] => u
  | s, u, i :: is => S.pend c (s.step c i) (actQ (s.act c i) [] u (s.word c i)).2 is

/-- words committed in a run -/
def S.commits (c : Cfg) : S → List Beat → List Inp → List Beat
  | _, _, [] => []
  | s, u, i :: is => cmt (s.act c i) u (s.word c i) ++ S.commits c (s.step c i) (actQ (s.act c i) [] u (s.word c i)).2 is

theorem actQ_snd (a : Act) (q q' u : List Beat) (b : Beat) : (actQ a q u b).2 = (actQ a q' u b).2 := by cases a <;> rfl

theorem Inv.run {c : Cfg} : ∀ (is : List Inp) {s : S} {q u o : List Beat}, Inv c s q u o → ∃ q' o', Inv c (s.run c is) q' (s.pend c u is) o' ∧
    s.delivered c is ++ contents (s.run c is) q' o' = contents s q o ++ s.commits c u is := by
  intro is
  induction is with
  | nil => intro s q u o h; exact ⟨q, o, h, by simp [S.delivered, S.commits, S.run]⟩
  | cons i is ih =>
    intro s q u o h
    obtain ⟨q1, o1, h1, k1, _⟩ := h.step i
    rw [actQ_snd _ q []] at h1
    obtain ⟨q', o', h', k'⟩ := ih h1
    refine ⟨q', o', h', ?_⟩
    rw [S.delivered, S.commits, List.append_assoc]
    rw [show S.run c s (i :: is) = (s.step c i).run c is from rfl, k', ← List.append_assoc, show (if i.mready = true then (S.m c s).toList else []) = s.outBeat c i from rfl, k1,
      List.append_assoc]

theorem Inv.init (c : Cfg) : Inv c (init c) [] [] [] := by
  have rep : ∀ n m, Rep n m 0 0 [] := fun n m => ⟨Nat.two_pow_pos _, by simp, by simp, by simp⟩
  refine ⟨⟨rep _ _, by simp [AxisFifo.init]⟩, by simp [AxisFifo.init], rep _ _, fun _ => ⟨rfl, rfl⟩, fun _ _ => by simp, fun _ => Or.inr rfl⟩

theorem contents_init (c : Cfg) : contents (init c) [] [] = [] := by
  simp [contents, AxisFifo.init, vals]

/-- nothing left inside: equal pointers, empty pipeline and output stage -/
def S.Empty (s : S) : Prop := s.wr = s.rd ∧ (∀ x ∈ s.pipe, x = none) ∧ s.owr = s.ord ∧ s.oreg = none

/-- no committed word left inside -/
def S.Drained (s : S) : Prop := s.commit = s.rd ∧ (∀ x ∈ s.pipe, x = none) ∧ s.owr = s.ord ∧ s.oreg = none

theorem Inv.drained {c s q u o} (h : Inv c s q u o) (he : s.Drained) : contents s q o = [] := by
  obtain ⟨h1, h2, h3, h4⟩ := he
  have hq : q = [] := by
    have := h.ring.empty
    unfold S.empty at this
    rw [h1] at this
    simpa using this
  have ho : o = [] := by
    have := h.orep.empty
    rw [h3] at this
    simpa using this
  have hv : vals s.pipe = [] := by
    unfold vals
    rw [List.filterMap_eq_nil_iff]
    exact h2
  simp [contents, hq, ho, hv, h4]

theorem Inv.emptied {c s q u o} (h : Inv c s q u o) (he : s.Empty) : contents s q o = [] ∧ u = [] := by
  obtain ⟨h1, h2, h3, h4⟩ := he
  have hqu : q ++ u = [] := by
    have := h.ring.rep.empty
    rw [h1] at this
    simpa using this
  have hq := (List.append_eq_nil_iff.1 hqu).1
  refine ⟨h.drained ⟨?_, h2, h3, h4⟩, (List.append_eq_nil_iff.1 hqu).2⟩
  have := h.ring.empty
  rw [hq] at this
  simpa [S.empty] using this

/-! ### modes that drop nothing -/

/-- configurations without any dropping -/
def Cfg.Lossless (c : Cfg) : Prop := c.dropOversize = false ∧ c.dropBad = false ∧ c.dropWhenFull = false ∧ c.markWhenFull = false

theorem lossless_step (c : Cfg) (hc : c.Lossless) (full fullWr : Bool) (f : Flags) (v : Bool) (b : Beat) (u : List Beat) (hd : f.drop = false) (hm : f.mark = false) :
    (wrLogic c full fullWr f v b).1.drop = false ∧ (wrLogic c full fullWr f v b).1.mark = false ∧
    cmt (wrLogic c full fullWr f v b).2.2 u (sAxis c f b) ++ (actQ (wrLogic c full fullWr f v b).2.2 [] u (sAxis c f b)).2 =
      u ++ (if tready c full fullWr && v then [b] else []) := by
  obtain ⟨h1, h2, h3, h4⟩ := hc
  have hs : sAxis c f b = b := by simp [sAxis, hm]
  rw [hs]
  unfold wrLogic wrFrame wrNormal
  simp only [h1, h2, h3, h4, hd, hm, Bool.and_false, Bool.or_false, Bool.false_and, Bool.not_false, Bool.true_and, Bool.and_true, Bool.false_eq_true, if_false]
  by_cases ht : (tready c full fullWr && v) = true
  · simp only [ht, if_true]
    by_cases hff : c.frameFifo = true
    · simp only [hff, if_true]
      by_cases hl : (b.last || (fullWr || f.send)) = true
      · simp [hl, cmt, actQ, hd, hm]
      · simp [hl, cmt, actQ, hd, hm]
    · simp [hff, cmt, actQ, hd, hm]
  · simp only [ht, if_false, Bool.false_eq_true]
    by_cases hff : c.frameFifo = true
    · simp only [hff, if_true]
      by_cases hl : (v && fullWr) = true
      · simp [hl, cmt, actQ, hd, hm]
      · simp [hl, cmt, actQ, hd, hm]
    · simp [hff, cmt, actQ, hd, hm]

theorem lossless_run (c : Cfg) (hc : c.Lossless) : ∀ (is : List Inp) (s : S) (u : List Beat), s.f.drop = false → s.f.mark = false →
    s.commits c u is ++ s.pend c u is = u ++ s.accepted c is := by
  intro is
  induction is with
  | nil => intro s u _ _; simp [S.commits, S.pend, S.accepted]
  | cons i is ih =>
    intro s u hd hm
    obtain ⟨a, b, e⟩ := lossless_step c hc (s.full c) (s.fullWr c) s.f i.valid i.beat u hd hm
    rw [S.commits, S.pend, S.accepted, List.append_assoc, ih _ _ a b, ← List.append_assoc, ← List.append_assoc]
    congr 1

/-! ### frame mode -/

inductive Verdict | good | bad | overflow
  deriving DecidableEq, Repr

/-- verdict reported by the status outputs in a cycle -/
def Status.verdict (s : Status) : Option Verdict :=
  if s.good then some .good else if s.bad then some .bad else if s.overflow then some .overflow else none

/-- split beats into complete frames and a remainder; `pre` are the beats of the frame in progress -/
def frames : List Beat → List Beat → List (List Beat) × List Beat
  | pre, [] => ([], pre)
  | pre, b :: bs => if b.last then ((pre ++ [b]) :: (frames [] bs).1, (frames [] bs).2) else frames (pre ++ [b]) bs

/-- frames with verdict good, concatenated -/
def kept (fs : List (List Beat)) (vs : List Verdict) : List Beat := (fs.zip vs).flatMap (fun p => if p.2 = .good then p.1 else [])

/-- a frame is bad if the bad frame marker is set on its last beat -/
def isBad (c : Cfg) (f : List Beat) : Bool := match f.getLast? with | some b => c.bad b.user | none => false

/-- verdict allowed for a frame -/
def Allowed (c : Cfg) (f : List Beat) : Verdict → Prop
  | .good => f.length ≤ c.size ∧ ¬ (c.dropBad = true ∧ isBad c f = true)
  | .bad => f.length ≤ c.size ∧ c.dropBad = true ∧ isBad c f = true
  | .overflow => c.size < f.length ∨ c.dropWhenFull = true

/-- frame in progress: `u` stored words, `pre` accepted beats -/
structure FInv (c : Cfg) (s : S) (u pre : List Beat) : Prop where
  mark : s.f.mark = false
  keep : s.f.drop = false → u = pre ∧ pre.length ≤ c.size
  drop : s.f.drop = true → c.size < pre.length ∨ c.dropWhenFull = true

theorem frame_step (c : Cfg) (hff : c.frameFifo = true) (hdo : c.dropOversize = true) (s : S) (i : Inp) (u pre : List Beat) (h : FInv c s u pre) (hu : s.fullWr c = decide (u.length = c.size))
    (hul : u.length ≤ c.size) :
    if s.ready c && i.valid then
      if i.beat.last then
        ∃ v, (s.step c i).status.verdict = some v ∧ Allowed c (pre ++ [i.beat]) v ∧ cmt (s.act c i) u (s.word c i) = (if v = .good then pre ++ [i.beat] else []) ∧
          FInv c (s.step c i) (actQ (s.act c i) [] u (s.word c i)).2 []
      else (s.step c i).status.verdict = none ∧ cmt (s.act c i) u (s.word c i) = [] ∧ FInv c (s.step c i) (actQ (s.act c i) [] u (s.word c i)).2 (pre ++ [i.beat])
    else (s.step c i).status.verdict = none ∧ cmt (s.act c i) u (s.word c i) = [] ∧ FInv c (s.step c i) (actQ (s.act c i) [] u (s.word c i)).2 pre := by
  have hw : s.word c i = i.beat := by simp [S.word, sAxis, h.mark]
  have hbad : isBad c (pre ++ [i.beat]) = c.bad i.beat.user := by simp [isBad]
  have hf : (s.step c i).f = (wrLogic c (s.full c) (s.fullWr c) s.f i.valid i.beat).1 := rfl
  have hst : (s.step c i).status = (wrLogic c (s.full c) (s.fullWr c) s.f i.valid i.beat).2.1 := rfl
  rw [hw, hst]
  unfold S.act S.ready
  have hmk := h.mark
  by_cases ht : (tready c (s.full c) (s.fullWr c) && i.valid) = true
  · rw [if_pos ht]
    by_cases hdr : ((s.full c && c.dropWhenFull) || (s.fullWr c && c.dropOversize) || s.f.drop) = true
    · have hov : c.size < (pre ++ [i.beat]).length ∨ c.dropWhenFull = true := by
        simp only [Bool.or_eq_true, Bool.and_eq_true] at hdr
        rcases hdr with (⟨_, h1⟩ | ⟨h1, _⟩) | h1
        · exact Or.inr h1
        · cases hd : s.f.drop
          · left
            rw [hu, decide_eq_true_iff] at h1
            rw [(h.keep hd).1] at h1
            simp; omega
          · rcases h.drop hd with h2 | h2
            · left; simp; omega
            · exact Or.inr h2
        · rcases h.drop h1 with h2 | h2
          · left; simp; omega
          · exact Or.inr h2
      by_cases hl : i.beat.last = true
      · have e : wrLogic c (s.full c) (s.fullWr c) s.f i.valid i.beat = ({ s.f with drop := false, sframe := !i.beat.last }, { overflow := true }, .reset) := by
          unfold wrLogic wrFrame
          simp only [hff, if_true, ht, hdr, hl]
        rw [if_pos hl]
        refine ⟨.overflow, by rw [e]; rfl, hov, by rw [e]; rfl, ?_⟩
        refine ⟨by rw [hf, e]; exact hmk, fun _ => ⟨by rw [e]; rfl, by simp⟩, fun hd => by rw [hf, e] at hd; simp at hd⟩
      · have e : wrLogic c (s.full c) (s.fullWr c) s.f i.valid i.beat = ({ s.f with drop := true, sframe := !i.beat.last }, {}, .nop) := by
          unfold wrLogic wrFrame
          simp only [hff, if_true, ht, hdr, hl, if_false, Bool.false_eq_true]
        rw [if_neg hl]
        refine ⟨by rw [e]; rfl, by rw [e]; rfl, ?_⟩
        refine ⟨by rw [hf, e]; exact hmk, fun hd => by rw [hf, e] at hd; simp at hd, fun _ => hov⟩
    · have hdr' : ((s.full c && c.dropWhenFull) || (s.fullWr c && c.dropOversize) || s.f.drop) = false := Bool.not_eq_true _ ▸ hdr
      have hd0 : s.f.drop = false := by simp only [Bool.or_eq_false_iff] at hdr'; exact hdr'.2
      have hfw : s.fullWr c = false := by simp only [hdo, Bool.and_true, Bool.or_eq_false_iff] at hdr'; exact hdr'.1.2
      obtain ⟨k1, k2⟩ := h.keep hd0
      have hlen : (pre ++ [i.beat]).length ≤ c.size := by
        rw [hu, decide_eq_false_iff_not, k1] at hfw
        simp; omega
      by_cases hl : i.beat.last = true
      · rw [if_pos hl]
        by_cases hb : (c.dropBad && c.bad i.beat.user) = true
        · have e : wrLogic c (s.full c) (s.fullWr c) s.f i.valid i.beat = ({ s.f with send := !i.beat.last, sframe := !i.beat.last }, { bad := true }, .storeReset) := by
            unfold wrLogic wrFrame
            simp only [hff, if_true, ht, hdr', hl, if_false, Bool.false_eq_true, Bool.true_or, Bool.true_and, hb]
          rw [Bool.and_eq_true] at hb
          refine ⟨.bad, by rw [e]; rfl, ⟨hlen, hb.1, by rw [hbad]; exact hb.2⟩, by rw [e]; rfl, ?_⟩
          refine ⟨by rw [hf, e]; exact hmk, fun _ => ⟨by rw [e]; rfl, by simp⟩, fun hd => by rw [hf, e] at hd; rw [hd0] at hd; simp at hd⟩
        · have e : wrLogic c (s.full c) (s.fullWr c) s.f i.valid i.beat = ({ s.f with send := !i.beat.last, sframe := !i.beat.last }, { good := true }, .storeCommit) := by
            unfold wrLogic wrFrame
            simp only [hff, if_true, ht, hdr', hl, if_false, Bool.false_eq_true, Bool.true_or, Bool.true_and, hb]
          rw [Bool.and_eq_true] at hb
          refine ⟨.good, by rw [e]; rfl, ⟨hlen, by rw [hbad]; exact hb⟩, by rw [e, k1]; rfl, ?_⟩
          refine ⟨by rw [hf, e]; exact hmk, fun _ => ⟨by rw [e]; rfl, by simp⟩, fun hd => by rw [hf, e] at hd; rw [hd0] at hd; simp at hd⟩
      · rw [if_neg hl]
        have e : wrLogic c (s.full c) (s.fullWr c) s.f i.valid i.beat = ({ s.f with sframe := !i.beat.last }, {}, .store) := by
          have hx : (!c.dropOversize && (s.fullWr c || s.f.send)) = false := by simp [hdo]
          unfold wrLogic wrFrame
          simp only [hff, if_true, ht, hdr', hl, if_false, Bool.false_eq_true, Bool.false_or, hx]
        refine ⟨by rw [e]; rfl, by rw [e]; rfl, ?_⟩
        refine ⟨by rw [hf, e]; exact hmk, fun _ => ⟨by rw [e, k1]; rfl, hlen⟩, fun hd => by rw [hf, e] at hd; rw [hd0] at hd; simp at hd⟩
  · rw [if_neg ht]
    have e : wrLogic c (s.full c) (s.fullWr c) s.f i.valid i.beat = (s.f, {}, .nop) := by
      unfold wrLogic wrFrame
      simp only [hff, if_true, ht, if_false, hdo, Bool.not_true, Bool.and_false, Bool.false_eq_true]
    refine ⟨by rw [e]; rfl, by rw [e]; rfl, ?_⟩
    refine ⟨by rw [hf, e]; exact hmk, fun hd => ?_, fun hd => ?_⟩
    · rw [hf, e] at hd; rw [e]; exact h.keep hd
    · rw [hf, e] at hd; exact h.drop hd

/-- verdicts reported in a run -/
def S.verdicts (c : Cfg) (s : S) (is : List Inp) : List Verdict := (s.statuses c is).filterMap Status.verdict

theorem frame_run (c : Cfg) (hff : c.frameFifo = true) (hdo : c.dropOversize = true) : ∀ (is : List Inp) (s : S) (q u o pre : List Beat), Inv c s q u o → FInv c s u pre →
    List.Forall₂ (Allowed c) (frames pre (s.accepted c is)).1 (s.verdicts c is) ∧ s.commits c u is = kept (frames pre (s.accepted c is)).1 (s.verdicts c is) := by
  intro is
  induction is with
  | nil => intro s q u o pre _ _; exact ⟨by simp [S.accepted, frames, S.verdicts, S.statuses], by simp [S.accepted, frames, S.verdicts, S.statuses, kept, S.commits]⟩
  | cons i is ih =>
    intro s q u o pre h hf
    obtain ⟨q1, o1, h1, _, _⟩ := h.step i
    rw [actQ_snd _ q []] at h1
    have hul : u.length ≤ c.size := by have := h.ring.rep.le; simp [Cfg.size] at this ⊢; omega
    have k := frame_step c hff hdo s i u pre hf h.ring.fullWr hul
    rw [S.accepted, S.commits]
    have hv : s.verdicts c (i :: is) = ((s.step c i).status.verdict).toList ++ (s.step c i).verdicts c is := by
      simp only [S.verdicts, S.statuses, List.filterMap_cons]
      cases (s.step c i).status.verdict <;> rfl
    rw [hv]
    split at k
    · rename_i ha
      simp only [ha, if_true, List.singleton_append, frames]
      split at k
      · rename_i hl
        obtain ⟨v, k1, k2, k3, k4⟩ := k
        obtain ⟨a, b⟩ := ih _ _ _ _ _ h1 k4
        simp only [hl, if_true, k1, Option.toList_some, List.singleton_append]
        refine ⟨List.Forall₂.cons k2 a, ?_⟩
        rw [b, k3]
        simp [kept]
      · rename_i hl
        obtain ⟨k1, k2, k3⟩ := k
        simp only [hl, k1, k2, if_false, Option.toList_none, List.nil_append, Bool.false_eq_true]
        exact ih _ _ _ _ _ h1 k3
    · rename_i ha
      obtain ⟨k1, k2, k3⟩ := k
      simp only [ha, k1, k2, if_false, Option.toList_none, List.nil_append, Bool.false_eq_true]
      exact ih _ _ _ _ _ h1 k3

end Corundum.AxisFifo
