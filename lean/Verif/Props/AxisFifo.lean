import Verif.Proof.AxisFifoGap
import Verif.Proof.AxisFifoMark
import Verif.Proof.AxisFifoDrain
/-!
C31: the AXI stream FIFO in all its operating modes, for every depth, pipeline length, configuration, input sequence and handshake schedule.

`accepted` are the beats taken at the input, `delivered` the beats taken at the output in a run of clock cycles from reset.
-/
namespace Corundum.AxisFifo

/-- **C31.** Without dropping, the words delivered are the words accepted, in order: always a prefix, and all of them once the FIFO is empty. -/
theorem C31_order (c : Cfg) (hc : c.Lossless) (is : List Inp) :
    (init c).delivered c is <+: (init c).accepted c is ∧ (((init c).run c is).Empty → (init c).delivered c is = (init c).accepted c is) := by
  obtain ⟨q, o, h, k⟩ := (Inv.init c).run is
  rw [contents_init, List.nil_append] at k
  have e := lossless_run c hc is (init c) [] rfl rfl
  rw [List.nil_append] at e
  refine ⟨?_, ?_⟩
  · rw [← e, ← k, List.append_assoc]; exact List.prefix_append _ _
  · intro he
    obtain ⟨h1, h2⟩ := h.emptied he
    rw [h1, List.append_nil] at k
    rw [h2, List.append_nil] at e
    rw [k, e]

/-- **C31.** Capacity: the words inside never exceed memory, pipeline and output FIFO together, so a word is never accepted without room for it. -/
theorem C31_capacity (c : Cfg) (hc : c.Lossless) (is : List Inp) :
    ((init c).accepted c is).length ≤ ((init c).delivered c is).length + c.size + (c.pl + 1) + (if c.outFifo then 2 ^ c.oaw + 1 else 0) := by
  obtain ⟨q, o, h, k⟩ := (Inv.init c).run is
  rw [contents_init, List.nil_append] at k
  have e := lossless_run c hc is (init c) [] rfl rfl
  rw [List.nil_append, ← k] at e
  have hl := congrArg List.length e
  simp only [List.length_append, contents] at hl
  have h1 := h.ring.rep.le
  have h2 := vals_length ((init c).run c is).pipe
  rw [h.pl] at h2
  have h3 := h.orep.le
  have h4 : ((init c).run c is).oreg.toList.length ≤ 1 := by cases ((init c).run c is).oreg <;> simp
  simp only [List.length_append, Cfg.size] at h1 ⊢
  cases hof : c.outFifo
  · obtain ⟨a, b⟩ := h.off hof
    rw [a, b] at hl
    simp only [Option.toList_none, List.length_nil, Bool.false_eq_true, if_false] at hl ⊢
    omega
  · simp only [if_true]
    omega

/-- **C31.** Without dropping, the FIFO stays ready until something is written to it. -/
theorem C31_ready_stays (c : Cfg) (hc : c.Lossless) (is : List Inp) (i : Inp) (hv : i.valid = false) (hr : ((init c).run c is).ready c = true) :
    (((init c).run c is).step c i).ready c = true := by
  obtain ⟨q, o, h, _⟩ := (Inv.init c).run is
  generalize (init c).run c is = s at *
  obtain ⟨q', o', h', _, hq, _⟩ := h.step i
  obtain ⟨h1, h2, h3, h4⟩ := hc
  have ha : s.act c i = .nop := by
    unfold S.act wrLogic wrFrame wrNormal
    rw [hv, h4]
    cases c.frameFifo <;> simp
  rw [ha] at h' hq
  have e : ∀ t : S, t.ready c = !t.full c := by
    intro t; unfold S.ready tready; rw [h1, h3, h4]; cases c.frameFifo <;> simp
  rw [e] at hr ⊢
  rw [h.ring.full] at hr
  rw [h'.ring.full]
  rw [Bool.not_eq_true', decide_eq_false_iff_not] at hr ⊢
  simp only [actQ] at hq ⊢
  have hl : q'.length ≤ q.length := by
    rw [hq]; split
    · simp
    · exact Nat.le_refl _
  have := h.ring.rep.le
  rw [List.length_append] at this
  unfold Cfg.size at hr ⊢
  omega

/-- **C31.** Frame mode: every completed input frame gets exactly one status verdict; exactly the frames with verdict good are delivered, whole and in order.
A frame is dropped only for a reason: bad marker on its last beat, longer than the memory, or (DROP_WHEN_FULL) lack of space. -/
theorem C31_frame_mode (c : Cfg) (hff : c.frameFifo = true) (hdo : c.dropOversize = true) (is : List Inp) :
    List.Forall₂ (Allowed c) (frames [] ((init c).accepted c is)).1 ((init c).verdicts c is) ∧
    (init c).delivered c is <+: kept (frames [] ((init c).accepted c is)).1 ((init c).verdicts c is) ∧
    (((init c).run c is).Drained → (init c).delivered c is = kept (frames [] ((init c).accepted c is)).1 ((init c).verdicts c is)) := by
  obtain ⟨q, o, h, k⟩ := (Inv.init c).run is
  rw [contents_init, List.nil_append] at k
  obtain ⟨a, b⟩ := frame_run c hff hdo is (init c) [] [] [] [] (Inv.init c) ⟨rfl, fun _ => ⟨rfl, by simp⟩, fun hd => by simp [init] at hd⟩
  refine ⟨a, ?_, ?_⟩
  · rw [← b, ← k]; exact List.prefix_append _ _
  · intro he
    rw [h.drained he, List.append_nil] at k
    rw [k, b]

/-- **C31.** Frame mode, any combination of the drop options: in each clock cycle the status outputs carry exactly one pulse (overflow, bad or good) if the last
beat of a frame is accepted in that cycle, and none otherwise; `bad` only for a frame marked bad with DROP_BAD_FRAME, `overflow` only with one of the drop options. -/
theorem C31_status_pulses (c : Cfg) (hff : c.frameFifo = true) (is : List Inp) (i : Inp) :
    let s := (init c).run c is
    let t := (s.step c i).status
    ((s.ready c = true ∧ i.valid = true ∧ i.beat.last = true) →
      (t.overflow && !t.bad && !t.good) || (!t.overflow && t.bad && !t.good) || (!t.overflow && !t.bad && t.good)) ∧
    (¬ (s.ready c = true ∧ i.valid = true ∧ i.beat.last = true) → t = {}) ∧
    (t.bad = true → c.dropBad = true ∧ c.bad i.beat.user = true) ∧
    (t.overflow = true → c.dropWhenFull = true ∨ c.dropOversize = true ∨ s.f.drop = true) := by
  intro s t
  have ht : t = (wrFrame c (s.full c) (s.fullWr c) s.f i.valid i.beat).2.1 := by
    show (s.step c i).status = _
    simp only [S.step, wrLogic, hff, if_true]
  have hr : s.ready c = tready c (s.full c) (s.fullWr c) := rfl
  rw [hr]
  unfold wrFrame at ht
  split at ht
  · rename_i h1
    simp only [Bool.and_eq_true] at h1
    split at ht
    · rename_i h2
      cases hl : i.beat.last
      · rw [hl] at ht; simp only [Bool.false_eq_true, if_false] at ht; rw [ht]; simp
      · rw [hl] at ht; simp only [if_true] at ht; rw [ht]; simp [h1]
        simp only [Bool.or_eq_true, Bool.and_eq_true] at h2
        rcases h2 with (h2 | h2) | h2
        · exact Or.inl h2.2
        · exact Or.inr (Or.inl h2.2)
        · exact Or.inr (Or.inr h2)
    · split at ht
      · split at ht
        · rename_i h4
          simp only [Bool.and_eq_true] at h4
          rw [ht]; simp [h1, h4]
        · rw [ht]; cases i.beat.last <;> simp [h1]
      · rename_i h3
        simp only [Bool.or_eq_true, not_or] at h3
        rw [ht]; simp [h3.1]
  · rename_i h1
    simp only [Bool.and_eq_true] at h1
    have : t = {} := by split at ht <;> exact ht
    rw [this]
    refine ⟨fun h => absurd ⟨h.1, h.2.1⟩ h1, fun _ => rfl, ?_, ?_⟩ <;> intro h <;> cases h

/-- cut-through of a frame longer than the memory (no DROP_OVERSIZE): parts of it are committed without a pulse, the last beat gives the one `good` pulse -/
example : let c : Cfg := { aw := 1, pl := 0, frameFifo := true }
    let is := (List.range 6).map (fun j => (⟨true, ⟨j, j == 5, 0⟩, true, false⟩ : Inp))
    (List.range 12).map (fun n => ((init c).run c ((List.range n).flatMap (fun j => if j % 2 = 0 then is[j / 2]?.toList else [⟨false, ⟨0, false, 0⟩, true, false⟩]))).status.good) =
      [false, false, false, false, false, false, false, false, false, false, false, true] := by decide

/-- a good frame that fits is never dropped unless DROP_WHEN_FULL is set -/
theorem C31_frame_kept (c : Cfg) (f : List Beat) (v : Verdict) (h : Allowed c f v) (hd : c.dropWhenFull = false) (hl : f.length ≤ c.size)
    (hb : isBad c f = false) : v = .good := by
  cases v with
  | good => rfl
  | bad => have := h.2.2; rw [hb] at this; simp at this
  | overflow =>
    rcases h with h | h
    · omega
    · rw [hd] at h; simp at h

/-- **C31.** Frame mode: `m_axis_tvalid` is not deasserted within a frame: after a word that is not last is taken, the next word is there in the next cycle.
True for every configuration except an output FIFO with RAM_PIPELINE = 1. -/
theorem C31_frame_gapless (c : Cfg) (hff : c.frameFifo = true) (hdo : c.dropOversize = true) (hng : c.outFifo = true → c.pl ≠ 1) (hp : c.pauseEnable = false) (is : List Inp) (i : Inp) (b : Beat)
    (hm : ((init c).run c is).m c = some b) (hl : b.last = false) (hr : i.mready = true) : ((((init c).run c is).step c i).m c).isSome = true := by
  obtain ⟨q, u, o, h, g⟩ := GInv.run hff hdo hng is (Inv.init c) (GInv.init c)
  have hm' : ((init c).run c is).mout c = some b := by simpa [S.m, hp] using hm
  have := g.next hng h i b hm' hl (by simp [S.rdyOut, hp, hr])
  simpa [S.m, hp] using this

/-- configuration of the counterexample: the defaults RAM_PIPELINE = 1 with OUTPUT_FIFO_ENABLE in frame mode, 32 words -/
def cexCfg : Cfg := { aw := 5, pl := 1, outFifo := true, frameFifo := true, dropOversize := true }

/-- a frame of `n` words written while the output is stalled, then read without stalling -/
def cexInp (n stall k : Nat) : List Inp :=
  (List.range n).map (fun j => ⟨true, ⟨j, j + 1 == n, 0⟩, false, false⟩) ++ List.replicate stall ⟨false, ⟨0, false, 0⟩, false, false⟩ ++
    List.replicate k ⟨false, ⟨0, false, 0⟩, true, false⟩

/-- With the output FIFO and RAM_PIPELINE = 1 the statement is false: in a 20-word frame there is a gap after word 7. -/
theorem C31_frame_gap_counterexample :
    (((init cexCfg).run cexCfg (cexInp 20 10 7)).m cexCfg) = some ⟨7, false, 0⟩ ∧
    (((init cexCfg).run cexCfg (cexInp 20 10 8)).m cexCfg) = none ∧
    (((init cexCfg).run cexCfg (cexInp 20 10 9)).m cexCfg) = some ⟨8, false, 0⟩ := by
  set_option maxRecDepth 100000 in decide

/-- **C31.** A word offered at the output stays unchanged until it is taken (without pausing). -/
theorem C31_stable (c : Cfg) (hp : c.pauseEnable = false) (is : List Inp) (i : Inp) (b : Beat) (hm : ((init c).run c is).m c = some b) (hr : i.mready = false) :
    (((init c).run c is).step c i).m c = some b := by
  obtain ⟨q, o, h, _⟩ := (Inv.init c).run is
  exact h.stable hp i b hm hr

/-- **C31.** The depth status (one cycle behind) counts the words in memory: it never exceeds the memory size, reaches it exactly when the FIFO is full, and the committed
depth is zero exactly when nothing can be read. -/
theorem C31_status (c : Cfg) (is : List Inp) (i : Inp) :
    (((init c).run c is).step c i).depthCommit ≤ (((init c).run c is).step c i).depth ∧ (((init c).run c is).step c i).depth ≤ c.size ∧
    (((init c).run c is).full c = true ↔ (((init c).run c is).step c i).depth = c.size) ∧ (((init c).run c is).empty = true ↔ (((init c).run c is).step c i).depthCommit = 0) := by
  obtain ⟨q, o, h, _⟩ := (Inv.init c).run is
  have e1 : (((init c).run c is).step c i).depth = q.length + ((init c).pend c [] is).length := by
    simp only [S.step]; rw [h.ring.rep.dist, List.length_append]
  have e2 : (((init c).run c is).step c i).depthCommit = q.length := by
    simp only [S.step]
    rw [h.ring.cm]
    exact ptr_dist _ _ _ h.ring.rep.lt (by have := h.ring.rep.le; simp at this; omega)
  rw [e1, e2]
  refine ⟨by omega, ?_, ?_, ?_⟩
  · have := h.ring.rep.le; rw [List.length_append] at this; exact this
  · rw [h.ring.full, decide_eq_true_iff]
  · rw [h.ring.empty, decide_eq_true_iff]; simp

/-- **C31.** Without dropping and without the output FIFO, the words inside are the depth status plus the words in the pipeline. -/
theorem C31_status_exact (c : Cfg) (hc : c.Lossless) (hof : c.outFifo = false) (is : List Inp) (i : Inp) :
    ((init c).accepted c is).length = ((init c).delivered c is).length + (((init c).run c is).step c i).depth + (((init c).run c is).pipe.filterMap id).length := by
  obtain ⟨q, o, h, k⟩ := (Inv.init c).run is
  rw [contents_init, List.nil_append] at k
  have e := lossless_run c hc is (init c) [] rfl rfl
  rw [List.nil_append, ← k] at e
  have hl := congrArg List.length e
  obtain ⟨a, b⟩ := h.off hof
  have e1 : (((init c).run c is).step c i).depth = q.length + ((init c).pend c [] is).length := by
    simp only [S.step]; rw [h.ring.rep.dist, List.length_append]
  rw [e1, ← hl]
  simp only [List.length_append, contents, a, b, Option.toList_none, List.length_nil, vals]
  omega

/-- **C31.** MARK_WHEN_FULL: every completed input frame comes out whole if no overflow was reported for it; otherwise it is absent, or a proper prefix of it
comes out, ended by one word with the last flag and the bad frame marker. Frames stay in order and nothing else comes out. -/
theorem C31_mark_mode (c : Cfg) (hff : c.frameFifo = false) (hmw : c.markWhenFull = true) (is : List Inp) :
    let fs := (init c).ended c [] is
    fs.map Prod.fst = (frames [] ((init c).accepted c is)).1 ∧
    (∃ gs tl, List.Forall₂ (Marked c) fs gs ∧ (init c).delivered c is <+: gs.flatten ++ tl ∧ tl <+: (frames [] ((init c).accepted c is)).2) ∧
    (((init c).run c is).Drained → ((init c).run c is).f.mark = false → (frames [] ((init c).accepted c is)).2 = [] →
      ∃ gs, List.Forall₂ (Marked c) fs gs ∧ (init c).delivered c is = gs.flatten) := by
  obtain ⟨q, o, h, k⟩ := (Inv.init c).run is
  rw [contents_init, List.nil_append] at k
  obtain ⟨e1, e2⟩ := ended_frames c is (init c) []
  have m0 : MInv c (init c) [] [] [] := by
    refine ⟨rfl, fun _ _ => ⟨[], List.Forall₂.nil, rfl⟩, ?_, ?_, ?_⟩ <;> intro h1 h2 <;> simp [init] at h1 h2
  have m := mark_run c hff hmw is (init c) [] [] [] m0
  simp only [List.nil_append] at m
  rw [e2] at m
  have hcases : ∃ gs tl, List.Forall₂ (Marked c) ((init c).ended c [] is) gs ∧ (init c).commits c [] is <+: gs.flatten ++ tl ∧ tl <+: (frames [] ((init c).accepted c is)).2 := by
    cases hm : ((init c).run c is).f.mark <;> cases hd : ((init c).run c is).f.drop
    · obtain ⟨gs, g1, g2⟩ := m.ff hm hd
      exact ⟨gs, _, g1, by rw [g2]; exact List.prefix_rfl, List.prefix_rfl⟩
    · obtain ⟨gs, g1, g2⟩ := m.ft hm hd
      exact ⟨gs, [], g1, by rw [g2]; simp, List.nil_prefix⟩
    · obtain ⟨gs, g1, g2⟩ := (m.tf hm hd).2 ⟨0, true, c.badValue⟩ ⟨rfl, rfl⟩
      exact ⟨gs, [], g1, by rw [← g2, List.append_nil]; exact List.prefix_append _ _, List.nil_prefix⟩
    · rcases m.tt hm hd with g | ⟨gs, w, g1, g2, _, g4, _⟩
      · obtain ⟨gs, g1, g2⟩ := g ⟨0, true, c.badValue⟩ ⟨rfl, rfl⟩
        exact ⟨gs, [], g1, by rw [← g2, List.append_nil]; exact List.prefix_append _ _, List.nil_prefix⟩
      · exact ⟨gs, w, g1, by rw [g2]; exact List.prefix_rfl, g4⟩
  refine ⟨e1, ?_, ?_⟩
  · obtain ⟨gs, tl, g1, g2, g3⟩ := hcases
    exact ⟨gs, tl, g1, List.IsPrefix.trans (by rw [← k]; exact List.prefix_append _ _) g2, g3⟩
  · intro he hm hr
    rw [h.drained he, List.append_nil] at k
    rw [k]
    cases hd : ((init c).run c is).f.drop
    · obtain ⟨gs, g1, g2⟩ := m.ff hm hd
      exact ⟨gs, g1, by rw [g2, hr, List.append_nil]⟩
    · exact m.ft hm hd

/-- MARK_WHEN_FULL can starve: while a marked frame waits for its terminator, a continuous stream of one-word frames is dropped completely, for ever,
although the FIFO may be empty. -/
theorem C31_mark_starvation_counterexample (c : Cfg) (hff : c.frameFifo = false) (hmw : c.markWhenFull = true) (s : S) (hm : s.f.mark = true) (hd : s.f.drop = false) (is : List Inp)
    (his : ∀ i ∈ is, i.valid = true ∧ i.beat.last = true) : (s.run c is).wr = s.wr ∧ (s.run c is).f.mark = true ∧ s.commits c [] is = [] := by
  induction is generalizing s with
  | nil => exact ⟨rfl, hm, rfl⟩
  | cons i is ih =>
    obtain ⟨hv, hl⟩ := his i (by simp)
    have e : wrLogic c (s.full c) (s.fullWr c) s.f i.valid i.beat = ({ s.f with drop := false, mark := true, sframe := false }, { overflow := true }, .nop) := by
      unfold wrLogic wrNormal
      simp [hff, hmw, hv, hl, hd, hm, tready]
    have hact : s.act c i = .nop := by unfold S.act; rw [e]
    have hf : (s.step c i).f = { s.f with drop := false, mark := true, sframe := false } := by simp only [S.step]; rw [e]
    have hw : (s.step c i).wr = s.wr := by simp only [S.step]; rw [e]; rfl
    obtain ⟨a, b, d⟩ := ih (s.step c i) (by rw [hf]) (by rw [hf]) (fun j hj => his j (by simp [hj]))
    refine ⟨by rw [← hw]; exact a, b, ?_⟩
    rw [S.commits, hact]
    simpa [cmt, actQ] using d

/-- such a state is reachable, with the memory empty again -/
example : let c : Cfg := { aw := 1, pl := 0, markWhenFull := true }
    let is : List Inp := [⟨true, ⟨1, false, 0⟩, false, false⟩, ⟨true, ⟨2, false, 0⟩, false, false⟩, ⟨true, ⟨3, false, 0⟩, false, false⟩, ⟨true, ⟨4, true, 0⟩, false, false⟩,
      ⟨true, ⟨5, true, 0⟩, true, false⟩, ⟨true, ⟨6, true, 0⟩, true, false⟩, ⟨true, ⟨7, true, 0⟩, true, false⟩, ⟨true, ⟨8, true, 0⟩, true, false⟩]
    ((init c).run c is).f.mark = true ∧ ((init c).run c is).f.drop = false ∧ ((init c).run c is).empty = true ∧
      (init c).delivered c is = [⟨1, false, 0⟩, ⟨2, false, 0⟩, ⟨3, false, 0⟩] := by decide

/-- **C31.** With FRAME_PAUSE the output is paused only between frames. -/
theorem C31_pause (c : Cfg) (hp : c.pauseEnable = true) (hfp : c.framePause = true) (is : List Inp) (b : Beat) (hb : ((init c).delivered c is).getLast? = some b)
    (hps : ((init c).run c is).pause = true) : b.last = true := by
  have key : ∀ (is : List Inp) (s : S) (pv : Option Beat), (s.pauseFrame = true ↔ ∃ b, pv = some b ∧ b.last = false) → (s.pause = true → s.pauseFrame = false) →
      ((s.run c is).pauseFrame = true ↔ ∃ b, ((s.delivered c is).getLast?.or pv) = some b ∧ b.last = false) ∧ ((s.run c is).pause = true → (s.run c is).pauseFrame = false) := by
    intro is
    induction is with
    | nil => intro s pv h1 h2; exact ⟨by simpa [S.delivered, S.run] using h1, h2⟩
    | cons i is ih =>
      intro s pv h1 h2
      have hstep : ((s.step c i).pauseFrame = true ↔ ∃ b, ((if i.mready then s.m c else none).or pv) = some b ∧ b.last = false) ∧ ((s.step c i).pause = true → (s.step c i).pauseFrame = false) := by
        have e1 : (s.step c i).pauseFrame = (pauseNext c s i).2 := rfl
        have e2 : (s.step c i).pause = (pauseNext c s i).1 := rfl
        rw [e1, e2]
        unfold pauseNext
        rw [hfp]
        simp only [if_true]
        cases hm : s.m c with
        | none =>
          simp only
          refine ⟨by simpa using h1, ?_⟩
          cases hpf : s.pauseFrame
          · simp
          · simp only [if_true]; intro hc; have := h2 hc; rw [hpf] at this; simp at this
        | some y =>
          simp only
          have hps0 : s.pause = false := by
            cases hq : s.pause
            · rfl
            · simp [S.m, hp, hq] at hm
          cases i.mready
          · simp only [Bool.false_eq_true, if_false]
            refine ⟨by simpa using h1, ?_⟩
            cases hpf : s.pauseFrame
            · simp
            · simp [hps0]
          · simp only [if_true]
            cases hyl : y.last
            · simp [hps0, hyl]
            · simp [hyl]
      have := ih (s.step c i) ((if i.mready then s.m c else none).or pv) hstep.1 hstep.2
      have hd : (s.delivered c (i :: is)).getLast?.or pv = ((s.step c i).delivered c is).getLast?.or ((if i.mready then s.m c else none).or pv) := by
        rw [S.delivered, List.getLast?_append, Option.or_assoc]
        congr 2
        cases i.mready
        · rfl
        · cases s.m c <;> rfl
      rw [hd]
      exact this
  obtain ⟨k1, k2⟩ := key is (init c) none (by simp [init]) (by simp [init])
  cases hl : b.last
  · have := k1.2 ⟨b, by rw [hb]; rfl, hl⟩
    rw [k2 hps] at this; simp at this
  · rfl

/-- pausing can withdraw `m_axis_tvalid` before the word is taken, which AXI stream does not allow -/
example : let c : Cfg := { aw := 1, pl := 0, pauseEnable := true, framePause := true }
    let is : List Inp := [⟨true, ⟨1, true, 0⟩, false, false⟩, ⟨false, ⟨0, false, 0⟩, false, false⟩]
    ((init c).run c is).m c = some ⟨1, true, 0⟩ ∧ (((init c).run c is).step c ⟨false, ⟨0, false, 0⟩, false, true⟩).m c = none := by decide

/-- **C31.** Liveness: with the output ready and no more input, every committed word comes out within a number of cycles given by the configuration alone, whatever happened before (unless the
terminator of a truncated frame is still to be written). -/
theorem C31_drains (c : Cfg) (hp : c.pauseEnable = false) (is js : List Inp) (hm : ((init c).run c is).f.mark = false) (hq : ∀ i ∈ js, i.valid = false ∧ i.mready = true)
    (hn : 2 * ((c.pl + 4) * (c.size + c.pl + 1) + 2 * 2 ^ c.oaw + 1) + 1 ≤ js.length) :
    ((init c).run c (is ++ js)).Drained ∧ (c.frameFifo = false → ((init c).run c (is ++ js)).Empty) := by
  suffices hd : ((init c).run c (is ++ js)).Drained from ⟨hd, fun hff => ⟨by rw [normal_run c hff _ _ rfl, hd.1], hd.2⟩⟩
  obtain ⟨q, o, h, _⟩ := (Inv.init c).run is
  rw [show (init c).run c (is ++ js) = ((init c).run c is).run c js by simp [S.run]]
  obtain ⟨q', o', h', k⟩ := h.quiet hp js hm hq
  refine h'.drained_of ?_
  have h1 := h.weight_le
  have h2 : (c.pl + 4) * (c.size + c.pl + 1) = (c.pl + 4) * c.size + (c.pl + 1) * (c.pl + 4) := by
    rw [show c.size + c.pl + 1 = c.size + (c.pl + 1) by omega, Nat.mul_add, Nat.mul_comm (c.pl + 4) (c.pl + 1)]
  rw [h2] at hn
  unfold Cfg.far at h1
  omega

/-- **C31.** Once drained, the input is ready. -/
theorem C31_ready_again (c : Cfg) (hd : c.frameFifo = false ∨ c.dropOversize = true) (is : List Inp) (he : ((init c).run c is).Drained) : ((init c).run c is).ready c = true := by
  obtain ⟨q, o, h, _⟩ := (Inv.init c).run is
  have hq : q = [] := by
    have h0 := h.ring.empty
    unfold S.empty at h0
    rw [he.1] at h0
    simpa using h0
  have h1 := h.ring.full
  have h2 := h.ring.fullWr
  rw [hq] at h1
  simp only [List.length_nil, Nat.zero_add] at h1
  unfold S.ready tready
  cases hff : c.frameFifo
  · have e : ((init c).run c is).full c = false := by
      unfold S.full
      rw [normal_run c hff is (init c) rfl, he.1]
      have h0 := h.ring.rep.full
      have h3 : (q ++ (init c).pend c [] is).length = 0 := by
        have h4 := h.ring.rep.empty
        rw [normal_run c hff is (init c) rfl, he.1] at h4
        simpa using h4
      have h5 : ((init c).run c is).wr = ((init c).run c is).rd := by rw [normal_run c hff is (init c) rfl, he.1]
      rw [h3, h5] at h0
      rw [h0, decide_eq_false_iff_not]
      have := Nat.two_pow_pos c.aw
      omega
    rw [e]; rfl
  · rcases hd with hd | hd
    · rw [hff] at hd; cases hd
    · rw [hd, h1, h2]
      cases decide (((init c).pend c [] is).length = c.size) <;> simp

/-! concrete cases meeting the hypotheses -/

example : let c : Cfg := { aw := 1, pl := 0 }
    let is : List Inp := [⟨true, ⟨1, false, 0⟩, false, false⟩, ⟨true, ⟨2, true, 0⟩, false, false⟩]
    let js : List Inp := List.replicate 59 ⟨false, ⟨0, false, 0⟩, true, false⟩
    2 * ((c.pl + 4) * (c.size + c.pl + 1) + 2 * 2 ^ c.oaw + 1) + 1 ≤ js.length ∧ ((init c).run c is).f.mark = false ∧ ¬ ((init c).run c is).commit = ((init c).run c is).rd ∧
      (init c).delivered c (is ++ js) = [⟨1, false, 0⟩, ⟨2, true, 0⟩] := by decide

example : let c : Cfg := { aw := 1, pl := 1 }
    let is := cexInp 3 0 8
    c.Lossless ∧ (init c).accepted c is = [⟨0, false, 0⟩, ⟨1, false, 0⟩, ⟨2, true, 0⟩] ∧ (init c).delivered c is = [⟨0, false, 0⟩, ⟨1, false, 0⟩, ⟨2, true, 0⟩] := by
  refine ⟨⟨rfl, rfl, rfl, rfl⟩, ?_, ?_⟩ <;> decide

example : let c : Cfg := { aw := 2, pl := 1, frameFifo := true, dropOversize := true, dropBad := true }
    let is := cexInp 5 0 2 ++ [⟨true, ⟨7, false, 0⟩, true, false⟩, ⟨true, ⟨8, true, 0⟩, true, false⟩, ⟨true, ⟨9, true, 1⟩, true, false⟩] ++ cexInp 0 0 6
    (init c).verdicts c is = [.overflow, .good, .bad] ∧ (init c).delivered c is = [⟨7, false, 0⟩, ⟨8, true, 0⟩] := by decide

example : let c : Cfg := { aw := 1, pl := 0, markWhenFull := true }
    let is := cexInp 5 0 8
    (init c).ended c [] is = [([⟨0, false, 0⟩, ⟨1, false, 0⟩, ⟨2, false, 0⟩, ⟨3, false, 0⟩, ⟨4, true, 0⟩], true)] ∧
    (init c).delivered c is = [⟨0, false, 0⟩, ⟨1, false, 0⟩, ⟨2, false, 0⟩, ⟨0, true, 1⟩] := by decide

end Corundum.AxisFifo
