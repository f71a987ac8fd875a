import Verif.Proof.AsyncFifoDrain
/-!
C102: the asynchronous AXI stream FIFO in all its operating modes, for every depth, pipeline length and configuration, every interleaving of the edges of the two clocks and every skew of the bits that
cross between them.

`run c true` runs a list of events from reset: edges of either clock in any order, and arrival of any bits on the crossing wires at any time before the next edge of the sending clock.
`accepted` are the beats taken at the input, `delivered` those taken at the output.
-/
namespace Corundum.AsyncFifo
open AxisFifo (Beat Cfg frames kept Allowed Marked MInv FInv)

/-- nothing left inside -/
def Empty (s : S) : Prop := s.r.rd = s.w.wr ∧ Drained s

/-- **C102.** Without dropping, the words delivered are the words accepted, in order: always a prefix, and all of them once the FIFO is empty. -/
theorem C102_order (c : Cfg) (ha : 0 < c.aw) (hc : c.Lossless) (es : List Ev) :
    delivered c true (init c) es <+: accepted c true (init c) es ∧ (Empty (run c true (init c) es) → delivered c true (init c) es = accepted c true (init c) es) := by
  obtain ⟨R, q, p, o, h, k⟩ := (Inv.init c).run ha es
  rw [contents_init, List.nil_append] at k
  have e := lossless_run c hc es (init c) [] rfl rfl
  rw [List.nil_append] at e
  refine ⟨?_, fun he => ?_⟩
  · rw [← e, ← k]
    exact (List.prefix_append _ _).trans (List.prefix_append _ _)
  · rw [h.drained he.2, List.append_nil] at k
    have hu : (q ++ (p ++ pend c (init c) [] es)).length = 0 := by
      have h1 := he.1
      rw [h.rd, h.wr] at h1
      have hl := h.len
      have hm : 2 ^ c.aw < M c := by unfold M; rw [AxisFifo.two_mul]; have := Nat.two_pow_pos c.aw; omega
      have := (mod_eq_iff _ _ _ (by omega) (by omega)).1 h1
      omega
    have hu' : pend c (init c) [] es = [] := List.length_eq_zero_iff.1 (by simp only [List.length_append] at hu; omega)
    rw [hu', List.append_nil] at e
    rw [k, e]

/-- **C102.** Capacity: the words inside never exceed memory, pipeline and output FIFO together, so a word is never accepted without room for it. -/
theorem C102_capacity (c : Cfg) (ha : 0 < c.aw) (hc : c.Lossless) (es : List Ev) :
    (accepted c true (init c) es).length ≤ (delivered c true (init c) es).length + c.size + (c.pl + 1) + (if c.outFifo then 2 ^ c.oaw + 1 else 0) := by
  obtain ⟨R, q, p, o, h, k⟩ := (Inv.init c).run ha es
  rw [contents_init, List.nil_append] at k
  have e := lossless_run c hc es (init c) [] rfl rfl
  rw [List.nil_append, ← k] at e
  have hl := congrArg List.length e
  simp only [List.length_append, contents, AxisFifo.contents, view] at hl
  have h1 := h.len
  have h2 := AxisFifo.vals_length (run c true (init c) es).r.pipe
  rw [show (run c true (init c) es).r.pipe.length = c.pl + 1 from h.inv.pl] at h2
  have h3 := h.inv.orep.le
  have h4 : (run c true (init c) es).r.oreg.toList.length ≤ 1 := by cases (run c true (init c) es).r.oreg <;> simp
  simp only [List.length_append, AxisFifo.Cfg.size] at h1 ⊢
  cases hof : c.outFifo
  · obtain ⟨a, b⟩ := h.inv.off hof
    have b' : (run c true (init c) es).r.oreg = none := by first | exact a | exact b
    have a' : o = [] := by first | exact a | exact b
    rw [a', b'] at hl
    simp only [Option.toList_none, List.length_nil, Bool.false_eq_true, if_false] at hl ⊢
    omega
  · simp only [if_true]
    omega

/-- **C102.** FRAME_FIFO with DROP_OVERSIZE_FRAME: exactly one verdict for each frame completed at the input, allowed for that frame; the frames with verdict good are delivered whole and in order, nothing
else is, and once the FIFO has drained all of them have been. -/
theorem C102_frame_mode (c : Cfg) (ha : 0 < c.aw) (hff : c.frameFifo = true) (hdo : c.dropOversize = true) (es : List Ev) :
    List.Forall₂ (Allowed c) (frames [] (accepted c true (init c) es)).1 (verdicts c true (init c) es) ∧
    delivered c true (init c) es <+: kept (frames [] (accepted c true (init c) es)).1 (verdicts c true (init c) es) ∧
    (Drained (run c true (init c) es) → delivered c true (init c) es = kept (frames [] (accepted c true (init c) es)).1 (verdicts c true (init c) es)) := by
  obtain ⟨R, q, p, o, h, k⟩ := (Inv.init c).run ha es
  rw [contents_init, List.nil_append] at k
  obtain ⟨f1, f2⟩ := frame_run c ha hff hdo es (init c) 0 [] [] [] [] [] (Inv.init c) (fun rd => ⟨rfl, fun _ => ⟨rfl, by simp⟩, (fun hd => by simp [wview, init] at hd)⟩)
  refine ⟨f1, ?_, fun he => ?_⟩
  · rw [← f2, ← k]; exact List.prefix_append _ _
  · rw [h.drained he, List.append_nil] at k
    rw [k, f2]

/-- **C102.** MARK_WHEN_FULL: every completed input frame comes out whole if no overflow was reported for it; otherwise it is absent, or a proper prefix of it comes out, ended by one word with the last
flag and the bad frame marker. Frames stay in order and nothing else comes out. -/
theorem C102_mark_mode (c : Cfg) (ha : 0 < c.aw) (hff : c.frameFifo = false) (hmw : c.markWhenFull = true) (es : List Ev) :
    let fs := ended c true (init c) [] es
    fs.map Prod.fst = (frames [] (accepted c true (init c) es)).1 ∧
    (∃ gs tl, List.Forall₂ (Marked c) fs gs ∧ delivered c true (init c) es <+: gs.flatten ++ tl ∧ tl <+: (frames [] (accepted c true (init c) es)).2) ∧
    (Drained (run c true (init c) es) → (run c true (init c) es).w.f.mark = false → (frames [] (accepted c true (init c) es)).2 = [] →
      ∃ gs, List.Forall₂ (Marked c) fs gs ∧ delivered c true (init c) es = gs.flatten) := by
  obtain ⟨R, q, p, o, h, k⟩ := (Inv.init c).run ha es
  rw [contents_init, List.nil_append] at k
  have m0 : ∀ rd, MInv c (wview (init c) rd) [] [] [] := by
    intro rd
    refine ⟨rfl, fun _ _ => ⟨[], List.Forall₂.nil, rfl⟩, ?_, ?_, ?_⟩ <;> intro h1 h2 <;> simp [init, wview] at h1 h2
  have m := mark_run c ha hff hmw es (init c) 0 [] [] [] [] [] [] [] (Inv.init c) m0 0
  simp only [List.nil_append] at m
  have hcases : ∃ gs tl, List.Forall₂ (Marked c) (ended c true (init c) [] es) gs ∧ committed c (init c) [] es <+: gs.flatten ++ tl ∧ tl <+: (frames [] (accepted c true (init c) es)).2 := by
    cases hm : (wview (run c true (init c) es) 0).f.mark <;> cases hd : (wview (run c true (init c) es) 0).f.drop
    · obtain ⟨gs, g1, g2⟩ := m.ff hm hd
      exact ⟨gs, _, g1, by rw [g2]; exact List.prefix_rfl, List.prefix_rfl⟩
    · obtain ⟨gs, g1, g2⟩ := m.ft hm hd
      exact ⟨gs, [], g1, by rw [g2]; simp, List.nil_prefix⟩
    · obtain ⟨gs, g1, g2⟩ := (m.tf hm hd).2 ⟨0, true, c.badValue⟩ ⟨rfl, rfl⟩
      exact ⟨gs, [], g1, by rw [← g2, List.append_nil]; exact List.prefix_append _ _, List.nil_prefix⟩
    · rcases m.tt hm hd with g | ⟨gs, w, g1, g2, _, g4, _⟩
      · obtain ⟨gs, g1, g2⟩ := g ⟨0, true, c.badValue⟩ ⟨rfl, rfl⟩
        exact ⟨gs, [], g1, by rw [← g2, List.append_nil]; exact List.prefix_append _ _, List.nil_prefix⟩
      · exact ⟨gs, w, g1, by rw [g2]; exact List.prefix_rfl, g4⟩
  refine ⟨ended_frames c true es _ _, ?_, ?_⟩
  · obtain ⟨gs, tl, g1, g2, g3⟩ := hcases
    exact ⟨gs, tl, g1, List.IsPrefix.trans (by rw [← k]; exact List.prefix_append _ _) g2, g3⟩
  · intro he hm hr
    rw [h.drained he, List.append_nil] at k
    rw [k]
    cases hd : (wview (run c true (init c) es) 0).f.drop
    · obtain ⟨gs, g1, g2⟩ := m.ff hm hd
      exact ⟨gs, g1, by rw [g2, hr, List.append_nil]⟩
    · exact m.ft hm hd

/-- **C102.** A word offered at the output stays unchanged until it is taken (without pausing), whatever the other clock does. -/
theorem C102_stable (c : Cfg) (ha : 0 < c.aw) (hp : c.pauseEnable = false) (es : List Ev) (e : Ev) (b : Beat) (hm : (run c true (init c) es).r.m c = some b) (he : ∀ pr, e ≠ .m true pr) :
    (step c true (run c true (init c) es) e).r.m c = some b := by
  obtain ⟨R, q, p, o, h, _⟩ := (Inv.init c).run ha es
  generalize run c true (init c) es = s at *
  cases e with
  | s v b' => exact hm
  | settle => exact hm
  | m a pr =>
    have hA : a = false := by cases a with | false => rfl | true => exact absurd rfl (he pr)
    subst hA
    have hve : (view s ((R + q.length) % M c)).empty = s.r.empty c := by rw [h.inv.ring.empty, h.empty]
    obtain ⟨_, _, _, _, _, e6, _, _, _, _, e11, e12, _, _⟩ := view_step c true s _ false pr hve
    have := h.inv.stable hp ⟨false, ⟨0, false, 0⟩, false, pr⟩ b hm rfl
    unfold AxisFifo.S.m AxisFifo.S.mout at this
    rw [e6, e11, e12] at this
    exact this

/-- rounds of both clocks without input -/
theorem quiet_rounds (rs : List (List Ev)) (hr : ∀ r ∈ rs, (∃ b, Ev.s false b ∈ r) ∧ (∃ pr, Ev.m true pr ∈ r) ∧ (∀ b, Ev.s true b ∉ r) ∧ (∀ pr, Ev.m false pr ∉ r)) :
    ∀ r ∈ rs, Both r ∧ ∀ e ∈ r, Quiet e := by
  intro r hrm
  obtain ⟨⟨b, h1⟩, ⟨pr, h2⟩, h3, h4⟩ := hr r hrm
  refine ⟨fun k => ?_, fun e he => ?_⟩
  · cases k
    · exact ⟨_, h2, rfl⟩
    · exact ⟨_, h1, rfl⟩
  · cases e with
    | s v b =>
      cases v with
      | false => exact rfl
      | true => exact absurd he (h3 b)
    | m a pr =>
      cases a with
      | true => exact rfl
      | false => exact absurd he (h4 pr)
    | settle => trivial

/-- **C102.** Liveness: with the output ready and no more input, every committed word comes out once both clocks have had a number of edges given by the configuration alone, whatever happened before and however
the edges interleave (unless the terminator of a truncated frame is still to be written). -/
theorem C102_drains (c : Cfg) (ha : 0 < c.aw) (hp : c.pauseEnable = false) (es : List Ev) (rs : List (List Ev)) (hm : (run c true (init c) es).w.f.mark = false)
    (hr : ∀ r ∈ rs, (∃ b, Ev.s false b ∈ r) ∧ (∃ pr, Ev.m true pr ∈ r) ∧ (∀ b, Ev.s true b ∉ r) ∧ (∀ pr, Ev.m false pr ∉ r))
    (hn : 2 * ((c.pl + 4) * (c.size + c.pl + 1) + 2 * 2 ^ c.oaw + 1) + 2 * c.size + 16 ≤ rs.length) :
    Drained (run c true (init c) (es ++ rs.flatten)) ∧ (c.frameFifo = false → Empty (run c true (init c) (es ++ rs.flatten))) := by
  obtain ⟨R, q, p, o, h, _⟩ := (Inv.init c).run ha es
  have hrun : run c true (init c) (es ++ rs.flatten) = run c true (run c true (init c) es) rs.flatten := by unfold run; rw [List.foldl_append]
  rw [hrun]
  have hq := quiet_rounds rs hr
  obtain ⟨R', q', p', o', h', k, _⟩ := h.rounds ha hp rs hm hq
  have h1 := h.T_le
  have h2 : (c.pl + 4) * (c.size + c.pl + 1) = (c.pl + 4) * c.size + (c.pl + 1) * (c.pl + 4) := by
    rw [show c.size + c.pl + 1 = c.size + (c.pl + 1) by omega, Nat.mul_add, Nat.mul_comm (c.pl + 4) (c.pl + 1)]
  rw [h2] at hn
  unfold AxisFifo.Cfg.far at h1
  have hd := h'.drained_of (by omega)
  refine ⟨hd, fun hff => ⟨?_, hd⟩⟩
  rw [h'.wr, (h'.fwd hff).1, hd.1, h'.cm, List.append_nil]

/-- **C102.** And three edges of each clock later the input is ready again. -/
theorem C102_ready_again (c : Cfg) (ha : 0 < c.aw) (hp : c.pauseEnable = false) (hd : c.frameFifo = false ∨ c.dropOversize = true) (es : List Ev) (rs : List (List Ev))
    (hm : (run c true (init c) es).w.f.mark = false)
    (hr : ∀ r ∈ rs, (∃ b, Ev.s false b ∈ r) ∧ (∃ pr, Ev.m true pr ∈ r) ∧ (∀ b, Ev.s true b ∉ r) ∧ (∀ pr, Ev.m false pr ∉ r))
    (hn : 2 * ((c.pl + 4) * (c.size + c.pl + 1) + 2 * 2 ^ c.oaw + 1) + 2 * c.size + 19 ≤ rs.length) :
    (run c true (init c) (es ++ rs.flatten)).w.ready c = true := by
  obtain ⟨R, q, p, o, h, _⟩ := (Inv.init c).run ha es
  obtain ⟨n, hn'⟩ : ∃ n, n = 2 * ((c.pl + 4) * (c.size + c.pl + 1) + 2 * 2 ^ c.oaw + 1) + 2 * c.size + 16 := ⟨_, rfl⟩
  have hrun : run c true (init c) (es ++ rs.flatten) = run c true (run c true (run c true (init c) es) (rs.take n).flatten) (rs.drop n).flatten := by
    have : rs.flatten = (rs.take n).flatten ++ (rs.drop n).flatten := by rw [← List.flatten_append, List.take_append_drop]
    rw [this]; unfold run; rw [List.foldl_append, List.foldl_append]
  rw [hrun]
  have hq := quiet_rounds rs hr
  obtain ⟨R', q', p', o', h', k, hm'⟩ := h.rounds ha hp (rs.take n) hm (fun r hr => hq r (List.mem_of_mem_take hr))
  have h1 := h.T_le
  have h2 : (c.pl + 4) * (c.size + c.pl + 1) = (c.pl + 4) * c.size + (c.pl + 1) * (c.pl + 4) := by
    rw [show c.size + c.pl + 1 = c.size + (c.pl + 1) by omega, Nat.mul_add, Nat.mul_comm (c.pl + 4) (c.pl + 1)]
  rw [h2] at hn hn'
  unfold AxisFifo.Cfg.far at h1
  rw [List.length_take] at k
  obtain ⟨R2, q2, p2, o2, h3, hT, hB⟩ := Inv_B_rounds ha hp (rs.drop n) h' (by omega) hm' (fun r hr => hq r (List.mem_of_mem_drop hr))
  generalize run c true (run c true (run c true (init c) es) (rs.take n).flatten) (rs.drop n).flatten = t at *
  have hB0 : (t.w.rdG2 == t.r.gray) = true := by
    have hb := B_le (run c true (run c true (init c) es) (rs.take n).flatten)
    rw [List.length_drop] at hB
    have : B t = 0 := by omega
    revert this
    unfold B late3
    cases (t.w.rdG2 == t.r.gray)
    · simp [late]
    · simp
  have hfull := (Inv_chainB h3).2.2 hB0 ha
  have hq2 := (AxisFifo.weight_zero (T_zero hT)).1
  have hp2 := h3.A_zero (by unfold T at hT; omega)
  rw [hq2, hp2, List.nil_append, List.nil_append] at hfull
  unfold Wr.ready AxisFifo.tready
  rw [hfull, h3.fullWr]
  cases hff : c.frameFifo
  · rw [(h3.fwd hff).1]
    have := Nat.two_pow_pos c.aw
    have : decide (([] : List Beat).length = 2 ^ c.aw) = false := by rw [decide_eq_false_iff_not]; simp; omega
    rw [this]; rfl
  · rcases hd with hd | hd
    · rw [hff] at hd; cases hd
    · rw [hd, show c.size = 2 ^ c.aw from rfl]
      cases decide ((pend c (init c) [] es).length = 2 ^ c.aw) <;> rfl

/-! ### the commit pointer and its flag -/

/-- a frame FIFO of four words -/
def cexCfg : Cfg := { aw := 2, pl := 0, frameFifo := true, dropOversize := true }

/-- a frame of three words, delivered; then a frame of one word, of whose commit pointer (3 → 4) only the highest bit has arrived at the time the update flag has passed the synchronizer -/
def cexEvents : List Ev :=
  [.s true ⟨1, false, 0⟩, .s true ⟨2, false, 0⟩, .s true ⟨3, true, 0⟩, .s false ⟨0, false, 0⟩] ++ List.replicate 9 (.m true false) ++ List.replicate 3 (.s false ⟨0, false, 0⟩) ++
  [.s true ⟨4, true, 0⟩, .settle 0 4 0 true false] ++ List.replicate 12 (.m true false)

/-- The constraint `fast` is needed: without it, three edges of the read clock between two of the write clock are enough to deliver words that were never accepted.  (`axis_async_fifo.tcl` bounds the delay of the
commit pointer by one period of the write clock, which is less only if the read clock is not too fast.) -/
theorem C102_commit_skew_counterexample :
    accepted cexCfg false (init cexCfg) cexEvents = [⟨1, false, 0⟩, ⟨2, false, 0⟩, ⟨3, true, 0⟩, ⟨4, true, 0⟩] ∧
    (delivered cexCfg false (init cexCfg) cexEvents).length = 7 ∧ ¬ delivered cexCfg false (init cexCfg) cexEvents <+: accepted cexCfg false (init cexCfg) cexEvents := by
  decide +kernel

/-! concrete cases meeting the hypotheses -/

/-- the same events with the constraint -/
example : delivered cexCfg true (init cexCfg) cexEvents = [⟨1, false, 0⟩, ⟨2, false, 0⟩, ⟨3, true, 0⟩, ⟨4, true, 0⟩] ∧ verdicts cexCfg true (init cexCfg) cexEvents = [.good, .good] ∧
    Allowed cexCfg [⟨4, true, 0⟩] .good := ⟨by decide +kernel, by decide +kernel, by decide, by decide⟩

/-- write and read edges alternating -/
def altEvents (n k : Nat) : List Ev := (List.range n).flatMap (fun j => [.s true ⟨j, j % 3 == 2, 0⟩, .settle 1 0 1 false false, .m (k ≤ j) false])

/-- normal mode: words wait while the output is stalled, and come out in order -/
example : let c : Cfg := { aw := 1, pl := 0 }
    let es := altEvents 8 6
    let rs := List.replicate 80 [Ev.m true false, Ev.s false ⟨0, false, 0⟩]
    c.Lossless ∧ accepted c true (init c) es = [⟨0, false, 0⟩, ⟨1, false, 0⟩, ⟨6, false, 0⟩] ∧ delivered c true (init c) es = [⟨0, false, 0⟩, ⟨1, false, 0⟩] ∧
    (run c true (init c) es).w.f.mark = false ∧ 2 * ((c.pl + 4) * (c.size + c.pl + 1) + 2 * 2 ^ c.oaw + 1) + 2 * c.size + 16 ≤ rs.length ∧
    delivered c true (init c) (es ++ rs.flatten) = [⟨0, false, 0⟩, ⟨1, false, 0⟩, ⟨6, false, 0⟩] := ⟨⟨rfl, rfl, rfl, rfl⟩, by decide +kernel, by decide +kernel, by decide +kernel, by decide +kernel, by decide +kernel⟩

/-- marking mode: a frame cut when the FIFO was full, one dropped -/
example : let c : Cfg := { aw := 1, pl := 0, markWhenFull := true }
    let es := altEvents 6 5 ++ (List.replicate 12 [Ev.m true false, Ev.s false ⟨0, false, 0⟩]).flatten
    ended c true (init c) [] es = [([⟨0, false, 0⟩, ⟨1, false, 0⟩, ⟨2, true, 0⟩], true), ([⟨3, false, 0⟩, ⟨4, false, 0⟩, ⟨5, true, 0⟩], true)] ∧
    delivered c true (init c) es = [⟨0, false, 0⟩, ⟨1, false, 0⟩, ⟨0, true, 1⟩] := ⟨by decide +kernel, by decide +kernel⟩

end Corundum.AsyncFifo
