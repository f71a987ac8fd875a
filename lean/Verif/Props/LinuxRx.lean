import Verif.Proof.LinuxRx
/-! C09 — receive ring of the Linux driver: property theorems.

Full property: after a completion for a frame shorter than an Ethernet header the slot is recycled and reception
continues.  The code violates it; `C09_short_frame_wedges` states the actual behaviour for every ring and
every further history, `C09_short_frame_counterexample` is a concrete run, and
`C09_recycled_partial` is what holds when no short frame arrives. -/
namespace Corundum.LinuxRx

/-- C09, negation in general form: let position `p` be posted and let the driver process any passes in which the records
for `p`'s slot are all short (the device completes a posted position once, so a single short record is enough).  Then `p`'s
buffer is never recycled: the consumer pointer never passes `p`, and no buffer beyond position `p + size` is ever posted, in
any continuation. -/
theorem C09_short_frame_wedges (g : Rx) (hg : g.cons ≤ g.prod ∧ g.prod ≤ g.cons + g.size) (p b : Nat)
    (hp : g.cons ≤ p ∧ p < g.prod) (hb : g.page (p % g.size) = some b) (passes : List (List Cpl))
    (hs : ∀ cs ∈ passes, ∀ c ∈ cs, c.index % g.size = p % g.size → min c.len g.len < 14) :
    (runRx g passes).page (p % g.size) = some b ∧ (runRx g passes).cons ≤ p ∧
    (runRx g passes).prod ≤ p + g.size := by
  induction passes generalizing g with
  | nil => refine ⟨hb, hp.1, ?_⟩; show g.prod ≤ p + g.size; omega
  | cons cs rest ih =>
    have hw : Win g := hg
    have hw' := win_process hw cs
    obtain ⟨f1, f2, f3, f4⟩ := consumeAll_frame cs g
    have hk := consumeAll_keeps (p % g.size) b cs g hb (hs cs (by simp))
    have hsz1 : (consumeAll g cs).2.size = g.size := by unfold Rx.size; rw [f3]
    obtain ⟨s1, s2, s3, s4⟩ := scanTo_spec (consumeAll g cs).2
      ((consumeAll g cs).2.prod - (consumeAll g cs).2.cons) (consumeAll g cs).2.cons
    have hscan : (scan (consumeAll g cs).2).cons ≤ p := by
      show scanTo _ _ _ ≤ p
      rcases Nat.lt_or_ge p (scanTo (consumeAll g cs).2
        ((consumeAll g cs).2.prod - (consumeAll g cs).2.cons) (consumeAll g cs).2.cons) with h | h
      · have := s3 p (by omega) h
        rw [hsz1, hk] at this; simp at this
      · exact h
    -- state after the pass
    have hpage : (processRx g cs).2.page (p % g.size) = some b := by
      show (refill (scan (consumeAll g cs).2)).page _ = _
      unfold refill
      simp only
      split
      · exact hk
      · exact (refillLoop_spec _ _).2.2.2.2.2 _ _ hk
    have hcons : (processRx g cs).2.cons ≤ p := by
      show (refill (scan (consumeAll g cs).2)).cons ≤ p
      unfold refill
      simp only
      split
      · exact hscan
      · rw [(refillLoop_spec _ _).1]; exact hscan
    have hprod : g.prod ≤ (processRx g cs).2.prod := by
      show g.prod ≤ (refill (scan (consumeAll g cs).2)).prod
      unfold refill
      simp only
      split
      · show g.prod ≤ (consumeAll g cs).2.prod; omega
      · have := (refillLoop_spec ((scan (consumeAll g cs).2).size - ((scan (consumeAll g cs).2).prod - (scan (consumeAll g cs).2).cons)) (scan (consumeAll g cs).2)).2.2.2.1
        have e : (scan (consumeAll g cs).2).prod = g.prod := f1
        omega
    have hklen : (processRx g cs).2.k = g.k ∧ (processRx g cs).2.len = g.len := by
      show (refill (scan (consumeAll g cs).2)).k = g.k ∧ (refill (scan (consumeAll g cs).2)).len = g.len
      unfold refill
      simp only
      split
      · exact ⟨f3, f4⟩
      · obtain ⟨_, r2, r3, _⟩ := refillLoop_spec ((scan (consumeAll g cs).2).size - ((scan (consumeAll g cs).2).prod - (scan (consumeAll g cs).2).cons)) (scan (consumeAll g cs).2)
        exact ⟨r2.trans f3, r3.trans f4⟩
    have hsz : (processRx g cs).2.size = g.size := by unfold Rx.size; rw [hklen.1]
    have := ih (processRx g cs).2 hw' ⟨hcons, by omega⟩ (by rw [hsz]; exact hpage) (by
      intro cs' h1 c h2 h3
      rw [hsz] at h3
      rw [hklen.2]
      exact hs cs' (by simp [h1]) c h2 h3)
    rw [hsz] at this
    exact this

/-- C09, concrete counterexample: a 16-slot ring receives one 10-byte frame in slot 0 and 15 good frames.  All 16 posted
buffers have been used, but the driver posts nothing more: the producer pointer stays at 16 and reception has
stopped (and by `C09_short_frame_wedges` stays stopped). -/
theorem C09_short_frame_counterexample :
    (runRx (start 4 4096) [⟨0, 10⟩ :: (List.range 15).map (fun i => ⟨i + 1, 100⟩)]).prod = 16 ∧
    (start 4 4096).prod = 16 ∧
    (runRx (start 4 4096) [⟨0, 60⟩ :: (List.range 15).map (fun i => ⟨i + 1, 100⟩)]).prod = 32 := by decide

/-- C09 (and the Linux counterpart of C08), partial: if no record of the pass is short and the records hit distinct
occupied slots, then every frame is handed up with its page and length in order, and after the pass at most 7 slots are
missing.  Missing with respect to C09: short frames, for which this is false. -/
theorem C09_recycled_partial (g : Rx) (hg : g.cons ≤ g.prod ∧ g.prod ≤ g.cons + g.size)
    (hfree : ∀ p, g.prod ≤ p → p < g.cons + g.size → g.page (p % g.size) = none)
    (cs : List Cpl) (hnd : (cs.map (fun c => c.index % g.size)).Nodup)
    (hok : ∀ c ∈ cs, 14 ≤ min c.len g.len ∧ (g.page (c.index % g.size)).isSome) :
    (processRx g cs).1 = cs.map (fun c => ((g.page (c.index % g.size)).getD 0, min c.len g.len)) ∧
    (processRx g cs).2.cons + g.size < (processRx g cs).2.prod + 8 ∧
    (∀ p, g.cons ≤ p → p < (processRx g cs).2.cons →
      p % g.size ∈ cs.map (fun c => c.index % g.size) ∨ g.page (p % g.size) = none) ∧
    ((processRx g cs).2.cons < g.prod →
      (processRx g cs).2.cons % g.size ∉ cs.map (fun c => c.index % g.size)) := by
  obtain ⟨h1, h2⟩ := consumeAll_good cs g hnd hok
  obtain ⟨f1, f2, f3, f4⟩ := consumeAll_frame cs g
  have hsz1 : (consumeAll g cs).2.size = g.size := by unfold Rx.size; rw [f3]
  obtain ⟨s1, s2, s3, s4⟩ := scanTo_spec (consumeAll g cs).2
      ((consumeAll g cs).2.prod - (consumeAll g cs).2.cons) (consumeAll g cs).2.cons
  have hcons : (processRx g cs).2.cons = scanTo (consumeAll g cs).2
      ((consumeAll g cs).2.prod - (consumeAll g cs).2.cons) (consumeAll g cs).2.cons := by
    show (refill (scan (consumeAll g cs).2)).cons = _
    unfold refill
    simp only
    split
    · rfl
    · rw [(refillLoop_spec _ _).1]; rfl
  refine ⟨h1, ?_, ?_, ?_⟩
  · rw [hcons]
    show _ < (refill (scan (consumeAll g cs).2)).prod + 8
    have e1 : (scan (consumeAll g cs).2).prod = g.prod := f1
    have e2 : (scan (consumeAll g cs).2).size = g.size := hsz1
    have e3 : (scan (consumeAll g cs).2).cons = scanTo (consumeAll g cs).2
      ((consumeAll g cs).2.prod - (consumeAll g cs).2.cons) (consumeAll g cs).2.cons := rfl
    have e4 : (scan (consumeAll g cs).2).page = (consumeAll g cs).2.page := rfl
    generalize scan (consumeAll g cs).2 = g' at *
    rw [← e3] at s1 s2 s3 ⊢
    unfold refill
    simp only
    rw [e1, e2]
    split
    · omega
    · rw [refillLoop_full]
      · omega
      · rw [e2]; omega
      · intro p hp1 hp2
        rw [e1] at hp1 hp2
        rw [e2, e4]
        rcases Nat.lt_or_ge p (g.cons + g.size) with hlt | hge
        · rw [h2]; split
          · rfl
          · exact hfree p hp1 hlt
        · have := s3 (p - g.size) (by omega) (by omega)
          rw [hsz1] at this
          obtain ⟨q, hq⟩ : ∃ q, p = q + g.size := ⟨p - g.size, by omega⟩
          rw [hq, Nat.add_sub_cancel] at this
          rw [hq, Nat.add_mod_right]; exact this
  · intro p hp1 hp2
    rw [hcons] at hp2
    have := s3 p (by omega) hp2
    rw [hsz1, h2] at this
    split at this
    · left; assumption
    · right; exact this
  · intro hlt
    rw [hcons] at hlt ⊢
    have := s4 (by omega)
    rw [hsz1, h2] at this
    split at this
    · simp at this
    · assumption

/-! Non-vacuity: the starting ring satisfies the hypotheses of both theorems. -/
example : (start 4 4096).cons ≤ (start 4 4096).prod ∧ (start 4 4096).prod = 16 ∧
    (start 4 4096).page (0 % 16) = some 0 ∧
    (processRx (start 4 4096) ((List.range 9).map (fun i => ⟨i, 100⟩))).2.prod = 25 := by decide

end Corundum.LinuxRx
