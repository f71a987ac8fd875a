import Verif.Proof.BaseRSerdesRun
import Verif.Props.Xgmii
/-! C96: frames over 10GBASE-R. -/
namespace Corundum.BaseRSerdes
open Corundum.BaseR (Word Block pyDec SYNC_DATA SYNC_CTRL)
open Corundum.Xgmii (Ch IDLE START TERM PRE Frame Rx)

/-- a frame as received: the same bytes, no control or error flags -/
def intact (f : Frame) : Rx := ⟨f.data, List.replicate f.data.length false, List.replicate f.data.length false⟩

theorem expect_intact {f : Frame} (h : Clean f) : f.expect = intact f := by
  unfold Frame.expect intact; rw [h.2]

theorem map_intact {l : List Frame} (h : ∀ f ∈ l, Clean f) : l.map Frame.expect = l.map intact :=
  List.map_congr_left fun f hf => expect_intact (h f hf)

theorem rev_zero (n : Nat) : rev n 0 = 0 := by
  unfold rev
  have : (List.range n).map (fun i => if (0 >>> i) &&& 1 = 1 then 1 <<< (n - 1 - i) else 0) = (List.range n).map fun _ => 0 := by
    apply List.map_congr_left
    intro i _
    rw [Nat.zero_shiftRight, if_neg (by decide)]
  rw [this]
  induction List.range n with
  | nil => rfl
  | cons x l ih => simpa using ih

theorem unline_zero (c : Cfg) (h : Nat) : ∃ t h', unline c 0 ⟨h, 0⟩ = (t, ⟨h', 0⟩) ∧ Eq58 t 0 := by
  obtain ⟨ifg, dic, offset, scramble, reverse⟩ := c
  have hd : Corundum.Scrambler.pyDescr 0 0 64 = (0, 0) := by decide +kernel
  unfold unline
  cases scramble <;> cases reverse <;> simp only [if_true, Bool.false_eq_true, if_false, rev_zero, hd] <;> exact ⟨_, _, rfl, fun _ _ => rfl⟩

theorem brel_init (c : Cfg) (h : Nat) : BRel c [] [] (init h) Xgmii.init := by
  refine ⟨⟨rfl, rfl, rfl, rfl, (by intro f hf; cases hf), fun _ => rfl, Or.inl rfl⟩, Xgmii.inv_init (xcfg c) (Or.inr rfl), ?_⟩
  obtain ⟨t, h', e, ht⟩ := unline_zero c h
  refine ⟨t, ?_, fun _ => ht⟩
  have h1 : Xgmii.seen (xcfg c) Xgmii.init = ⟨[], none⟩ := by
    show Xgmii.Snk.step 8 ⟨[], none⟩ (Xgmii.idleWord 8) = _
    rw [Xgmii.idle_W (Or.inr rfl)]; exact Xgmii.step_W (l := List.replicate 8 IDLE) WF.idle.bytes (Or.inr rfl) _
  rw [h1]
  unfold Snk.step init
  dsimp only
  rw [e]
  have hc : chars ⟨[], none, 0⟩ (pyDec ⟨h', 0⟩) = ([], none) := by
    by_cases e1 : h' = SYNC_DATA
    · rw [e1]; decide +kernel
    · by_cases e2 : h' = SYNC_CTRL
      · rw [e2]; decide +kernel
      · unfold pyDec
        rw [if_neg e1, if_neg e2]
        decide +kernel
  dsimp only
  rw [hc]
  rfl

/-- C96: whenever frames are sent and however the clock is gated, with or without scrambler and bit reversal, the sink has received the first of the frames sent, in order and as they were -/
theorem C96_frames_in_order (c : Cfg) (h : Nat) (evs : List Ev) (hf : ∀ f ∈ sent evs, Clean f) :
    ∃ s, run c (init h) evs = some s ∧ s.snk.queue <+: (sent evs).map intact := by
  obtain ⟨s, x, h1, B⟩ := brel_run evs (brel_init c h) hf
  have := brel_prefix B
  rw [List.nil_append, List.nil_append, map_intact hf] at this
  exact ⟨s, h1, this⟩

theorem all_arrive {c : Cfg} {J : List Rx} {evs : List Ev} {s : Sys} {x : Xgmii.Sys} (B : BRel c J [] s x) (hf : ∀ f ∈ sent evs, Clean f) :
    ∃ N, ∀ n, N ≤ n → ∃ s', run c s (evs ++ List.replicate n (.clk true)) = some s' ∧ s'.snk.queue = J ++ (sent evs).map intact := by
  obtain ⟨s1, x1, h1, B1⟩ := brel_run evs B hf
  refine ⟨Xgmii.todo (xcfg c) x1.src + 1, fun n hn => ?_⟩
  obtain ⟨m, rfl⟩ : ∃ m, n = m + 1 := ⟨n - 1, by omega⟩
  obtain ⟨s2, x2, h2, B2, h3⟩ := brel_clks m B1
  obtain ⟨s3, x3, h4, -, h5, -⟩ := brel_clk B2
  refine ⟨s3, ?_, ?_⟩
  · rw [run_append, h1, Option.bind_some, List.replicate_succ', run_append, h2, Option.bind_some, run_cons, h4]; rfl
  · rw [h5, brel_done B2 (by omega), List.nil_append, map_intact hf]

/-- C96: with enough further clocks all frames sent have arrived -/
theorem C96_all_arrive (c : Cfg) (h : Nat) (evs : List Ev) (hf : ∀ f ∈ sent evs, Clean f) :
    ∃ N, ∀ n, N ≤ n → ∃ s, run c (init h) (evs ++ List.replicate n (.clk true)) = some s ∧ s.snk.queue = (sent evs).map intact :=
  all_arrive (brel_init c h) hf

/-- two idle blocks bring any sink back to the state between frames -/
theorem brel_sync (c : Cfg) (scr : Nat) (wire : Block) (snk : Snk) :
    ∃ s J, run c ⟨⟨[], [], 0, 0⟩, scr, wire, snk⟩ [.clk true, .clk true] = some s ∧ BRel c J [] s Xgmii.init := by
  have hs : ∀ t w k, Sys.step c ⟨⟨[], [], 0, 0⟩, t, w, k⟩ (.clk true) = some ⟨⟨[], [], 0, 0⟩, (line c t idleBlock).1, (line c t idleBlock).2, k.step c w⟩ := by
    intro t w k
    unfold Sys.step Src.step
    rw [if_neg (by simp), if_neg (by simp)]; rfl
  obtain ⟨k1, e1⟩ : ∃ k, k = snk.step c wire := ⟨_, rfl⟩
  obtain ⟨t1, e2⟩ : ∃ t, t = (line c scr idleBlock).1 := ⟨_, rfl⟩
  obtain ⟨k2, e3⟩ : ∃ k, k = k1.step c (line c scr idleBlock).2 := ⟨_, rfl⟩
  have ha : Agree c k2.scr t1 := by
    rw [e3, e2]; exact unline_sync c scr k1.scr idleBlock
  have hi := coded WF.idle
  rw [idle_block] at hi
  obtain ⟨u1, u2⟩ := unline_line ha hi.1 hi.2.1
  refine ⟨⟨⟨[], [], 0, 0⟩, (line c t1 idleBlock).1, (line c t1 idleBlock).2, k2⟩, (k2.step c (line c t1 idleBlock).2).queue, ?_, ⟨⟨rfl, rfl, rfl, rfl, (by intro f hf; cases hf), fun _ => rfl, Or.inl rfl⟩, Xgmii.inv_init (xcfg c) (Or.inr rfl), ?_⟩⟩
  · rw [run_cons, hs, Option.bind_some, run_cons, hs, Option.bind_some, ← e2, ← e1, ← e3]; rfl
  · refine ⟨(unline c k2.scr (line c t1 idleBlock).2).1, ?_, u2⟩
    have h1 : Xgmii.seen (xcfg c) Xgmii.init = ⟨[], none⟩ := by
      show Xgmii.Snk.step 8 ⟨[], none⟩ (Xgmii.idleWord 8) = _
      rw [Xgmii.idle_W (Or.inr rfl)]; exact Xgmii.step_W (l := List.replicate 8 IDLE) WF.idle.bytes (Or.inr rfl) _
    rw [h1]
    dsimp only
    rw [List.append_nil]
    unfold Snk.step
    dsimp only
    rw [u1, hi.2.2]
    have hc : (chars k2 (List.replicate 8 IDLE)).2 = none := by
      unfold chars
      cases k2.cur with
      | none => rfl
      | some acc => rfl
    rw [hc]

/-- C96: the endpoints need not start together: whatever state the scrambler, the wire and the sink are in, after two clocks without frames everything sent arrives, in order and unchanged, after what the sink had received by then (`J`) -/
theorem C96_resync (c : Cfg) (scr : Nat) (wire : Block) (snk : Snk) :
    ∃ s J, run c ⟨⟨[], [], 0, 0⟩, scr, wire, snk⟩ [.clk true, .clk true] = some s ∧
      ∀ evs, (∀ f ∈ sent evs, Clean f) →
        (∃ s', run c s evs = some s' ∧ s'.snk.queue <+: J ++ (sent evs).map intact) ∧
        ∃ N, ∀ n, N ≤ n → ∃ s', run c s (evs ++ List.replicate n (.clk true)) = some s' ∧ s'.snk.queue = J ++ (sent evs).map intact := by
  obtain ⟨s, J, h1, B⟩ := brel_sync c scr wire snk
  refine ⟨s, J, h1, fun evs hf => ⟨?_, all_arrive B hf⟩⟩
  obtain ⟨s', x, h2, B'⟩ := brel_run evs B hf
  have := brel_prefix B'
  rw [List.nil_append, map_intact hf] at this
  exact ⟨s', h2, this⟩

theorem gaps_skip {a : List Ch} (h : ∀ x ∈ a, x ≠ (true, 0xfd)) (l : List Ch) : Xgmii.gaps (a ++ l) = Xgmii.gaps l := by
  unfold Xgmii.gaps
  rw [List.foldl_append]
  have : ∀ a : List Ch, (∀ x ∈ a, x ≠ (true, 0xfd)) → a.foldl Xgmii.gapStep (none, []) = (none, []) := by
    intro a
    induction a with
    | nil => intro _; rfl
    | cons x a ih =>
      intro h
      rw [List.foldl_cons, Xgmii.gapStep, if_neg (h x List.mem_cons_self)]
      exact ih fun y hy => h y (List.mem_cons_of_mem _ hy)
  rw [this a h]

/-- the gaps are those of the XGMII source -/
theorem gaps_xgmii (c : Cfg) (h : Nat) (evs : List Ev) (hf : ∀ f ∈ sent evs, Clean f) :
    ∃ x, Xgmii.run (xcfg c) Xgmii.init (evs.map conv) = some x ∧ Xgmii.gaps (decoded c (init h) evs) = Xgmii.gaps (Xgmii.chars 8 x.words) := by
  obtain ⟨x, ws, h1, h2, h3⟩ := decoded_run evs (brel_init c h) hf
  refine ⟨x, h1, ?_⟩
  rw [show x.words = ws by rw [h2]; rfl, h3]
  apply gaps_skip
  obtain ⟨t, h', e, -⟩ := unline_zero c h
  rw [show unline c (init h).snk.scr (init h).wire = _ from e]
  dsimp only
  by_cases e1 : h' = SYNC_DATA
  · rw [e1]; decide +kernel
  · by_cases e2 : h' = SYNC_CTRL
    · rw [e2]; decide +kernel
    · unfold pyDec
      rw [if_neg e1, if_neg e2]
      decide +kernel

theorem clean_bytes {l : List Frame} (h : ∀ f ∈ l, Clean f) : ∀ f ∈ l, ∀ b ∈ f.data, b < 256 := fun f hf => (h f hf).1.bytes

/-- C96: in what the sink decodes, the sum over any run of consecutive gaps (terminating character included) is at least as many times the configured gap, less 3 characters with deficit idle count -/
theorem C96_gaps_long_enough (c : Cfg) (h : Nat) (evs : List Ev) (hf : ∀ f ∈ sent evs, Clean f) (t : List Nat) (ht : t <:+: Xgmii.gaps (decoded c (init h) evs)) :
    c.ifg * t.length ≤ t.sum + if c.dic then 3 else 0 := by
  obtain ⟨x, h1, h2⟩ := gaps_xgmii c h evs hf
  rw [h2] at ht
  exact Xgmii.C94_gaps_long_enough (xcfg c) (Or.inr rfl) (evs.map conv) (by rw [sent_conv]; exact clean_bytes hf) x h1 t ht

/-- C96: if all frames are waiting from the beginning, with deficit idle count the sum over any run of consecutive gaps is at most as many times the configured gap and 3 characters -/
theorem C96_gaps_no_longer (c : Cfg) (h : Nat) (hd : c.dic = true) (ho : c.offset = false) (hi : 8 ≤ c.ifg) (fs : List Frame) (hf : ∀ f ∈ fs, Clean f) (n : Nat) (t : List Nat)
    (ht : t <:+: Xgmii.gaps (decoded c (init h) (fs.map Ev.send ++ List.replicate n (.clk true)))) : t.sum ≤ c.ifg * t.length + 3 := by
  have hs : sent (fs.map Ev.send ++ List.replicate n (.clk true)) = fs := by
    have h0 : ∀ n, sent (List.replicate n (.clk true)) = [] := by
      intro n
      induction n with
      | zero => rfl
      | succ n ih => rw [List.replicate_succ, sent, ih]
    clear hf ht
    induction fs with
    | nil => exact h0 n
    | cons f fs ih => rw [List.map_cons, List.cons_append, sent, ih]
  obtain ⟨x, h1, h2⟩ := gaps_xgmii c h _ (by rw [hs]; exact hf)
  rw [h2] at ht
  refine Xgmii.C94_gaps_no_longer (xcfg c) (Or.inr rfl) hd ho hi fs (clean_bytes hf) n x ?_ t ht
  rw [← h1, List.map_append, List.map_map, List.map_replicate]; rfl

/-! ### examples -/

def exCfg : Cfg := ⟨12, true, false, true, true⟩

theorem ex_clean (n : Nat) (h : 7 ≤ n) : Clean (Xgmii.exFrame n) := ⟨Xgmii.exFrame_good n h, rfl⟩

set_option maxRecDepth 100000 in
/-- scrambled and bit reversed; the second frame starts in lane 4 -/
example : ((run exCfg (init 3) ([.send (Xgmii.exFrame 20), .send (Xgmii.exFrame 15), .send (Xgmii.exFrame 9)] ++ List.replicate 20 (.clk true))).map fun s => s.snk.queue.map Rx.data) =
    some [(Xgmii.exFrame 20).data, (Xgmii.exFrame 15).data, (Xgmii.exFrame 9).data] := by decide +kernel

set_option maxRecDepth 100000 in
/-- the gaps are 11 and 12 -/
example : Xgmii.gaps (decoded exCfg (init 3) ([.send (Xgmii.exFrame 20), .send (Xgmii.exFrame 15), .send (Xgmii.exFrame 9)] ++ List.replicate 20 (.clk true))) = [11, 12] := by decide +kernel

/-- a frame of 24 bytes with an error flag on byte 12 -/
def errFrame : Frame := ⟨(Xgmii.exFrame 23).data, .list ((List.range 24).map (· == 12))⟩

set_option maxRecDepth 100000 in
/-- where the code deviates: the block code has no block with an error between data, so that the four bytes before the error, which arrive over XGMII (C93), are lost as well -/
theorem C96_error_wipes_block :
    errFrame.Good 8 ∧ errFrame.expect.data.length = 13 ∧
    (run exCfg (init 3) ([.send errFrame] ++ List.replicate 20 (.clk true))).map (fun s => s.snk.queue.map Rx.data) = some [(Xgmii.exFrame 23).data.take 8 ++ [0xfe]] := by
  refine ⟨⟨by decide, rfl, by decide, (by intro l h; cases h; decide), ?_⟩, by decide +kernel, by decide +kernel⟩
  intro k h
  have : errFrame.firstError = some 12 := by decide +kernel
  rw [this] at h
  cases h
  decide

end Corundum.BaseRSerdes
