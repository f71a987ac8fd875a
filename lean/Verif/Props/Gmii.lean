import Verif.Proof.GmiiRun
/-! C95: frames over GMII, MII and RGMII arrive unchanged. -/
namespace Corundum.Gmii

/-- C95: whatever is sent when, and whenever the clock is enabled, the frames received are the first of those sent, in order, with bytes and error flags unchanged; the source never fails. -/
theorem C95_frames_in_order (k : Kind) (evs : List Ev) (h : ∀ f ∈ sent evs, f.Good k) : ∃ s, run k init evs = some s ∧ s.snk.queue <+: (sent evs).map Frame.expect := by
  obtain ⟨s, h1, h2⟩ := sinv_run evs (sinv_init k) h
  refine ⟨s, h1, ?_⟩
  rw [List.nil_append] at h2
  rw [h2.snk]
  refine List.IsPrefix.trans ?_ (inv_prefix h2.inv)
  rcases List.eq_nil_or_concat s.words with e | ⟨t, w, e⟩
  · rw [e]; exact List.prefix_rfl
  · rw [e, List.concat_eq_append, List.dropLast_concat]; exact seen_mono ..

/-- C95: after enough further clock edges all of them have been received. -/
theorem C95_all_arrive (k : Kind) (evs : List Ev) (h : ∀ f ∈ sent evs, f.Good k) : ∃ N, ∀ n ≥ N, ∃ s, run k init (evs ++ List.replicate n (.clk true)) = some s ∧ s.snk.queue = (sent evs).map Frame.expect := by
  obtain ⟨s, h1, h2⟩ := sinv_run evs (sinv_init k) h
  rw [List.nil_append] at h2
  refine ⟨todo k s.src + 1, fun n hn => ?_⟩
  obtain ⟨m, rfl⟩ : ∃ m, n = m + 1 := ⟨n - 1, by omega⟩
  obtain ⟨s', e1, I', l1⟩ := sinv_clks m h2
  obtain ⟨s'', e2, I'', -⟩ := sinv_clk I'
  refine ⟨s'', ?_, ?_⟩
  · rw [run_append, h1, Option.bind_some, List.replicate_succ', run_append, e1, Option.bind_some, run_cons, e2]; rfl
  · have : s''.snk = seen k id s'.words := by
      unfold Sys.step at e2
      cases hs : s'.src.step k with
      | none => rw [hs] at e2; cases e2
      | some r =>
        rw [hs] at e2
        cases e2
        dsimp only
        rw [I'.snk, seen_lag]
    rw [this]
    exact inv_done I'.inv (by omega)

/-- C95: the same over RGMII, with two nibbles and two control bits per clock cycle, at all three speeds. -/
theorem C95_rgmii_in_order (k : Kind) (evs : List REv) (h : ∀ f ∈ rsent evs, f.Good k) : ∃ s, rrun k rinit evs = some s ∧ s.snk.queue <+: (rsent evs).map Frame.expect := by
  obtain ⟨s, ws, h1, h2⟩ := rinv_run evs (rinv_init k) h
  refine ⟨s, h1, ?_⟩
  rw [List.nil_append] at h2
  obtain ⟨P, r, q, p, t, e, k1, -⟩ := h2.hist
  rw [k1]
  refine List.IsPrefix.trans ?_ (inv_prefix h2.inv)
  rw [← seen_pad k (ddr k) 4 ws, e]
  exact seen_mono ..

theorem C95_rgmii_all_arrive (k : Kind) (evs : List REv) (h : ∀ f ∈ rsent evs, f.Good k) : ∃ N, ∀ n ≥ N, ∃ s, rrun k rinit (evs ++ List.replicate n .clk) = some s ∧ s.snk.queue = (rsent evs).map Frame.expect := by
  obtain ⟨s, ws, h1, h2⟩ := rinv_run evs (rinv_init k) h
  rw [List.nil_append] at h2
  refine ⟨todo k s.src + 4, fun n hn => ?_⟩
  obtain ⟨m, rfl⟩ : ∃ m, n = m + 4 := ⟨n - 4, by omega⟩
  obtain ⟨s', ws', e1, I', -, l1⟩ := rinv_clks m h2
  obtain ⟨s'', v, e2, I'', hv, -⟩ := rinv_clks 4 I'
  refine ⟨s'', ?_, ?_⟩
  · rw [rrun_append, h1, Option.bind_some, ← List.replicate_append_replicate, rrun_append, e1]; exact e2
  · obtain ⟨P, r, q, p, t, e, k1, -⟩ := I''.hist
    rw [← List.append_assoc] at e
    obtain ⟨e3, -⟩ := List.append_inj' e (by simp [hv])
    rw [k1, ← e3, seen_pad]
    exact inv_done I'.inv (by omega)

/-- C95: frames with the usual preamble can always be put together again from their nibbles, whatever follows. -/
theorem C95_preamble_sync (n : Nat) (payload : List Nat) : Sync (List.replicate n 0x55 ++ 0xD5 :: payload) := by
  induction n with
  | zero => cases payload with
    | nil => trivial
    | cons a l => exact Or.inl rfl
  | succ n ih =>
    rw [List.replicate_succ, List.cons_append]
    cases n with
    | zero => exact Or.inr ⟨by decide, ih⟩
    | succ n => rw [List.replicate_succ, List.cons_append] at ih ⊢; exact Or.inr ⟨by decide, ih⟩

/-- Deviation: after a GMII frame of one byte there is no gap, so that it is received as part of the next frame. -/
theorem C95_one_byte_merges : (run .gmii init ([.send ⟨[1], .none⟩, .send ⟨[2, 3], .none⟩] ++ List.replicate 5 (.clk true))).map (·.snk.queue) = some [⟨[1, 2, 3], [false, false, false]⟩] := by decide +kernel

/-- Deviation: MII frames without preamble in which 0xD5 appears across a byte boundary are received shifted by a nibble. -/
theorem C95_unsynced_shifted : (run .mii init ([.send ⟨[0x50, 0x1D, 0x32, 0x54], .none⟩] ++ List.replicate 19 (.clk true))).map (·.snk.queue) = some [⟨[0x50, 0xD5, 0x21, 0x43], [false, false, false, false]⟩] := by decide +kernel

/-! ### examples -/

example : Frame.Good .gmii ⟨[0x55, 0xD5, 1, 2], .list [false, false, true, false]⟩ :=
  ⟨by decide, by decide, (by intro l h; cases h; decide), fun _ => by decide, fun h => absurd rfl h⟩

example : Frame.Good .mii ⟨[0x55, 0xD5, 1, 2], .flag⟩ :=
  ⟨by decide, by decide, (by intro l h; cases h), fun _ => by decide, fun _ => C95_preamble_sync 1 [1, 2]⟩

example : (run .mii init ([.send ⟨[0x55, 0xD5, 1], .flag⟩, .clk true, .clk false, .send ⟨[7], .none⟩] ++ List.replicate 60 (.clk true))).map (·.snk.queue) =
    some [⟨[0x55, 0xD5, 1], [false, false, true]⟩, ⟨[7], [false]⟩] := by decide +kernel

example : (rrun .gmii rinit ([.send ⟨[0x55, 0xD5, 0xA1], .list [false, true, false]⟩, .clk, .send ⟨[7, 8], .none⟩] ++ List.replicate 40 .clk)).map (·.snk.queue) =
    some [⟨[0x55, 0xD5, 0xA1], [false, true, false]⟩, ⟨[7, 8], [false, false]⟩] := by decide +kernel

example : (rrun .gmiiMii rinit ([.send ⟨[0x55, 0xD5, 0xA1], .list [false, true, false]⟩, .clk, .send ⟨[7, 8], .none⟩] ++ List.replicate 60 .clk)).map (·.snk.queue) =
    some [⟨[0x55, 0xD5, 0xA1], [false, true, false]⟩, ⟨[7, 8], [false, false]⟩] := by decide +kernel

end Corundum.Gmii
