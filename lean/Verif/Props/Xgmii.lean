import Verif.Proof.XgmiiGap
/-! C93, C94: frames and gaps on XGMII. -/
namespace Corundum.Xgmii

theorem run_append (c : Cfg) (s : Sys) (a b : List Ev) : run c s (a ++ b) = (run c s a).bind fun s => run c s b := by
  unfold run; rw [List.foldlM_append]; rfl

/-- C93: whenever frames are sent and however the clock is gated, the sink has received the first of the frames sent, in order and as they were; a frame with an error is cut after its first error -/
theorem C93_frames_in_order (c : Cfg) (hbw : c.bw = 4 ∨ c.bw = 8) (evs : List Ev) (hf : ∀ f ∈ sent evs, f.Good c.bw) :
    ∃ s, run c init evs = some s ∧ s.snk.queue <+: (sent evs).map Frame.expect := by
  obtain ⟨s, hr, I⟩ := inv_run hbw evs [] init (inv_init c hbw) hf
  refine ⟨s, hr, ?_⟩
  obtain ⟨pend, P, hq⟩ := I.out
  rw [List.nil_append] at hq
  rw [← hq, List.append_assoc]
  have key : ∀ (k : Snk) (w : Word), k.queue <+: (k.step c.bw w).queue := by
    intro k w
    have ht : ∀ n i l q, q <+: (take w n i l q).queue := by
      intro n
      induction n with
      | zero => intro i l q; exact List.prefix_rfl
      | succ n ih =>
        intro i l q
        rw [take]
        split
        · exact List.prefix_append ..
        · exact ih _ _ _
    unfold Snk.step
    split
    · split
      · exact List.prefix_rfl
      · split <;> exact List.prefix_rfl
    · exact ht _ _ _ _
  exact List.IsPrefix.trans (key _ _) (List.prefix_append ..)

/-- C93: all frames sent arrive: after so many clocks the sink has received them all -/
theorem C93_all_arrive (c : Cfg) (hbw : c.bw = 4 ∨ c.bw = 8) (evs : List Ev) (hf : ∀ f ∈ sent evs, f.Good c.bw) :
    ∃ N, ∀ n, N ≤ n → ∃ s, run c init (evs ++ List.replicate n (.clk true)) = some s ∧ s.snk.queue = (sent evs).map Frame.expect := by
  obtain ⟨s0, hr, I0⟩ := inv_run hbw evs [] init (inv_init c hbw) hf
  rw [List.nil_append] at I0
  refine ⟨todo c s0.src + 1, ?_⟩
  have key : ∀ n s, Inv c (sent evs) s → todo c s.src + 1 ≤ n → ∃ s', run c s (List.replicate n (.clk true)) = some s' ∧ s'.snk.queue = (sent evs).map Frame.expect := by
    intro n
    induction n with
    | zero => intro s _ h; omega
    | succ n ih =>
      intro s I h
      obtain ⟨s1, h1, I1, h2, h3⟩ := inv_clk hbw I
      by_cases hz : todo c s1.src + 1 ≤ n
      · obtain ⟨s', h4, h5⟩ := ih s1 I1 hz
        refine ⟨s', ?_, h5⟩
        unfold run
        rw [List.replicate_succ, List.foldlM_cons, h1]; exact h4
      · have hn : n = 0 := by omega
        subst hn
        have ht : todo c s.src = 0 := by omega
        refine ⟨s1, ?_, ?_⟩
        · show (Sys.step c s (.clk true)).bind _ = _
          rw [h1]; rfl
        · rw [h2]
          obtain ⟨pend, P, hq⟩ := I.out
          unfold todo at ht
          have hd : s.src.dl = [] := List.length_eq_zero_iff.1 (by omega)
          have hqq : s.src.queue = [] := by
            cases hc : s.src.queue with
            | nil => rfl
            | cons f q => rw [hc] at ht; simp at ht
          rw [hd] at P
          have hp : pend = [] := by
            generalize hg : ([] : List Ch) = z at P
            cases P with
            | idle => rfl
            | tail => rfl
            | body _ _ _ rest => simp at hg
            | head => cases hg
          rw [hp, hqq] at hq
          simpa using hq
  intro n hn
  obtain ⟨s', h1, h2⟩ := key n s0 I0 hn
  exact ⟨s', by rw [run_append, hr]; exact h1, h2⟩

/-- C93 fails for frames shorter than a word: the sink does not look for the end of a frame in its first word.  It appends the end character and the idle characters after it to the data -/
theorem C93_short_frame (c : Cfg) (hbw : c.bw = 4 ∨ c.bw = 8) (ho : c.offset = false) (d : List Nat) (hb : ∀ b ∈ d, b < 256) (hl : d.length + 1 < c.bw) :
    ∃ s, run c init [.send ⟨0x55 :: d, .none⟩, .clk true, .clk true, .clk true] = some s ∧
      s.snk.queue.map Rx.data = [0x55 :: d ++ [0xfd] ++ List.replicate (c.bw - (d.length + 1)) 0x07] := by
  let B : List Ch := d.map fun b => (false, b)
  have hBl : B.length = d.length := by simp [B]
  have hB : Rest B := by
    intro x hx
    obtain ⟨b, h1, h2⟩ := List.mem_map.1 hx
    subst h2
    exact ⟨Or.inl rfl, hb b h1⟩
  have hwr : (Frame.mk (0x55 :: d) .none).build.bind wrap = some (START :: (B ++ [TERM])) := by
    have : (Frame.mk (0x55 :: d) .none).build = some ((false, 0x55) :: B) := by
      unfold Frame.build Frame.errs
      dsimp only
      rw [Option.bind_some, if_neg (by simp)]
      have : ∀ l : List Nat, List.zipWith (fun b e => if e = true then ERROR else (false, b)) l (List.replicate l.length false) = l.map fun b => (false, b) := by
        intro l
        induction l with
        | nil => rfl
        | cons b l ih => simp [List.replicate_succ, ih]
      rw [this]; rfl
    rw [this]; rfl
  have hSB : ∀ x ∈ START :: (B ++ [TERM]), Byte x := by
    intro x hx
    rcases List.mem_cons.1 hx with hx | hx
    · rw [hx]; show (0xfb : Nat) < 256; decide
    · exact hB.bytes x hx
  have hlen : (START :: (B ++ [TERM])).length = d.length + 2 := by simp [hBl]
  have hidleB : ∀ x ∈ List.replicate c.bw IDLE, Byte x := by intro x hx; rw [(List.mem_replicate.1 hx).2]; show (7 : Nat) < 256; decide
  have hidleC : ∀ x ∈ List.replicate c.bw IDLE, Calm x := by intro x hx; rw [(List.mem_replicate.1 hx).2]; show IDLE ≠ START; decide
  -- first clock
  obtain ⟨i1, hi1⟩ : ∃ i1 : Int, i1 = (c.ifg : Int) - (c.bw + 1 - (START :: (B ++ [TERM])).length : Int) + 0 := ⟨_, rfl⟩
  have h1 : Src.step c ⟨[⟨0x55 :: d, .none⟩], [], 0, 0⟩ = some (⟨[], [], i1, 0⟩, W (fill c.bw (START :: (B ++ [TERM])))) := by
    unfold Src.step
    rw [if_neg (by dsimp only; omega), if_neg (by simp)]
    show ((Frame.mk (0x55 :: d) .none).build.bind wrap).map _ = _
    rw [hwr, Option.map_some]
    dsimp only
    have hno : ¬ ((c.bw = 8 ∧ (0 : Int) ≥ 4) ∨ c.offset = true) := by rw [ho]; simp
    rw [if_neg hno, if_neg hno, emit_full, if_pos ⟨by simp, by omega⟩, List.drop_eq_nil_of_le (by omega), hi1]; rfl
  -- second clock: an idle word whatever the count is
  have h2 : ∀ i, ∃ i', Src.step c ⟨[], [], i, 0⟩ = some (⟨[], [], i', 0⟩, W (List.replicate c.bw IDLE)) := by
    intro i
    unfold Src.step
    split
    · exact ⟨_, by rw [idle_W hbw]⟩
    · rw [if_neg (by simp)]
      exact ⟨0, by rw [idle_W hbw]⟩
  obtain ⟨i2, h2'⟩ := h2 i1
  obtain ⟨i3, h3'⟩ := h2 i2
  have hk0 : (⟨[], none⟩ : Snk).step c.bw (idleWord c.bw) = ⟨[], none⟩ := by
    rcases hbw with h | h <;> rw [h] <;> rfl
  obtain ⟨m, hm⟩ : ∃ m, c.bw = m + 1 := ⟨c.bw - 1, by omega⟩
  have hk1 : (⟨[], none⟩ : Snk).step c.bw (W (fill c.bw (START :: (B ++ [TERM])))) = ⟨[], some ((false, PRE) :: fill m (B ++ [TERM]))⟩ := by
    have := step_W (fill_bytes (n := c.bw) hSB) (by rw [fill_length]; exact hbw) ⟨[], none⟩
    rw [fill_length] at this
    rw [this, hm, fill_cons]
    unfold Snk.stepL
    simp
  have hk2 : ∀ l, (⟨[], some l⟩ : Snk).step c.bw (W (List.replicate c.bw IDLE)) = ⟨[parse (l ++ [IDLE])], none⟩ := by
    intro l
    have := step_W hidleB (by simp; exact hbw) ⟨[], some l⟩
    rw [List.length_replicate] at this
    rw [this, hm, List.replicate_succ]
    unfold Snk.stepL
    dsimp only
    rw [takeL, if_pos (show IDLE.1 = true from rfl), if_pos (show IDLE.2 ≠ TERM.2 by decide)]; rfl
  refine ⟨⟨⟨[], [], i3, 0⟩, ⟨[parse ((false, PRE) :: fill m (B ++ [TERM]) ++ [IDLE])], none⟩, [W (fill c.bw (START :: (B ++ [TERM]))), W (List.replicate c.bw IDLE), W (List.replicate c.bw IDLE)]⟩, ?_, ?_⟩
  · have s1 : Sys.step c ⟨⟨[⟨0x55 :: d, .none⟩], [], 0, 0⟩, ⟨[], none⟩, []⟩ (.clk true) = some ⟨⟨[], [], i1, 0⟩, ⟨[], none⟩, [W (fill c.bw (START :: (B ++ [TERM])))]⟩ := by
      unfold Sys.step; dsimp only
      rw [h1, Option.map_some]
      simp only [List.getLast?_nil, Option.getD_none, hk0, List.nil_append]
    have s2 : Sys.step c ⟨⟨[], [], i1, 0⟩, ⟨[], none⟩, [W (fill c.bw (START :: (B ++ [TERM])))]⟩ (.clk true) = some ⟨⟨[], [], i2, 0⟩, ⟨[], some ((false, PRE) :: fill m (B ++ [TERM]))⟩, [W (fill c.bw (START :: (B ++ [TERM]))), W (List.replicate c.bw IDLE)]⟩ := by
      unfold Sys.step; dsimp only
      rw [h2', Option.map_some]
      simp only [List.getLast?_singleton, Option.getD_some, hk1, List.cons_append, List.nil_append]
    have s3 : Sys.step c ⟨⟨[], [], i2, 0⟩, ⟨[], some ((false, PRE) :: fill m (B ++ [TERM]))⟩, [W (fill c.bw (START :: (B ++ [TERM]))), W (List.replicate c.bw IDLE)]⟩ (.clk true) =
        some ⟨⟨[], [], i3, 0⟩, ⟨[parse ((false, PRE) :: fill m (B ++ [TERM]) ++ [IDLE])], none⟩, [W (fill c.bw (START :: (B ++ [TERM]))), W (List.replicate c.bw IDLE), W (List.replicate c.bw IDLE)]⟩ := by
      unfold Sys.step; dsimp only
      rw [h3', Option.map_some]
      simp only [List.getLast?_cons_cons, List.getLast?_singleton, Option.getD_some, hk2, List.cons_append, List.nil_append]
    show (Sys.step c ⟨⟨[⟨0x55 :: d, .none⟩], [], 0, 0⟩, ⟨[], none⟩, []⟩ (.clk true)).bind _ = _
    rw [s1]
    show (Sys.step c _ (.clk true)).bind _ = _
    rw [s2]
    show (Sys.step c _ (.clk true)).bind _ = _
    rw [s3]; rfl
  · have hf : fill m (B ++ [TERM]) = B ++ [TERM] ++ List.replicate (m - (d.length + 1)) IDLE := by
      unfold fill
      rw [List.take_of_length_le (by simp [hBl]; omega)]; simp [hBl]
    rw [hf]
    unfold parse
    simp only [List.map_cons, List.map_append, List.map_nil, List.map_replicate, B, List.map_map, Function.comp_def, List.map_id']
    rw [show c.bw - (d.length + 1) = m - (d.length + 1) + 1 by omega, List.replicate_succ']
    simp [TERM, IDLE, PRE]

/-! ### gaps -/

theorem ginv_run {P : Int → Prop} {slack : Int} {c : Cfg} (hbw : c.bw = 4 ∨ c.bw = 8) (hs0 : 0 ≤ slack) (T : ∀ s, Turn P slack c s) : ∀ (evs : List Ev) (s s' : Sys), GInv P slack c s → (∀ f ∈ sent evs, ∀ b ∈ f.data, b < 256) →
    run c s evs = some s' → GInv P slack c s'
  | [], s, s', G, _, h => by cases h; exact G
  | .send f :: evs, s, s', G, hb, h => by
    refine ginv_run hbw hs0 T evs _ s' ?_ (fun g hg => hb g (List.mem_cons_of_mem _ hg)) h
    refine ⟨G.ph, G.all, G.def0, G.defs, G.defP, ?_⟩
    intro g hg
    rcases List.mem_append.1 hg with hg | hg
    · exact G.bytes g hg
    · rw [List.mem_singleton.1 hg]; exact hb f List.mem_cons_self
  | .clk false :: evs, s, s', G, hb, h => ginv_run hbw hs0 T evs s s' G hb h
  | .clk true :: evs, s, s', G, hb, h => by
    unfold run at h
    rw [List.foldlM_cons] at h
    cases h1 : Sys.step c s (.clk true) with
    | none => rw [h1] at h; cases h
    | some s1 =>
      rw [h1] at h
      exact ginv_run hbw hs0 T evs s1 s' (ginv_clk hbw hs0 G (fun _ => T _) h1) hb h

theorem ginv_init {P : Int → Prop} {slack : Int} (hs0 : 0 ≤ slack) (hP : P 0) (c : Cfg) : GInv P slack c init := by
  refine ⟨.idle (Or.inl ⟨rfl, rfl⟩), ?_, Int.le_refl _, hs0, hP, by intro f h; cases h⟩
  intro t ht
  have : t = [] := List.infix_nil.1 ht
  exact ⟨0, Int.le_refl _, hs0, by rw [this]; simpa [bal] using hP⟩

/-- C94: the gaps between frames are long enough.  Without deficit idle count every gap has at least the length asked for; with it any number of consecutive gaps together lack at most three characters -/
theorem C94_gaps_long_enough (c : Cfg) (hbw : c.bw = 4 ∨ c.bw = 8) (evs : List Ev) (hb : ∀ f ∈ sent evs, ∀ b ∈ f.data, b < 256) (s : Sys) (hr : run c init evs = some s) (t : List Nat)
    (ht : t <:+: gaps (chars c.bw s.words)) : c.ifg * t.length ≤ t.sum + if c.dic then 3 else 0 := by
  have T : ∀ s, Turn (fun y => 0 ≤ y) (if c.dic then 3 else 0) c s := by
    intro s
    refine ⟨fun _ a ha => by omega, fun _ h a ha => by omega, fun _ => Int.le_refl _, ?_, ?_⟩
    · intro _ h1 h2
      refine ⟨fun a ha => by omega, ?_, by omega⟩
      cases hd : c.dic
      · simp only [Bool.false_eq_true, if_false]; have : ¬ s.ifg > 0 := fun h => h1 (Or.inr ⟨hd, h⟩)
        omega
      · simp only [if_true]
        rcases hbw with h | h
        · have := fun h => h1 (Or.inl h); omega
        · have := fun h' => h2 (Or.inl ⟨h, h'⟩); omega
    · intro _ h1 h2
      refine ⟨fun a ha => by omega, ?_, by omega⟩
      cases hd : c.dic
      · simp only [Bool.false_eq_true, if_false]; have : ¬ s.ifg > 0 := fun h => h1 (Or.inr ⟨hd, h⟩)
        omega
      · simp only [if_true]; have := fun h => h1 (Or.inl h); omega
  have h0 : (0 : Int) ≤ if c.dic then 3 else 0 := by split <;> omega
  have G := ginv_run hbw h0 T evs init s (ginv_init h0 (Int.le_refl _) c) hb hr
  obtain ⟨d, d0, d1, d2⟩ := G.all t ht
  unfold bal at d2
  cases hd : c.dic
  · rw [hd] at d1
    simp only [Bool.false_eq_true, if_false] at d1 ⊢
    have : ((c.ifg * t.length : Nat) : Int) = c.ifg * t.length := by push_cast; rfl
    omega
  · rw [hd] at d1
    simp only [if_true] at d1 ⊢
    have : ((c.ifg * t.length : Nat) : Int) = c.ifg * t.length := by push_cast; rfl
    omega

/-- C94: and they are no longer than necessary: as long as frames are waiting, with deficit idle count any number of consecutive gaps together exceed what is asked for by at most three characters.  So the mean gap is
the one asked for -/
theorem C94_gaps_no_longer (c : Cfg) (hbw : c.bw = 4 ∨ c.bw = 8) (hd : c.dic = true) (ho : c.offset = false) (hi : c.bw ≤ c.ifg) (fs : List Frame) (hb : ∀ f ∈ fs, ∀ b ∈ f.data, b < 256) (n : Nat) (s : Sys)
    (hr : run c init (fs.map Ev.send ++ List.replicate n (.clk true)) = some s) (t : List Nat) (ht : t <:+: gaps (chars c.bw s.words)) : t.sum ≤ c.ifg * t.length + 3 := by
  have h3 : (0 : Int) ≤ 3 := by omega
  have hidleB : ∀ x ∈ List.replicate c.bw IDLE, Byte x := by intro x hx; rw [(List.mem_replicate.1 hx).2]; show (7 : Nat) < 256; decide
  have sends : ∀ (fs : List Frame) (s : Sys), GInv (fun y => y ≤ 3) 3 c s → 0 ≤ s.src.ifg → (∀ f ∈ fs, ∀ b ∈ f.data, b < 256) → ∃ s', run c s (fs.map Ev.send) = some s' ∧ GInv (fun y => y ≤ 3) 3 c s' ∧ 0 ≤ s'.src.ifg := by
    intro fs
    induction fs with
    | nil => intro s G h _; exact ⟨s, rfl, G, h⟩
    | cons f fs ih =>
      intro s G h hb
      refine ih { s with src := { s.src with queue := s.src.queue ++ [f] } } ⟨G.ph, G.all, G.def0, G.defs, G.defP, ?_⟩ h fun g hg => hb g (List.mem_cons_of_mem _ hg)
      intro g hg
      rcases List.mem_append.1 hg with hg | hg
      · exact G.bytes g hg
      · rw [List.mem_singleton.1 hg]; exact hb f List.mem_cons_self
  have clks : ∀ (n : Nat) (s s' : Sys), ((GInv (fun y => y ≤ 3) 3 c s ∧ 0 ≤ s.src.ifg) ∨ (s.src.queue = [] ∧ s.src.dl = [] ∧ All (fun y => y ≤ 3) c.ifg 3 (gst c s).2)) →
      run c s (List.replicate n (.clk true)) = some s' → All (fun y => y ≤ 3) c.ifg 3 (gst c s').2 := by
    intro n
    induction n with
    | zero =>
      intro s s' h hr
      cases hr
      rcases h with h | h
      · exact h.1.all
      · exact h.2.2
    | succ n ih =>
      intro s s' h hr
      unfold run at hr
      rw [List.replicate_succ, List.foldlM_cons] at hr
      cases h1 : Sys.step c s (.clk true) with
      | none => rw [h1] at hr; cases hr
      | some s1 =>
        rw [h1] at hr
        refine ih s1 s' ?_ hr
        by_cases hdone : s.src.queue = [] ∧ s.src.dl = []
        · have hA : All (fun y => y ≤ 3) c.ifg 3 (gst c s).2 := by
            rcases h with h | h
            · exact h.1.all
            · exact h.2.2
          right
          have hst : ∃ i d, s.src.step c = some (⟨[], [], i, d⟩, W (List.replicate c.bw IDLE)) := by
            unfold Src.step
            split
            · exact ⟨_, _, by rw [idle_W hbw, hdone.1, hdone.2]⟩
            · rw [if_neg (by simp [hdone.2])]
              split
              · rename_i e; rw [hdone.1] at e; cases e
              · exact ⟨_, _, by rw [idle_W hbw, hdone.1, hdone.2]⟩
          obtain ⟨i, d, hst⟩ := hst
          unfold Sys.step at h1
          rw [hst] at h1
          cases h1
          refine ⟨rfl, rfl, ?_⟩
          rw [gst_W hidleB (by simp) (s := s) rfl, gap_idle]; exact hA
        · rcases h with ⟨G, hp⟩ | h
          · left
            have T : s.src.dl = [] → Turn (fun y => y ≤ 3) 3 c s.src := by
              intro hdl
              have hq : s.src.queue ≠ [] := fun e => hdone ⟨e, hdl⟩
              refine ⟨?_, fun h => absurd h hq, fun h => absurd h hq, ?_, ?_⟩
              · intro hw a ha
                have : s.src.ifg > c.bw - 1 := by
                  rcases hw with hw | hw
                  · exact hw
                  · rw [hd] at hw; exact absurd hw.1 (by decide)
                omega
              · intro _ h1 h2
                have g1 := fun h => h1 (Or.inl h)
                have g2 : c.bw = 8 → ¬ s.src.ifg ≥ 4 := fun h h' => h2 (Or.inl ⟨h, h'⟩)
                refine ⟨fun a ha => by omega, ?_, ?_⟩ <;> rcases hbw with h | h <;> (try have := g2 h) <;> omega
              · intro _ h1 h2
                have g1 := fun h => h1 (Or.inl h)
                have g2 : c.bw = 8 ∧ s.src.ifg ≥ 4 := by
                  rcases h2 with h | h
                  · exact h
                  · rw [ho] at h; cases h
                refine ⟨fun a ha => by omega, by omega, by omega⟩
            refine ⟨ginv_clk hbw h3 G T h1, ?_⟩
            have hcnt : ∀ (dl : List Ch) (df cnt : Int), 0 ≤ df → 0 ≤ cnt → 0 ≤ (emit c df c.bw dl ⟨0, 0⟩ cnt).2.2 := by
              intro dl df cnt h0 h1
              rw [emit_full]
              dsimp only
              split
              · rename_i hh
                have := List.length_pos_iff.2 hh.1
                omega
              · exact h1
            unfold Sys.step at h1
            cases hss : s.src.step c with
            | none => rw [hss] at h1; cases h1
            | some r =>
              rw [hss] at h1
              cases h1
              unfold Src.step at hss
              split at hss
              · cases hss; dsimp only; omega
              · split at hss
                · cases hss; exact hcnt _ _ _ G.def0 hp
                · split at hss
                  · rename_i f q _
                    cases hb : f.build.bind wrap with
                    | none => rw [hb] at hss; cases hss
                    | some dl =>
                      rw [hb, Option.map_some] at hss
                      cases hss
                      exact hcnt _ _ _ (by omega) (by omega)
                  · cases hss; dsimp only; omega
          · exact absurd ⟨h.1, h.2.1⟩ hdone
  obtain ⟨s1, h1, G1, hp1⟩ := sends fs init (ginv_init h3 h3 c) (Int.le_refl _) hb
  rw [run_append, h1] at hr
  obtain ⟨d, d0, d1, d2⟩ := clks n s1 s (Or.inl ⟨G1, hp1⟩) hr t ht
  unfold bal at d2
  have : ((c.ifg * t.length : Nat) : Int) = c.ifg * t.length := by push_cast; rfl
  omega

/-! ### examples -/

def exFrame (n : Nat) : Frame := ⟨0x55 :: (List.range n).map (· % 256), .none⟩

theorem exFrame_good (n : Nat) (h : 7 ≤ n) : (exFrame n).Good 8 := by
  refine ⟨?_, rfl, by simp [exFrame]; omega, (by intro l h; cases h), (by intro k h; simp [Frame.firstError, exFrame] at h)⟩
  intro b hb
  rcases List.mem_cons.1 hb with hb | hb
  · omega
  · obtain ⟨x, -, e⟩ := List.mem_map.1 hb
    omega

example : (Frame.mk [0x55, 1, 2, 3, 4, 5, 6, 7, 8, 9] (.list [false, false, false, false, false, false, false, false, true, false])).Good 8 :=
  ⟨by decide, rfl, by decide, (by intro l h; cases h; decide), (by intro k h; simp [Frame.firstError, List.findIdx_cons] at h; omega)⟩

example : (Frame.mk [0x55, 1, 2, 3, 4, 5, 6, 7, 8, 9] (.list [false, false, false, false, false, false, false, false, true, false])).expect.data = [0x55, 1, 2, 3, 4, 5, 6, 7, 0xfe] := rfl

set_option maxRecDepth 100000 in
/-- three frames on 64 bits: the second starts in lane 4; the gaps are 11 and 12 -/
example : ((run ⟨8, 12, true, false⟩ init ([.send (exFrame 20), .send (exFrame 15), .send (exFrame 9)] ++ List.replicate 20 (.clk true))).map fun s => (s.snk.queue.map Rx.data, gaps (chars 8 s.words))) =
    some ([(exFrame 20).data, (exFrame 15).data, (exFrame 9).data], [11, 12]) := by decide +kernel

end Corundum.Xgmii
