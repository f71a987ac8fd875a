import Verif.Proof.PcieIf
/-!
C89: frames sent on the PCIe interface are received, in order, unchanged; parity.
-/
namespace Corundum.PcieIf

/-- the transactions on their way -/
def pend (s : St) : List Trans := (if s.bus.valid = 0 then [] else [s.bus]) ++ s.drive.toList ++ s.wait.toList

/-- what is on its way, once received, is in step with the source -/
def Inv (c : Cfg) (fs : List Frame) (s : St) : Prop := ∃ k k', s.snk = some k ∧ (pend s).foldlM (getTrans c) k = some k' ∧ Rel c fs s.cur s.queue k'

theorem getTrans_from (c : Cfg) (k : Snk) (t : Trans) : getTrans c k t = getFrom c t 0 c.segs k := by
  unfold getTrans getFrom; rw [List.range_eq_range']

/-- a transaction without valid segments changes nothing -/
theorem getTrans_zero {c : Cfg} {k : Snk} {t : Trans} (h : t.valid = 0) : getTrans c k t = some k := by
  unfold getTrans
  induction List.range c.segs with
  | nil => rfl
  | cons r l ih =>
    rw [List.foldlM_cons]
    have : getSeg c (view c t r) k = some k := by
      have hv : (view c t r).valid = false := by show (t.valid &&& (1 <<< r) != 0) = false; rw [h, Nat.zero_and]; rfl
      unfold getSeg; rw [hv]; rfl
    rw [this]; exact ih

theorem rel_send {c : Cfg} {fs q : List Frame} {cur : Option Cur} {k : Snk} {f : Frame} (hf : f.Ok c) (R : Rel c fs cur q k) : Rel c (fs ++ [f]) cur (q ++ [f]) k := by
  obtain ⟨hq, R⟩ := R
  refine ⟨fun g hg => ?_, ?_⟩
  · rcases List.mem_append.1 hg with h | h
    · exact hq g h
    · rw [List.mem_singleton.1 h]; exact hf
  · cases cur with
    | none =>
      obtain ⟨h1, h2⟩ := R
      refine ⟨h1, ?_⟩
      rw [List.map_append, h2, List.map_append, List.append_assoc]
    | some x =>
      obtain ⟨h1, h2, h3⟩ := R
      refine ⟨h1, ?_, h3⟩
      rw [List.map_append, h2, List.map_append, List.append_assoc]; rfl

theorem build_inv {c : Cfg} {fs : List Frame} {s : St} (hl : 0 < c.lanes) (I : Inv c fs s) : Inv c fs (build c s) := by
  unfold build
  by_cases hw : s.wait.isSome
  · rw [if_pos hw]; exact I
  rw [if_neg hw]
  have hw' : s.wait = none := by cases h : s.wait with
    | none => rfl
    | some t => rw [h] at hw; exact absurd rfl hw
  obtain ⟨k, k', e1, e2, R⟩ := I
  have key : ∀ x q, Rel c fs (some x) q k' → Inv c fs { s with wait := some (fill c c.segs 0 {} (some x) q).1, cur := (fill c c.segs 0 {} (some x) q).2.1, queue := (fill c c.segs 0 {} (some x) q).2.2 } := by
    intro x q R
    obtain ⟨-, k2, g, R2⟩ := fill_ok hl c.segs 0 {} (some x) q k' (bound_zero c) R
    refine ⟨k, k2, e1, ?_, R2⟩
    have : pend { s with wait := some (fill c c.segs 0 {} (some x) q).1, cur := (fill c c.segs 0 {} (some x) q).2.1, queue := (fill c c.segs 0 {} (some x) q).2.2 } = pend s ++ [(fill c c.segs 0 {} (some x) q).1] := by
      unfold pend; rw [hw']; simp
    rw [this, List.foldlM_append, e2]
    simp only [Option.bind_eq_bind, Option.bind_some, List.foldlM_cons, List.foldlM_nil]
    rw [getTrans_from, g]; rfl
  cases hc : s.cur with
  | some x => rw [hc] at R; exact key x s.queue R
  | none =>
    rw [hc] at R
    cases hq : s.queue with
    | nil => exact ⟨k, k', e1, e2, by rw [hc, hq]; rw [hq] at R; exact R⟩
    | cons f q => rw [hq] at R; exact key _ q (rel_none R)

/-- the next transaction comes onto the bus -/
theorem shift_inv {c : Cfg} {fs : List Frame} {s : St} {k k' : Snk} (pause : Bool) (hk : s.snk = some k) (h : (s.drive.toList ++ s.wait.toList).foldlM (getTrans c) k = some k') (R : Rel c fs s.cur s.queue k') : Inv c fs (shift s pause) := by
  have off : Inv c fs { s with bus := { s.bus with valid := 0 } } := ⟨k, k', hk, h, R⟩
  obtain ⟨q, cur, w, d, b, r, n⟩ := s
  cases d with
  | none => cases pause <;> exact off
  | some t =>
    cases pause with
    | true => exact off
    | false =>
      refine ⟨k, k', hk, ?_, R⟩
      show ((if t.valid = 0 then [] else [t]) ++ [] ++ w.toList).foldlM (getTrans c) k = some k'
      by_cases ht : t.valid = 0
      · rw [if_pos ht]
        simp only [Option.toList_some, List.singleton_append, List.foldlM_cons, getTrans_zero ht, Option.bind_eq_bind, Option.bind_some] at h
        exact h
      · rw [if_neg ht]; exact h

theorem step_inv {c : Cfg} {fs : List Frame} {s : St} (hl : 0 < c.lanes) (I : Inv c fs s) : ∀ e, (∀ f, e = .send f → f.Ok c) → Inv c (fs ++ sent [e]) (step c s e)
  | .send f, h => by
    obtain ⟨k, k', e1, e2, R⟩ := I
    exact ⟨k, k', e1, e2, rel_send (h f rfl) R⟩
  | .build, _ => by rw [show sent [Ev.build] = [] from rfl, List.append_nil]; exact build_inv hl I
  | .hand, _ => by
    rw [show sent [Ev.hand] = [] from rfl, List.append_nil]
    show Inv c fs (if s.drive.isSome then s else { s with drive := s.wait, wait := none })
    cases hd : s.drive with
    | some t => exact I
    | none =>
      obtain ⟨k, k', e1, e2, R⟩ := I
      refine ⟨k, k', e1, ?_, R⟩
      rw [← e2]
      congr 1
      unfold pend; rw [hd]; simp
  | .clock pause ready, _ => by
    rw [show sent [Ev.clock pause ready] = [] from rfl, List.append_nil]
    obtain ⟨k, k', e1, e2, R⟩ := I
    unfold step
    dsimp only
    by_cases hv : s.bus.valid = 0
    · rw [if_pos (Or.inr (by intro h; exact h hv)), if_neg (by intro h; exact h.2 hv)]
      refine shift_inv pause e1 ?_ R
      unfold pend at e2; rw [if_pos hv] at e2; exact e2
    · cases hr : s.ready with
      | true =>
        rw [if_pos (Or.inl rfl), if_pos ⟨rfl, hv⟩]
        unfold pend at e2
        rw [if_neg hv, List.append_assoc, List.singleton_append, List.foldlM_cons] at e2
        cases hk : getTrans c k s.bus with
        | none => rw [hk] at e2; cases e2
        | some k1 =>
          rw [hk] at e2
          exact shift_inv pause (by show s.snk.bind _ = _; rw [e1]; exact hk) e2 R
      | false =>
        rw [if_neg (by intro h; rcases h with h | h; cases h; exact h hv), if_neg (by intro h; cases h.1)]
        exact ⟨k, k', e1, e2, R⟩

/-- every frame sent fits the bus -/
def AllOk (c : Cfg) (evs : List Ev) : Prop := ∀ f ∈ sent evs, f.Ok c

theorem sent_append (a b : List Ev) : sent (a ++ b) = sent a ++ sent b := by
  induction a with
  | nil => rfl
  | cons e a ih => cases e <;> simp [sent, ih]

theorem run_append (c : Cfg) (a b : List Ev) : run c (a ++ b) = b.foldl (step c) (run c a) := by unfold run; rw [List.foldl_append]

theorem inv_foldl {c : Cfg} (hl : 0 < c.lanes) : ∀ (evs : List Ev) (fs : List Frame) (s : St), Inv c fs s → AllOk c evs → Inv c (fs ++ sent evs) (evs.foldl (step c) s)
  | [], fs, s, I, _ => by rw [show sent [] = [] from rfl, List.append_nil]; exact I
  | e :: evs, fs, s, I, h => by
    have e1 : sent (e :: evs) = sent [e] ++ sent evs := sent_append [e] evs
    have := inv_foldl hl evs (fs ++ sent [e]) (step c s e) (step_inv hl I e (fun f hf => h f (by rw [hf]; exact List.mem_cons_self))) (fun f hf => h f (by rw [e1]; exact List.mem_append_right _ hf))
    rw [e1, ← List.append_assoc]; exact this

theorem inv_run {c : Cfg} (hl : 0 < c.lanes) {evs : List Ev} (h : AllOk c evs) : Inv c (sent evs) (run c evs) :=
  inv_foldl hl evs [] {} ⟨{}, {}, rfl, rfl, fun _ h => absurd h List.not_mem_nil, rfl, rfl⟩ h

theorem got_mono_seg {c : Cfg} {v : View} {k k' : Snk} (h : getSeg c v k = some k') : k.got <+: k'.got := by
  have hr : ∀ k1 : Snk, getRest c v k1 = some k' → k1.got <+: k'.got := by
    intro k1 h
    unfold getRest at h
    cases hf : k1.frame with
    | none => rw [hf] at h; cases h
    | some f =>
      rw [hf] at h
      simp only [Option.bind_eq_bind, Option.bind_some] at h
      cases hd : getData c v f k1.cnt with
      | none => rw [hd] at h; cases h
      | some x =>
        rw [hd] at h
        simp only [Option.bind_some] at h
        split at h
        · split at h
          · cases h; exact List.prefix_append _ _
          · cases h
        · cases h; exact List.prefix_refl _
  by_cases hv : v.valid = true
  · by_cases hs : v.sop = true
    · by_cases hf : k.frame = none
      · rw [getSeg_first hv hs hf] at h; have := hr _ h; exact this
      · unfold getSeg at h
        have : k.frame.isSome = true := by cases e : k.frame with
          | none => exact absurd e hf
          | some f => rfl
        simp [hv, hs, this] at h
    · rw [getSeg_cont hv (by simpa using hs)] at h; exact hr _ h
  · unfold getSeg at h
    simp [hv] at h
    rw [h]; exact List.prefix_refl _

theorem got_mono_fold {α : Type} {g : Snk → α → Option Snk} (hg : ∀ k a k', g k a = some k' → k.got <+: k'.got) : ∀ (l : List α) (k k' : Snk), l.foldlM g k = some k' → k.got <+: k'.got
  | [], k, k', h => by cases h; exact List.prefix_refl _
  | a :: l, k, k', h => by
    rw [List.foldlM_cons] at h
    cases e : g k a with
    | none => rw [e] at h; cases h
    | some k1 => rw [e] at h; exact (hg k a k1 e).trans (got_mono_fold hg l k1 k' h)

/-- no assertion of the sink fails, and the frames received are the first of those sent, in order and unchanged but for the abort flag -/
theorem C89_received_in_order (c : Cfg) (hl : 0 < c.lanes) (evs : List Ev) (h : AllOk c evs) : ∃ k, (run c evs).snk = some k ∧ k.got <+: (sent evs).map norm := by
  obtain ⟨k, k', e1, e2, R⟩ := inv_run hl h
  refine ⟨k, e1, ?_⟩
  have h1 : k.got <+: k'.got := got_mono_fold (fun k t k' h => got_mono_fold (fun k _ k' h => got_mono_seg h) _ k k' h) _ k k' e2
  refine h1.trans ?_
  obtain ⟨_, R⟩ := R
  cases hc : (run c evs).cur with
  | none => rw [hc] at R; rw [R.2]; exact List.prefix_append _ _
  | some x => rw [hc] at R; rw [R.2.1]; exact List.prefix_append _ _

/-- when nothing is on its way, every frame sent has been received, and the sink is between frames -/
theorem C89_all_received (c : Cfg) (hl : 0 < c.lanes) (evs : List Ev) (h : AllOk c evs) (hi : Idle (run c evs)) : ∃ k, (run c evs).snk = some k ∧ k.frame = none ∧ k.got = (sent evs).map norm := by
  obtain ⟨k, k', e1, e2, R⟩ := inv_run hl h
  obtain ⟨h1, h2, h3, h4, h5⟩ := hi
  refine ⟨k, e1, ?_⟩
  have : pend (run c evs) = [] := by unfold pend; rw [if_pos h5, h3, h4]; rfl
  rw [this] at e2
  cases e2
  obtain ⟨_, R⟩ := R
  rw [h2, h1] at R
  exact ⟨R.1, by rw [R.2, List.map_nil, List.append_nil]⟩

/-! ### progress -/

/-- work left in the source -/
def left (cur : Option Cur) (q : List Frame) : Nat := (match cur with
  | none => 0
  | some x => x.frame.data.length - x.off + 1) + (q.map fun f => f.data.length + 1).sum

theorem left_rest {c : Cfg} (hl : 0 < c.lanes) (x : Cur) (q : List Frame) : left (rest c x) q < left (some x) q := by
  unfold rest left
  by_cases he : x.frame.data.length ≤ x.off + used c x
  · rw [if_pos he]; dsimp only; omega
  · rw [if_neg he]
    dsimp only
    have : 0 < used c x := by
      unfold used at he ⊢
      split
      · rename_i h; rw [h] at he; simp at he
      · rename_i h; rw [if_neg h] at he; omega
    omega

theorem left_fill {c : Cfg} (hl : 0 < c.lanes) : ∀ (n seg : Nat) (t : Trans) (cur : Option Cur) (q : List Frame), left (fill c n seg t cur q).2.1 (fill c n seg t cur q).2.2 ≤ left cur q
  | 0, _, _, _, _ => Nat.le_refl _
  | _ + 1, _, _, none, [] => Nat.le_refl _
  | n + 1, seg, t, some x, q => by
    have e : fill c (n + 1) seg t (some x) q = fill c n (seg + 1) (putSeg c seg x t).1 (rest c x) q := by rw [← putSeg_rest c seg x t]; rfl
    rw [e]
    exact Nat.le_trans (left_fill hl n _ _ _ _) (Nat.le_of_lt (left_rest hl x q))
  | n + 1, seg, t, none, f :: q => by
    have e : fill c (n + 1) seg t none (f :: q) = fill c n (seg + 1) (putSeg c seg ⟨f, 0, true⟩ t).1 (rest c ⟨f, 0, true⟩) q := by rw [← putSeg_rest c seg ⟨f, 0, true⟩ t]; rfl
    rw [e]
    refine Nat.le_trans (left_fill hl n _ _ _ _) (Nat.le_trans (Nat.le_of_lt (left_rest hl _ q)) ?_)
    simp [left]

/-- `build` with nothing waiting makes progress, if there is something to do -/
theorem left_build {c : Cfg} (hl : 0 < c.lanes) (hs : 0 < c.segs) {s : St} (hw : s.wait = none) : left (build c s).cur (build c s).queue ≤ left s.cur s.queue - 1 ∧ (build c s).drive = s.drive ∧ (build c s).ready = s.ready ∧
    (left s.cur s.queue = 0 → build c s = s) := by
  obtain ⟨n, hn⟩ : ∃ n, c.segs = n + 1 := ⟨c.segs - 1, by omega⟩
  have key : ∀ x q, left (fill c c.segs 0 {} (some x) q).2.1 (fill c c.segs 0 {} (some x) q).2.2 ≤ left (some x) q - 1 := by
    intro x q
    have e : fill c c.segs 0 {} (some x) q = fill c n 1 (putSeg c 0 x {}).1 (rest c x) q := by rw [hn, ← putSeg_rest c 0 x {}]; rfl
    rw [e]
    have h1 := left_fill hl n 1 (putSeg c 0 x {}).1 (rest c x) q
    have h2 := left_rest hl x q
    omega
  obtain ⟨q, cur, w, d, b, r, k⟩ := s
  dsimp only at hw
  subst hw
  cases cur with
  | some x => exact ⟨key x q, rfl, rfl, (by intro h; simp [left] at h)⟩
  | none =>
    cases q with
    | nil => exact ⟨Nat.le_refl _, rfl, rfl, fun _ => rfl⟩
    | cons f q =>
      refine ⟨?_, rfl, rfl, (by intro h; simp [left] at h)⟩
      have := key ⟨f, 0, true⟩ q
      have e : left (some ⟨f, 0, true⟩) q = left none (f :: q) := by simp [left]
      rw [e] at this
      exact this

/-- everyone acts, nobody pauses -/
def round : List Ev := [.build, .hand, .clock false true]

theorem clock_ready (c : Cfg) (s : St) (r : Bool) : (step c s (.clock false r)).ready = r := by
  obtain ⟨q, cur, w, d, b, rdy, k⟩ := s
  unfold step
  dsimp only
  split
  · cases d <;> rfl
  · rfl

theorem clock_drive {c : Cfg} {s : St} (h : s.ready = true) (r : Bool) : (step c s (.clock false r)).drive = none := by
  obtain ⟨q, cur, w, d, b, rdy, k⟩ := s
  unfold step
  dsimp only at h ⊢
  rw [if_pos (Or.inl h)]
  cases d <;> rfl

theorem clock_rest (c : Cfg) (s : St) (r : Bool) : (step c s (.clock false r)).cur = s.cur ∧ (step c s (.clock false r)).queue = s.queue ∧ (step c s (.clock false r)).wait = s.wait := by
  obtain ⟨q, cur, w, d, b, rdy, k⟩ := s
  unfold step
  dsimp only
  split
  · cases d <;> exact ⟨rfl, rfl, rfl⟩
  · exact ⟨rfl, rfl, rfl⟩

theorem clock_idle {c : Cfg} {s : St} (h : s.ready = true) (hd : s.drive = none) (r : Bool) : (step c s (.clock false r)).bus.valid = 0 := by
  obtain ⟨q, cur, w, d, b, rdy, k⟩ := s
  dsimp only at h hd
  subst hd
  unfold step
  dsimp only
  rw [if_pos (Or.inl h)]
  rfl

theorem round_drain {c : Cfg} (hl : 0 < c.lanes) (hs : 0 < c.segs) : ∀ (n : Nat) (s : St), s.ready = true → s.drive = none → s.wait = none → left s.cur s.queue ≤ n → ∃ m, Idle ((List.replicate m round).flatten.foldl (step c) s)
  | 0, s, hr, hd, hw, hn => by
    refine ⟨1, ?_⟩
    obtain ⟨_, _, _, h4⟩ := left_build hl hs hw
    have e : (List.replicate 1 round).flatten.foldl (step c) s = step c (step c (build c s) .hand) (.clock false true) := rfl
    rw [e, h4 (by omega)]
    have hh : step c s .hand = s := by
      obtain ⟨q, cur, w, d, b, rdy, k⟩ := s
      dsimp only at hd hw
      subst hd hw; rfl
    rw [hh]
    obtain ⟨e1, e2, e3⟩ := clock_rest c s true
    have hz : left s.cur s.queue = 0 := by omega
    have hc : s.cur = none ∧ s.queue = [] := by
      cases hc : s.cur with
      | some x => rw [hc] at hz; simp [left] at hz
      | none =>
        cases hq : s.queue with
        | nil => exact ⟨rfl, rfl⟩
        | cons f q => rw [hc, hq] at hz; simp [left] at hz
    exact ⟨by rw [e2, hc.2], by rw [e1, hc.1], by rw [e3, hw], clock_drive hr _, clock_idle hr hd _⟩
  | n + 1, s, hr, hd, hw, hn => by
    obtain ⟨h1, h2, h3, _⟩ := left_build hl hs hw
    obtain ⟨e1, e2, e3⟩ := clock_rest c (step c (build c s) .hand) true
    have hd2 : (build c s).drive = none := h2.trans hd
    have hh : step c (build c s) .hand = { build c s with drive := (build c s).wait, wait := none } := by
      show (if (build c s).drive.isSome then _ else _) = _
      rw [hd2]; rfl
    have hs2 : (step c (build c s) .hand).ready = true := by rw [hh]; exact h3.trans hr
    obtain ⟨m, hm⟩ := round_drain hl hs n (step c (step c (build c s) .hand) (.clock false true)) (clock_ready _ _ _) (clock_drive hs2 _) (by rw [e3, hh]) (by rw [e1, e2, hh]; dsimp only; omega)
    refine ⟨m + 1, ?_⟩
    rw [List.replicate_succ, List.flatten_cons, List.foldl_append]
    exact hm

/-- however it came about, every state can be left: with `m` rounds in which nobody pauses every frame is received -/
theorem C89_progress (c : Cfg) (hl : 0 < c.lanes) (hs : 0 < c.segs) (evs : List Ev) (h : AllOk c evs) :
    ∃ m k, (run c (evs ++ (List.replicate m [.build, .hand, .clock false true]).flatten)).snk = some k ∧ k.frame = none ∧ k.got = (sent evs).map norm := by
  -- after three rounds the pipe is clear
  let s1 := round.foldl (step c) (run c evs)
  let s2 := round.foldl (step c) s1
  have r1 : s1.ready = true := clock_ready _ _ _
  have bd : ∀ s, (build c s).drive = s.drive ∧ (build c s).ready = s.ready := by
    intro s
    unfold build
    split
    · exact ⟨rfl, rfl⟩
    · obtain ⟨q, cur, w, d, b, rdy, k⟩ := s
      cases cur with
      | some x => exact ⟨rfl, rfl⟩
      | none => cases q <;> exact ⟨rfl, rfl⟩
  have hr : ∀ s : St, (step c s .hand).ready = s.ready := by
    intro s
    show (if s.drive.isSome then s else { s with drive := s.wait, wait := none }).ready = s.ready
    split <;> rfl
  have r2 : s2.ready = true := clock_ready _ _ _
  have d2 : s2.drive = none := clock_drive (by show (step c (build c s1) .hand).ready = true; rw [hr, (bd s1).2]; exact r1) _
  let s3 := round.foldl (step c) s2
  have r3 : s3.ready = true := clock_ready _ _ _
  have d3 : s3.drive = none := clock_drive (by show (step c (build c s2) .hand).ready = true; rw [hr, (bd s2).2]; exact r2) _
  have w3 : s3.wait = none := by
    show (step c (step c (build c s2) .hand) (.clock false true)).wait = none
    rw [(clock_rest c _ true).2.2]
    show (if (build c s2).drive.isSome then build c s2 else { build c s2 with drive := (build c s2).wait, wait := none }).wait = none
    rw [(bd s2).1, d2]; rfl
  obtain ⟨m, hm⟩ := round_drain hl hs _ s3 r3 d3 w3 (Nat.le_refl _)
  have sr : ∀ m, sent (List.replicate m round).flatten = [] := by
    intro m
    induction m with
    | zero => rfl
    | succ m ih => rw [List.replicate_succ, List.flatten_cons, sent_append, ih]; rfl
  have hsent : sent (evs ++ (List.replicate (m + 3) round).flatten) = sent evs := by rw [sent_append, sr, List.append_nil]
  have hok : AllOk c (evs ++ (List.replicate (m + 3) round).flatten) := by unfold AllOk; rw [hsent]; exact h
  obtain ⟨k, g1, g2, g3⟩ := C89_all_received c hl _ hok (by
    rw [run_append]
    show Idle ((List.replicate (m + 1 + 1 + 1) round).flatten.foldl (step c) (run c evs))
    rw [List.replicate_succ, List.flatten_cons, List.foldl_append, List.replicate_succ, List.flatten_cons, List.foldl_append, List.replicate_succ, List.flatten_cons, List.foldl_append]
    exact hm)
  refine ⟨m + 3, k, g1, g2, ?_⟩
  rw [g3, hsent]

/-- the abort flag of a frame is never received: the source does not drive it -/
theorem C89_abort_lost (c : Cfg) (hl : 0 < c.lanes) (evs : List Ev) (h : AllOk c evs) : ∀ k, (run c evs).snk = some k → ∀ f ∈ k.got, f.abort = 0 := by
  intro k hk f hf
  obtain ⟨k2, h2, h3⟩ := C89_received_in_order c hl evs h
  rw [hk] at h2
  cases h2
  have := h3.subset hf
  obtain ⟨g, _, rfl⟩ := List.mem_map.1 this
  rfl

/-- two segments of two lanes: a frame without data and a frame of three dwords in two transactions, with a pause of the source and one of the sink -/
example : let f : Frame := { hdr := 0x20000000 <<< 96, hdrPar := 5, bar := 2, func := 3, vf := some 7, seq := 1, prfx := 9 }
    let g : Frame := { hdr := 0x40000003 <<< 96, data := [0xdeadbeef, 1, 0xffffffff], parity := [15, 1, 7], error := 3, seq := 2 }
    (run ⟨2, 2, 6⟩ [.send f, .send g, .build, .hand, .build, .clock true true, .clock false false, .hand, .clock false true, .clock false true, .clock false true, .clock false true]).snk = some { got := [f, g] } := by
  decide

example : Frame.Ok ⟨2, 2, 6⟩ { hdr := 0x20000000 <<< 96, hdrPar := 5, bar := 2, func := 3, vf := some 7, seq := 1, prfx := 9 } ∧
    Frame.Ok ⟨2, 2, 6⟩ { hdr := 0x40000003 <<< 96, data := [0xdeadbeef, 1, 0xffffffff], parity := [15, 1, 7], error := 3, seq := 2 } := by
  constructor <;> constructor <;> first | decide | (intro v h; cases h; done) | (intro v h; cases h; decide)

/-! ### parity -/

/-- the folding of the parity functions -/
def fold8 (d : Nat) : Nat :=
  let d := d ^^^ (d >>> 4)
  let d := d ^^^ (d >>> 2)
  d ^^^ (d >>> 1)

theorem odd_xor : ∀ b0 b1 b2 b3 b4 b5 b6 b7 : Bool, (((xor (xor (xor b0 b4) (xor b2 b6)) (xor (xor b1 b5) (xor b3 b7)))) : Bool) = ([b0, b1, b2, b3, b4, b5, b6, b7].countP id % 2 == 1) := by decide

theorem fold8_bit (d j : Nat) : (fold8 d).testBit (8 * j) = oddByte d j := by
  have e : oddByte d j = ([d.testBit (8 * j), d.testBit (8 * j + 1), d.testBit (8 * j + 2), d.testBit (8 * j + 3), d.testBit (8 * j + 4), d.testBit (8 * j + 5), d.testBit (8 * j + 6), d.testBit (8 * j + 7)].countP id % 2 == 1) := rfl
  rw [e, ← odd_xor]
  unfold fold8
  simp only [Nat.testBit_xor, Nat.testBit_shiftRight]
  have a : ∀ m, (8 * j + m) = m + 8 * j := fun m => Nat.add_comm _ _
  simp only [a, ← Nat.add_assoc]

theorem dwordParity_bit (d j : Nat) : (dwordParity d).testBit j = (decide (j < 4) && oddByte d j) := by
  have e : dwordParity d = (let p := fold8 d &&& 1
      let p := if fold8 d &&& (1 <<< 8) ≠ 0 then p ||| (1 <<< 1) else p
      let p := if fold8 d &&& (1 <<< 16) ≠ 0 then p ||| (1 <<< 2) else p
      if fold8 d &&& (1 <<< 24) ≠ 0 then p ||| (1 <<< 3) else p) := rfl
  have cond : ∀ n (a b : Nat), (if fold8 d &&& (1 <<< n) ≠ 0 then a else b) = if (fold8 d).testBit n then a else b := by
    intro n a b
    have := flag_eq (fold8 d) n
    cases h : (fold8 d).testBit n
    · rw [h] at this; rw [if_neg (by simpa using this)]; rfl
    · rw [h] at this; rw [if_pos (by simpa using this)]; rfl
  have s0 : fold8 d &&& 1 = if (fold8 d).testBit 0 then 0 ||| (1 <<< 0) else 0 := by
    have := strb_one (fold8 d) 0
    rw [Nat.shiftRight_zero] at this
    rw [this]; rfl
  have pick : ∀ (b : Bool) (a n i : Nat), (if b then a ||| (1 <<< n) else a).testBit i = (a.testBit i || (b && decide (i = n))) := fun b a n i => PutF.bit rfl i
  rw [e]
  dsimp only
  rw [cond, cond, cond, s0, pick, pick, pick, pick, fold8_bit d 1, fold8_bit d 2, fold8_bit d 3, fold8_bit d 0]
  match j with
  | 0 => simp
  | 1 => simp
  | 2 => simp
  | 3 => simp
  | j + 4 => rw [decide_eq_false (by omega : ¬ j + 4 < 4)]; simp

theorem parityLoop_bit (d b p n i : Nat) (hb : b = 1 <<< n) : (parityLoop d b p).testBit i = (p.testBit i || (decide (n ≤ i) && d.testBit (8 * (i - n)))) := by
  induction d using Nat.strongRecOn generalizing b p n with
  | ind d ih =>
    unfold parityLoop
    by_cases h : d = 0
    · rw [dif_pos h, h]; simp
    · rw [dif_neg h, ih (d >>> 8) (by simp only [Nat.shiftRight_eq_div_pow]; exact Nat.div_lt_self (by omega) (by decide)) (b <<< 1) _ (n + 1) (by rw [hb, ← Nat.shiftLeft_add])]
      have e : (if d &&& 1 ≠ 0 then p ||| b else p).testBit i = (p.testBit i || (d.testBit 0 && decide (i = n))) := by
        have := strb_one d 0
        rw [Nat.shiftRight_zero] at this
        rw [this, hb]
        cases d.testBit 0
        · simp
        · rw [if_pos (by decide), flag_put]; simp
      rw [e, Nat.testBit_shiftRight, Bool.or_assoc]
      congr 1
      by_cases hi : i = n
      · subst hi; rw [decide_eq_false (by omega : ¬ i + 1 ≤ i)]; simp
      · by_cases hj : n ≤ i
        · rw [decide_eq_false hi, decide_eq_true hj, decide_eq_true (by omega : n + 1 ≤ i)]
          simp only [Bool.and_false, Bool.false_or, Bool.true_and]
          congr 1; omega
        · rw [decide_eq_false hi, decide_eq_false hj, decide_eq_false (by omega : ¬ n + 1 ≤ i)]; simp

theorem parity_bit (d j : Nat) : (parity d).testBit j = oddByte d j := by
  show (parityLoop (fold8 d) 1 0).testBit j = _
  rw [parityLoop_bit (fold8 d) 1 0 0 j rfl, ← fold8_bit]; simp

/-- `update_parity` sets odd parity for each byte of the data and even parity for each byte of header and prefix, and `check_parity` accepts exactly that -/
theorem C90_parity_meaning (f : Frame) : checkParity f = true ↔ f.parity.length = f.data.length ∧ (∀ i (h : i < f.parity.length) (h2 : i < f.data.length), f.parity[i] < 16 ∧ ∀ j, j < 4 → f.parity[i].testBit j = !oddByte f.data[i] j) ∧
    (∀ j, f.hdrPar.testBit j = oddByte f.hdr j) ∧ (f.prfxPar < 16 ∧ ∀ j, j < 4 → f.prfxPar.testBit j = oddByte f.prfx j) := by
  have nib : ∀ (a : Nat) (g : Nat → Bool), (a < 16 ∧ ∀ j, j < 4 → a.testBit j = g j) ↔ ∀ j, a.testBit j = (decide (j < 4) && g j) := by
    intro a g
    refine ⟨fun h j => ?_, fun h => ⟨lt_of_bits (n := 4) fun i hi => by rw [h, decide_eq_false (by omega)]; rfl, fun j hj => by rw [h, decide_eq_true hj]; rfl⟩⟩
    by_cases hj : j < 4
    · rw [h.2 j hj, decide_eq_true hj]; rfl
    · rw [bit_above (n := 4) h.1 (by omega), decide_eq_false hj]; rfl
  have inv : ∀ d j, (dwordParity d ^^^ 0xf).testBit j = (decide (j < 4) && !oddByte d j) := by
    intro d j
    rw [Nat.testBit_xor, dwordParity_bit, show (15 : Nat) = 2 ^ 4 - 1 from rfl, Nat.testBit_two_pow_sub_one]
    by_cases hj : j < 4
    · rw [decide_eq_true hj]; simp
    · rw [decide_eq_false hj]; simp
  unfold checkParity
  rw [Bool.and_eq_true, Bool.and_eq_true, beq_iff_eq, beq_iff_eq, beq_iff_eq]
  have a1 : f.parity = f.data.map (fun d => dwordParity d ^^^ 0xf) ↔ f.parity.length = f.data.length ∧ (∀ i (h : i < f.parity.length) (h2 : i < f.data.length), f.parity[i] < 16 ∧ ∀ j, j < 4 → f.parity[i].testBit j = !oddByte f.data[i] j) := by
    constructor
    · intro h
      refine ⟨by rw [h, List.length_map], fun i h1 h2 => (nib _ _).2 fun j => ?_⟩
      have : f.parity[i] = dwordParity f.data[i] ^^^ 0xf := by simp only [h, List.getElem_map]
      rw [this]; exact inv _ j
    · intro ⟨h1, h2⟩
      apply List.ext_getElem (by rw [h1, List.length_map])
      intro i g1 g2
      rw [List.getElem_map]
      apply Nat.eq_of_testBit_eq
      intro j
      rw [inv]
      exact (nib _ _).1 (h2 i g1 (by rw [← h1]; exact g1)) j
  have a2 : f.hdrPar = parity f.hdr ↔ ∀ j, f.hdrPar.testBit j = oddByte f.hdr j := by
    constructor
    · intro h j; rw [h, parity_bit]
    · intro h; apply Nat.eq_of_testBit_eq; intro j; rw [h, parity_bit]
  have a3 : f.prfxPar = dwordParity f.prfx ↔ (f.prfxPar < 16 ∧ ∀ j, j < 4 → f.prfxPar.testBit j = oddByte f.prfx j) := by
    rw [nib]
    constructor
    · intro h j; rw [h, dwordParity_bit]
    · intro h; apply Nat.eq_of_testBit_eq; intro j; rw [h, dwordParity_bit]
  rw [a1, a2, a3, and_assoc, and_assoc]

/-- what `update_parity` sets passes `check_parity` -/
theorem C90_update_check (f : Frame) : checkParity (updateParity f) = true ∧ (updateParity f).data = f.data ∧ (updateParity f).hdr = f.hdr ∧ (updateParity f).prfx = f.prfx := by
  refine ⟨?_, rfl, rfl, rfl⟩
  unfold checkParity updateParity
  simp

theorem odd_flip (d n : Nat) : oddByte (d ^^^ 2 ^ n) (n / 8) = !oddByte d (n / 8) := by
  have flip : ∀ k, k < 8 → ∀ b0 b1 b2 b3 b4 b5 b6 b7 : Bool, ([xor b0 (decide (k = 0)), xor b1 (decide (k = 1)), xor b2 (decide (k = 2)), xor b3 (decide (k = 3)), xor b4 (decide (k = 4)), xor b5 (decide (k = 5)),
      xor b6 (decide (k = 6)), xor b7 (decide (k = 7))].countP id % 2 == 1) = !([b0, b1, b2, b3, b4, b5, b6, b7].countP id % 2 == 1) := by
    intro k hk
    match k, hk with
    | 0, _ => decide
    | 1, _ => decide
    | 2, _ => decide
    | 3, _ => decide
    | 4, _ => decide
    | 5, _ => decide
    | 6, _ => decide
    | 7, _ => decide
    | k + 8, h => omega
  have e : ∀ d j, oddByte d j = ([d.testBit (8 * j), d.testBit (8 * j + 1), d.testBit (8 * j + 2), d.testBit (8 * j + 3), d.testBit (8 * j + 4), d.testBit (8 * j + 5), d.testBit (8 * j + 6), d.testBit (8 * j + 7)].countP id % 2 == 1) := fun _ _ => rfl
  rw [e, e, ← flip (n % 8) (Nat.mod_lt _ (by decide))]
  have b : ∀ i, i < 8 → (d ^^^ 2 ^ n).testBit (8 * (n / 8) + i) = xor (d.testBit (8 * (n / 8) + i)) (decide (n % 8 = i)) := by
    intro i hi
    rw [Nat.testBit_xor, Nat.testBit_two_pow]
    congr 1
    exact decide_eq_decide.2 (by omega)
  rw [b 1 (by omega), b 2 (by omega), b 3 (by omega), b 4 (by omega), b 5 (by omega), b 6 (by omega), b 7 (by omega)]
  have b0 := b 0 (by omega)
  rw [Nat.add_zero] at b0
  rw [b0]

/-- a single bit flipped in the data, the header or the prefix of a frame with good parity is noticed -/
theorem C90_single_bit (f : Frame) (h : checkParity f = true) :
    (∀ i n, i < f.data.length → n < 32 → checkParity { f with data := f.data.set i (f.data.getD i 0 ^^^ 2 ^ n) } = false) ∧
    (∀ n, checkParity { f with hdr := f.hdr ^^^ 2 ^ n } = false) ∧ (∀ n, n < 32 → checkParity { f with prfx := f.prfx ^^^ 2 ^ n } = false) := by
  obtain ⟨p1, p2, p3, p4⟩ := (C90_parity_meaning f).1 h
  have no : ∀ b : Bool, (b = true → False) → b = false := fun b hb => by cases b; rfl; exact (hb rfl).elim
  have ne : ∀ b : Bool, b = (!b) → False := fun b => by cases b <;> simp
  refine ⟨fun i n hi hn => no _ fun hc => ?_, fun n => no _ fun hc => ?_, fun n hn => no _ fun hc => ?_⟩
  · obtain ⟨q1, q2, _, _⟩ := (C90_parity_meaning _).1 hc
    dsimp only at q1 q2
    have a := (p2 i (by rw [p1]; exact hi) hi).2 (n / 8) (by omega)
    have b := (q2 i (by rw [p1]; exact hi) (by rw [List.length_set]; exact hi)).2 (n / 8) (by omega)
    rw [List.getElem_set_self, List.getD_eq_getElem?_getD, List.getElem?_eq_getElem hi, Option.getD_some, odd_flip, a] at b
    exact ne _ b
  · obtain ⟨_, _, q3, _⟩ := (C90_parity_meaning _).1 hc
    have b := q3 (n / 8)
    dsimp only at b
    rw [odd_flip, p3] at b
    exact ne _ b
  · obtain ⟨_, _, _, q4⟩ := (C90_parity_meaning _).1 hc
    have b := q4.2 (n / 8) (by omega)
    dsimp only at b
    rw [odd_flip, p4.2 _ (by omega)] at b
    exact ne _ b

/-- odd parity of a dword, as on the bus -/
example : (updateParity { data := [0x01030007], prfx := 0x80000001 }).parity = [3 ^^^ 3 ^^^ 4 ^^^ 2] ∧ (updateParity { data := [0x01030007], prfx := 0x80000001 }).prfxPar = 9 := by decide

end Corundum.PcieIf
