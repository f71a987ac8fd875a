import Verif.Proof.TdmaCtrl
/-! Queues switched on and off with time slots: properties C130 and C131. -/
namespace Corundum.TdmaCtrl

theorem run_append (c : Cfg) (s : St) (a b : List In) :
    run c s (a ++ b) = ((run c (run c s a).1 b).1, (run c s a).2 ++ (run c (run c s a).1 b).2) := by
  induction a generalizing s with
  | nil => simp [run]
  | cons x a ih => simp [run, ih]

theorem starts_append (a b : List In) : starts (a ++ b) = starts a ++ starts b := by simp [starts]

/-- contents that the RAM had in the course of `xs` -/
def Had (c : Cfg) (xs : List In) (r : Nat → Nat) : Prop := ∃ ys, ys <+: xs ∧ (run c {} ys).1.ram = r

theorem Inv_more (c : Cfg) : ∀ (ys xs : List In), Inv c (run c {} xs).1 ((run c {} xs).2 ++ (run c {} xs).1.pend) (starts xs) (Had c xs) →
    Inv c (run c {} (xs ++ ys)).1 ((run c {} (xs ++ ys)).2 ++ (run c {} (xs ++ ys)).1.pend) (starts (xs ++ ys)) (Had c (xs ++ ys))
  | [], xs, h => by simpa using h
  | y :: ys, xs, h => by
    have e : xs ++ y :: ys = (xs ++ [y]) ++ ys := by simp
    rw [e]
    refine Inv_more c ys (xs ++ [y]) ?_
    have := Inv_edge (x := y) (Q := Had c (xs ++ [y])) h (fun r ⟨zs, hz, hr⟩ => ⟨zs, hz.trans (List.prefix_append _ _), hr⟩)
      ⟨xs, List.prefix_append _ _, rfl⟩
    rw [run_append, starts_append]
    have e2 : starts [y] = evOf y := by rw [starts_cons]; simp [starts]
    simpa [run, e2, List.append_assoc] using this

theorem Inv_run (c : Cfg) (xs : List In) : Inv c (run c {} xs).1 ((run c {} xs).2 ++ (run c {} xs).1.pend) (starts xs) (Had c xs) := by
  have := Inv_more c xs [] ⟨[], (0, fun _ => 0), rfl, by simp [slots, Phase.busy, run, St.pendIdx, starts], by simp [slots, Phase.busy, run]⟩
  simpa using this

/-! ### C130: exactly the queues of the slot -/

/-- The commands are those of a sequence of slots, all complete but the last: for each, exactly the queues whose bit for the slot is set are switched on, in
order, and then the same are switched off.  The slots are among those that began, in this order; what counts are the contents of the queue RAM at one moment,
even if it is written at the same time. -/
theorem C130_exact (c : Cfg) (xs : List In) :
    ∃ ds : List (Nat × (Nat → Nat)), (run c {} xs).2 ++ (run c {} xs).1.pend <+: ds.flatMap (slotCmds c) ∧
      ds.dropLast.flatMap (slotCmds c) <+: (run c {} xs).2 ++ (run c {} xs).1.pend ∧
      (ds.map (·.1)).Sublist (starts xs) ∧ ∀ d ∈ ds, ∃ ys, ys <+: xs ∧ (run c {} ys).1.ram = d.2 := by
  obtain ⟨ds, d, hp, hs, hP⟩ := Inv_run c xs
  refine ⟨slots _ ds d, ?_, ?_, (List.sublist_append_left _ _).trans hs, fun e he => hP e he⟩
  · have key : ∀ l, l <+: ons (members c d.2 d.1) ++ offs (members c d.2 d.1) → cmds c ds ++ l <+: (ds ++ [d]).flatMap (slotCmds c) := by
      intro l hl
      have := cmds_snoc c ds d
      unfold cmds at this ⊢
      rw [this]
      exact List.prefix_append_right_inj _ |>.2 hl
    cases hph : (run c {} xs).1.phase <;> simp only [PI, hph] at hp <;> simp only [slots, hph, Phase.busy, Bool.false_eq_true, if_false, if_true]
    · rw [hp]; exact List.prefix_refl _
    · rw [hp.1]; exact List.prefix_refl _
    · rw [hp.1]; exact List.prefix_refl _
    · rw [hp.2.2.2.2.2.2]
      exact key _ (((List.take_prefix _ _).map _).trans (List.prefix_append _ _))
    · rw [hp.2.2.2.2.2.2]
      exact key _ (((List.take_prefix _ _).map _).trans (List.prefix_append _ _))
    · rw [hp.2.2.2]
      exact key _ (List.prefix_append _ _)
    · rw [hp.2.2.2]
      exact key _ (List.prefix_append_right_inj _ |>.2 ((List.take_prefix _ _).map _))
  · have key : ∀ e : List (Nat × (Nat → Nat)), e.dropLast.flatMap (slotCmds c) <+: cmds c e := by
      intro e
      rcases List.eq_nil_or_concat e with rfl | ⟨a, b, rfl⟩
      · exact List.prefix_refl _
      · rw [List.concat_eq_append, List.dropLast_concat]
        unfold cmds
        rw [List.flatMap_append]
        exact List.prefix_append _ _
    cases hph : (run c {} xs).1.phase <;> simp only [PI, hph] at hp <;>
      simp only [slots, hph, Phase.busy, Bool.false_eq_true, if_false, if_true, List.dropLast_concat]
    · rw [hp]; exact key ds
    · rw [hp.1]; exact key ds
    · rw [hp.1]; exact key ds
    · rw [hp.2.2.2.2.2.2]; exact List.prefix_append _ _
    · rw [hp.2.2.2.2.2.2]; exact List.prefix_append _ _
    · rw [hp.2.2.2]; exact List.prefix_append _ _
    · rw [hp.2.2.2]; exact List.prefix_append _ _

theorem members_nodup (c : Cfg) (ram : Nat → Nat) (i : Nat) : (members c ram i).Nodup := List.Nodup.sublist List.filter_sublist List.nodup_range

/-- A queue is switched on and off in turn, beginning with on. -/
theorem C130_in_turn (c : Cfg) (xs : List In) (q : Nat) :
    ∃ k, (((run c {} xs).2 ++ (run c {} xs).1.pend).filter (·.1 == q)).map (·.2) <+: (List.replicate k [true, false]).flatten := by
  obtain ⟨ds, h, _⟩ := C130_exact c xs
  have hone : ∀ d, ((slotCmds c d).filter (·.1 == q)).map (·.2) = if q ∈ members c d.2 d.1 then [true, false] else [] := by
    intro d
    have hc : ∀ b : Bool, (((members c d.2 d.1).map fun p => (p, b)).filter (·.1 == q)).map (·.2) = if q ∈ members c d.2 d.1 then [b] else [] := by
      intro b
      rw [List.filter_map, List.map_map]
      have : (members c d.2 d.1).filter ((fun p : Nat × Bool => p.1 == q) ∘ fun p => (p, b)) = List.replicate ((members c d.2 d.1).count q) q := by
        rw [← List.filter_beq]
        rfl
      rw [this, (members_nodup c d.2 d.1).count]
      split <;> rfl
    unfold slotCmds
    rw [List.filter_append, List.map_append, hc, hc]
    split <;> rfl
  have hall : ∀ ds : List (Nat × (Nat → Nat)), ∃ k, ((ds.flatMap (slotCmds c)).filter (·.1 == q)).map (·.2) = (List.replicate k [true, false]).flatten := by
    intro ds
    induction ds with
    | nil => exact ⟨0, rfl⟩
    | cons d ds ih =>
      obtain ⟨k, hk⟩ := ih
      rw [List.flatMap_cons, List.filter_append, List.map_append, hk, hone]
      by_cases hm : q ∈ members c d.2 d.1
      · exact ⟨k + 1, by simp [hm, List.replicate_succ]⟩
      · exact ⟨k, by simp [hm]⟩
  obtain ⟨k, hk⟩ := hall ds
  exact ⟨k, hk ▸ (h.filter _).map _⟩

/-! ### C131: in time -/

/-- edges until a slot whose end is there is over -/
def offRank (c : Cfg) (s : St) : Nat :=
  match s.phase with
  | .start0 => s.w0 - s.r0 + c.count + 1
  | .startN => s.wn - s.rn + c.count + 1
  | .waitStop => c.count + 1
  | .stop => s.ws - s.rs
  | _ => 0

theorem off_step {c : Cfg} {s : St} {x : In} {log : List (Nat × Bool)} {evs : List Nat} {P : (Nat → Nat) → Prop} (h : Inv c s log evs P)
    (hb : s.phase.busy = true) (hg : s.gotStop = true) (hr : x.ready = true) :
    (s.edge c x).phase.busy = false ∨ ((s.edge c x).gotStop = true ∧ offRank c (s.edge c x) < offRank c s) := by
  obtain ⟨ds, d, hp, -, -⟩ := h
  cases hph : s.phase with
  | idle => simp [hph, Phase.busy] at hb
  | fill => simp [hph, Phase.busy] at hb
  | waitStart => simp [hph, Phase.busy] at hb
  | start0 =>
    simp only [PI, hph] at hp
    have n0 := next_eq (c := c) (p := s.r0) (by omega)
    refine .inr ?_
    by_cases hl : s.r0 + 1 = s.w0
    · have e1 : (s.edge c x).phase = .waitStop := by simp [St.edge, St.body, hph, St.onStart0, hr, hl]
      have e2 : (s.edge c x).gotStop = true := by simp [St.edge, St.body, hph, St.onStart0, hr, hl, hg]
      refine ⟨e2, ?_⟩
      simp only [offRank, e1, hph]
      omega
    · have e1 : (s.edge c x).phase = .start0 := by simp [St.edge, St.body, hph, St.onStart0, hr, hl]
      have e2 : (s.edge c x).gotStop = true := by simp [St.edge, St.body, hph, St.onStart0, hr, hl, hg]
      have e3 : (s.edge c x).r0 = s.r0 + 1 := by simp [St.edge, St.body, hph, St.onStart0, hr, hl, n0]
      have e4 : (s.edge c x).w0 = s.w0 := by simp [St.edge, St.body, hph, St.onStart0, hr, hl]
      refine ⟨e2, ?_⟩
      simp only [offRank, e1, hph, e3, e4]
      omega
  | startN =>
    simp only [PI, hph] at hp
    have n0 := next_eq (c := c) (p := s.rn) (by omega)
    refine .inr ?_
    by_cases hl : s.rn + 1 = s.wn
    · have e1 : (s.edge c x).phase = .waitStop := by simp [St.edge, St.body, hph, St.onStartN, hr, hl]
      have e2 : (s.edge c x).gotStop = true := by simp [St.edge, St.body, hph, St.onStartN, hr, hl, hg]
      refine ⟨e2, ?_⟩
      simp only [offRank, e1, hph]
      omega
    · have e1 : (s.edge c x).phase = .startN := by simp [St.edge, St.body, hph, St.onStartN, hr, hl]
      have e2 : (s.edge c x).gotStop = true := by simp [St.edge, St.body, hph, St.onStartN, hr, hl, hg]
      have e3 : (s.edge c x).rn = s.rn + 1 := by simp [St.edge, St.body, hph, St.onStartN, hr, hl, n0]
      have e4 : (s.edge c x).wn = s.wn := by simp [St.edge, St.body, hph, St.onStartN, hr, hl]
      refine ⟨e2, ?_⟩
      simp only [offRank, e1, hph, e3, e4]
      omega
  | waitStop =>
    simp only [PI, hph] at hp
    by_cases hz : s.ws = 0
    · exact .inl (by simp [St.edge, St.body, hph, St.onWaitStop, hg, hz, St.refill, Phase.busy])
    · have e1 : (s.edge c x).phase = .stop := by simp [St.edge, St.body, hph, St.onWaitStop, hg, hz]
      have e2 : (s.edge c x).gotStop = true := by simp [St.edge, St.body, hph, St.onWaitStop, hg, hz]
      have e3 : (s.edge c x).ws = s.ws := by simp [St.edge, St.body, hph, St.onWaitStop, hg, hz]
      refine .inr ⟨e2, ?_⟩
      simp only [offRank, e1, hph, e3]
      omega
  | stop =>
    simp only [PI, hph] at hp
    have n0 := next_eq (c := c) (p := s.rs) (by omega)
    by_cases hz : s.rs + 1 = s.ws
    · exact .inl (by simp [St.edge, St.body, hph, St.onStop, hr, hz, St.refill, Phase.busy])
    · have e1 : (s.edge c x).phase = .stop := by simp [St.edge, St.body, hph, St.onStop, hr, hz]
      have e2 : (s.edge c x).gotStop = true := by simp [St.edge, St.body, hph, St.onStop, hr, hz, hg]
      have e3 : (s.edge c x).ws = s.ws := by simp [St.edge, St.body, hph, St.onStop, hr, hz]
      have e4 : (s.edge c x).rs = s.rs + 1 := by simp [St.edge, St.body, hph, St.onStop, hr, hz, n0]
      refine .inr ⟨e2, ?_⟩
      simp only [offRank, e1, hph, e3, e4]
      omega

theorem run_snoc (c : Cfg) (xs : List In) (y : In) :
    (run c {} (xs ++ [y])).1 = (run c {} xs).1.edge c y ∧ (run c {} (xs ++ [y])).2 = (run c {} xs).2 ++ (run c {} xs).1.taken y := by
  rw [run_append]
  simp [run]

theorem taken_ready {s : St} {x : In} (h : x.ready = true) : s.taken x = s.pend := by simp [St.taken, St.pend, h]

theorem off_soon (c : Cfg) : ∀ (n : Nat) (xs ys : List In), (∀ y ∈ ys, y.ready = true) → ((run c {} xs).1.phase.busy = true → (run c {} xs).1.gotStop = true) →
    offRank c (run c {} xs).1 ≤ n → n + 1 ≤ ys.length →
    ∃ zs, zs <+: ys ∧ ∃ ds : List (Nat × (Nat → Nat)), (run c {} (xs ++ zs)).2 = ds.flatMap (slotCmds c)
  | n, xs, ys, hy, hg, hn, hl => by
    cases ys with
    | nil => simp at hl
    | cons y ys =>
      have hyr := hy y (by simp)
      cases hb : (run c {} xs).1.phase.busy
      · obtain ⟨ds, d, hp, -, -⟩ := Inv_run c xs
        refine ⟨[y], by simp, ds, ?_⟩
        rw [(run_snoc c xs y).2, taken_ready hyr]
        cases hph : (run c {} xs).1.phase <;> simp only [hph, Phase.busy, Bool.true_eq_false] at hb <;> simp only [PI, hph] at hp
        · exact hp
        · exact hp.1
        · exact hp.1
      · have hst := off_step (x := y) (Inv_run c xs) hb (hg hb) hyr
        rw [← (run_snoc c xs y).1] at hst
        have hpos : n ≠ 0 := by
          intro h0
          obtain ⟨ds, d, hp, -, -⟩ := Inv_run c xs
          rw [h0] at hn
          cases hph : (run c {} xs).1.phase <;> simp only [hph, Phase.busy, Bool.false_eq_true] at hb <;> simp only [PI, hph] at hp <;>
            simp only [offRank, hph] at hn <;> omega
        obtain ⟨m, rfl⟩ : ∃ m, n = m + 1 := ⟨n - 1, by omega⟩
        have hrk : offRank c (run c {} (xs ++ [y])).1 ≤ m := by
          rcases hst with hst | hst
          · cases hph : (run c {} (xs ++ [y])).1.phase <;> simp only [hph, Phase.busy, Bool.true_eq_false] at hst <;> simp [offRank, hph]
          · omega
        obtain ⟨zs, hz, ds, hd⟩ := off_soon c m (xs ++ [y]) ys (fun w hw => hy w (by simp [hw]))
          (fun hb' => by
            rcases hst with hst | hst
            · rw [hst] at hb'; cases hb'
            · exact hst.1) hrk (by simp at hl; omega)
        refine ⟨y :: zs, by simpa using hz, ds, ?_⟩
        rw [← hd]
        simp

/-- After the end of a slot, and as soon as commands have been taken at `2 * 2 ^ qw + 2` edges, there has been a moment when all that was switched on had
been switched off. -/
theorem C131_off_in_time (c : Cfg) (xs ys : List In) (x : In) (hx : x.stop = true) (hy : ∀ y ∈ ys, y.ready = true) (hl : 2 * 2 ^ c.qw + 2 ≤ ys.length) :
    ∃ zs, zs <+: ys ∧ ∃ ds : List (Nat × (Nat → Nat)), (run c {} (xs ++ x :: zs)).2 = ds.flatMap (slotCmds c) := by
  have hg : (run c {} (xs ++ [x])).1.phase.busy = true → (run c {} (xs ++ [x])).1.gotStop = true := by
    rw [(run_snoc c xs x).1]
    generalize (run c {} xs).1 = s
    intro hb
    cases hgs : s.gotStop
    · show ((s.body c x).1.gotStop || (!s.gotStop && x.stop)) = true
      simp [hgs, hx]
    · revert hb
      unfold St.edge St.body
      cases hph : s.phase <;> simp only [St.onFill, St.onWaitStart, St.onStart0, St.onStartN, St.onWaitStop, St.onStop, St.refill] <;> (repeat' split) <;>
        simp_all [Phase.busy]
  have hrk : offRank c (run c {} (xs ++ [x])).1 ≤ 2 * c.count + 1 := by
    obtain ⟨ds, d, hp, -, -⟩ := Inv_run c (xs ++ [x])
    cases hph : (run c {} (xs ++ [x])).1.phase <;> simp only [PI, hph] at hp <;> simp only [offRank, hph] <;> omega
  obtain ⟨zs, hz, ds, hd⟩ := off_soon c _ (xs ++ [x]) ys hy hg hrk (by unfold Cfg.count; omega)
  exact ⟨zs, hz, ds, by rw [← hd]; simp⟩

/-- on the way to the commands for a slot -/
def G (c : Cfg) (ram : Nat → Nat) (i : Nat) (s : St) : Prop :=
  s.gotStart = true ∧ match s.phase with
    | .idle | .fill | .waitStart => s.ram = ram ∧ s.startIndex = i
    | .start0 => upto s.m0 s.w0 = members c ram i
    | .startN => upto s.mn s.wn = members c ram i
    | _ => False

/-- the lists that are made, or are being made, serve for the slot -/
def St.fits (s : St) : Bool := !s.inconsistent && (s.startIndex == 0 || s.startIndex == s.curIndex)

/-- edges until the queues of a slot are on -/
def onRank (c : Cfg) (s : St) : Nat :=
  match s.phase with
  | .idle => 3 * c.count + 3
  | .fill => if s.fits then c.count - s.ptr + c.count + 1 else c.count - s.ptr + 2 * c.count + 2
  | .waitStart => if s.fits then c.count + 1 else 2 * c.count + 2
  | .start0 => s.w0 - s.r0
  | .startN => s.wn - s.rn
  | _ => 0

theorem on_step {c : Cfg} {s : St} {x : In} {log : List (Nat × Bool)} {evs : List Nat} {P : (Nat → Nat) → Prop} {ram : Nat → Nat} {i : Nat}
    (h : Inv c s log evs P) (hg : G c ram i s) (hr : x.ready = true) (hw : x.write = none) :
    (G c ram i (s.edge c x) ∧ onRank c (s.edge c x) < onRank c s) ∨
      ((s.edge c x).phase = .waitStop ∧ upto (s.edge c x).ms (s.edge c x).ws = members c ram i) := by
  obtain ⟨ds, d, hp, -, -⟩ := h
  obtain ⟨hgs, hg⟩ := hg
  have hram : (s.edge c x).ram = s.ram := by simp [St.edge, hw]
  cases hph : s.phase with
  | idle =>
    simp only [hph] at hg
    have e1 : (s.edge c x).phase = .fill := by simp [St.edge, St.body, hph, St.refill]
    have e2 : (s.edge c x).ptr = 0 := by simp [St.edge, St.body, hph, St.refill]
    have e3 : (s.edge c x).gotStart = true := by simp [St.edge, St.body, hph, St.refill, hgs]
    have e4 : (s.edge c x).startIndex = s.startIndex := by simp [St.edge, St.body, hph, St.refill, hgs]
    refine .inl ⟨⟨e3, ?_⟩, ?_⟩
    · simp only [e1, hram, e4]; exact hg
    · simp only [onRank, e1, e2, hph]
      split <;> omega
  | fill =>
    simp only [PI, hph] at hp
    simp only [hph] at hg
    have e1 : (s.edge c x).phase = if s.ptr + 1 = c.count then .waitStart else .fill := by simp [St.edge, St.body, hph, St.onFill]
    have e2 : (s.edge c x).ptr = (s.ptr + 1) % c.count := by simp [St.edge, St.body, hph, St.onFill]
    have e3 : (s.edge c x).gotStart = true := by
      unfold St.edge St.body St.onFill
      simp only [hph]
      (repeat' split) <;> simp [hgs]
    have e4 : (s.edge c x).startIndex = s.startIndex := by
      unfold St.edge St.body St.onFill
      simp only [hph]
      (repeat' split) <;> simp_all
    have e5 : (s.edge c x).curIndex = s.curIndex := by
      unfold St.edge St.body St.onFill
      simp only [hph]
      (repeat' split) <;> rfl
    have e6 : (s.edge c x).inconsistent = s.inconsistent := by simp [St.edge, St.body, hph, hw]
    have e7 : (s.edge c x).fits = s.fits := by simp [St.fits, e4, e5, e6]
    refine .inl ⟨⟨e3, ?_⟩, ?_⟩
    · rw [e1]
      by_cases hq : s.ptr + 1 = c.count
      · simp only [hq, if_true, hram, e4]; exact hg
      · simp only [hq, if_false, hram, e4]; exact hg
    · by_cases hq : s.ptr + 1 = c.count
      · rw [if_pos hq] at e1
        simp only [onRank, e1, hph, e7]
        split <;> omega
      · rw [if_neg hq] at e1
        rw [Nat.mod_eq_of_lt (by omega)] at e2
        simp only [onRank, e1, hph, e7, e2]
        split <;> omega
  | waitStart =>
    simp only [PI, hph] at hp
    simp only [hph] at hg
    obtain ⟨hg1, hg2⟩ := hg
    have hl := hp.2
    by_cases c0 : (!s.inconsistent && s.startIndex == 0) = true
    · have c0' := c0
      simp only [Bool.and_eq_true, Bool.not_eq_true', beq_iff_eq] at c0'
      have hm : upto s.m0 s.w0 = members c ram i := by rw [members_eq, ← hg1, ← hg2, c0'.2]; exact hl.l0 c0'.1
      have hf : s.fits = true := by simp [St.fits, c0'.1, c0'.2]
      by_cases hz : s.w0 = 0
      · refine .inr ⟨by simp [St.edge, St.body, hph, St.onWaitStart, hgs, c0, hz], ?_⟩
        have : (s.edge c x).ws = 0 := by simp [St.edge, St.body, hph, St.onWaitStart, hgs, c0, hz]
        rw [this, ← hm, hz]
        rfl
      · have e1 : (s.edge c x).phase = .start0 := by simp [St.edge, St.body, hph, St.onWaitStart, hgs, c0, hz]
        have e2 : (s.edge c x).gotStart = true := by simp [St.edge, St.body, hph, St.onWaitStart, hgs, c0, hz]
        have e3 : (s.edge c x).w0 = s.w0 := by simp [St.edge, St.body, hph, St.onWaitStart, hgs, c0, hz]
        have e4 : (s.edge c x).m0 = s.m0 := by simp [St.edge, St.body, hph, St.onWaitStart, hgs, c0, hz]
        refine .inl ⟨⟨e2, ?_⟩, ?_⟩
        · simp only [e1, e3, e4]; exact hm
        · have := hl.w0
          simp only [onRank, e1, e3, hph, hf, if_true]; omega
    · by_cases c1 : (!s.inconsistent && s.startIndex == s.curIndex) = true
      · have c1' := c1
        simp only [Bool.and_eq_true, Bool.not_eq_true', beq_iff_eq] at c1'
        have hm : upto s.mn s.wn = members c ram i := by rw [members_eq, ← hg1, ← hg2, c1'.2]; exact hl.ln c1'.1
        have hf : s.fits = true := by simp [St.fits, c1'.1, c1'.2]
        have hbd : s.body c x = if s.wn = 0 then
            ({ s with valid := s.valid && !x.ready, rs := 0, ws := 0, curIndex := (s.startIndex + 1) % 2 ^ c.tw, gotStart := false, phase := .waitStop }, false)
            else ({ s with valid := s.valid && !x.ready, rs := 0, ws := 0, curIndex := (s.startIndex + 1) % 2 ^ c.tw, phase := .startN }, false) := by
          simp only [St.body, hph, St.onWaitStart, hgs, if_true, c1]
          rw [if_neg c0]
        by_cases hz : s.wn = 0
        · rw [if_pos hz] at hbd
          refine .inr ⟨by unfold St.edge; rw [hbd], ?_⟩
          have : (s.edge c x).ws = 0 := by unfold St.edge; rw [hbd]
          rw [this, ← hm, hz]
          rfl
        · rw [if_neg hz] at hbd
          have e1 : (s.edge c x).phase = .startN := by unfold St.edge; rw [hbd]
          have e2 : (s.edge c x).gotStart = true := by unfold St.edge; rw [hbd]; simp [hgs]
          have e3 : (s.edge c x).wn = s.wn := by unfold St.edge; rw [hbd]
          have e4 : (s.edge c x).mn = s.mn := by unfold St.edge; rw [hbd]
          refine .inl ⟨⟨e2, ?_⟩, ?_⟩
          · simp only [e1, e3, e4]; exact hm
          · have := hl.wn
            simp only [onRank, e1, e3, hph, hf, if_true]; omega
      · have hbd : s.body c x =
            ({ (St.refill { s with valid := s.valid && !x.ready, rs := 0, ws := 0, curIndex := (s.startIndex + 1) % 2 ^ c.tw }) with
              curIndex := s.startIndex }, true) := by
          simp only [St.body, hph, St.onWaitStart, hgs, if_true]
          rw [if_neg c0, if_neg c1]
        have hf : s.fits = false := by
          unfold St.fits
          revert c0 c1
          cases s.inconsistent <;> cases s.startIndex == 0 <;> cases s.startIndex == s.curIndex <;> simp
        have e1 : (s.edge c x).phase = .fill := by unfold St.edge; rw [hbd]; rfl
        have e2 : (s.edge c x).gotStart = true := by unfold St.edge; rw [hbd]; simp [hgs, St.refill]
        have e3 : (s.edge c x).ptr = 0 := by unfold St.edge; rw [hbd]; rfl
        have e4 : (s.edge c x).startIndex = s.startIndex := by unfold St.edge; rw [hbd]; simp [hgs, St.refill]
        have e5 : (s.edge c x).curIndex = s.startIndex := by unfold St.edge; rw [hbd]
        have e6 : (s.edge c x).inconsistent = false := by unfold St.edge; rw [hbd]; simp [hw]
        have e7 : (s.edge c x).fits = true := by simp [St.fits, e4, e5, e6]
        refine .inl ⟨⟨e2, ?_⟩, ?_⟩
        · simp only [e1, hram, e4]; exact ⟨hg1, hg2⟩
        · simp only [onRank, e1, hph, e7, e3, hf, if_true]
          simp
          omega
  | start0 =>
    simp only [PI, hph] at hp
    simp only [hph] at hg
    obtain ⟨p1, p2, p3, p4, p5, p6, p7⟩ := hp
    have n0 := next_eq (c := c) (p := s.r0) (by omega)
    have nn := next_eq (c := c) (p := s.ws) (by omega)
    by_cases hl : s.r0 + 1 = s.w0
    · refine .inr ⟨by simp [St.edge, St.body, hph, St.onStart0, hr, hl], ?_⟩
      have e1 : (s.edge c x).ms = upd s.ms s.ws (s.m0 s.r0) := by simp [St.edge, St.body, hph, St.onStart0, hr, hl]
      have e2 : (s.edge c x).ws = s.ws + 1 := by simp [St.edge, St.body, hph, St.onStart0, hr, hl, nn]
      rw [e1, e2, upto_push, p6, ← p5, ← upto_take p1, hl, ← hg]
      exact List.take_of_length_le (by rw [upto_len]; exact Nat.le_refl _)
    · have e1 : (s.edge c x).phase = .start0 := by simp [St.edge, St.body, hph, St.onStart0, hr, hl]
      have e2 : (s.edge c x).gotStart = true := by simp [St.edge, St.body, hph, St.onStart0, hr, hl, hgs]
      have e3 : (s.edge c x).r0 = s.r0 + 1 := by simp [St.edge, St.body, hph, St.onStart0, hr, hl, n0]
      have e4 : (s.edge c x).w0 = s.w0 := by simp [St.edge, St.body, hph, St.onStart0, hr, hl]
      have e5 : (s.edge c x).m0 = s.m0 := by simp [St.edge, St.body, hph, St.onStart0, hr, hl]
      refine .inl ⟨⟨e2, ?_⟩, ?_⟩
      · simp only [e1, e4, e5]; exact hg
      · simp only [onRank, e1, hph, e3, e4]; omega
  | startN =>
    simp only [PI, hph] at hp
    simp only [hph] at hg
    obtain ⟨p1, p2, p3, p4, p5, p6, p7⟩ := hp
    have n0 := next_eq (c := c) (p := s.rn) (by omega)
    have nn := next_eq (c := c) (p := s.ws) (by omega)
    by_cases hl : s.rn + 1 = s.wn
    · refine .inr ⟨by simp [St.edge, St.body, hph, St.onStartN, hr, hl], ?_⟩
      have e1 : (s.edge c x).ms = upd s.ms s.ws (s.mn s.rn) := by simp [St.edge, St.body, hph, St.onStartN, hr, hl]
      have e2 : (s.edge c x).ws = s.ws + 1 := by simp [St.edge, St.body, hph, St.onStartN, hr, hl, nn]
      rw [e1, e2, upto_push, p6, ← p5, ← upto_take p1, hl, ← hg]
      exact List.take_of_length_le (by rw [upto_len]; exact Nat.le_refl _)
    · have e1 : (s.edge c x).phase = .startN := by simp [St.edge, St.body, hph, St.onStartN, hr, hl]
      have e2 : (s.edge c x).gotStart = true := by simp [St.edge, St.body, hph, St.onStartN, hr, hl, hgs]
      have e3 : (s.edge c x).rn = s.rn + 1 := by simp [St.edge, St.body, hph, St.onStartN, hr, hl, n0]
      have e4 : (s.edge c x).wn = s.wn := by simp [St.edge, St.body, hph, St.onStartN, hr, hl]
      have e5 : (s.edge c x).mn = s.mn := by simp [St.edge, St.body, hph, St.onStartN, hr, hl]
      refine .inl ⟨⟨e2, ?_⟩, ?_⟩
      · simp only [e1, e4, e5]; exact hg
      · simp only [onRank, e1, hph, e3, e4]; omega
  | waitStop => simp only [hph] at hg
  | stop => simp only [hph] at hg

theorem on_soon (c : Cfg) (ram : Nat → Nat) (i : Nat) : ∀ (n : Nat) (xs ys : List In), (∀ y ∈ ys, y.ready = true ∧ y.write = none) →
    (G c ram i (run c {} xs).1 ∧ onRank c (run c {} xs).1 ≤ n ∨
      (run c {} xs).1.phase = .waitStop ∧ upto (run c {} xs).1.ms (run c {} xs).1.ws = members c ram i) → n + 1 ≤ ys.length →
    ∃ zs, zs <+: ys ∧ ∃ ds : List (Nat × (Nat → Nat)), (run c {} (xs ++ zs)).2 = ds.flatMap (slotCmds c) ++ (members c ram i).map (fun q => (q, true))
  | n, xs, ys, hy, hg, hl => by
    cases ys with
    | nil => simp at hl
    | cons y ys =>
      have hyr := hy y (by simp)
      rcases hg with ⟨hg, hn⟩ | ⟨h1, h2⟩
      · have hst := on_step (x := y) (Inv_run c xs) hg hyr.1 hyr.2
        rw [← (run_snoc c xs y).1] at hst
        have hpos : n ≠ 0 := by
          intro h0
          obtain ⟨ds, d, hp, -, -⟩ := Inv_run c xs
          have hg' := hg.2
          rw [h0] at hn
          cases hph : (run c {} xs).1.phase <;> simp only [PI, hph] at hp <;> simp only [hph] at hg' <;> simp only [onRank, hph] at hn
          · omega
          · split at hn <;> omega
          · split at hn <;> omega
          · omega
          · omega
        obtain ⟨m, rfl⟩ : ∃ m, n = m + 1 := ⟨n - 1, by omega⟩
        obtain ⟨zs, hz, ds, hd⟩ := on_soon c ram i m (xs ++ [y]) ys (fun w hw => hy w (by simp [hw]))
          (hst.imp (fun h => ⟨h.1, by omega⟩) id) (by simp at hl; omega)
        refine ⟨y :: zs, by simpa using hz, ds, ?_⟩
        rw [← hd]
        simp
      · obtain ⟨ds, d, hp, -, -⟩ := Inv_run c xs
        simp only [PI, h1] at hp
        refine ⟨[y], by simp, ds, ?_⟩
        rw [(run_snoc c xs y).2, taken_ready hyr.1, hp.2.2.2, ← hp.2.2.1, h2]
        rfl

/-- When a slot begins while no slot is under way, and the queue RAM is not written and commands are taken at the `3 * 2 ^ qw + 4` edges that follow, the
queues of the slot are on by then: before that the commands end with switching them on, all slots before being complete. -/
theorem C131_on_in_time (c : Cfg) (xs ys : List In) (x : In) (h0 : (run c {} xs).1.gotStart = false)
    (hb : (run c {} xs).1.phase = .idle ∨ (run c {} xs).1.phase = .fill ∨ (run c {} xs).1.phase = .waitStart)
    (hx : x.start = true) (hw : x.write = none) (hy : ∀ y ∈ ys, y.ready = true ∧ y.write = none) (hl : 3 * 2 ^ c.qw + 4 ≤ ys.length) :
    ∃ zs, zs <+: ys ∧ ∃ ds : List (Nat × (Nat → Nat)),
      (run c {} (xs ++ x :: zs)).2 = ds.flatMap (slotCmds c) ++ (members c (run c {} xs).1.ram x.index).map (fun q => (q, true)) := by
  have key : G c (run c {} xs).1.ram x.index (run c {} (xs ++ [x])).1 ∧ onRank c (run c {} (xs ++ [x])).1 ≤ 3 * c.count + 3 := by
    rw [(run_snoc c xs x).1]
    have hcp := count_pos c
    generalize (run c {} xs).1 = s at h0 hb
    have hram : (s.edge c x).ram = s.ram := by simp [St.edge, hw]
    have hgs : (s.edge c x).gotStart = true := by
      show ((s.body c x).1.gotStart || (!s.gotStart && x.start)) = true
      simp [h0, hx]
    have hsi : (s.edge c x).startIndex = x.index := by
      show (if !s.gotStart && x.start then x.index else (s.body c x).1.startIndex) = _
      simp [h0, hx]
    have hph : (s.edge c x).phase = .fill ∨ (s.edge c x).phase = .waitStart := by
      rcases hb with hb | hb | hb
      · exact .inl (by simp [St.edge, St.body, hb, St.refill])
      · by_cases hq : s.ptr + 1 = c.count
        · exact .inr (by simp [St.edge, St.body, hb, St.onFill, hq])
        · exact .inl (by simp [St.edge, St.body, hb, St.onFill, hq])
      · exact .inr (by simp [St.edge, St.body, hb, St.onWaitStart, h0])
    rcases hph with hph | hph
    · refine ⟨⟨hgs, ?_⟩, ?_⟩
      · simp only [hph]; exact ⟨hram, hsi⟩
      · simp only [onRank, hph]; split <;> omega
    · refine ⟨⟨hgs, ?_⟩, ?_⟩
      · simp only [hph]; exact ⟨hram, hsi⟩
      · simp only [onRank, hph]; split <;> omega
  obtain ⟨zs, hz, ds, hd⟩ := on_soon c _ _ _ (xs ++ [x]) ys hy (.inl key) (by unfold Cfg.count; omega)
  exact ⟨zs, hz, ds, by rw [← hd]; simp⟩

/-- an edge without any event -/
def still : In := { ready := true }

/-- two queues; in slot 0 the first is on, in slot 1 both -/
def sample : List In :=
  [{ write := some (0, 3) }, { write := some (1, 2) }] ++ List.replicate 8 still ++ [{ start := true, index := 0 }] ++ List.replicate 8 still ++
    [{ stop := true, start := true, index := 1 }] ++ List.replicate 10 still ++ [{ stop := true }] ++ List.replicate 8 still

example : (run ⟨1, 2⟩ {} sample).2 = [(0, true), (0, false), (0, true), (1, true), (0, false), (1, false)] := by decide
example : starts sample = [0, 1] := by decide
example : (run ⟨1, 2⟩ {} (sample.take 10)).1.gotStart = false ∧ (run ⟨1, 2⟩ {} (sample.take 10)).1.phase = .waitStart ∧
    members ⟨1, 2⟩ (run ⟨1, 2⟩ {} (sample.take 10)).1.ram 0 = [0] := by decide

/-- two queues that are on in all slots; slot 1 begins when the queues of slot 0 are still being switched on -/
def short : List In :=
  [{ write := some (0, 7) }, { write := some (1, 7) }] ++ List.replicate 8 still ++
    [{ start := true, index := 0 }, still, still, { stop := true, start := true, index := 1 }] ++ List.replicate 12 still ++
    [{ stop := true }] ++ List.replicate 12 still

/-- The queues of a slot can stay off for the whole slot, and be switched off again at once in the next: the beginning of slot 1 is lost since slot 0 is still
being switched on, its end is kept, and ends slot 2 as soon as it has begun, though no end follows. -/
theorem C131_lost_counterexample : ∃ c, ∃ xs ys : List In, starts xs = [0, 1] ∧ starts ys = [2] ∧ (∀ y ∈ ys, y.stop = false) ∧
    (∀ i < 3, members c (run c {} xs).1.ram i = [0, 1]) ∧
    (run c {} xs).2 = [(0, true), (1, true), (0, false), (1, false)] ∧
    (run c (run c {} xs).1 ys).2 = [(0, true), (1, true), (0, false), (1, false)] :=
  ⟨⟨1, 2⟩, short, [{ start := true, index := 2 }] ++ List.replicate 12 still, by decide, by decide, by decide, by decide, by decide, by decide⟩

end Corundum.TdmaCtrl
