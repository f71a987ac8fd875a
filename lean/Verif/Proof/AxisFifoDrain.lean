import Verif.Proof.AxisFifoRun
/-!
AXI stream FIFO: with the output ready and no input, every cycle brings it nearer to being empty.
-/
namespace Corundum.AxisFifo

/-- distance of the words in the pipeline from the output -/
def pw : Nat → List (Option Beat) → Nat
  | _, [] => 0
  | k, x :: t => (if x.isSome then k else 0) + pw (k + 1) t

theorem pw_succ : ∀ (l : List (Option Beat)) (k : Nat), pw (k + 1) l = pw k l + (vals l).length := by
  intro l
  induction l with
  | nil => intro k; rfl
  | cons x t ih =>
    intro k
    rw [pw, pw, ih]
    cases x <;> simp [vals] <;> omega

theorem pw_snoc : ∀ (l : List (Option Beat)) (k : Nat) (x : Option Beat), pw k (l ++ [x]) = pw k l + (if x.isSome then k + l.length else 0) := by
  intro l
  induction l with
  | nil => intro k x; simp [pw]
  | cons y t ih =>
    intro k x
    rw [List.cons_append, pw, ih, pw, List.length_cons]
    split <;> split <;> omega

theorem pw_zero {k : Nat} : ∀ {l : List (Option Beat)}, pw (k + 1) l = 0 → ∀ x ∈ l, x = none := by
  intro l
  induction l generalizing k with
  | nil => intro _ x hx; cases hx
  | cons y t ih =>
    intro h x hx
    rw [pw] at h
    rcases List.mem_cons.1 hx with rfl | hx
    · cases x
      · rfl
      · simp at h
    · exact ih (k := k + 1) (by omega) x hx

theorem pw_le : ∀ (l : List (Option Beat)) (k : Nat), pw k l ≤ l.length * (k + l.length) := by
  intro l
  induction l with
  | nil => intro k; simp [pw]
  | cons y t ih =>
    intro k
    rw [pw]
    have := ih (k + 1)
    rw [List.length_cons, Nat.add_mul, Nat.one_mul, show k + (t.length + 1) = k + 1 + t.length by omega]
    split <;> omega

/-- distance from being empty -/
def weight (c : Cfg) (s : S) (q o : List Beat) : Nat :=
  2 * ((c.pl + 4) * q.length + pw 3 s.pipe + 2 * o.length + s.oreg.toList.length) + (if s.half then 1 else 0)

theorem Inv.drain {c s q u o} (h : Inv c s q u o) (i : Inp) (hp : c.pauseEnable = false) (hr : i.mready = true) (ha : s.act c i = .nop) : ∃ q' o', Inv c (s.step c i) q' u o' ∧
    s.outBeat c i ++ contents (s.step c i) q' o' = contents s q o ∧ q' = (if s.rdEn c i then q.tail else q) ∧ (s.rdEn c i = true → q ≠ []) ∧
    (weight c (s.step c i) q' o' < weight c s q o ∨ weight c s q o = 0 ∧ weight c (s.step c i) q' o' = 0) := by
  obtain ⟨q', o', h1, h2, h3, h4, h5⟩ := h.step i
  rw [ha] at h1 h2 h3
  simp only [actQ, cmt, List.append_nil] at h1 h2 h3
  refine ⟨q', o', h1, h2, h3, h4, ?_⟩
  have hro : s.rdyOut c i = true := by simp [S.rdyOut, hr, hp]
  have hrp : s.rdyPipe c i = true := by simp [S.rdyPipe, hro]
  obtain ⟨hd, tl, hpe⟩ := List.exists_cons_of_ne_nil h.ne
  have htl : tl.length = c.pl := by have := h.pl; rw [hpe] at this; simpa using this
  have hpipe : (s.step c i).pipe = tl ++ [if s.rdEn c i then some (s.mem (s.rd % 2 ^ c.aw)) else none] := by
    show adv (s.rdyPipe c i) s.pipe _ = _
    rw [hrp, adv_true _ _ h.ne, hpe]; rfl
  have hx : (if s.rdEn c i then some (s.mem (s.rd % 2 ^ c.aw)) else none).isSome = s.rdEn c i := by cases s.rdEn c i <;> rfl
  have hq : (c.pl + 4) * q'.length + (if s.rdEn c i then c.pl + 4 else 0) = (c.pl + 4) * q.length := by
    rw [h3]
    split
    · rename_i hr
      obtain ⟨b, t, e⟩ := List.exists_cons_of_ne_nil (h4 hr)
      rw [e, List.tail_cons, List.length_cons, Nat.mul_add, Nat.mul_one]
    · rfl
  have hpw : pw 3 s.pipe = (if hd.isSome then 3 else 0) + (pw 3 tl + (vals tl).length) := by rw [hpe, pw, pw_succ]
  have hpw' : pw 3 (s.step c i).pipe = pw 3 tl + (if s.rdEn c i then 3 + c.pl else 0) := by rw [hpipe, pw_snoc, hx, htl]
  have hempty : s.empty = decide (q = []) := h.ring.empty
  have hd3 : (s.owr + 2 ^ (c.oaw + 1) - s.ord) % 2 ^ (c.oaw + 1) = o.length := h.orep.dist
  have hhalf : (s.step c i).half = decide (c.half ≤ o.length) := by
    show decide ((s.owr + 2 ^ (c.oaw + 1) - s.ord) % 2 ^ (c.oaw + 1) ≥ 2 ^ (c.oaw - 1)) = _
    rw [hd3]; rfl
  have hH := (oaw_half c).2
  have hrdE : s.rdEn c i = false → (c.outFifo = true → s.half = false) → q = [] := by
    intro e1 e2
    unfold S.rdEn at e1
    rw [hrp, hempty] at e1
    cases hof : c.outFifo
    · rw [hof] at e1; simpa using e1
    · rw [hof, e2 hof] at e1; simpa using e1
  unfold weight
  rw [hpw, hpw', hhalf]
  cases hof : c.outFifo
  · obtain ⟨o1, o2⟩ := h.off hof
    obtain ⟨o3, o4⟩ := h1.off hof
    rw [o1, o2, o3, o4]
    have : decide (c.half ≤ ([] : List Beat).length) = false := by rw [decide_eq_false_iff_not]; simp; omega
    rw [this]
    simp only [Option.toList_none, List.length_nil, Bool.false_eq_true, if_false]
    cases hrd : s.rdEn c i
    · have hqn := hrdE hrd (fun e => by rw [hof] at e; cases e)
      rw [hrd] at hq
      simp only [Bool.false_eq_true, if_false, Nat.add_zero] at hq ⊢
      rw [hqn] at hq ⊢
      simp only [List.length_nil, Nat.mul_zero] at hq ⊢
      rw [hq]
      by_cases hz : vals tl = []
      · have hp0 : pw 3 tl = 0 := by
          have : pw 3 tl = pw 0 tl + 3 * (vals tl).length := by rw [pw_succ, pw_succ, pw_succ]; omega
          rw [hz] at this
          rw [this]
          have : ∀ (l : List (Option Beat)) k, vals l = [] → pw k l = 0 := by
            intro l
            induction l with
            | nil => intro k _; rfl
            | cons x t ih =>
              intro k hv
              cases x with
              | none => rw [pw, ih _ hv]; rfl
              | some b => simp [vals] at hv
          rw [this _ _ hz]; rfl
        rw [hz, hp0]
        cases hd <;> cases s.half <;> simp
      · have := List.length_pos_iff.2 hz
        left; split <;> split <;> omega
    · rw [hrd] at hq
      simp only [if_true] at hq ⊢
      left; split <;> split <;> omega
  · have hoe : s.oempty = decide (o = []) := h.orep.empty
    have ho' := h5 hof
    rw [hro, hoe, Bool.or_true, Bool.and_true, hpe] at ho'
    have hoget : (s.step c i).oreg = if o = [] then none else some (s.omem (s.ord % 2 ^ c.oaw)) := by
      show (if (c.outFifo && (!s.oempty && (s.oreg.isNone || s.rdyOut c i))) = true then some (s.omem (s.ord % 2 ^ c.oaw)) else if s.rdyOut c i = true then none else s.oreg) = _
      rw [hof, hro, hoe]
      by_cases hoo : o = [] <;> simp [hoo]
    have hoL : 2 * o'.length + (s.step c i).oreg.toList.length + (if o = [] then 0 else 1) = 2 * o.length + (if hd.isSome then 2 else 0) := by
      rw [ho', hoget, List.length_append]
      by_cases hoo : o = []
      · simp only [hoo, decide_true, Bool.not_true, Bool.false_eq_true, if_false, if_true]
        cases hd <;> simp
      · obtain ⟨b, t, e⟩ := List.exists_cons_of_ne_nil hoo
        subst e
        have : decide (b :: t = []) = false := by simp
        rw [this]
        cases hd <;> simp <;> omega
    by_cases hoo : o = []
    · have hhf : decide (c.half ≤ o.length) = false := by rw [decide_eq_false_iff_not, hoo]; simp; omega
      rw [hhf]
      rw [if_pos hoo] at hoL
      simp only [Bool.false_eq_true, if_false]
      cases hrd : s.rdEn c i
      · rw [hrd] at hq
        simp only [Bool.false_eq_true, if_false, Nat.add_zero] at hq ⊢
        cases hsh : s.half
        · have hqn := hrdE hrd (fun _ => hsh)
          rw [hqn] at hq ⊢
          simp only [List.length_nil, Nat.mul_zero] at hq ⊢
          rw [hq]
          by_cases hz : vals tl = []
          · have hp0 : pw 3 tl = 0 := by
              have : ∀ (l : List (Option Beat)) k, vals l = [] → pw k l = 0 := by
                intro l
                induction l with
                | nil => intro k _; rfl
                | cons x t ih =>
                  intro k hv
                  cases x with
                  | none => rw [pw, ih _ hv]; rfl
                  | some b => simp [vals] at hv
              exact this _ _ hz
            rw [hoo] at hoL
            rw [hz, hp0, hoo]
            simp only [List.length_nil, Bool.false_eq_true, if_false, Nat.mul_zero, Nat.add_zero, Nat.zero_add] at hoL ⊢
            cases hdd : hd.isSome
            · rw [hdd] at hoL
              simp only [Bool.false_eq_true, if_false] at hoL ⊢
              omega
            · rw [hdd] at hoL
              simp only [if_true] at hoL ⊢
              left; omega
          · have := List.length_pos_iff.2 hz
            left
            simp only [Bool.false_eq_true, if_false]
            revert hoL
            split <;> omega
        · left
          simp only [if_true]
          revert hoL
          split <;> omega
      · rw [hrd] at hq
        simp only [if_true] at hq ⊢
        left
        revert hoL
        split <;> split <;> omega
    · rw [if_neg hoo] at hoL
      left
      have hb : ∀ b : Bool, (if b = true then 1 else 0) ≤ 1 := by decide
      have hb1 := hb (decide (c.half ≤ o.length))
      revert hoL hq
      generalize (if s.half = true then 1 else 0) = x1
      generalize (if decide (c.half ≤ o.length) = true then 1 else 0) = x2 at *
      cases s.rdEn c i <;> cases hd <;> simp only [Option.isSome_none, Option.isSome_some, Bool.false_eq_true, if_false, if_true] <;> intro hoL hq <;> omega

theorem weight_zero {c s q o} (h : weight c s q o = 0) : q = [] ∧ (∀ x ∈ s.pipe, x = none) ∧ o = [] ∧ s.oreg = none ∧ s.half = false := by
  unfold weight at h
  have h1 : (c.pl + 4) * q.length = 0 := by omega
  have h2 : s.half = false := by
    cases hh : s.half
    · rfl
    · rw [hh] at h; simp at h
  have h3 : q.length = 0 := by
    rcases Nat.mul_eq_zero.1 h1 with e | e
    · omega
    · exact e
  refine ⟨List.length_eq_zero_iff.1 h3, pw_zero (k := 2) (show pw 3 s.pipe = 0 by omega), List.length_eq_zero_iff.1 (by omega), ?_, h2⟩
  have : s.oreg.toList.length = 0 := by omega
  cases hx : s.oreg
  · rfl
  · rw [hx] at this; simp at this

/-- bound of the distance -/
def Cfg.far (c : Cfg) : Nat := 2 * ((c.pl + 4) * c.size + (c.pl + 1) * (c.pl + 4) + 2 * 2 ^ c.oaw + 1) + 1

theorem Inv.weight_le {c s q u o} (h : Inv c s q u o) : weight c s q o + 2 * (c.pl + 4) * u.length ≤ c.far := by
  have h1 := h.ring.rep.le
  rw [List.length_append] at h1
  have h2 : (c.pl + 4) * (q.length + u.length) ≤ (c.pl + 4) * c.size := Nat.mul_le_mul_left _ h1
  rw [Nat.mul_add] at h2
  have h3 := pw_le s.pipe 3
  rw [h.pl, show 3 + (c.pl + 1) = c.pl + 4 by omega] at h3
  have h4 := h.orep.le
  have h5 : s.oreg.toList.length ≤ 1 := by cases s.oreg <;> simp
  unfold weight Cfg.far
  rw [Nat.mul_assoc]
  split <;> omega

/-- no input, output ready -/
def Inp.Quiet (i : Inp) : Prop := i.valid = false ∧ i.mready = true

theorem quiet_act (c : Cfg) (s : S) (i : Inp) (hi : i.Quiet) (hm : s.f.mark = false) : s.act c i = .nop ∧ (s.step c i).f.mark = false := by
  show (wrLogic c (s.full c) (s.fullWr c) s.f i.valid i.beat).2.2 = .nop ∧ (wrLogic c (s.full c) (s.fullWr c) s.f i.valid i.beat).1.mark = false
  unfold wrLogic wrFrame wrNormal
  rw [hi.1, hm]
  cases hff : c.frameFifo <;> simp [hm]

theorem Inv.quiet {c : Cfg} (hp : c.pauseEnable = false) : ∀ (is : List Inp) {s : S} {q u o : List Beat}, Inv c s q u o → s.f.mark = false → (∀ i ∈ is, i.Quiet) →
    ∃ q' o', Inv c (s.run c is) q' u o' ∧ weight c (s.run c is) q' o' ≤ weight c s q o - is.length := by
  intro is
  induction is with
  | nil => intro s q u o h _ _; exact ⟨q, o, h, Nat.le_refl _⟩
  | cons i is ih =>
    intro s q u o h hm hq
    have hi := hq i (by simp)
    obtain ⟨ha, hm'⟩ := quiet_act c s i hi hm
    obtain ⟨q1, o1, h1, _, _, _, hw⟩ := h.drain i hp hi.2 ha
    obtain ⟨q', o', h', k⟩ := ih h1 hm' (fun j hj => hq j (by simp [hj]))
    refine ⟨q', o', h', Nat.le_trans k ?_⟩
    rw [List.length_cons]
    omega

theorem Inv.drained_of {c s q u o} (h : Inv c s q u o) (hw : weight c s q o = 0) : s.Drained := by
  obtain ⟨h1, h2, h3, h4, _⟩ := weight_zero hw
  refine ⟨?_, h2, ?_, h4⟩
  · have := h.ring.empty
    rw [h1] at this
    simpa [S.empty] using this
  · have := h.orep.empty
    rw [h3] at this
    simpa using this

/-- in normal mode every word written is committed -/
theorem normal_run (c : Cfg) (hff : c.frameFifo = false) : ∀ (is : List Inp) (s : S), s.wr = s.commit → (s.run c is).wr = (s.run c is).commit := by
  intro is
  induction is with
  | nil => intro s h; exact h
  | cons i is ih =>
    intro s h
    refine ih _ ?_
    show actWr c s (wrLogic c (s.full c) (s.fullWr c) s.f i.valid i.beat).2.2 = actCommit c s (wrLogic c (s.full c) (s.fullWr c) s.f i.valid i.beat).2.2
    unfold wrLogic wrNormal
    simp only [hff, Bool.false_eq_true, if_false]
    repeat' split
    all_goals first | exact h | rfl

theorem Inv.stable {c s q u o} (h : Inv c s q u o) (hp : c.pauseEnable = false) (i : Inp) (b : Beat) (hm : s.m c = some b) (hr : i.mready = false) : (s.step c i).m c = some b := by
  have hro : s.rdyOut c i = false := by simp [S.rdyOut, hr]
  simp only [S.m, hp, Bool.false_and, Bool.false_eq_true, if_false, S.mout] at hm ⊢
  cases hof : c.outFifo
  · simp only [hof, Bool.false_eq_true, if_false] at hm ⊢
    have hpipe : (s.step c i).pipe = adv false s.pipe (if s.rdEn c i then some (s.mem (s.rd % 2 ^ c.aw)) else none) := by
      simp only [S.step, S.rdyPipe, hof, Bool.false_eq_true, if_false, hro]
    rw [hpipe]
    cases hpp : s.pipe with
    | nil => exact absurd hpp h.ne
    | cons a t =>
      rw [hpp] at hm
      simp only [List.head?_cons, Option.join_some] at hm
      subst hm
      rfl
  · simp only [hof, if_true] at hm ⊢
    simp [S.step, hof, hm, hro]

end Corundum.AxisFifo
