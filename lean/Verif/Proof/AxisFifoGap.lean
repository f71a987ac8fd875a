import Verif.Proof.AxisFifoRun
/-!
AXI stream FIFO: in frame mode the output has no gap inside a frame.
-/
namespace Corundum.AxisFifo

/-- a non-empty list ends with a last beat -/
def Ends (q : List Beat) : Prop := ∀ b, q.getLast? = some b → b.last = true

theorem Ends.append {a b : List Beat} (ha : Ends a) (hb : Ends b) : Ends (a ++ b) := by
  intro x hx
  rw [List.getLast?_append] at hx
  cases hb' : b.getLast? with
  | none => rw [hb'] at hx; exact ha x hx
  | some y => rw [hb'] at hx; simp at hx; subst hx; exact hb _ hb'

theorem Ends.tail {q : List Beat} (h : Ends q) : Ends q.tail := by
  cases q with
  | nil => exact h
  | cons a t =>
    intro x hx
    cases t with
    | nil => simp at hx
    | cons b t => exact h x (by rw [List.getLast?_cons_cons]; exact hx)

theorem Ends.head {b : Beat} {t : List Beat} (h : Ends (b :: t)) (hb : b.last = false) : t ≠ [] := by
  intro e
  subst e
  have := h b rfl
  rw [hb] at this; simp at this

/-- in frame mode with oversize dropping, commits end with a last beat -/
theorem cmt_ends (c : Cfg) (hff : c.frameFifo = true) (hdo : c.dropOversize = true) (s : S) (i : Inp) (u : List Beat) (hm : s.f.mark = false) :
    Ends (cmt (s.act c i) u (s.word c i)) ∧ (s.step c i).f.mark = false := by
  have hw : s.word c i = i.beat := by simp [S.word, sAxis, hm]
  rw [hw]
  have hf : (s.step c i).f = (wrLogic c (s.full c) (s.fullWr c) s.f i.valid i.beat).1 := rfl
  rw [hf]
  unfold S.act wrLogic wrFrame
  simp only [hff, if_true, hdo, Bool.not_true, Bool.false_and, Bool.and_false, Bool.or_false, Bool.false_eq_true, if_false]
  have e0 : Ends [] := by intro b hb; simp at hb
  split
  · split
    · split
      · exact ⟨e0, hm⟩
      · exact ⟨e0, hm⟩
    · split
      · rename_i hl
        split
        · exact ⟨e0, hm⟩
        · refine ⟨?_, hm⟩
          intro x hx
          simp only [cmt, List.getLast?_append, List.getLast?_singleton, Option.some_or, Option.some.injEq] at hx
          subst hx; exact hl
      · exact ⟨e0, hm⟩
  · exact ⟨e0, hm⟩

/-! ### without output FIFO -/

/-- a word that is not last is directly followed by another word; `ne`: words left in memory -/
def gap : List (Option Beat) → Bool → Prop
  | [], _ => True
  | h :: t, ne => (∀ b, h = some b → b.last = false → (match t with | [] => ne | n :: _ => n.isSome) = true) ∧ gap t ne

theorem gap_snoc (t : List (Option Beat)) (x : Option Beat) (ne ne' : Bool) (h : gap t ne) (h1 : ne = true → x.isSome = true)
    (h2 : ∀ b, x = some b → b.last = false → ne' = true) : gap (t ++ [x]) ne' := by
  induction t with
  | nil => exact ⟨fun b hb hl => h2 b hb hl, trivial⟩
  | cons a t ih =>
    refine ⟨?_, ih h.2⟩
    intro b hb hl
    have := h.1 b hb hl
    cases t with
    | nil => exact h1 this
    | cons n t => exact this

theorem gap_adv (p : List (Option Beat)) (go : Bool) (x : Option Beat) (ne ne' : Bool) (h : gap p ne) (hp : p ≠ [])
    (h1 : (go || p.any Option.isNone) = true → ne = true → x.isSome = true)
    (h2 : (go || p.any Option.isNone) = true → ∀ b, x = some b → b.last = false → ne' = true)
    (h3 : (go || p.any Option.isNone) = false → ne = true → ne' = true) : gap (adv go p x) ne' := by
  cases hg : go
  · subst hg
    induction p with
    | nil => exact absurd rfl hp
    | cons a t ih =>
      cases a with
      | none =>
        have e : adv false (none :: t) x = t ++ [x] := by
          cases t with
          | nil => rfl
          | cons n t =>
            have : adv false (none :: n :: t) x = n :: adv true (n :: t) x := rfl
            rw [this, adv_true _ _ (by simp)]; rfl
        rw [e]
        exact gap_snoc t x ne ne' h.2 (h1 (by simp)) (h2 (by simp))
      | some b =>
        have e : adv false (some b :: t) x = some b :: adv false t x := rfl
        rw [e]
        cases t with
        | nil =>
          refine ⟨?_, trivial⟩
          intro b' hb hl
          simp only [adv]
          exact h3 (by simp) (h.1 b' hb hl)
        | cons n t =>
          refine ⟨?_, ih h.2 (by simp) (by simpa using h1) (by simpa using h2) (by simpa using h3)⟩
          intro b' hb hl
          have := h.1 b' hb hl
          cases n with
          | none => simp at this
          | some y => rfl
  · subst hg
    rw [adv_true _ _ hp]
    cases p with
    | nil => exact absurd rfl hp
    | cons a t => exact gap_snoc t x ne ne' h.2 (h1 (by simp)) (h2 (by simp))

/-- read value -/
theorem Inv.read {c s q u o} (h : Inv c s q u o) (hq : q ≠ []) : s.mem (s.rd % 2 ^ c.aw) = q.head hq := by
  obtain ⟨b, t, e⟩ := List.exists_cons_of_ne_nil hq
  subst e
  exact h.ring.rep.get.1

/-- read enable -/
theorem Inv.rdEn_eq {c s q u o} (h : Inv c s q u o) (i : Inp) :
    s.rdEn c i = ((s.rdyPipe c i || s.pipe.any Option.isNone) && (!decide (q = []) && (if c.outFifo then !s.half else true))) := by
  unfold S.rdEn
  rw [h.ring.empty]

/-! ### with output FIFO -/

/-- pipeline condition. `pos` stage position counted from the output, `n` words ahead, `adj` the previous word is in the stage before, `nl` the previous word is not last. -/
def gp (F : Nat → Bool → Bool → Prop) : Nat → Nat → Bool → Bool → List (Option Beat) → Prop
  | _, n, adj, nl, [] => F n adj nl
  | pos, n, _, nl, none :: t => gp F (pos + 1) n false nl t
  | pos, n, adj, nl, some b :: t => (nl = true → adj = true ∨ pos + 1 ≤ n) ∧ gp F (pos + 1) (n + 1) true (!b.last) t

/-- condition on words still in memory -/
def fin (c : Cfg) (ne half : Bool) (n : Nat) (adj nl : Bool) : Prop := nl = true → ne = true ∧ (adj = true ∨ (half = false → c.pl + 2 ≤ n))

theorem gp_shift (c : Cfg) (ne ne' half half' : Bool) (x : Option Beat) (m : Nat)
    (hs : ∀ b, x = some b → half = false ∧ (b.last = false → ne' = true))
    (hn : x = none → ne = true → half = true ∧ ne' = true)
    (hm : half = true → half' = false → c.pl + 2 ≤ m) :
    ∀ (t : List (Option Beat)) (pos n n' : Nat) (adj adj' nl nl' : Bool), pos + t.length = c.pl → gp (fin c ne half) (pos + 1) n adj nl t → n ≤ n' + 1 → m ≤ n' →
      (adj = true → adj' = true ∨ pos + 1 ≤ n') → (nl' = true → nl = true) → gp (fin c ne' half') pos n' adj' nl' (t ++ [x]) := by
  intro t
  induction t with
  | nil =>
    intro pos n n' adj adj' nl nl' hpos h hn1 hm1 ha hnl
    simp only [gp, List.length_nil, Nat.add_zero, List.nil_append] at h hpos ⊢
    cases x with
    | none =>
      simp only [gp]
      intro hl
      obtain ⟨a, b⟩ := h (hnl hl)
      obtain ⟨d, e⟩ := hn rfl a
      exact ⟨e, Or.inr (fun hf => by have := hm d hf; omega)⟩
    | some b =>
      obtain ⟨d, e⟩ := hs b rfl
      refine ⟨?_, ?_⟩
      · intro hl
        obtain ⟨a, k⟩ := h (hnl hl)
        rcases k with k | k
        · exact ha k
        · have := k d; right; omega
      · intro hl
        exact ⟨e (by simpa using hl), Or.inl rfl⟩
  | cons y t ih =>
    intro pos n n' adj adj' nl nl' hpos h hn1 hm1 ha hnl
    simp only [List.length_cons] at hpos
    cases y with
    | none =>
      exact ih (pos + 1) n n' false false nl nl' (by omega) h hn1 hm1 (by simp) hnl
    | some b =>
      refine ⟨?_, ih (pos + 1) (n + 1) (n' + 1) true true (!b.last) (!b.last) (by omega) h.2 (by omega) (by omega) (by simp) (by simp)⟩
      intro hl
      rcases h.1 (hnl hl) with k | k
      · exact ha k
      · right; omega

/-- the newest word of the output stage is not last -/
def nlO (l : List Beat) : Bool := match l.getLast? with | some b => !b.last | none => false

/-- no-gap invariant -/
structure GInv (c : Cfg) (s : S) (q o : List Beat) : Prop where
  mark : s.f.mark = false
  ends : Ends q
  g0 : c.outFifo = false → gap s.pipe (!decide (q = []))
  g1 : c.outFifo = true → gp (fin c (!decide (q = [])) s.half) 0 o.length false (nlO (s.oreg.toList ++ o)) s.pipe
  hl : c.outFifo = true → s.half = true → c.half ≤ o.length + 1

/-- condition for gap-free output: true unless the output FIFO is used with RAM_PIPELINE = 1 -/
def Cfg.NoGap (c : Cfg) : Prop := c.outFifo = true → c.pl ≠ 1

theorem half_ge (c : Cfg) (h : c.pl ≠ 1) : c.pl + 4 ≤ c.half := by
  obtain ⟨h1, h2⟩ := oaw_half c
  by_cases h0 : c.pl = 0
  · unfold Cfg.half Cfg.oaw; rw [h0]; decide
  · have e : c.oaw = Nat.log2 (c.pl * 2 + 6) + 1 := by
      simp only [Cfg.oaw, clog2]
      rw [if_neg (by omega), if_neg (by omega)]; rfl
    have h3 : c.pl * 2 + 6 < 2 ^ (Nat.log2 (c.pl * 2 + 6) + 1) := Nat.lt_log2_self
    rw [← e, ← h1] at h3
    omega

theorem GInv.step {c s q u o} (hff : c.frameFifo = true) (hdo : c.dropOversize = true) (hng : c.NoGap) (h : Inv c s q u o) (g : GInv c s q o) (i : Inp) :
    ∃ q' o', Inv c (s.step c i) q' (actQ (s.act c i) [] u (s.word c i)).2 o' ∧ GInv c (s.step c i) q' o' := by
  obtain ⟨q', o', h', k1, k2, k3, k4⟩ := h.step i
  rw [actQ_snd _ q []] at h'
  refine ⟨q', o', h', ?_⟩
  obtain ⟨c1, c2⟩ := cmt_ends c hff hdo s i u g.mark
  rw [actQ_fst] at k2
  have hends : Ends q' := by
    rw [k2]
    split
    · exact (g.ends.append c1).tail
    · exact g.ends.append c1
  have hne' : s.rdEn c i = false → q ≠ [] → q' ≠ [] := by
    intro hr hq
    rw [k2, hr]
    simp [hq]
  have hx : ∀ b, (if s.rdEn c i then some (s.mem (s.rd % 2 ^ c.aw)) else none) = some b → b.last = false → q' ≠ [] := by
    intro b hb hl
    cases hr : s.rdEn c i
    · rw [hr] at hb; simp at hb
    · have hq := k3 hr
      rw [hr, h.read hq] at hb
      simp only [if_true, Option.some.injEq] at hb
      obtain ⟨y, t, e⟩ := List.exists_cons_of_ne_nil hq
      subst e
      simp only [List.head_cons] at hb
      subst hb
      rw [k2, hr]
      simp only [if_true, List.cons_append, List.tail_cons]
      intro hc
      exact g.ends.head hl (List.append_eq_nil_iff.1 hc).1
  have hre := h.rdEn_eq i
  refine ⟨c2, hends, ?_, ?_, ?_⟩
  · intro hof
    have hrp : s.rdyPipe c i = s.rdyOut c i := by simp [S.rdyPipe, hof]
    refine gap_adv s.pipe (s.rdyPipe c i) _ (!decide (q = [])) _ (g.g0 hof) h.ne ?_ ?_ ?_
    · intro hmv hq
      rw [hmv, hq] at hre
      simp only [hof, Bool.true_and, Bool.false_eq_true, if_false] at hre
      simp [hre]
    · intro _ b hb hl
      simpa using hx b hb hl
    · intro hmv hq
      rw [hmv] at hre
      simp only [Bool.false_and] at hre
      have := hne' hre (by simpa using hq)
      simpa using this
  · intro hof
    have hH := half_ge c (hng hof)
    have hpipe : (s.step c i).pipe = s.pipe.tail ++ [if s.rdEn c i then some (s.mem (s.rd % 2 ^ c.aw)) else none] := by
      simp only [S.step, S.rdyPipe, hof, if_true]
      exact adv_true _ _ h.ne
    have hhalf : (s.step c i).half = decide (o.length ≥ c.half) := by
      simp only [S.step]; rw [h.orep.dist]; rfl
    have ho := k4 hof
    have hoe : s.oempty = decide (o = []) := h.orep.empty
    have hrp : s.rdyPipe c i = true := by simp [S.rdyPipe, hof]
    have hlen : o.length + (s.pipe.head?.join).toList.length ≤ o'.length + 1 ∧ (s.pipe.head?.join).toList.length ≤ o'.length := by
      rw [ho, List.length_append]
      split
      · rw [List.length_tail]; omega
      · omega
    -- newest word
    have hnl : nlO ((s.step c i).oreg.toList ++ o') = true →
        (match s.pipe.head?.join with | some b => !b.last | none => nlO (s.oreg.toList ++ o)) = true := by
      cases hh : s.pipe.head?.join with
      | some b =>
        intro hn
        have : nlO ((s.step c i).oreg.toList ++ o') = !b.last := by
          rw [ho, hh, ← List.append_assoc]; simp [nlO]
        rw [this] at hn; exact hn
      | none =>
        intro hn
        rw [hh] at ho
        simp only [Option.toList_none, List.append_nil] at ho
        have key : (s.outBeat c i) ++ ((s.step c i).oreg.toList ++ o') = s.oreg.toList ++ o := by
          have hv : vals s.pipe = vals s.pipe.tail := by rw [vals_head s.pipe, hh]; rfl
          rw [outBeat_eq, show s.mout c = s.oreg by simp [S.mout, hof]]
          cases hg : (!s.oempty && (s.oreg.isNone || s.rdyOut c i))
          · have e2 : (s.step c i).oreg = if s.rdyOut c i then none else s.oreg := by simp only [S.step, hof, hg, Bool.and_false, Bool.false_eq_true, if_false]
            rw [ho, hg, e2]
            cases s.rdyOut c i <;> simp
          · have hon : o ≠ [] := by rw [hoe] at hg; simp at hg; exact hg.1
            obtain ⟨b, t, e⟩ := List.exists_cons_of_ne_nil hon
            subst e
            have e2 : (s.step c i).oreg = some b := by simp only [S.step, hof, hg, Bool.and_self, if_true, h.orep.get.1]
            rw [ho, hg, e2]
            cases hr : s.oreg with
            | none => simp
            | some z =>
              rw [hr] at hg
              simp only [Option.isNone_some, Bool.false_or, Bool.and_eq_true] at hg
              simp [hg.2]
        simp only
        rw [← key]
        unfold nlO at hn ⊢
        rw [List.getLast?_append]
        cases hgl : ((s.step c i).oreg.toList ++ o').getLast? with
        | none => rw [hgl] at hn; simp at hn
        | some b => rw [hgl] at hn; simpa using hn
    rw [hpipe, hhalf]
    have hsh := gp_shift c (!decide (q = [])) (!decide (q' = [])) s.half (decide (o.length ≥ c.half)) (if s.rdEn c i then some (s.mem (s.rd % 2 ^ c.aw)) else none) o'.length
      (by
        intro b hb
        cases hr : s.rdEn c i
        · rw [hr] at hb; simp at hb
        · refine ⟨?_, fun hl => by simpa using hx b hb hl⟩
          rw [hr, hrp, hof] at hre
          simp at hre
          exact hre.2)
      (by
        intro hb hq
        cases hr : s.rdEn c i
        · refine ⟨?_, by simpa using hne' hr (by simpa using hq)⟩
          rw [hr, hrp, hof, hq] at hre
          simp at hre
          exact hre
        · rw [hr] at hb; simp at hb)
      (by
        intro h1 h2
        have := g.hl hof h1
        omega)
    have hg1 := g.g1 hof
    have hpl := h.pl
    cases hp : s.pipe with
    | nil => exact absurd hp h.ne
    | cons a t =>
      rw [hp] at hg1 hpl hlen hnl
      simp only [List.tail_cons]
      simp only [List.length_cons] at hpl
      cases a with
      | none =>
        simp only [List.head?_cons, Option.join_some, Option.toList_none, List.length_nil] at hlen hnl
        exact hsh t 0 o.length o'.length false false _ _ (by omega) hg1 (by omega) (by omega) (by simp) hnl
      | some b =>
        simp only [List.head?_cons, Option.join_some, Option.toList_some, List.length_cons, List.length_nil] at hlen hnl
        exact hsh t 0 (o.length + 1) o'.length true false _ _ (by omega) hg1.2 (by omega) (by omega) (by intro _; right; omega) hnl
  · intro hof hh
    have hhalf : (s.step c i).half = decide (o.length ≥ c.half) := by
      simp only [S.step]; rw [h.orep.dist]; rfl
    rw [hhalf, decide_eq_true_iff] at hh
    rw [k4 hof, List.length_append]
    split
    · rw [List.length_tail]; omega
    · omega

theorem GInv.init (c : Cfg) : GInv c (init c) [] [] := by
  have hnone : ∀ n ne, gap (List.replicate n none) ne := by
    intro n ne
    induction n with
    | zero => trivial
    | succ n ih => rw [List.replicate_succ]; exact ⟨by simp, ih⟩
  have hgp : ∀ (F : Nat → Bool → Bool → Prop), (∀ n adj, F n adj false) → ∀ k pos n adj, gp F pos n adj false (List.replicate k none) := by
    intro F hF k
    induction k with
    | zero => intro pos n adj; exact hF n adj
    | succ k ih => intro pos n adj; rw [List.replicate_succ]; exact ih _ _ _
  refine ⟨rfl, by intro b hb; simp at hb, fun _ => hnone _ _, fun _ => hgp _ (by intro n adj h; simp at h) _ _ _ _, fun _ h => by simp [AxisFifo.init] at h⟩

theorem GInv.run {c : Cfg} (hff : c.frameFifo = true) (hdo : c.dropOversize = true) (hng : c.NoGap) : ∀ (is : List Inp) {s : S} {q u o : List Beat}, Inv c s q u o → GInv c s q o →
    ∃ q' u' o', Inv c (s.run c is) q' u' o' ∧ GInv c (s.run c is) q' o' := by
  intro is
  induction is with
  | nil => intro s q u o h g; exact ⟨q, u, o, h, g⟩
  | cons i is ih =>
    intro s q u o h g
    obtain ⟨q1, o1, h1, g1⟩ := g.step hff hdo hng h i
    exact ih h1 g1

/-- the output stays valid inside a frame -/
theorem GInv.next {c s q u o} (hng : c.NoGap) (h : Inv c s q u o) (g : GInv c s q o) (i : Inp) (b : Beat) (hm : s.mout c = some b) (hl : b.last = false) (hr : s.rdyOut c i = true) :
    ((s.step c i).mout c).isSome = true := by
  cases hof : c.outFifo
  · have hpipe : (s.step c i).pipe = adv true s.pipe (if s.rdEn c i then some (s.mem (s.rd % 2 ^ c.aw)) else none) := by
      simp only [S.step, S.rdyPipe, hof, Bool.false_eq_true, if_false, hr]
    simp only [S.mout, hof, Bool.false_eq_true, if_false] at hm ⊢
    rw [hpipe, adv_true _ _ h.ne]
    have hg := g.g0 hof
    have hre := h.rdEn_eq i
    cases hp : s.pipe with
    | nil => exact absurd hp h.ne
    | cons a t =>
      rw [hp] at hm hg
      simp only [List.head?_cons, Option.join_some] at hm
      have := hg.1 b hm hl
      cases t with
      | nil =>
        simp only at this
        have hr1 : s.rdyPipe c i = true := by simp [S.rdyPipe, hof, hr]
        rw [hr1, this, hof] at hre
        simp at hre
        simp [hre]
      | cons n t => simpa using this
  · simp only [S.mout, hof, if_true] at hm ⊢
    have hH := half_ge c (hng hof)
    have hon : o ≠ [] := by
      intro e
      have hg := g.g1 hof
      rw [e, hm] at hg
      have hnl : nlO ((some b).toList ++ []) = true := by simp [nlO, hl]
      rw [hnl] at hg
      have hbad : ∀ (p : List (Option Beat)) (pos : Nat), ¬ gp (fin c (!decide (q = [])) s.half) pos 0 false true p := by
        intro p
        induction p with
        | nil =>
          intro pos hc
          obtain ⟨_, k⟩ := hc rfl
          rcases k with k | k
          · simp at k
          · cases hh : s.half
            · have := k hh; omega
            · have := g.hl hof hh
              rw [e] at this; simp at this; omega
        | cons a t ih =>
          intro pos hc
          cases a with
          | none => exact ih _ hc
          | some y => rcases hc.1 rfl with k | k
                      · simp at k
                      · omega
      exact hbad _ _ hg
    have hoe : s.oempty = false := by
      have := h.orep.empty
      unfold S.oempty
      rw [this]; simp [hon]
    simp [S.step, hof, hoe, hr]

end Corundum.AxisFifo
