import Verif.Proof.AsyncFifoGray
import Verif.Proof.AxisFifoRun
/-!
Both sides of the asynchronous FIFO are a synchronous FIFO with an old pointer of the other side.
-/
namespace Corundum.AsyncFifo
open AxisFifo (Beat Cfg Flags Status Act tready inc adv Rep Ring vals actQ cmt)

/-- the FIFO with commit pointer `cm`, seen as a synchronous one -/
def view (s : S) (cm : Nat) : AxisFifo.S :=
  { mem := s.w.mem, wr := s.w.wr, commit := cm, rd := s.r.rd, f := {}, status := {}, depth := 0, depthCommit := 0, pipe := s.r.pipe, omem := s.r.omem, owr := s.r.owr, ord := s.r.ord,
    half := s.r.half, oreg := s.r.oreg, pause := s.r.pause, pauseFrame := s.r.pauseFrame }

/-- modulus of the pointers -/
abbrev M (c : Cfg) : Nat := 2 ^ (c.aw + 1)

/-- `R`: words read.  `q` are the words in memory the read side knows of, `p` those committed that it does not know of yet, `u` the uncommitted ones, `o` those in
the output FIFO. -/
structure Inv (c : Cfg) (s : S) (R : Nat) (q p u o : List Beat) : Prop where
  rd : s.r.rd = R % M c
  rdg : s.r.gray = gray (R % M c)
  wrg : s.w.gray = gray s.w.wr
  inv : AxisFifo.Inv c (view s ((R + q.length) % M c)) q (p ++ u) o
  cm : s.w.commit = (R + (q ++ p).length) % M c
  /-- the read pointer on its way to the write side -/
  back : ∃ r0 r1 r2, r2 ≤ r1 ∧ r1 ≤ r0 ∧ r0 ≤ R ∧ R ≤ r0 + 1 ∧ s.x.rdGray = gray (r0 % M c) ∧ s.w.rdG1 = gray (r1 % M c) ∧ s.w.rdG2 = gray (r2 % M c) ∧
    R + (q ++ (p ++ u)).length ≤ r2 + 2 ^ c.aw
  /-- normal mode: the write pointer on its way to the read side -/
  fwd : c.frameFifo = false → u = [] ∧ ∃ w0 w1, R + q.length ≤ w1 ∧ w1 ≤ w0 ∧ w0 ≤ R + (q ++ p).length ∧ R + (q ++ p).length ≤ w0 + 1 ∧ s.x.wrGray = gray (w0 % M c) ∧
    s.r.wrG1 = gray (w1 % M c) ∧ s.r.wrG2 = gray ((R + q.length) % M c)
  /-- frame mode: the commit pointer on its way to the read side -/
  hnd : c.frameFifo = true → s.r.commitSync = (R + q.length) % M c ∧ (∃ k, R + q.length ≤ k ∧ k ≤ R + (q ++ p).length ∧ s.w.syncCommit = k % M c ∧
      (s.r.upd3 = s.w.upd → k = R + q.length) ∧ (s.w.updValid = false → k = R + (q ++ p).length)) ∧
    (s.w.ack2 = s.w.upd → s.w.ack1 = s.w.upd) ∧ (s.w.ack1 = s.w.upd → s.x.ack = s.w.upd) ∧ (s.x.ack = s.w.upd → s.r.upd3 = s.w.upd) ∧
    (s.r.upd3 = s.w.upd → s.r.upd2 = s.w.upd) ∧ (s.r.upd2 = s.w.upd → s.r.upd1 = s.w.upd) ∧ (s.r.upd1 = s.w.upd → s.x.upd = s.w.upd)
  /-- nothing is dropped or marked unless asked for -/
  flg : c.frameFifo = false → c.markWhenFull = false → s.w.f.drop = false

theorem mod_eq_iff (m a b : Nat) (h1 : a ≤ b) (h2 : b < a + m) : a % m = b % m ↔ a = b := by
  constructor
  · intro h
    have h3 : m ∣ b - a := Nat.dvd_of_mod_eq_zero (Nat.sub_mod_eq_zero_of_mod_eq h.symm)
    by_cases hz : b - a = 0
    · omega
    · have := Nat.le_of_dvd (by omega) h3; omega
  · intro h; rw [h]

theorem gray_mod_inj {m a b : Nat} (h : gray (a % m) = gray (b % m)) : a % m = b % m := gray_inj _ _ h

variable {c : Cfg} {s : S} {R : Nat} {q p u o : List Beat}

theorem Inv.wr (h : Inv c s R q p u o) : s.w.wr = (R + (q ++ (p ++ u)).length) % M c := by
  have := h.inv.ring.rep.w
  simp only [view, h.rd] at this
  rw [this, Nat.mod_add_mod]

theorem Inv.len (h : Inv c s R q p u o) : (q ++ (p ++ u)).length ≤ 2 ^ c.aw := h.inv.ring.rep.le

/-- the write side may take the FIFO for full when it is not, but never the other way round -/
theorem Inv.full (h : Inv c s R q p u o) (ha : 0 < c.aw) (hf : s.w.full c = false) : (q ++ (p ++ u)).length < 2 ^ c.aw := by
  obtain ⟨r0, r1, r2, h1, h2, h3, _, _, _, h6, h7⟩ := h.back
  unfold Wr.full at hf
  rw [h.wrg, h6, full_eq _ _ _ ha, h.wr, AxisFifo.xor_msb _ _ (Nat.mod_lt _ (Nat.two_pow_pos _)), Nat.mod_add_mod] at hf
  rw [beq_eq_false_iff_ne] at hf
  refine Nat.lt_of_le_of_ne h.len fun e => hf ?_
  rw [e, show r2 = R by omega]

theorem Inv.fullWr (h : Inv c s R q p u o) : s.w.fullWr c = decide (u.length = c.size) := by
  unfold Wr.fullWr
  have hl := h.len
  simp only [List.length_append] at hl
  have e : s.w.wr = (s.w.commit + u.length) % 2 ^ (c.aw + 1) := by
    rw [h.wr, h.cm, Nat.mod_add_mod]; simp only [List.length_append]; congr 1; omega
  rw [e, AxisFifo.ptr_full _ _ _ (by rw [h.cm]; exact Nat.mod_lt _ (Nat.two_pow_pos _)) (by omega)]
  rfl

/-- the read side sees nothing exactly if it knows of no word -/
theorem Inv.empty (h : Inv c s R q p u o) : s.r.empty c = decide (q = []) := by
  have hl := h.len
  simp only [List.length_append] at hl
  have hm : 2 ^ c.aw < M c := by unfold M; rw [AxisFifo.two_mul]; have := Nat.two_pow_pos c.aw; omega
  have key : (R % M c = (R + q.length) % M c) ↔ q = [] := by
    rw [mod_eq_iff _ _ _ (by omega) (by omega)]
    constructor
    · intro e; exact List.length_eq_zero_iff.1 (by omega)
    · intro e; rw [e]; rfl
  unfold Rd.empty
  rw [Bool.eq_iff_iff, decide_eq_true_iff, ← key]
  cases hff : c.frameFifo
  · rw [if_neg (by simp), beq_iff_eq, h.rdg, (h.fwd hff).2.choose_spec.choose_spec.2.2.2.2.2.2]
    exact ⟨gray_mod_inj, fun e => by rw [e]⟩
  · rw [if_pos rfl, beq_iff_eq, h.rd, (h.hnd hff).1]

/-- the view with the true commit pointer -/
theorem Inv.ring (h : Inv c s R q p u o) : Ring c (view s s.w.commit) (q ++ p) u := by
  refine ⟨?_, ?_⟩
  · have := h.inv.ring.rep
    rw [← List.append_assoc] at this
    exact this
  · simp only [view]; rw [h.cm, h.rd, Nat.mod_add_mod]

/-! ### write side -/

/-- memory is written only if the FIFO is not full -/
theorem wr_guard (c : Cfg) (full fullWr : Bool) (f : Flags) (v : Bool) (b : Beat) :
    (wrLogic c full fullWr f v b).2.2 = .store ∨ (wrLogic c full fullWr f v b).2.2 = .storeCommit ∨ (wrLogic c full fullWr f v b).2.2 = .storeReset → full = false := by
  intro h
  cases full
  · rfl
  · exfalso
    unfold wrLogic AxisFifo.wrFrame wrNormal tready at h
    revert h
    cases c.frameFifo <;> cases c.dropOversize <;> cases c.dropWhenFull <;> cases c.markWhenFull <;> cases fullWr <;> cases v <;> cases f.drop <;> cases b.last <;> simp

/-- in normal mode a word is stored and committed, or nothing happens -/
theorem normal_act (c : Cfg) (hff : c.frameFifo = false) (full fullWr : Bool) (f : Flags) (v : Bool) (b : Beat) :
    (wrLogic c full fullWr f v b).2.2 = .nop ∨ (wrLogic c full fullWr f v b).2.2 = .storeCommit := by
  unfold wrLogic wrNormal
  rw [hff]
  dsimp only
  simp only [Bool.false_eq_true, if_false]
  split
  · split
    · split
      · split
        · exact Or.inr rfl
        · exact Or.inl rfl
      · exact Or.inl rfl
    · split
      · exact Or.inl rfl
      · exact Or.inr rfl
  · split
    · exact Or.inr rfl
    · exact Or.inl rfl

/-- in frame mode nothing is committed by other actions -/
theorem cmt_nil (a : Act) (u : List Beat) (x : Beat) (h : commits a = false) : cmt a u x = [] := by cases a <;> simp [commits, cmt] at h ⊢

theorem actQ_snd (a : Act) (q q' u : List Beat) (b : Beat) : (actQ a q u b).2 = (actQ a q' u b).2 := by cases a <;> rfl

theorem Inv.sEdge (h : Inv c s R q p u o) (ha : 0 < c.aw) (v : Bool) (b : Beat) :
    Inv c (sEdge c s v b) R q (p ++ cmt (s.w.act c v b) u (AxisFifo.sAxis c s.w.f b)) (actQ (s.w.act c v b) [] u (AxisFifo.sAxis c s.w.f b)).2 o := by
  generalize hx : AxisFifo.sAxis c s.w.f b = x
  obtain ⟨a, hadef⟩ : ∃ a, s.w.act c v b = a := ⟨_, rfl⟩
  have hguard : a = .store ∨ a = .storeCommit ∨ a = .storeReset → (q ++ (p ++ u)).length < 2 ^ c.aw := fun e =>
    h.full ha (wr_guard c _ _ s.w.f v b (by rw [show (wrLogic c (s.w.full c) (s.w.fullWr c) s.w.f v b).2.2 = a from hadef]; exact e))
  obtain ⟨r1, r2⟩ := h.ring.act a x (fun e => by
    rw [h.ring.full, decide_eq_false_iff_not]
    have := hguard e
    simp only [List.length_append, Cfg.size, AxisFifo.Cfg.size] at this ⊢
    omega)
  rw [hadef]
  have e1 : (actQ a (q ++ p) u x).1 = q ++ (p ++ cmt a u x) := by rw [AxisFifo.actQ_fst, List.append_assoc]
  rw [actQ_snd a (q ++ p) []] at r1
  rw [e1] at r1 r2
  have hlen := r1.le
  have hmem : (AsyncFifo.sEdge c s v b).w.mem = AxisFifo.actMem c (view s s.w.commit) a x := by
    show actMem c s.w (s.w.act c v b) _ = _
    rw [hadef, hx]; cases a <;> rfl
  have hwr : (AsyncFifo.sEdge c s v b).w.wr = AxisFifo.actWr c (view s s.w.commit) a := by
    show actWr c s.w (s.w.act c v b) = _
    rw [hadef]; cases a <;> rfl
  have hcmt : (AsyncFifo.sEdge c s v b).w.commit = AxisFifo.actCommit c (view s s.w.commit) a := by
    show actCommit c s.w (s.w.act c v b) = _
    rw [hadef]; cases a <;> rfl
  have hcmt2 : actCommit c s.w a = (R + (q ++ (p ++ cmt a u x)).length) % M c := by
    have : actCommit c s.w a = AxisFifo.actCommit c (view s s.w.commit) a := by cases a <;> rfl
    rw [this, r2]
    simp only [view]; rw [h.rd, Nat.mod_add_mod]
  refine ⟨h.rd, h.rdg, rfl, ⟨⟨?_, ?_⟩, h.inv.pl, h.inv.orep, h.inv.off, h.inv.hf0, h.inv.hf1⟩, ?_, ?_, ?_, ?_, ?_⟩
  · simp only [view]
    rw [hmem, hwr, ← List.append_assoc]
    exact r1
  · simp only [view]
    rw [show (AsyncFifo.sEdge c s v b).r = s.r from rfl, h.rd, Nat.mod_add_mod]
  · rw [hcmt, r2]
    simp only [view]; rw [h.rd, Nat.mod_add_mod]
  · obtain ⟨r0, r1', r2', h1, h2, h3, h4, h5, h6, h7, h8⟩ := h.back
    refine ⟨r0, r0, r1', h2, Nat.le_refl _, h3, h4, h5, h5, h6, ?_⟩
    have hno : (a = .store ∨ a = .storeCommit ∨ a = .storeReset) → s.w.full c = false := fun e =>
      wr_guard c _ _ s.w.f v b (by rw [show (wrLogic c (s.w.full c) (s.w.fullWr c) s.w.f v b).2.2 = a from hadef]; exact e)
    have hlt : s.w.full c = false → R + (q ++ (p ++ u)).length < r2' + 2 ^ c.aw := by
      intro hf
      unfold Wr.full at hf
      rw [h.wrg, h7, full_eq _ _ _ ha, h.wr, AxisFifo.xor_msb _ _ (Nat.mod_lt _ (Nat.two_pow_pos _)), Nat.mod_add_mod, beq_eq_false_iff_ne] at hf
      refine Nat.lt_of_le_of_ne h8 fun e => hf (by rw [e])
    have hgrow : (q ++ (p ++ cmt a u x) ++ (actQ a [] u x).2).length ≤ (q ++ (p ++ u)).length + (if a = .store ∨ a = .storeCommit then 1 else 0) := by
      cases a <;> simp [cmt, actQ] <;> omega
    rw [List.append_assoc] at hgrow
    by_cases hs : a = .store ∨ a = .storeCommit
    · rw [if_pos hs] at hgrow
      have := hlt (hno (by rcases hs with e | e <;> simp [e]))
      omega
    · rw [if_neg hs] at hgrow; omega
  · intro hff
    obtain ⟨hu, w0, w1, h1, h2, h3, h4, h5, h6, h7⟩ := h.fwd hff
    have hn := normal_act c hff (s.w.full c) (s.w.fullWr c) s.w.f v b
    rw [show (wrLogic c (s.w.full c) (s.w.fullWr c) s.w.f v b).2.2 = a from hadef] at hn
    subst hu
    have hg : s.w.gray = gray ((R + (q ++ p).length) % M c) := by rw [h.wrg, h.wr]; simp
    rcases hn with hn | hn <;> subst hn
    · refine ⟨rfl, R + (q ++ p).length, w1, h1, by omega, by simp [cmt], by simp [cmt], hg, h6, h7⟩
    · refine ⟨rfl, R + (q ++ p).length, w1, h1, by omega, by simp [cmt], by simp [cmt]; omega, hg, h6, h7⟩
  · intro hff
    obtain ⟨k0, ⟨k, k1, k2, k3, k4, k5⟩, i1, i2, i3, i4, i5, i6⟩ := h.hnd hff
    have hh : hand c s.w ((wrLogic c (s.w.full c) (s.w.fullWr c) s.w.f v b).2.2) = hand c s.w a := by rw [← hadef]; rfl
    have hall : s.w.upd = s.w.ack2 → s.w.ack1 = s.w.upd ∧ s.x.ack = s.w.upd ∧ s.r.upd3 = s.w.upd ∧ s.r.upd2 = s.w.upd ∧ s.r.upd1 = s.w.upd ∧ s.x.upd = s.w.upd := by
      intro e
      have a1 := i1 e.symm
      have a2 := i2 a1
      have a3 := i3 a2
      have a4 := i4 a3
      have a5 := i5 a4
      exact ⟨a1, a2, a3, a4, a5, i6 a5⟩
    have hsub : (q ++ p).length ≤ (q ++ (p ++ cmt a u x)).length := by simp
    refine ⟨k0, ?_⟩
    simp only [AsyncFifo.sEdge]
    rw [hh]
    unfold hand
    rw [hff]
    simp only [Bool.true_and]
    by_cases hc : commits a = true
    · rw [if_pos hc]
      by_cases hi : s.w.upd = s.w.ack2
      · obtain ⟨b1, b2, b3, b4, b5, b6⟩ := hall hi
        rw [if_pos (by simpa using hi)]
        dsimp only
        have hne : ∀ z : Bool, z = s.w.upd → ¬ z = !s.w.ack2 := by intro z hz e; rw [hz, hi] at e; revert e; cases s.w.ack2 <;> simp
        refine ⟨⟨_, ?_, Nat.le_refl _, hcmt2, fun e => absurd e (hne _ b3), fun _ => rfl⟩, fun e => absurd e (hne _ b1), fun e => absurd e (hne _ b2), fun e => absurd e (hne _ b2), fun e => absurd e (hne _ b3), fun e => absurd e (hne _ b4), fun e => absurd e (hne _ b5)⟩
        simp
      · rw [if_neg (by simpa using hi)]
        dsimp only
        exact ⟨⟨k, k1, by omega, k3, k4, (fun e => by cases e)⟩, i2, fun e => e, i3, i4, i5, fun _ => rfl⟩
    · rw [if_neg hc]
      have hc' : commits a = false := by simpa using hc
      have hcn := cmt_nil a u x hc'
      by_cases hi : (s.w.updValid && s.w.upd == s.w.ack2) = true
      · rw [if_pos hi]
        dsimp only
        rw [Bool.and_eq_true, beq_iff_eq] at hi
        obtain ⟨b1, b2, b3, b4, b5, b6⟩ := hall hi.2
        have hne : ∀ z : Bool, z = s.w.upd → ¬ z = !s.w.ack2 := by intro z hz e; rw [hz, hi.2] at e; revert e; cases s.w.ack2 <;> simp
        refine ⟨⟨R + (q ++ p).length, by simp, by simp [hcn], by rw [h.cm], fun e => absurd e (hne _ b3), fun _ => by simp [hcn]⟩, fun e => absurd e (hne _ b1), fun e => absurd e (hne _ b2), fun e => absurd e (hne _ b2), fun e => absurd e (hne _ b3), fun e => absurd e (hne _ b4), fun e => absurd e (hne _ b5)⟩
      · rw [if_neg hi]
        dsimp only
        exact ⟨⟨k, k1, by omega, k3, k4, fun e => by rw [hcn]; simpa using k5 e⟩, i2, fun e => e, i3, i4, i5, fun _ => rfl⟩
  · intro hff hmk
    have hd := h.flg hff hmk
    show (wrLogic c (s.w.full c) (s.w.fullWr c) s.w.f v b).1.drop = false
    unfold wrLogic wrNormal
    rw [hff, hmk, hd]
    simp only [Bool.false_eq_true, if_false, Bool.and_false]
    split <;> exact hd

/-! ### wires -/

theorem mix_step (n a b m : Nat) (h1 : a ≤ b) (h2 : b ≤ a + 1) : ∃ z, a ≤ z ∧ z ≤ b ∧ mix (gray (a % 2 ^ (n + 1))) (gray (b % 2 ^ (n + 1))) m = gray (z % 2 ^ (n + 1)) := by
  by_cases h : a = b
  · subst h; exact ⟨a, Nat.le_refl _, Nat.le_refl _, mix_self _ _⟩
  · have hb : b = a + 1 := by omega
    subst hb
    have e : (a + 1) % 2 ^ (n + 1) = inc n (a % 2 ^ (n + 1)) := by unfold inc; rw [Nat.mod_add_mod]
    rw [e]
    rcases mix_gray n (a % 2 ^ (n + 1)) m (Nat.mod_lt _ (Nat.two_pow_pos _)) with k | k
    · exact ⟨a, Nat.le_refl _, by omega, k⟩
    · exact ⟨a + 1, by omega, Nat.le_refl _, by rw [k, e]⟩

theorem Inv.settle (h : Inv c s R q p u o) (fast : Bool) (wr commit rd : Nat) (x y : Bool) : Inv c (step c fast s (.settle wr commit rd x y)) R q p u o := by
  refine ⟨h.rd, h.rdg, h.wrg, h.inv, h.cm, ?_, ?_, ?_, h.flg⟩
  · obtain ⟨r0, r1, r2, h1, h2, h3, h4, h5, h6, h7, h8⟩ := h.back
    obtain ⟨z, z1, z2, z3⟩ := mix_step c.aw r0 R rd h3 h4
    refine ⟨z, r1, r2, h1, by omega, z2, by omega, ?_, h6, h7, h8⟩
    simp only [step]
    rw [h5, h.rdg, z3]
  · intro hff
    obtain ⟨hu, w0, w1, h1, h2, h3, h4, h5, h6, h7⟩ := h.fwd hff
    obtain ⟨z, z1, z2, z3⟩ := mix_step c.aw w0 (R + (q ++ p).length) wr h3 h4
    refine ⟨hu, z, w1, h1, by omega, z2, by omega, ?_, h6, h7⟩
    simp only [step]
    have hg : s.w.gray = gray ((R + (q ++ p).length) % M c) := by rw [h.wrg, h.wr, hu]; simp
    rw [h5, hg, z3]
  · intro hff
    obtain ⟨k0, k1, i1, i2, i3, i4, i5, i6⟩ := h.hnd hff
    refine ⟨k0, k1, i1, ?_, ?_, i4, i5, ?_⟩
    · intro e
      simp only [step]
      cases y
      · exact i2 e
      · exact i3 (i2 e)
    · intro e
      simp only [step] at e
      cases y
      · exact i3 e
      · exact e
    · intro e
      simp only [step]
      cases x
      · exact i6 e
      · rfl

/-! ### read side -/

/-- the read side with an old write pointer is a synchronous FIFO without input -/
theorem view_step (c : Cfg) (fast : Bool) (s : S) (cm : Nat) (mready pr : Bool) (he : (view s cm).empty = s.r.empty c) :
    let t := (view s cm).step c ⟨false, ⟨0, false, 0⟩, mready, pr⟩
    let s' := mEdge c fast s mready pr
    (view s cm).rdEn c ⟨false, ⟨0, false, 0⟩, mready, pr⟩ = s.r.rdEn c mready ∧ t.mem = s.w.mem ∧ t.wr = s.w.wr ∧ t.commit = cm ∧ t.rd = s'.r.rd ∧ t.pipe = s'.r.pipe ∧
      t.omem = s'.r.omem ∧ t.owr = s'.r.owr ∧ t.ord = s'.r.ord ∧ t.half = s'.r.half ∧ t.oreg = s'.r.oreg ∧ t.pause = s'.r.pause ∧
      (view s cm).act c ⟨false, ⟨0, false, 0⟩, mready, pr⟩ = .nop ∧ (view s cm).outBeat c ⟨false, ⟨0, false, 0⟩, mready, pr⟩ = (if mready then (s.r.m c).toList else []) := by
  intro t s'
  have hr : (view s cm).rdEn c ⟨false, ⟨0, false, 0⟩, mready, pr⟩ = s.r.rdEn c mready := by
    unfold AxisFifo.S.rdEn Rd.rdEn; rw [he]; rfl
  have hact : (view s cm).act c ⟨false, ⟨0, false, 0⟩, mready, pr⟩ = .nop := by
    unfold AxisFifo.S.act AxisFifo.wrLogic AxisFifo.wrFrame AxisFifo.wrNormal
    simp only [view, Bool.and_false, Bool.false_and, Bool.false_eq_true, if_false]
    cases c.frameFifo <;> rfl
  have hact' : (AxisFifo.wrLogic c ((view s cm).full c) ((view s cm).fullWr c) (view s cm).f false ⟨0, false, 0⟩).2.2 = .nop := hact
  refine ⟨hr, ?_, ?_, ?_, ?_, ?_, rfl, rfl, rfl, rfl, rfl, rfl, hact, rfl⟩
  · simp only [t, AxisFifo.S.step]; rw [hact']; rfl
  · simp only [t, AxisFifo.S.step]; rw [hact']; rfl
  · simp only [t, AxisFifo.S.step]; rw [hact']; rfl
  · simp only [t, s', AxisFifo.S.step, mEdge]; rw [hr]; rfl
  · simp only [t, s', AxisFifo.S.step, mEdge]; rw [hr]; rfl

/-- everything that has been committed and not delivered, oldest first -/
def contents (s : S) (q p o : List Beat) : List Beat := AxisFifo.contents (view s 0) q o ++ p

/-- an edge of `m_clk`, given what the synchronous FIFO does -/
theorem Inv.mEdge_core (h : Inv c s R q p u o) (mready pr : Bool) (q1 o1 : List Beat)
    (h1 : AxisFifo.Inv c ((view s ((R + q.length) % M c)).step c ⟨false, ⟨0, false, 0⟩, mready, pr⟩) q1 (p ++ u) o1)
    (h2 : (view s ((R + q.length) % M c)).outBeat c ⟨false, ⟨0, false, 0⟩, mready, pr⟩ ++ AxisFifo.contents ((view s ((R + q.length) % M c)).step c ⟨false, ⟨0, false, 0⟩, mready, pr⟩) q1 o1 =
      AxisFifo.contents (view s ((R + q.length) % M c)) q o)
    (h3 : q1 = if (view s ((R + q.length) % M c)).rdEn c ⟨false, ⟨0, false, 0⟩, mready, pr⟩ then q.tail else q)
    (h4 : (view s ((R + q.length) % M c)).rdEn c ⟨false, ⟨0, false, 0⟩, mready, pr⟩ = true → q ≠ []) :
    ∃ R' d, d ≤ p.length ∧ Inv c (mEdge c true s mready pr) R' (q1 ++ p.take d) (p.drop d) u o1 ∧
    (if mready then (s.r.m c).toList else []) ++ contents (mEdge c true s mready pr) (q1 ++ p.take d) (p.drop d) o1 = contents s q p o := by
  have hve : (view s ((R + q.length) % M c)).empty = s.r.empty c := by rw [h.inv.ring.empty, h.empty]
  obtain ⟨e1, e2, e3, e4, e5, e6, e7, e8, e9, e10, e11, e12, e13, e14⟩ := view_step c true s _ mready pr hve
  rw [e14] at h2
  rw [e1] at h3 h4
  -- how many words have been read
  obtain ⟨R', hR'⟩ : ∃ R', R' = if s.r.rdEn c mready then R + 1 else R := ⟨_, rfl⟩
  have hq1 : R' + q1.length = R + q.length := by
    rw [hR', h3]
    split
    · rename_i hr
      have := List.length_pos_iff.2 (h4 hr)
      rw [List.length_tail]; omega
    · rfl
  have hRR : R ≤ R' ∧ R' ≤ R + 1 := by rw [hR']; split <;> omega
  have hrd' : (AsyncFifo.mEdge c true s mready pr).r.rd = R' % M c := by
    show (if s.r.rdEn c mready then inc c.aw s.r.rd else s.r.rd) = _
    rw [hR', h.rd]
    split
    · unfold inc; rw [Nat.mod_add_mod]
    · rfl
  -- how many words become known
  have hd : ∃ d, d ≤ p.length ∧
      (c.frameFifo = false → (AsyncFifo.mEdge c true s mready pr).r.wrG2 = gray ((R + q.length + d) % M c) ∧ u = [] ∧ ∃ w0, R + q.length + d ≤ w0 ∧ w0 ≤ R + (q ++ p).length ∧
        R + (q ++ p).length ≤ w0 + 1 ∧ s.x.wrGray = gray (w0 % M c)) ∧
      (c.frameFifo = true → (AsyncFifo.mEdge c true s mready pr).r.commitSync = (R + q.length + d) % M c ∧ ∃ k, R + q.length + d ≤ k ∧ k ≤ R + (q ++ p).length ∧
        s.w.syncCommit = k % M c ∧ (s.r.upd2 = s.w.upd → k = R + q.length + d) ∧ (s.w.updValid = false → k = R + (q ++ p).length)) := by
    cases hff : c.frameFifo
    · obtain ⟨hu, w0, w1, k1, k2, k3, k4, k5, k6, k7⟩ := h.fwd hff
      refine ⟨w1 - (R + q.length), ?_, fun _ => ⟨?_, hu, w0, by omega, k3, k4, k5⟩, (fun e => by cases e)⟩
      · simp only [List.length_append] at k3; omega
      · show s.r.wrG1 = _
        rw [k6, show R + q.length + (w1 - (R + q.length)) = w1 by omega]
    · obtain ⟨k0, ⟨k, k1, k2, k3, k4, k5⟩, i1, i2, i3, i4, i5, i6⟩ := h.hnd hff
      by_cases hs : s.r.upd2 = s.r.upd3
      · refine ⟨0, Nat.zero_le _, (fun e => by cases e), fun _ => ⟨?_, k, k1, k2, k3, fun e => k4 (by rw [← hs]; exact e), k5⟩⟩
        show (if (c.frameFifo && (s.r.upd2 ^^ s.r.upd3)) = true then _ else s.r.commitSync) = _
        rw [hs, Bool.xor_self, Bool.and_false, if_neg (by simp), k0]; rfl
      · have hu3 : ¬ s.r.upd3 = s.w.upd := fun e => hs (by rw [i4 e, e])
        have hu2 : s.r.upd2 = s.w.upd := by revert hu3 hs; cases s.r.upd2 <;> cases s.r.upd3 <;> cases s.w.upd <;> simp
        refine ⟨k - (R + q.length), ?_, (fun e => by cases e), fun _ => ⟨?_, k, by omega, k2, k3, fun _ => by omega, k5⟩⟩
        · simp only [List.length_append] at k2; omega
        · show (if (c.frameFifo && (s.r.upd2 ^^ s.r.upd3)) = true then (if (true && s.r.upd1 == s.w.upd) = true then s.w.syncCommit else s.x.commit) else s.r.commitSync) = _
          have hx : (s.r.upd2 ^^ s.r.upd3) = true := by revert hs; cases s.r.upd2 <;> cases s.r.upd3 <;> simp
          rw [hx, hff, if_pos (by simp), if_pos (by simp [i5 hu2]), k3]
          rw [show R + q.length + (k - (R + q.length)) = k by omega]
  obtain ⟨d, d1, d2, d3⟩ := hd
  have hsplit : p.take d ++ p.drop d = p := List.take_append_drop d p
  have hlq : (q1 ++ p.take d).length = q1.length + d := by rw [List.length_append, List.length_take]; omega
  have htot : R' + ((q1 ++ p.take d) ++ p.drop d).length = R + (q ++ p).length := by
    rw [List.append_assoc, hsplit, List.length_append, List.length_append]; omega
  refine ⟨R', d, d1, ⟨hrd', ?_, h.wrg, ⟨⟨?_, ?_⟩, ?_, ?_, ?_, ?_, ?_⟩, ?_, ?_, ?_, ?_, h.flg⟩, ?_⟩
  · show (if s.r.rdEn c mready then gray (if s.r.rdEn c mready then inc c.aw s.r.rd else s.r.rd) else s.r.gray) = _
    rw [hR', h.rd, h.rdg]
    split
    · unfold inc; rw [Nat.mod_add_mod]
    · rfl
  · have := h1.ring.rep
    rw [e2, e3, e5, ← hsplit, List.append_assoc, ← List.append_assoc] at this
    exact this
  · simp only [view]
    rw [hrd', Nat.mod_add_mod]
  · have := h1.pl; rw [e6] at this; exact this
  · have := h1.orep; rw [e7, e8, e9] at this; exact this
  · have := h1.off; rw [e11] at this; exact this
  · have := h1.hf0; rw [e10] at this; exact this
  · have := h1.hf1; rw [e6, e10] at this; exact this
  · rw [htot]; exact h.cm
  · obtain ⟨r0, r1, r2, b1, b2, b3, b4, b5, b6, b7, b8⟩ := h.back
    refine ⟨R, r1, r2, b1, by omega, hRR.1, hRR.2, h.rdg, b6, b7, ?_⟩
    have hl : R' + ((q1 ++ p.take d) ++ (p.drop d ++ u)).length = R + (q ++ (p ++ u)).length := by
      simp only [List.length_append] at htot ⊢; omega
    rw [hl]; exact b8
  · intro hff
    obtain ⟨c1, c2, w0, c3, c4, c5, c6⟩ := d2 hff
    refine ⟨c2, w0, w0, by rw [hlq]; omega, Nat.le_refl _, by rw [htot]; exact c4, by rw [htot]; exact c5, c6, c6, ?_⟩
    rw [c1, hlq]; congr 2; omega
  · intro hff
    obtain ⟨c1, k, c2, c3, c4, c5, c6⟩ := d3 hff
    obtain ⟨k0, _, i1, i2, i3, i4, i5, i6⟩ := h.hnd hff
    refine ⟨by rw [c1, hlq]; congr 1; omega, ⟨k, by rw [hlq]; omega, by rw [htot]; exact c3, c4, fun e => by rw [hlq]; have := c5 e; omega, fun e => by rw [htot]; exact c6 e⟩, i1, ?_, ?_, ?_, ?_, ?_⟩
    · exact fun e => i3 (i2 e)
    · exact i4
    · exact i5
    · exact i6
    · intro e; exact e
  · have hc : contents s q p o = AxisFifo.contents (view s ((R + q.length) % M c)) q o ++ p := rfl
    rw [hc, ← h2, List.append_assoc]
    congr 1
    unfold contents AxisFifo.contents
    rw [e6, e11]
    simp only [view, List.append_assoc, hsplit]

theorem Inv.mEdge (h : Inv c s R q p u o) (mready pr : Bool) : ∃ R' q' p' o', Inv c (mEdge c true s mready pr) R' q' p' u o' ∧
    (if mready then (s.r.m c).toList else []) ++ contents (mEdge c true s mready pr) q' p' o' = contents s q p o := by
  have hve : (view s ((R + q.length) % M c)).empty = s.r.empty c := by rw [h.inv.ring.empty, h.empty]
  obtain ⟨_, _, _, _, _, _, _, _, _, _, _, _, e13, _⟩ := view_step c true s _ mready pr hve
  obtain ⟨q1, o1, h1, h2, h3, h4, _⟩ := h.inv.step ⟨false, ⟨0, false, 0⟩, mready, pr⟩
  rw [e13] at h1 h2 h3
  simp only [actQ, cmt, List.append_nil] at h1 h2 h3
  obtain ⟨R', d, _, k1, k2⟩ := h.mEdge_core mready pr q1 o1 h1 h2 h3 h4
  exact ⟨R', _, _, _, k1, k2⟩

theorem Inv.init (c : Cfg) : Inv c (init c) 0 [] [] [] [] := by
  have rep : ∀ n m, Rep n m 0 0 [] := fun n m => ⟨Nat.two_pow_pos _, by simp, by simp, by simp⟩
  have hg : gray 0 = 0 := by decide
  refine ⟨by simp [AsyncFifo.init], by simp [AsyncFifo.init, hg], by simp [AsyncFifo.init, hg], ⟨⟨rep _ _, by simp [view, AsyncFifo.init]⟩, by simp [view, AsyncFifo.init], rep _ _, fun _ => ⟨rfl, rfl⟩, fun _ _ => by simp, fun _ => Or.inr rfl⟩,
    by simp [AsyncFifo.init], ⟨0, 0, 0, by simp [AsyncFifo.init, hg]⟩, fun _ => ⟨rfl, 0, 0, by simp [AsyncFifo.init, hg]⟩, fun _ => ⟨by simp [AsyncFifo.init], ⟨0, by simp [AsyncFifo.init]⟩, by simp [AsyncFifo.init]⟩, fun _ _ => rfl⟩

theorem contents_init (c : Cfg) : contents (init c) [] [] [] = [] := by
  simp [contents, AxisFifo.contents, AsyncFifo.init, vals, view]

/-! ### runs -/

/-- words committed at an event -/
def cmtEv (c : Cfg) (s : S) (u : List Beat) : Ev → List Beat
  | .s v b => cmt (s.w.act c v b) u (AxisFifo.sAxis c s.w.f b)
  | _ => []

/-- uncommitted words after an event -/
def pendEv (c : Cfg) (s : S) (u : List Beat) : Ev → List Beat
  | .s v b => (actQ (s.w.act c v b) [] u (AxisFifo.sAxis c s.w.f b)).2
  | _ => u

/-- words committed in a run -/
def committed (c : Cfg) : S → List Beat → List Ev → List Beat
  | _, _, [] => []
  | s, u, e :: es => cmtEv c s u e ++ committed c (step c true s e) (pendEv c s u e) es

/-- uncommitted words after a run -/
def pend (c : Cfg) : S → List Beat → List Ev → List Beat
  | _, u, [] => u
  | s, u, e :: es => pend c (step c true s e) (pendEv c s u e) es

theorem Inv.step (h : Inv c s R q p u o) (ha : 0 < c.aw) (e : Ev) : ∃ R' q' p' o', Inv c (step c true s e) R' q' p' (pendEv c s u e) o' ∧
    out c s e ++ contents (AsyncFifo.step c true s e) q' p' o' = contents s q p o ++ cmtEv c s u e := by
  cases e with
  | s v b =>
    refine ⟨R, q, _, o, h.sEdge ha v b, ?_⟩
    unfold contents
    simp only [out, cmtEv, List.nil_append, List.append_assoc]
    rfl
  | m a pr =>
    obtain ⟨R', q', p', o', h1, h2⟩ := h.mEdge a pr
    exact ⟨R', q', p', o', h1, by simp only [cmtEv, List.append_nil]; exact h2⟩
  | settle wr cm rd x y =>
    refine ⟨R, q, p, o, h.settle true wr cm rd x y, ?_⟩
    simp only [out, cmtEv, List.nil_append, List.append_nil]
    rfl

theorem Inv.run (ha : 0 < c.aw) : ∀ (es : List Ev) {s : S} {R : Nat} {q p u o : List Beat}, Inv c s R q p u o → ∃ R' q' p' o', Inv c (run c true s es) R' q' p' (pend c s u es) o' ∧
    delivered c true s es ++ contents (AsyncFifo.run c true s es) q' p' o' = contents s q p o ++ committed c s u es := by
  intro es
  induction es with
  | nil => intro s R q p u o h; exact ⟨R, q, p, o, h, by simp [delivered, committed, AsyncFifo.run]⟩
  | cons e es ih =>
    intro s R q p u o h
    obtain ⟨R1, q1, p1, o1, h1, k1⟩ := h.step ha e
    obtain ⟨R', q', p', o', h', k'⟩ := ih h1
    refine ⟨R', q', p', o', h', ?_⟩
    rw [delivered, committed, List.append_assoc]
    rw [show AsyncFifo.run c true s (e :: es) = AsyncFifo.run c true (AsyncFifo.step c true s e) es from rfl, k', ← List.append_assoc, k1, List.append_assoc]

end Corundum.AsyncFifo
