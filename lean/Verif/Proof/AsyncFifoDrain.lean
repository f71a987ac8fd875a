import Verif.Proof.AsyncFifoRun
import Verif.Proof.AxisFifoDrain
/-!
Asynchronous FIFO: with the output ready, no input and both clocks running, it becomes empty.
-/
namespace Corundum.AsyncFifo
open AxisFifo (Beat Cfg Flags Status Act Inp tready inc adv Rep Ring vals actQ cmt weight)

/-- one if something has yet to arrive -/
def late (arrived : Bool) : Nat := if arrived then 0 else 1

/-- what is still to arrive of a pointer -/
def late3 (x a b : Bool) : Nat := late x + late a + late b

/-- what is still to arrive of an update and its acknowledgement -/
def late7 (v x a b d y e f : Bool) : Nat := (if v then 8 else 0) + (late x + late a + late b + late d + late y + late e + late f)

/-- which clock has to move next: `s_clk`? -/
def need7 (x d y : Bool) : Bool := !x || (d && y)

/-- distance of the pointer from being known on the read side -/
def A (c : Cfg) (s : S) : Nat :=
  if c.frameFifo then
    late7 s.w.updValid (s.x.upd == s.w.upd) (s.r.upd1 == s.w.upd) (s.r.upd2 == s.w.upd) (s.r.upd3 == s.w.upd) (s.x.ack == s.w.upd) (s.w.ack1 == s.w.upd) (s.w.ack2 == s.w.upd)
  else late3 (s.x.wrGray == s.w.gray) (s.r.wrG1 == s.w.gray) (s.r.wrG2 == s.w.gray)

def needA (c : Cfg) (s : S) : Bool := if c.frameFifo then need7 (s.x.upd == s.w.upd) (s.r.upd3 == s.w.upd) (s.x.ack == s.w.upd) else !(s.x.wrGray == s.w.gray)

/-- the clock of an event -/
def clk : Ev → Option Bool
  | .s _ _ => some true
  | .m _ _ => some false
  | .settle _ _ _ _ _ => none

/-- no input, output ready -/
def Quiet : Ev → Prop
  | .s v _ => v = false
  | .m a _ => a = true
  | .settle _ _ _ _ _ => True

theorem late_le (b : Bool) : late b ≤ 1 := by cases b <;> decide

theorem A_le (c : Cfg) (s : S) : A c s ≤ 15 := by
  unfold A
  split
  · unfold late7
    have h := late_le
    have h1 := h (s.x.upd == s.w.upd)
    have h2 := h (s.r.upd1 == s.w.upd)
    have h3 := h (s.r.upd2 == s.w.upd)
    have h4 := h (s.r.upd3 == s.w.upd)
    have h5 := h (s.x.ack == s.w.upd)
    have h6 := h (s.w.ack1 == s.w.upd)
    have h7 := h (s.w.ack2 == s.w.upd)
    split <;> omega
  · unfold late3
    have h1 := late_le (s.x.wrGray == s.w.gray)
    have h2 := late_le (s.r.wrG1 == s.w.gray)
    have h3 := late_le (s.r.wrG2 == s.w.gray)
    omega

/-- progress of a measure with a clock to wait for -/
def Prog (n n' : Nat) (k k' : Bool) (e : Option Bool) : Prop := n' < n ∨ n' = n ∧ k' = k ∧ (0 < n → e ≠ some k)

instance (n n' k k' e) : Decidable (Prog n n' k k' e) := by unfold Prog; infer_instance

theorem prog3_s : ∀ x a b : Bool, (b = true → a = true) → (a = true → x = true) → Prog (late3 x a b) (late3 true a b) (!x) (!true) (some true) := by decide
theorem prog3_m : ∀ x a b : Bool, (b = true → a = true) → (a = true → x = true) → Prog (late3 x a b) (late3 x x a) (!x) (!x) (some false) := by decide
theorem prog3_t : ∀ x a b x' : Bool, (x = true → x' = true) → Prog (late3 x a b) (late3 x' a b) (!x) (!x') none := by decide

theorem prog7_s : ∀ v x a b d y e f : Bool, (f = true → e = true) → (e = true → y = true) → (y = true → d = true) → (d = true → b = true) → (b = true → a = true) → (a = true → x = true) →
    (v && f) = false → Prog (late7 v x a b d y e f) (late7 v true a b d y y e) (need7 x d y) (need7 true d y) (some true) := by decide
theorem prog7_m : ∀ v x a b d y e f : Bool, (f = true → e = true) → (e = true → y = true) → (y = true → d = true) → (d = true → b = true) → (b = true → a = true) → (a = true → x = true) →
    Prog (late7 v x a b d y e f) (late7 v x x a b d e f) (need7 x d y) (need7 x b d) (some false) := by decide
theorem prog7_t : ∀ v x a b d y e f x' y' : Bool, (y = true → d = true) → (x = true → x' = true) → (y = true → y' = true) → (y' = true → d = true) →
    Prog (late7 v x a b d y e f) (late7 v x' a b d y' e f) (need7 x d y) (need7 x' d y') none := by decide


variable {c : Cfg} {s : S} {R : Nat} {q p u o : List Beat}

theorem ptr_lt (h : Inv c s R q p u o) : (q ++ p).length < M c := by
  have hl := h.len
  simp only [List.length_append] at hl ⊢
  have hm : 2 ^ c.aw < M c := by unfold M; rw [AxisFifo.two_mul]; have := Nat.two_pow_pos c.aw; omega
  omega

/-- what has arrived later has arrived earlier -/
theorem Inv.chain (h : Inv c s R q p u o) (hff : c.frameFifo = false) :
    ((s.r.wrG2 == s.w.gray) = true → (s.r.wrG1 == s.w.gray) = true) ∧ ((s.r.wrG1 == s.w.gray) = true → (s.x.wrGray == s.w.gray) = true) ∧ ((s.r.wrG2 == s.w.gray) = true → p = []) := by
  obtain ⟨hu, w0, w1, h1, h2, h3, h4, h5, h6, h7⟩ := h.fwd hff
  have hg : s.w.gray = gray ((R + (q ++ p).length) % M c) := by rw [h.wrg, h.wr, hu]; simp
  have hM := ptr_lt h
  have key : ∀ z, R + q.length ≤ z → z ≤ R + (q ++ p).length → (gray (z % M c) == s.w.gray) = true → z = R + (q ++ p).length := by
    intro z z1 z2 e
    rw [beq_iff_eq, hg] at e
    exact (mod_eq_iff _ _ _ z2 (by simp only [List.length_append] at hM ⊢; omega)).1 (gray_mod_inj e)
  rw [h5, h6, h7]
  refine ⟨fun e => ?_, fun e => ?_, fun e => ?_⟩
  · have := key _ (Nat.le_refl _) (by omega) e
    rw [show w1 = R + (q ++ p).length by omega, hg, beq_self_eq_true]
  · have := key _ h1 (by omega) e
    rw [show w0 = R + (q ++ p).length by omega, hg, beq_self_eq_true]
  · have := key _ (Nat.le_refl _) (by omega) e
    simp only [List.length_append] at this
    exact List.length_eq_zero_iff.1 (by omega)

/-- an idle handshake means that the read side knows everything -/
theorem Inv.A_zero (h : Inv c s R q p u o) (hA : A c s = 0) : p = [] := by
  unfold A at hA
  cases hff : c.frameFifo
  · rw [hff, if_neg (by simp)] at hA
    refine (h.chain hff).2.2 ?_
    revert hA
    unfold late3
    cases (s.r.wrG2 == s.w.gray)
    · simp [late]
    · simp
  · rw [hff, if_pos rfl] at hA
    obtain ⟨_, ⟨k, _, _, _, k4, k5⟩, _⟩ := h.hnd hff
    have h1 : s.r.upd3 = s.w.upd := by
      rw [← beq_iff_eq]
      revert hA
      unfold late7
      cases (s.r.upd3 == s.w.upd)
      · simp [late]
      · simp
    have h2 : s.w.updValid = false := by
      revert hA
      unfold late7
      cases s.w.updValid
      · simp
      · simp
    have e1 := k4 h1
    have e2 := k5 h2
    simp only [List.length_append] at e2
    exact List.length_eq_zero_iff.1 (by omega)

theorem Inv_A_s (h : Inv c s R q p u o) (b : Beat) (ha : s.w.act c false b = .nop) : Prog (A c s) (A c (sEdge c s false b)) (needA c s) (needA c (sEdge c s false b)) (some true) := by
  have ha' : (wrLogic c (s.w.full c) (s.w.fullWr c) s.w.f false b).2.2 = .nop := ha
  unfold A needA
  cases hff : c.frameFifo
  · simp only [Bool.false_eq_true, if_false]
    have hg : (sEdge c s false b).w.gray = s.w.gray := by
      show gray (actWr c s.w _) = _
      rw [ha', h.wrg]; rfl
    rw [hg, show (sEdge c s false b).x.wrGray = s.w.gray from rfl, show (sEdge c s false b).r = s.r from rfl, beq_self_eq_true]
    exact prog3_s _ _ _ (h.chain hff).1 (h.chain hff).2.1
  · simp only [if_true]
    obtain ⟨_, _, i1, i2, i3, i4, i5, i6⟩ := h.hnd hff
    have hh : hand c s.w ((wrLogic c (s.w.full c) (s.w.fullWr c) s.w.f false b).2.2) = if s.w.updValid && s.w.upd == s.w.ack2 then (false, s.w.commit, !s.w.ack2) else (s.w.updValid, s.w.syncCommit, s.w.upd) := by
      rw [ha']; unfold hand; rw [hff]; simp [commits]
    by_cases hi : (s.w.updValid && s.w.upd == s.w.ack2) = true
    · rw [if_pos hi] at hh
      have e1 : (sEdge c s false b).w.updValid = false := by show (hand c s.w _).1 = _; rw [hh]
      have e2 : (sEdge c s false b).w.upd = !s.w.ack2 := by show (hand c s.w _).2.2 = _; rw [hh]
      rw [Bool.and_eq_true, beq_iff_eq] at hi
      have b1 := i1 hi.2.symm
      have b2 := i2 b1
      have b3 := i3 b2
      have b4 := i4 b3
      have b5 := i5 b4
      have b6 := i6 b5
      left
      rw [e1, e2, show (sEdge c s false b).x.upd = s.w.upd from rfl, show (sEdge c s false b).r = s.r from rfl, show (sEdge c s false b).x.ack = s.x.ack from rfl,
        show (sEdge c s false b).w.ack1 = s.x.ack from rfl, show (sEdge c s false b).w.ack2 = s.w.ack1 from rfl, b1, b2, b3, b4, b5, b6, hi.1, ← hi.2]
      cases s.w.upd <;> decide
    · rw [if_neg hi] at hh
      have e1 : (sEdge c s false b).w.updValid = s.w.updValid := by show (hand c s.w _).1 = _; rw [hh]
      have e2 : (sEdge c s false b).w.upd = s.w.upd := by show (hand c s.w _).2.2 = _; rw [hh]
      rw [e1, e2, show (sEdge c s false b).x.upd = s.w.upd from rfl, show (sEdge c s false b).r = s.r from rfl, show (sEdge c s false b).x.ack = s.x.ack from rfl,
        show (sEdge c s false b).w.ack1 = s.x.ack from rfl, show (sEdge c s false b).w.ack2 = s.w.ack1 from rfl, beq_self_eq_true]
      simp only [← beq_iff_eq (a := s.w.ack2), ← beq_iff_eq (a := s.w.ack1), ← beq_iff_eq (a := s.x.ack), ← beq_iff_eq (a := s.r.upd3), ← beq_iff_eq (a := s.r.upd2), ← beq_iff_eq (a := s.r.upd1), ← beq_iff_eq (a := s.x.upd)] at i1 i2 i3 i4 i5 i6
      refine prog7_s _ _ _ _ _ _ _ _ i1 i2 i3 i4 i5 i6 ?_
      rw [Bool.not_eq_true] at hi
      rw [← hi]; congr 1; exact Bool.beq_comm

theorem Inv_A_m (h : Inv c s R q p u o) (a pr : Bool) : Prog (A c s) (A c (mEdge c true s a pr)) (needA c s) (needA c (mEdge c true s a pr)) (some false) := by
  unfold A needA
  cases hff : c.frameFifo
  · simp only [Bool.false_eq_true, if_false]
    exact prog3_m _ _ _ (h.chain hff).1 (h.chain hff).2.1
  · simp only [if_true]
    obtain ⟨_, _, i1, i2, i3, i4, i5, i6⟩ := h.hnd hff
    simp only [← beq_iff_eq (a := s.w.ack2), ← beq_iff_eq (a := s.w.ack1), ← beq_iff_eq (a := s.x.ack), ← beq_iff_eq (a := s.r.upd3), ← beq_iff_eq (a := s.r.upd2), ← beq_iff_eq (a := s.r.upd1), ← beq_iff_eq (a := s.x.upd)] at i1 i2 i3 i4 i5 i6
    exact prog7_m _ _ _ _ _ _ _ _ i1 i2 i3 i4 i5 i6

theorem Inv_A_t (h : Inv c s R q p u o) (wr cm rd : Nat) (x y : Bool) :
    Prog (A c s) (A c (step c true s (.settle wr cm rd x y))) (needA c s) (needA c (step c true s (.settle wr cm rd x y))) none := by
  unfold A needA
  cases hff : c.frameFifo
  · simp only [Bool.false_eq_true, if_false]
    refine prog3_t _ _ _ _ fun e => ?_
    rw [beq_iff_eq] at e ⊢
    show mix s.x.wrGray s.w.gray wr = s.w.gray
    rw [e, mix_self]
  · simp only [if_true]
    obtain ⟨_, _, i1, i2, i3, i4, i5, i6⟩ := h.hnd hff
    simp only [← beq_iff_eq (a := s.w.ack2), ← beq_iff_eq (a := s.w.ack1), ← beq_iff_eq (a := s.x.ack), ← beq_iff_eq (a := s.r.upd3), ← beq_iff_eq (a := s.r.upd2), ← beq_iff_eq (a := s.r.upd1), ← beq_iff_eq (a := s.x.upd)] at i1 i2 i3 i4 i5 i6
    refine prog7_t _ _ _ _ _ _ _ _ _ _ i3 ?_ ?_ ?_
    · show _ → ((if x then s.w.upd else s.x.upd) == s.w.upd) = true
      cases x
      · exact fun e => e
      · exact fun _ => by simp
    · show _ → ((if y then s.r.upd3 else s.x.ack) == s.w.upd) = true
      cases y
      · exact fun e => e
      · exact fun e => i3 e
    · show ((if y then s.r.upd3 else s.x.ack) == s.w.upd) = true → _
      cases y
      · exact i3
      · exact fun e => e

/-! ### all of it -/

/-- distance from being empty -/
def T (c : Cfg) (s : S) (q p o : List Beat) : Nat := A c s + (weight c (view s 0) q o + 2 * (c.pl + 5) * p.length)

def need (c : Cfg) (s : S) (q o : List Beat) : Bool := if weight c (view s 0) q o = 0 then needA c s else false

theorem quiet_act (c : Cfg) (s : S) (b : Beat) (hm : s.w.f.mark = false) : s.w.act c false b = .nop ∧ (sEdge c s false b).w.f.mark = false := by
  show (wrLogic c (s.w.full c) (s.w.fullWr c) s.w.f false b).2.2 = .nop ∧ (wrLogic c (s.w.full c) (s.w.fullWr c) s.w.f false b).1.mark = false
  unfold wrLogic AxisFifo.wrFrame wrNormal
  rw [hm]
  cases hff : c.frameFifo <;> simp [hm]

theorem Inv_T_step (h : Inv c s R q p u o) (ha : 0 < c.aw) (hp : c.pauseEnable = false) (hm : s.w.f.mark = false) (e : Ev) (he : Quiet e) :
    ∃ R' q' p' o', Inv c (step c true s e) R' q' p' u o' ∧ (step c true s e).w.f.mark = false ∧ Prog (T c s q p o) (T c (step c true s e) q' p' o') (need c s q o) (need c (step c true s e) q' o') (clk e) := by
  have hz : A c s = 0 → 2 * (c.pl + 5) * p.length = 0 := fun e => by rw [h.A_zero e]; simp
  cases e with
  | s v b =>
    have hv : v = false := he
    subst hv
    obtain ⟨a1, a2⟩ := quiet_act c s b hm
    have h1 := h.sEdge ha false b
    have h2 := Inv_A_s h b a1
    rw [a1] at h1
    simp only [cmt, actQ, List.append_nil] at h1
    refine ⟨R, q, p, o, h1, a2, ?_⟩
    have hw : weight c (view (step c true s (.s false b)) 0) q o = weight c (view s 0) q o := rfl
    unfold T need
    rw [hw]
    unfold Prog at h2 ⊢
    simp only [step] at h2 ⊢
    rcases h2 with h2 | ⟨h2, h3, h4⟩
    · left; omega
    · right
      refine ⟨by omega, by rw [h3], fun hpos => ?_⟩
      by_cases hw0 : weight c (view s 0) q o = 0
      · rw [if_pos hw0]
        refine h4 (Nat.pos_of_ne_zero fun e => ?_)
        have := hz e
        omega
      · rw [if_neg hw0]; simp [clk]
  | m a pr =>
    have hv : a = true := he
    subst hv
    have hve : (view s ((R + q.length) % M c)).empty = s.r.empty c := by rw [h.inv.ring.empty, h.empty]
    obtain ⟨_, _, _, _, _, e6, _, _, _, e10, e11, _, e13, _⟩ := view_step c true s _ true pr hve
    obtain ⟨q1, o1, h1, h2, h3, h4, h5⟩ := h.inv.drain ⟨false, ⟨0, false, 0⟩, true, pr⟩ hp rfl e13
    obtain ⟨R', d, d1, k1, _⟩ := h.mEdge_core true pr q1 o1 h1 h2 h3 h4
    refine ⟨R', _, _, o1, k1, hm, ?_⟩
    have w1 : weight c (view s ((R + q.length) % M c)) q o = weight c (view s 0) q o := rfl
    have w2 : weight c ((view s ((R + q.length) % M c)).step c ⟨false, ⟨0, false, 0⟩, true, pr⟩) q1 o1 + 2 * (c.pl + 4) * d = weight c (view (mEdge c true s true pr) 0) (q1 ++ p.take d) o1 := by
      unfold weight
      rw [e6, e10, e11, List.length_append, List.length_take, Nat.min_eq_left d1, Nat.mul_add (c.pl + 4), Nat.mul_assoc 2 (c.pl + 4) d]
      rw [show (view (mEdge c true s true pr) 0).pipe = (mEdge c true s true pr).r.pipe from rfl, show (view (mEdge c true s true pr) 0).oreg = (mEdge c true s true pr).r.oreg from rfl,
        show (view (mEdge c true s true pr) 0).half = (mEdge c true s true pr).r.half from rfl]
      generalize (c.pl + 4) * q1.length = y1
      generalize (c.pl + 4) * d = y2
      omega
    rw [w1] at h5
    have hA := Inv_A_m h true pr
    have hdrop : 2 * (c.pl + 5) * (p.drop d).length + 2 * (c.pl + 4) * d + 2 * d = 2 * (c.pl + 5) * p.length := by
      rw [List.length_drop]
      have : p.length = (p.length - d) + d := by omega
      generalize p.length - d = z at *
      rw [this, Nat.mul_assoc, Nat.mul_assoc, Nat.mul_assoc, Nat.mul_add, Nat.add_mul c.pl 5 d, Nat.add_mul c.pl 4 d]
      omega
    unfold T need
    simp only [step]
    unfold Prog at hA ⊢
    by_cases hw0 : weight c (view s 0) q o = 0
    · rw [if_pos hw0]
      by_cases hd : d = 0
      · subst hd
        have hw' : weight c (view (mEdge c true s true pr) 0) (q1 ++ p.take 0) o1 = 0 := by rw [← w2]; rcases h5 with h5 | ⟨_, h5⟩ <;> omega
        simp only [hw', hw0, List.drop_zero, if_true]
        rcases hA with hA | ⟨hA, hB, hC⟩
        · left; omega
        · right
          refine ⟨by omega, hB, fun hpos => hC (Nat.pos_of_ne_zero fun e => ?_)⟩
          have := hz e
          omega
      · left
        have : A c (mEdge c true s true pr) ≤ A c s := by rcases hA with hA | ⟨hA, _⟩ <;> omega
        rcases h5 with h5 | ⟨_, h5⟩ <;> omega
    · left
      have : A c (mEdge c true s true pr) ≤ A c s := by rcases hA with hA | ⟨hA, _⟩ <;> omega
      rcases h5 with h5 | ⟨h5, _⟩ <;> omega
  | settle wr cm rd x y =>
    refine ⟨R, q, p, o, h.settle true wr cm rd x y, hm, ?_⟩
    have h2 := Inv_A_t h wr cm rd x y
    have hw : weight c (view (step c true s (.settle wr cm rd x y)) 0) q o = weight c (view s 0) q o := rfl
    unfold T need
    rw [hw]
    unfold Prog at h2 ⊢
    rcases h2 with h2 | ⟨h2, h3, h4⟩
    · left; omega
    · right
      exact ⟨by omega, by rw [h3], fun _ => by simp [clk]⟩

/-- a stretch of events with edges of both clocks -/
def Both (es : List Ev) : Prop := ∀ k, ∃ e ∈ es, clk e = some k

theorem Inv_T_run (ha : 0 < c.aw) (hp : c.pauseEnable = false) : ∀ (es : List Ev) {s : S} {R : Nat} {q p u o : List Beat}, Inv c s R q p u o → s.w.f.mark = false → (∀ e ∈ es, Quiet e) →
    ∃ R' q' p' o', Inv c (AsyncFifo.run c true s es) R' q' p' u o' ∧ (AsyncFifo.run c true s es).w.f.mark = false ∧ T c (AsyncFifo.run c true s es) q' p' o' ≤ T c s q p o ∧
      (0 < T c s q p o → (∃ e ∈ es, clk e = some (need c s q o)) → T c (AsyncFifo.run c true s es) q' p' o' < T c s q p o) := by
  intro es
  induction es with
  | nil => intro s R q p u o h hm _; exact ⟨R, q, p, o, h, hm, Nat.le_refl _, fun _ ⟨e, he, _⟩ => by cases he⟩
  | cons e es ih =>
    intro s R q p u o h hm hq
    obtain ⟨R1, q1, p1, o1, h1, hm1, hP⟩ := Inv_T_step h ha hp hm e (hq e (by simp))
    obtain ⟨R', q', p', o', h', hm', k1, k2⟩ := ih h1 hm1 (fun e he => hq e (by simp [he]))
    refine ⟨R', q', p', o', h', hm', ?_, ?_⟩
    · refine Nat.le_trans k1 ?_
      rcases hP with hP | ⟨hP, _⟩ <;> omega
    · intro hpos ⟨e', he', hk⟩
      rcases hP with hP | ⟨hP, hN, hC⟩
      · exact Nat.lt_of_le_of_lt k1 hP
      · rw [← hP]
        refine k2 (by omega) ⟨e', ?_, by rw [hN]; exact hk⟩
        rcases List.mem_cons.1 he' with rfl | he'
        · exact absurd hk (hC hpos)
        · exact he'

theorem Inv.rounds (ha : 0 < c.aw) (hp : c.pauseEnable = false) : ∀ (rs : List (List Ev)) {s : S} {R : Nat} {q p u o : List Beat}, Inv c s R q p u o → s.w.f.mark = false →
    (∀ r ∈ rs, Both r ∧ ∀ e ∈ r, Quiet e) → ∃ R' q' p' o', Inv c (AsyncFifo.run c true s rs.flatten) R' q' p' u o' ∧ T c (AsyncFifo.run c true s rs.flatten) q' p' o' ≤ T c s q p o - rs.length ∧
      (AsyncFifo.run c true s rs.flatten).w.f.mark = false := by
  intro rs
  induction rs with
  | nil => intro s R q p u o h hm _; exact ⟨R, q, p, o, h, Nat.le_refl _, hm⟩
  | cons r rs ih =>
    intro s R q p u o h hm hr
    obtain ⟨b1, b2⟩ := hr r (by simp)
    obtain ⟨R1, q1, p1, o1, h1, hm1, k1, k2⟩ := Inv_T_run ha hp r h hm b2
    obtain ⟨R', q', p', o', h', k', hm'⟩ := ih h1 hm1 (fun r hr' => hr r (by simp [hr']))
    refine ⟨R', q', p', o', ?_, ?_, ?_⟩
    · rw [List.flatten_cons]; unfold AsyncFifo.run at h' ⊢; rw [List.foldl_append]; exact h'
    · rw [List.flatten_cons]
      have hrun : AsyncFifo.run c true s (r ++ rs.flatten) = AsyncFifo.run c true (AsyncFifo.run c true s r) rs.flatten := by unfold AsyncFifo.run; rw [List.foldl_append]
      rw [hrun, List.length_cons]
      by_cases hpos : 0 < T c s q p o
      · have := k2 hpos (b1 _)
        omega
      · omega
    · rw [List.flatten_cons]; unfold AsyncFifo.run at hm' ⊢; rw [List.foldl_append]; exact hm'

/-- nothing committed is left inside -/
def Drained (s : S) : Prop := s.r.rd = s.w.commit ∧ (∀ x ∈ s.r.pipe, x = none) ∧ s.r.owr = s.r.ord ∧ s.r.oreg = none

theorem Inv.drained_of (h : Inv c s R q p u o) (hT : T c s q p o = 0) : Drained s := by
  unfold T at hT
  have hw : weight c (view s 0) q o = 0 := by omega
  obtain ⟨h1, h2, h3, h4, _⟩ := AxisFifo.weight_zero hw
  have hp := h.A_zero (by omega)
  refine ⟨?_, h2, ?_, h4⟩
  · rw [h.cm, h.rd, h1, hp]; rfl
  · have := h.inv.orep.empty
    rw [h3] at this
    simpa [view] using this

theorem Inv.drained (h : Inv c s R q p u o) (hd : Drained s) : contents s q p o = [] := by
  obtain ⟨h1, h2, h3, h4⟩ := hd
  have hqp : (q ++ p).length = 0 := by
    rw [h.rd, h.cm] at h1
    have := (mod_eq_iff _ _ _ (by omega) (by have := ptr_lt h; omega)).1 h1
    omega
  have hqp' := List.append_eq_nil_iff.1 (List.length_eq_zero_iff.1 hqp)
  have ho : o = [] := by
    have := h.inv.orep.empty
    simp only [view] at this
    rw [h3] at this
    simpa using this
  have hv : vals s.r.pipe = [] := by
    unfold vals
    rw [List.filterMap_eq_nil_iff]
    exact h2
  simp [contents, AxisFifo.contents, view, hqp'.1, hqp'.2, ho, hv, h4]

theorem Inv.T_le (h : Inv c s R q p u o) : T c s q p o ≤ c.far + 2 * c.size + 15 := by
  have h1 := h.inv.weight_le
  have h2 : weight c (view s ((R + q.length) % M c)) q o = weight c (view s 0) q o := rfl
  have h3 := A_le c s
  have h4 := h.len
  rw [h2, List.length_append, Nat.mul_add, Nat.mul_assoc 2 (c.pl + 4) p.length] at h1
  simp only [List.length_append, Cfg.size, AxisFifo.Cfg.size] at h4 ⊢
  unfold T
  rw [Nat.mul_assoc, Nat.add_mul c.pl 5]
  rw [Nat.add_mul c.pl 4] at h1
  omega

/-! ### the read pointer on its way back -/

/-- distance of the read pointer from being known on the write side -/
def B (s : S) : Nat := late3 (s.x.rdGray == s.r.gray) (s.w.rdG1 == s.r.gray) (s.w.rdG2 == s.r.gray)

def needB (s : S) : Bool := s.x.rdGray == s.r.gray

theorem progB_m : ∀ x a b : Bool, (b = true → a = true) → (a = true → x = true) → Prog (late3 x a b) (late3 true a b) x true (some false) := by decide
theorem progB_s : ∀ x a b : Bool, (b = true → a = true) → (a = true → x = true) → Prog (late3 x a b) (late3 x x a) x x (some true) := by decide
theorem progB_t : ∀ x a b x' : Bool, (x = true → x' = true) → Prog (late3 x a b) (late3 x' a b) x x' none := by decide

theorem Inv_chainB (h : Inv c s R q p u o) :
    ((s.w.rdG2 == s.r.gray) = true → (s.w.rdG1 == s.r.gray) = true) ∧ ((s.w.rdG1 == s.r.gray) = true → (s.x.rdGray == s.r.gray) = true) ∧
      ((s.w.rdG2 == s.r.gray) = true → 0 < c.aw → s.w.full c = decide ((q ++ (p ++ u)).length = 2 ^ c.aw)) := by
  obtain ⟨r0, r1, r2, h1, h2, h3, h4, h5, h6, h7, h8⟩ := h.back
  have hm : 2 ^ c.aw < M c := by unfold M; rw [AxisFifo.two_mul]; have := Nat.two_pow_pos c.aw; omega
  have key : ∀ z, r2 ≤ z → z ≤ R → (gray (z % M c) == s.r.gray) = true → z = R := by
    intro z z1 z2 e
    rw [beq_iff_eq, h.rdg] at e
    exact (mod_eq_iff _ _ _ z2 (by omega)).1 (gray_mod_inj e)
  refine ⟨fun e => ?_, fun e => ?_, fun e ha => ?_⟩
  · rw [h7] at e
    have := key _ (Nat.le_refl _) (by omega) e
    rw [h6, h.rdg, show r1 = R by omega, beq_self_eq_true]
  · rw [h6] at e
    have := key _ h1 (by omega) e
    rw [h5, h.rdg, show r0 = R by omega, beq_self_eq_true]
  · rw [h7] at e
    have := key _ (Nat.le_refl _) (by omega) e
    subst this
    unfold Wr.full
    rw [h.wrg, h7, full_eq _ _ _ ha, h.wr]
    have hl := h.len
    rw [← Nat.mod_add_mod]
    exact AxisFifo.ptr_full _ _ _ (Nat.mod_lt _ (Nat.two_pow_pos _)) hl

theorem Inv_B_step (h : Inv c s R q p u o) (hw : weight c (view s 0) q o = 0) (e : Ev) (he : Quiet e) : Prog (B s) (B (step c true s e)) (needB s) (needB (step c true s e)) (clk e) := by
  obtain ⟨c1, c2, _⟩ := Inv_chainB h
  cases e with
  | s v b => exact progB_s _ _ _ c1 c2
  | m a pr =>
    have hq := (AxisFifo.weight_zero hw).1
    have hrd : s.r.rdEn c a = false := by
      unfold Rd.rdEn
      rw [h.empty, hq]; simp
    have hg : (step c true s (.m a pr)).r.gray = s.r.gray := by
      show (if s.r.rdEn c a then _ else s.r.gray) = _
      rw [hrd]; rfl
    unfold B needB
    rw [hg, show (step c true s (.m a pr)).x.rdGray = s.r.gray from rfl, beq_self_eq_true]
    exact progB_m _ _ _ c1 c2
  | settle wr cm rd x y =>
    refine progB_t _ _ _ _ fun e => ?_
    rw [beq_iff_eq] at e ⊢
    show mix s.x.rdGray s.r.gray rd = s.r.gray
    rw [e, mix_self]

theorem T_zero {c : Cfg} {s : S} {q p o : List Beat} (h : T c s q p o = 0) : weight c (view s 0) q o = 0 := by unfold T at h; omega

theorem Inv_B_run (ha : 0 < c.aw) (hp : c.pauseEnable = false) : ∀ (es : List Ev) {s : S} {R : Nat} {q p u o : List Beat}, Inv c s R q p u o → T c s q p o = 0 → s.w.f.mark = false → (∀ e ∈ es, Quiet e) →
    ∃ R' q' p' o', Inv c (AsyncFifo.run c true s es) R' q' p' u o' ∧ T c (AsyncFifo.run c true s es) q' p' o' = 0 ∧ (AsyncFifo.run c true s es).w.f.mark = false ∧ B (AsyncFifo.run c true s es) ≤ B s ∧
      (0 < B s → (∃ e ∈ es, clk e = some (needB s)) → B (AsyncFifo.run c true s es) < B s) := by
  intro es
  induction es with
  | nil => intro s R q p u o h hT hm _; exact ⟨R, q, p, o, h, hT, hm, Nat.le_refl _, fun _ ⟨e, he, _⟩ => by cases he⟩
  | cons e es ih =>
    intro s R q p u o h hT hm hq
    have hP := Inv_B_step h (T_zero hT) e (hq e (by simp))
    obtain ⟨R1, q1, p1, o1, h1, hm1, hP1⟩ := Inv_T_step h ha hp hm e (hq e (by simp))
    have hT1 : T c (step c true s e) q1 p1 o1 = 0 := by rcases hP1 with hP1 | ⟨hP1, _⟩ <;> omega
    obtain ⟨R', q', p', o', h', hT', hm', k1, k2⟩ := ih h1 hT1 hm1 (fun e he => hq e (by simp [he]))
    refine ⟨R', q', p', o', h', hT', hm', ?_, ?_⟩
    · refine Nat.le_trans k1 ?_
      rcases hP with hP | ⟨hP, _⟩ <;> omega
    · intro hpos ⟨e', he', hk⟩
      rcases hP with hP | ⟨hP, hN, hC⟩
      · exact Nat.lt_of_le_of_lt k1 hP
      · rw [← hP]
        refine k2 (by omega) ⟨e', ?_, by rw [hN]; exact hk⟩
        rcases List.mem_cons.1 he' with rfl | he'
        · exact absurd hk (hC hpos)
        · exact he'

theorem Inv_B_rounds (ha : 0 < c.aw) (hp : c.pauseEnable = false) : ∀ (rs : List (List Ev)) {s : S} {R : Nat} {q p u o : List Beat}, Inv c s R q p u o → T c s q p o = 0 → s.w.f.mark = false →
    (∀ r ∈ rs, Both r ∧ ∀ e ∈ r, Quiet e) → ∃ R' q' p' o', Inv c (AsyncFifo.run c true s rs.flatten) R' q' p' u o' ∧ T c (AsyncFifo.run c true s rs.flatten) q' p' o' = 0 ∧
      B (AsyncFifo.run c true s rs.flatten) ≤ B s - rs.length := by
  intro rs
  induction rs with
  | nil => intro s R q p u o h hT hm _; exact ⟨R, q, p, o, h, hT, Nat.le_refl _⟩
  | cons r rs ih =>
    intro s R q p u o h hT hm hr
    obtain ⟨b1, b2⟩ := hr r (by simp)
    obtain ⟨R1, q1, p1, o1, h1, hT1, hm1, k1, k2⟩ := Inv_B_run ha hp r h hT hm b2
    obtain ⟨R', q', p', o', h', hT', k'⟩ := ih h1 hT1 hm1 (fun r hr' => hr r (by simp [hr']))
    have hrun : AsyncFifo.run c true s (r ++ rs.flatten) = AsyncFifo.run c true (AsyncFifo.run c true s r) rs.flatten := by unfold AsyncFifo.run; rw [List.foldl_append]
    rw [List.flatten_cons, hrun, List.length_cons]
    refine ⟨R', q', p', o', h', hT', ?_⟩
    by_cases hpos : 0 < B s
    · have := k2 hpos (b1 _)
      omega
    · omega

theorem B_le (s : S) : B s ≤ 3 := by
  unfold B late3
  have h1 := late_le (s.x.rdGray == s.r.gray)
  have h2 := late_le (s.w.rdG1 == s.r.gray)
  have h3 := late_le (s.w.rdG2 == s.r.gray)
  omega

end Corundum.AsyncFifo
