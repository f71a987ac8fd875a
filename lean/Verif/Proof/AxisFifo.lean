import Verif.Model.AxisFifo
/-!
AXI stream FIFO: ring buffer representation and data flow.
-/
namespace Corundum.AxisFifo

/-! ### pointers -/

theorem two_mul (n : Nat) : 2 ^ (n + 1) = 2 * 2 ^ n := by rw [Nat.pow_succ]; omega

theorem xor_lo (n r : Nat) (h : r < 2 ^ n) : r ^^^ 2 ^ n = 2 ^ n + r := by
  apply Nat.eq_of_testBit_eq
  intro i
  rw [Nat.testBit_xor, Nat.testBit_two_pow]
  rcases Nat.lt_trichotomy i n with hi | hi | hi
  · rw [Nat.testBit_two_pow_add_gt hi]
    have : ¬ n = i := by omega
    simp [this]
  · subst hi
    rw [Nat.testBit_two_pow_add_eq]
    simp
  · have h1 : r.testBit i = false := Nat.testBit_lt_two_pow (by have := Nat.pow_lt_pow_right (a := 2) (by omega) hi; omega)
    have h2 : (2 ^ n + r).testBit i = false := by
      apply Nat.testBit_lt_two_pow
      have : 2 ^ (n + 1) ≤ 2 ^ i := Nat.pow_le_pow_right (by omega) (by omega)
      rw [two_mul] at this
      omega
    have : ¬ n = i := by omega
    simp [h1, h2, this]

theorem xor_msb (n r : Nat) (h : r < 2 ^ (n + 1)) : r ^^^ 2 ^ n = (r + 2 ^ n) % 2 ^ (n + 1) := by
  rw [two_mul] at *
  by_cases hl : r < 2 ^ n
  · rw [xor_lo n r hl, Nat.mod_eq_of_lt (by omega), Nat.add_comm]
  · have e := xor_lo n (r - 2 ^ n) (by omega)
    have : r = (r - 2 ^ n) ^^^ 2 ^ n := by rw [e]; omega
    rw [this, Nat.xor_assoc, Nat.xor_self, Nat.xor_zero, e]
    have h2 : 2 ^ n + (r - 2 ^ n) + 2 ^ n = (r - 2 ^ n) + 2 * 2 ^ n := by omega
    rw [h2, Nat.add_mod_right, Nat.mod_eq_of_lt (by omega)]

theorem mod_add (M r n : Nat) (h1 : r < 2 * M) (h2 : n ≤ M) : (r + n) % (2 * M) = if r + n < 2 * M then r + n else r + n - 2 * M := by
  split
  · rename_i h; exact Nat.mod_eq_of_lt h
  · rename_i h
    rw [Nat.mod_eq_sub_mod (by omega), Nat.mod_eq_of_lt (by omega)]

theorem ptr_full (n r k : Nat) (h : r < 2 ^ (n + 1)) (hk : k ≤ 2 ^ n) : ((r + k) % 2 ^ (n + 1) == (r ^^^ 2 ^ n)) = decide (k = 2 ^ n) := by
  rw [xor_msb n r h]
  rw [two_mul] at *
  rw [mod_add _ _ _ h hk, mod_add _ _ _ h (Nat.le_refl _), Bool.eq_iff_iff, beq_iff_eq, decide_eq_true_iff]
  split <;> split <;> omega

theorem ptr_empty (n r k : Nat) (h : r < 2 ^ (n + 1)) (hk : k ≤ 2 ^ n) : ((r + k) % 2 ^ (n + 1) == r) = decide (k = 0) := by
  rw [two_mul] at *
  have : 0 < 2 ^ n := Nat.two_pow_pos n
  rw [mod_add _ _ _ h hk, Bool.eq_iff_iff, beq_iff_eq, decide_eq_true_iff]
  split <;> omega

theorem ptr_dist (n r k : Nat) (h : r < 2 ^ (n + 1)) (hk : k ≤ 2 ^ n) : ((r + k) % 2 ^ (n + 1) + 2 ^ (n + 1) - r) % 2 ^ (n + 1) = k := by
  rw [two_mul] at *
  have : 0 < 2 ^ n := Nat.two_pow_pos n
  rw [mod_add _ _ _ h hk]
  split
  · rw [show r + k + 2 * 2 ^ n - r = k + 2 * 2 ^ n by omega, Nat.add_mod_right, Nat.mod_eq_of_lt (by omega)]
  · rw [show r + k - 2 * 2 ^ n + 2 * 2 ^ n - r = k by omega, Nat.mod_eq_of_lt (by omega)]

theorem inc_add (n r k : Nat) : inc n ((r + k) % 2 ^ (n + 1)) = (r + (k + 1)) % 2 ^ (n + 1) := by
  unfold inc; rw [Nat.mod_add_mod, Nat.add_assoc]

theorem inc_lt (n r : Nat) : inc n r < 2 ^ (n + 1) := Nat.mod_lt _ (Nat.two_pow_pos _)

theorem mod_mod_pow (n a : Nat) : a % 2 ^ (n + 1) % 2 ^ n = a % 2 ^ n := Nat.mod_mod_of_dvd _ ⟨2, by rw [Nat.pow_succ]⟩

/-- the ring holds the list `l` between the pointers `r` and `w` -/
structure Rep (n : Nat) (mem : Nat → Beat) (r w : Nat) (l : List Beat) : Prop where
  lt : r < 2 ^ (n + 1)
  le : l.length ≤ 2 ^ n
  w : w = (r + l.length) % 2 ^ (n + 1)
  val : ∀ k (h : k < l.length), mem ((r + k) % 2 ^ n) = l[k]

theorem Rep.full {n mem r w l} (h : Rep n mem r w l) : (w == (r ^^^ 2 ^ n)) = decide (l.length = 2 ^ n) := by
  rw [h.w]; exact ptr_full n r _ h.lt h.le

theorem Rep.empty {n mem r w l} (h : Rep n mem r w l) : (w == r) = decide (l = []) := by
  rw [h.w, ptr_empty n r _ h.lt h.le]; simp

theorem Rep.dist {n mem r w l} (h : Rep n mem r w l) : (w + 2 ^ (n + 1) - r) % 2 ^ (n + 1) = l.length := by
  rw [h.w]; exact ptr_dist n r _ h.lt h.le

theorem Rep.put {n mem r w l} (h : Rep n mem r w l) (b : Beat) (hf : l.length < 2 ^ n) : Rep n (upd mem (w % 2 ^ n) b) r (inc n w) (l ++ [b]) := by
  refine ⟨h.lt, by simp; omega, by rw [h.w, inc_add]; simp, ?_⟩
  intro k hk
  have hw : w % 2 ^ n = (r + l.length) % 2 ^ n := by rw [h.w, mod_mod_pow]
  unfold upd
  rw [hw]
  simp only [List.length_append, List.length_cons, List.length_nil] at hk
  by_cases hkl : k = l.length
  · subst hkl; simp
  · have hk' : k < l.length := by omega
    have : ¬ (r + k) % 2 ^ n = (r + l.length) % 2 ^ n := by
      intro e
      have h1 : (r + k) % 2 ^ n = (r + k + (l.length - k)) % 2 ^ n := by rw [show r + k + (l.length - k) = r + l.length by omega]; exact e
      have h2 : 2 ^ n ∣ l.length - k := by
        have := Nat.sub_mod_eq_zero_of_mod_eq h1.symm
        rw [Nat.add_sub_cancel_left] at this
        exact Nat.dvd_of_mod_eq_zero this
      have := Nat.le_of_dvd (by omega) h2
      omega
    rw [if_neg this, h.val k hk', List.getElem_append_left hk']

theorem Rep.get {n mem r w b l} (h : Rep n mem r w (b :: l)) : mem (r % 2 ^ n) = b ∧ Rep n mem (inc n r) w l := by
  refine ⟨?_, inc_lt _ _, ?_, ?_, ?_⟩
  · have := h.val 0 (by simp); simpa using this
  · have := h.le; simp at this; omega
  · rw [h.w]; unfold inc; rw [Nat.mod_add_mod]; simp only [List.length_cons]; congr 1; omega
  · intro k hk
    have := h.val (k + 1) (by simp; omega)
    simp only [List.getElem_cons_succ] at this
    rw [← this]
    congr 1
    unfold inc
    rw [Nat.add_mod, mod_mod_pow, ← Nat.add_mod]; congr 1; omega

theorem Rep.take {n mem r w l l'} (h : Rep n mem r w (l ++ l')) : Rep n mem r ((r + l.length) % 2 ^ (n + 1)) l := by
  refine ⟨h.lt, ?_, rfl, ?_⟩
  · have := h.le; simp at this; omega
  · intro k hk
    rw [h.val k (by simp; omega), List.getElem_append_left hk]

/-- a write to the free cell at `w` -/
theorem Rep.scratch {n mem r w l} (h : Rep n mem r w l) (b : Beat) (hf : l.length < 2 ^ n) : Rep n (upd mem (w % 2 ^ n) b) r w l := by
  have := (h.put b hf).take (l := l)
  rw [← h.w] at this; exact this

/-! ### pipeline -/

def vals (p : List (Option Beat)) : List Beat := p.filterMap id

theorem adv_length (go : Bool) (p : List (Option Beat)) (x : Option Beat) : (adv go p x).length = p.length := by
  induction p generalizing go with
  | nil => rfl
  | cons h t ih => simp [adv, ih]

theorem adv_true (p : List (Option Beat)) (x : Option Beat) (h : p ≠ []) : adv true p x = p.tail ++ [x] := by
  induction p with
  | nil => exact absurd rfl h
  | cons a t ih =>
    cases t with
    | nil => rfl
    | cons b t =>
      have e : adv true (a :: b :: t) x = b :: adv true (b :: t) x := rfl
      rw [e, ih (by simp)]; rfl

theorem vals_append (a b : List (Option Beat)) : vals (a ++ b) = vals a ++ vals b := by simp [vals]

theorem vals_single (x : Option Beat) : vals [x] = x.toList := by cases x <;> rfl

theorem adv_false (p : List (Option Beat)) (x : Option Beat) : vals (adv false p x) = vals p ++ (if p.any Option.isNone then x.toList else []) := by
  induction p with
  | nil => rfl
  | cons h t ih =>
    cases h with
    | some b =>
      have : adv false (some b :: t) x = some b :: adv false t x := rfl
      rw [this]
      simp only [vals, List.filterMap_cons, id, List.any_cons, Option.isNone_some, Bool.false_or, List.cons_append] at ih ⊢
      rw [ih]
    | none =>
      cases t with
      | nil => simp [adv, vals]; cases x <;> simp
      | cons n t =>
        have : adv false (none :: n :: t) x = n :: adv true (n :: t) x := rfl
        rw [this, adv_true _ _ (by simp)]
        rw [show n :: ((n :: t).tail ++ [x]) = (n :: t) ++ [x] from rfl, vals_append, vals_single]
        simp [vals]

theorem adv_full (p : List (Option Beat)) (x : Option Beat) (h : p.any Option.isNone = false) : adv false p x = p := by
  induction p with
  | nil => rfl
  | cons a t ih =>
    simp only [List.any_cons, Bool.or_eq_false_iff] at h
    simp only [adv, h.1, Bool.or_false, Bool.false_eq_true, if_false, ih h.2]

/-! ### write side -/

/-- committed and uncommitted words after an action -/
def actQ (a : Act) (q u : List Beat) (b : Beat) : List Beat × List Beat :=
  match a with
  | .nop => (q, u)
  | .store => (q, u ++ [b])
  | .storeCommit => (q ++ (u ++ [b]), [])
  | .storeReset => (q, [])
  | .reset => (q, [])
  | .commit => (q ++ u, [])

/-- words committed by an action -/
def cmt (a : Act) (u : List Beat) (b : Beat) : List Beat :=
  match a with
  | .storeCommit => u ++ [b]
  | .commit => u
  | _ => []

theorem actQ_fst (a : Act) (q u : List Beat) (b : Beat) : (actQ a q u b).1 = q ++ cmt a u b := by cases a <;> simp [actQ, cmt]

/-- memory is written only if the FIFO is not full -/
theorem wr_guard (c : Cfg) (full fullWr : Bool) (f : Flags) (v : Bool) (b : Beat) :
    (wrLogic c full fullWr f v b).2.2 = .store ∨ (wrLogic c full fullWr f v b).2.2 = .storeCommit ∨ (wrLogic c full fullWr f v b).2.2 = .storeReset → full = false := by
  intro h
  cases full
  · rfl
  · exfalso
    unfold wrLogic wrFrame wrNormal tready at h
    revert h
    cases c.frameFifo <;> cases c.dropOversize <;> cases c.dropWhenFull <;> cases c.markWhenFull <;> cases fullWr <;> cases v <;> cases f.drop <;> cases b.last <;> simp

/-- ring with committed words `q` and uncommitted words `u` -/
structure Ring (c : Cfg) (s : S) (q u : List Beat) : Prop where
  rep : Rep c.aw s.mem s.rd s.wr (q ++ u)
  cm : s.commit = (s.rd + q.length) % 2 ^ (c.aw + 1)

theorem Ring.full {c s q u} (h : Ring c s q u) : s.full c = decide (q.length + u.length = c.size) := by
  unfold S.full; rw [h.rep.full, Bool.eq_iff_iff, decide_eq_true_iff, decide_eq_true_iff, List.length_append]; rfl

theorem Ring.empty {c s q u} (h : Ring c s q u) : s.empty = decide (q = []) := by
  unfold S.empty
  rw [h.cm, ptr_empty _ _ _ h.rep.lt (by have := h.rep.le; simp at this; omega)]; simp

theorem Ring.fullWr {c s q u} (h : Ring c s q u) : s.fullWr c = decide (u.length = c.size) := by
  unfold S.fullWr
  have hl := h.rep.le
  simp only [List.length_append] at hl
  have e : s.wr = (s.commit + u.length) % 2 ^ (c.aw + 1) := by rw [h.rep.w, h.cm, Nat.mod_add_mod, List.length_append, Nat.add_assoc]
  rw [e, ptr_full _ _ _ (by rw [h.cm]; exact Nat.mod_lt _ (Nat.two_pow_pos _)) (by omega)]
  rfl

theorem Ring.act {c s q u} (h : Ring c s q u) (a : Act) (b : Beat) (hg : a = .store ∨ a = .storeCommit ∨ a = .storeReset → s.full c = false) :
    Rep c.aw (actMem c s a b) s.rd (actWr c s a) ((actQ a q u b).1 ++ (actQ a q u b).2) ∧
    actCommit c s a = (s.rd + (actQ a q u b).1.length) % 2 ^ (c.aw + 1) := by
  have hlt : s.full c = false → (q ++ u).length < 2 ^ c.aw := by
    intro hf
    rw [h.full, decide_eq_false_iff_not] at hf
    have := h.rep.le
    simp only [Cfg.size, List.length_append] at hf this ⊢
    omega
  cases a with
  | nop => exact ⟨h.rep, h.cm⟩
  | store =>
    have := h.rep.put b (hlt (hg (by simp)))
    rw [List.append_assoc] at this
    exact ⟨this, h.cm⟩
  | storeCommit =>
    have := h.rep.put b (hlt (hg (by simp)))
    rw [List.append_assoc] at this
    refine ⟨by simpa [actQ, actMem, actWr] using this, ?_⟩
    simp only [actCommit, actQ]
    have := this.w
    simpa using this
  | storeReset =>
    have := (h.rep.scratch b (hlt (hg (by simp)))).take
    refine ⟨?_, h.cm⟩
    simp only [actQ, actMem, actWr, List.append_nil]
    rw [h.cm]; exact this
  | reset =>
    refine ⟨?_, h.cm⟩
    simp only [actQ, actMem, actWr, List.append_nil]
    rw [h.cm]; exact h.rep.take
  | commit =>
    refine ⟨by simpa [actQ, actMem, actWr] using h.rep, ?_⟩
    simp only [actCommit, actQ]; exact h.rep.w

/-- action taken in a cycle -/
def S.act (c : Cfg) (s : S) (i : Inp) : Act := (wrLogic c (s.full c) (s.fullWr c) s.f i.valid i.beat).2.2

/-- word offered to the memory in a cycle -/
def S.word (c : Cfg) (s : S) (i : Inp) : Beat := sAxis c s.f i.beat

/-- half of the output FIFO -/
def Cfg.half (c : Cfg) : Nat := 2 ^ (c.oaw - 1)

structure Inv (c : Cfg) (s : S) (q u o : List Beat) : Prop where
  ring : Ring c s q u
  pl : s.pipe.length = c.pl + 1
  orep : Rep c.oaw s.omem s.ord s.owr o
  off : c.outFifo = false → s.oreg = none ∧ o = []
  hf0 : c.outFifo = true → s.half = false → o.length ≤ c.half
  hf1 : c.outFifo = true → o.length + (vals s.pipe).length ≤ c.half + c.pl + 2 ∨ s.half = false

theorem oaw_half (c : Cfg) : 2 * c.half = 2 ^ c.oaw ∧ c.pl + 3 ≤ c.half := by
  unfold Cfg.half
  by_cases h : c.pl < 2
  · have : c.oaw = 3 := by simp [Cfg.oaw, h]
    rw [this]; omega
  · have e : c.oaw = Nat.log2 (c.pl * 2 + 6) + 1 := by
      simp only [Cfg.oaw, h, if_false, clog2]
      rw [if_neg (by omega)]; rfl
    rw [e, Nat.add_sub_cancel, two_mul]
    refine ⟨rfl, ?_⟩
    have h1 : c.pl * 2 + 6 < 2 ^ (Nat.log2 (c.pl * 2 + 6) + 1) := Nat.lt_log2_self
    rw [two_mul] at h1
    omega

theorem vals_length (p : List (Option Beat)) : (vals p).length ≤ p.length := List.length_filterMap_le _ _

theorem vals_head (p : List (Option Beat)) : vals p = (p.head?.join).toList ++ vals p.tail := by
  cases p with
  | nil => rfl
  | cons h t => cases h <;> rfl

/-- everything inside the FIFO that has been committed, oldest first -/
def contents (s : S) (q o : List Beat) : List Beat := s.oreg.toList ++ (o ++ (vals s.pipe ++ q))

/-- output beat of a cycle -/
def S.outBeat (c : Cfg) (s : S) (i : Inp) : List Beat := if i.mready then (s.m c).toList else []

theorem outBeat_eq (c : Cfg) (s : S) (i : Inp) : s.outBeat c i = if s.rdyOut c i then (s.mout c).toList else [] := by
  unfold S.outBeat S.rdyOut S.m
  cases i.mready <;> cases (c.pauseEnable && s.pause) <;> simp

theorem Inv.ne {c s q u o} (h : Inv c s q u o) : s.pipe ≠ [] := by
  intro e; have := h.pl; rw [e] at this; simp at this

/-- one cycle -/
theorem Inv.step {c s q u o} (h : Inv c s q u o) (i : Inp) : ∃ q' o', Inv c (s.step c i) q' (actQ (s.act c i) q u (s.word c i)).2 o' ∧
    s.outBeat c i ++ contents (s.step c i) q' o' = contents s q o ++ cmt (s.act c i) u (s.word c i) ∧
    q' = (if s.rdEn c i then (actQ (s.act c i) q u (s.word c i)).1.tail else (actQ (s.act c i) q u (s.word c i)).1) ∧
    (s.rdEn c i = true → q ≠ []) ∧
    (c.outFifo = true → o' = (if !s.oempty && (s.oreg.isNone || s.rdyOut c i) then o.tail else o) ++ (s.pipe.head?.join).toList) := by
  have hg := wr_guard c (s.full c) (s.fullWr c) s.f i.valid i.beat
  obtain ⟨r1, r2⟩ := h.ring.act (s.act c i) (s.word c i) hg
  have hne : s.rdEn c i = true → q ≠ [] := by
    intro hr
    unfold S.rdEn at hr
    rw [h.ring.empty] at hr
    simp at hr
    exact hr.2.1
  -- ring
  have hring : ∃ q', Ring c (s.step c i) q' (actQ (s.act c i) q u (s.word c i)).2 ∧
      q' = (if s.rdEn c i then (actQ (s.act c i) q u (s.word c i)).1.tail else (actQ (s.act c i) q u (s.word c i)).1) ∧
      (if s.rdEn c i then some (s.mem (s.rd % 2 ^ c.aw)) else none).toList ++ q' = q ++ cmt (s.act c i) u (s.word c i) := by
    refine ⟨_, ?_, rfl, ?_⟩
    · cases hr : s.rdEn c i
      · refine ⟨?_, ?_⟩
        · simp only [S.step, hr, Bool.false_eq_true, if_false]; exact r1
        · simp only [S.step, hr, Bool.false_eq_true, if_false]; exact r2
      · have hq := hne hr
        obtain ⟨b, t, e⟩ := List.exists_cons_of_ne_nil hq
        have e1 : (actQ (s.act c i) q u (s.word c i)).1 = b :: (t ++ cmt (s.act c i) u (s.word c i)) := by rw [actQ_fst, e]; rfl
        rw [e1] at r1 r2 ⊢
        rw [List.cons_append] at r1
        refine ⟨?_, ?_⟩
        · simp only [S.step, hr, if_true, List.tail_cons]; exact r1.get.2
        · simp only [S.step, hr, if_true, List.tail_cons]
          refine r2.trans ?_
          unfold inc
          rw [Nat.mod_add_mod]; simp only [List.length_cons]; congr 1; omega
    · rw [actQ_fst]
      cases hr : s.rdEn c i
      · simp
      · obtain ⟨b, t, e⟩ := List.exists_cons_of_ne_nil (hne hr)
        have r := h.ring.rep
        rw [e, List.cons_append] at r
        simp only [if_true, r.get.1, e, Option.toList_some, List.cons_append, List.tail_cons, List.nil_append]
  obtain ⟨q', hq1, hq2, hq3⟩ := hring
  cases hof : c.outFifo
  · -- no output FIFO
    obtain ⟨ho1, ho2⟩ := h.off hof
    subst ho2
    refine ⟨q', [], ⟨hq1, ?_, ?_, ?_, ?_, ?_⟩, ?_, hq2, hne, fun hc => by simp at hc⟩
    · simp only [S.step]; rw [adv_length]; exact h.pl
    · simp only [S.step, hof, Bool.false_and, Bool.false_eq_true, if_false]; exact h.orep
    · intro _; simp only [S.step, hof, ho1, Bool.false_and, Bool.false_eq_true, if_false]; simp
    · intro hc; rw [hof] at hc; simp at hc
    · intro hc; rw [hof] at hc; simp at hc
    · rw [outBeat_eq]
      have hor : (s.step c i).oreg = none := by simp only [S.step, hof, ho1, Bool.false_and, Bool.false_eq_true, if_false]; simp
      have hmo : s.mout c = s.pipe.head?.join := by simp [S.mout, hof]
      have hpipe : (s.step c i).pipe = adv (s.rdyOut c i) s.pipe (if s.rdEn c i then some (s.mem (s.rd % 2 ^ c.aw)) else none) := by
        simp only [S.step, S.rdyPipe, hof, Bool.false_eq_true, if_false]
      unfold contents
      rw [hor, hpipe, ho1, hmo]
      simp only [Option.toList_none, List.nil_append]
      cases hro : s.rdyOut c i
      · simp only [Bool.false_eq_true, if_false, List.nil_append]
        rw [adv_false]
        have : (if s.pipe.any Option.isNone then (if s.rdEn c i then some (s.mem (s.rd % 2 ^ c.aw)) else none).toList else []) =
            (if s.rdEn c i then some (s.mem (s.rd % 2 ^ c.aw)) else none).toList := by
          cases ha : s.pipe.any Option.isNone
          · have : s.rdEn c i = false := by simp [S.rdEn, S.rdyPipe, hof, hro, ha]
            simp [this]
          · simp
        rw [this, List.append_assoc, hq3, List.append_assoc]
      · rw [adv_true _ _ h.ne]
        simp only [if_true]
        rw [vals_append, vals_single, List.append_assoc, hq3, ← List.append_assoc, ← vals_head, List.append_assoc]
  · -- output FIFO
    have hH := oaw_half c
    have hvl : (vals s.pipe).length ≤ c.pl + 1 := by rw [← h.pl]; exact vals_length _
    have htot : o.length + (vals s.pipe).length ≤ c.half + c.pl + 2 := by
      rcases h.hf1 hof with h1 | h1
      · exact h1
      · have := h.hf0 hof h1; omega
    have hvh := congrArg List.length (vals_head s.pipe)
    rw [List.length_append] at hvh
    have hput : (s.pipe.head?.join).isSome = true → s.ofull c = false := by
      intro hs
      have h1 : (s.pipe.head?.join).toList.length = 1 := by
        cases hh : s.pipe.head?.join
        · rw [hh] at hs; simp at hs
        · rfl
      unfold S.ofull
      rw [h.orep.full, decide_eq_false_iff_not]
      omega
    -- put
    have p1 : Rep c.oaw (s.step c i).omem s.ord (s.step c i).owr (o ++ (s.pipe.head?.join).toList) := by
      cases hh : s.pipe.head?.join with
      | none => simp only [S.step, hh, hof]; simpa using h.orep
      | some b =>
        have hfl := hput (by rw [hh]; rfl)
        have hlen : o.length < 2 ^ c.oaw := by
          have := h.orep.full
          unfold S.ofull at hfl
          rw [this, decide_eq_false_iff_not] at hfl
          have := h.orep.le
          omega
        simp only [S.step, hh, hof, hfl]
        simpa using h.orep.put b hlen
    have hget : ∃ o', Rep c.oaw (s.step c i).omem (s.step c i).ord (s.step c i).owr o' ∧ s.outBeat c i ++ ((s.step c i).oreg.toList ++ o') = s.oreg.toList ++ (o ++ (s.pipe.head?.join).toList) ∧
        o'.length ≤ (o ++ (s.pipe.head?.join).toList).length ∧
        o' = (if !s.oempty && (s.oreg.isNone || s.rdyOut c i) then o.tail else o) ++ (s.pipe.head?.join).toList := by
      rw [outBeat_eq]
      have hmo : s.mout c = s.oreg := by simp [S.mout, hof]
      rw [hmo]
      have hoe : s.oempty = decide (o = []) := h.orep.empty
      by_cases hg : (!s.oempty && (s.oreg.isNone || s.rdyOut c i)) = true
      · have hon : o ≠ [] := by rw [hoe] at hg; simp at hg; exact hg.1
        obtain ⟨b, t, e⟩ := List.exists_cons_of_ne_nil hon
        subst e
        rw [List.cons_append] at p1
        have hg2 := h.orep.get.1
        refine ⟨t ++ (s.pipe.head?.join).toList, ?_, ?_, by simp, by rw [if_pos hg]; rfl⟩
        · have : (s.step c i).ord = inc c.oaw s.ord := by simp only [S.step, hof, hg, Bool.and_self, if_true]
          rw [this]; exact p1.get.2
        · have : (s.step c i).oreg = some b := by simp only [S.step, hof, hg, Bool.and_self, if_true, hg2]
          rw [this]
          cases hr : s.oreg with
          | none => simp
          | some x =>
            rw [hr] at hg
            simp only [Option.isNone_some, Bool.false_or, Bool.and_eq_true] at hg
            simp [hg.2]
      · have hg' : (!s.oempty && (s.oreg.isNone || s.rdyOut c i)) = false := Bool.not_eq_true _ ▸ hg
        have e1 : (s.step c i).ord = s.ord := by simp only [S.step, hof, hg', Bool.and_false, Bool.false_eq_true, if_false]
        have e2 : (s.step c i).oreg = if s.rdyOut c i then none else s.oreg := by simp only [S.step, hof, hg', Bool.and_false, Bool.false_eq_true, if_false]
        refine ⟨_, by rw [e1]; exact p1, ?_, Nat.le_refl _, by rw [if_neg hg]⟩
        rw [e2]
        cases s.rdyOut c i <;> simp
    obtain ⟨o', g1, g2, g3, g4⟩ := hget
    have hpipe : (s.step c i).pipe = s.pipe.tail ++ [if s.rdEn c i then some (s.mem (s.rd % 2 ^ c.aw)) else none] := by
      simp only [S.step, S.rdyPipe, hof, if_true]
      exact adv_true _ _ h.ne
    have hhalf : (s.step c i).half = decide (o.length ≥ c.half) := by
      simp only [S.step]; rw [h.orep.dist]; rfl
    have hvp : vals (s.step c i).pipe = vals s.pipe.tail ++ (if s.rdEn c i then some (s.mem (s.rd % 2 ^ c.aw)) else none).toList := by
      rw [hpipe, vals_append, vals_single]
    have hh1 : (s.pipe.head?.join).toList.length ≤ 1 := by cases s.pipe.head?.join <;> simp
    refine ⟨q', o', ⟨hq1, ?_, g1, ?_, ?_, ?_⟩, ?_, hq2, hne, fun _ => g4⟩
    · simp only [S.step]; rw [adv_length]; exact h.pl
    · intro hc; rw [hof] at hc; simp at hc
    · intro _ hh
      rw [hhalf, decide_eq_false_iff_not] at hh
      rw [List.length_append] at g3
      omega
    · intro _
      rw [hhalf, hvp]
      by_cases hge : o.length ≥ c.half
      · left
        rw [List.length_append] at g3 ⊢
        by_cases hhf : s.half = true
        · have hr : s.rdEn c i = false := by simp [S.rdEn, hof, hhf]
          rw [hr]
          simp only [Bool.false_eq_true, if_false, Option.toList_none, List.length_nil]
          omega
        · have h0 := h.hf0 hof (by simpa using hhf)
          have hx : (if s.rdEn c i then some (s.mem (s.rd % 2 ^ c.aw)) else none).toList.length ≤ 1 := by cases s.rdEn c i <;> simp
          omega
      · right; simp; omega
    · unfold contents
      rw [hvp]
      rw [← List.append_assoc (s.step c i).oreg.toList, ← List.append_assoc (s.outBeat c i), g2, List.append_assoc (vals s.pipe.tail), hq3, vals_head s.pipe]
      simp only [List.append_assoc]

end Corundum.AxisFifo
