import Verif.Spec.CfgSpace
import Verif.Proof.PcieIf
/-! Bits of the registers. -/
namespace Corundum.CfgSpace

theorem andNot_bit (x m i : Nat) : (andNot x m).testBit i = (x.testBit i && !m.testBit i) := by
  simp [andNot, Nat.testBit_xor, Nat.testBit_and]
  cases x.testBit i <;> cases m.testBit i <;> rfl

theorem byte_bit (k i : Nat) : (0xff <<< (8 * k)).testBit i = decide (i / 8 = k) := by
  rw [Nat.testBit_shiftLeft, show (0xff : Nat) = 2 ^ 8 - 1 from rfl, Nat.testBit_two_pow_sub_one, Bool.eq_iff_iff]
  simp only [Bool.and_eq_true, decide_eq_true_eq]
  omega

theorem mask_bit (mask k : Nat) : (mask &&& (1 <<< k) ≠ 0) ↔ mask.testBit k = true := by
  have h := PcieIf.flag_eq mask k
  constructor
  · intro e; rw [← h]; simp [e]
  · intro e e'; rw [e, e'] at h; cases h

theorem bmuLoop_bit (new mask i : Nat) : ∀ (n k old : Nat), mask < 2 ^ (k + n) →
    (bmuLoop new mask n k old).testBit i = if k ≤ i / 8 ∧ mask.testBit (i / 8) = true then new.testBit i else old.testBit i := by
  intro n
  induction n with
  | zero =>
    intro k old h
    rw [bmuLoop]
    rw [if_neg]
    intro hh
    have := Nat.testBit_lt_two_pow (x := mask) (i := i / 8) (Nat.lt_of_lt_of_le h (Nat.pow_le_pow_right (by omega) (by omega)))
    rw [this] at hh; exact absurd hh.2 (by simp)
  | succ n ih =>
    intro k old h
    rw [bmuLoop]
    split
    · rw [ih (k + 1) _ (by rw [show k + 1 + n = k + (n + 1) from by omega]; exact h)]
      by_cases hk : k + 1 ≤ i / 8
      · by_cases hm : mask.testBit (i / 8) = true
        · rw [if_pos ⟨hk, hm⟩, if_pos ⟨by omega, hm⟩]
        · rw [if_neg (fun e : k + 1 ≤ i / 8 ∧ mask.testBit (i / 8) = true => hm e.2), if_neg (c := k ≤ i / 8 ∧ mask.testBit (i / 8) = true) (fun e => hm e.2)]
          split
          · rw [Nat.testBit_or, andNot_bit, Nat.testBit_and, byte_bit]
            have : ¬ (i / 8 = k) := by omega
            simp [this]
          · rfl
      · rw [if_neg (c := k + 1 ≤ i / 8 ∧ mask.testBit (i / 8) = true) (fun e => hk e.1)]
        by_cases hk' : i / 8 = k
        · by_cases hm : mask.testBit k = true
          · rw [if_pos ((mask_bit _ _).2 hm), if_pos ⟨by omega, by rw [hk']; exact hm⟩, Nat.testBit_or, andNot_bit, Nat.testBit_and, byte_bit]
            simp [hk']
          · rw [if_neg (fun e => hm ((mask_bit _ _).1 e)), if_neg (fun e => hm (by rw [hk'] at e; exact e.2))]
        · rw [if_neg (c := k ≤ i / 8 ∧ mask.testBit (i / 8) = true) (fun e => hk' (by omega))]
          split
          · rw [Nat.testBit_or, andNot_bit, Nat.testBit_and, byte_bit]
            simp [hk']
          · rfl
    · rename_i hk
      rw [if_neg]
      intro hh
      rw [Nat.one_shiftLeft] at hk
      have := Nat.testBit_lt_two_pow (x := mask) (i := i / 8) (Nat.lt_of_lt_of_le (Nat.lt_of_not_le hk) (Nat.pow_le_pow_right (by omega) hh.1))
      rw [this] at hh; exact absurd hh.2 (by simp)

theorem bmu_bit (old mask new : Nat) (bm : Option Nat) (i : Nat) :
    (byteMaskUpdate old mask new bm).testBit i = if mask.testBit (i / 8) = true ∧ (∀ b, bm = some b → b.testBit i = true) then new.testBit i else old.testBit i := by
  have hm : mask < 2 ^ (0 + (mask + 1)) := by
    have := Nat.lt_two_pow_self (n := mask)
    have := Nat.pow_le_pow_right (n := 2) (by omega) (show mask ≤ 0 + (mask + 1) by omega)
    omega
  cases bm with
  | none =>
    rw [byteMaskUpdate, bmuLoop_bit _ _ _ _ _ _ hm]
    simp
  | some b =>
    rw [byteMaskUpdate, bmuLoop_bit _ _ _ _ _ _ hm]
    simp only [Nat.zero_le, true_and, Option.some.injEq, forall_eq', Nat.testBit_or, Nat.testBit_and, andNot_bit]
    by_cases h : mask.testBit (i / 8) = true <;> cases hb : b.testBit i <;> simp [h]

/-! ### fields -/

/-- a bit of an optional mask -/
def bmBit : Option Nat → Nat → Bool
  | some b, j => b.testBit j
  | none, _ => true

/-- where a bit of a register comes from -/
inductive Src where
  | bit (a : Attr) (j : Nat)
  | one
deriving DecidableEq

def Src.eval (o : Obj) : Src → Bool
  | .bit a j => (o a).testBit j
  | .one => true

def Rd.src (i : Nat) : Rd → List Src
  | .fld a m l r => if l ≤ i + r ∧ i + r - l < a.width ∧ bmBit m (i + r - l) = true then [.bit a (i + r - l)] else []
  | .flag a p => if i = p then [.bit a 0] else []
  | .const v => if v.testBit i then [.one] else []

/-- flags are one bit wide -/
def Rd.ok : Rd → Bool
  | .flag a _ => a.width == 1
  | _ => true

/-- the attributes are within their widths -/
def WF (o : Obj) : Prop := ∀ a, o a < 2 ^ a.width

theorem WF.bit {o : Obj} (w : WF o) (a : Attr) (j : Nat) (h : a.width ≤ j) : (o a).testBit j = false :=
  Nat.testBit_lt_two_pow (Nat.lt_of_lt_of_le (w a) (Nat.pow_le_pow_right (by omega) h))

theorem Rd.bit {o : Obj} (w : WF o) (f : Rd) (h : f.ok = true) (i : Nat) : (f.val o).testBit i = (f.src i).any (Src.eval o) := by
  cases f with
  | const v =>
    simp only [Rd.val, Rd.src]
    cases v.testBit i <;> simp [Src.eval]
  | flag a p =>
    simp only [Rd.ok, beq_iff_eq] at h
    have ha := w a
    rw [h] at ha
    simp only [Rd.val, Rd.src]
    by_cases e : i = p
    · subst e
      rw [if_pos rfl]
      have : o a = 0 ∨ o a = 1 := by omega
      rcases this with e | e <;> simp [e, Src.eval, Nat.one_shiftLeft, Nat.testBit_two_pow]
    · rw [if_neg e]
      split
      · rw [Nat.one_shiftLeft, Nat.testBit_two_pow]; simp; omega
      · simp
  | fld a m l r =>
    simp only [Rd.val, Rd.src]
    rw [Nat.testBit_shiftRight, Nat.testBit_shiftLeft]
    by_cases h1 : l ≤ i + r
    · by_cases h2 : i + r - l < a.width
      · cases m with
        | none => rw [if_pos ⟨h1, h2, rfl⟩]; simp [Src.eval, Nat.add_comm r i, h1]
        | some m =>
          by_cases h3 : m.testBit (i + r - l) = true
          · rw [if_pos ⟨h1, h2, h3⟩]
            simp [Src.eval, Nat.add_comm r i, h1, Nat.testBit_and, h3]
          · rw [if_neg (fun e => h3 e.2.2)]
            simp [Nat.add_comm r i, Nat.testBit_and, h3]
      · rw [if_neg (fun e => h2 e.2.1)]
        have := w.bit a (i + r - l) (by omega)
        cases m <;> simp [Nat.add_comm r i, Nat.testBit_and, this]
    · rw [if_neg (fun e => h1 e.1)]
      have : ¬ (r + i ≥ l) := by omega
      simp [this]

theorem value_bit {o : Obj} (w : WF o) (l : List Rd) (h : l.all Rd.ok = true) (i : Nat) : (value o l).testBit i = (l.flatMap (Rd.src i)).any (Src.eval o) := by
  have : ∀ (l : List Rd) (v : Nat), l.all Rd.ok = true → (l.foldl (fun v f => v ||| f.val o) v).testBit i = (v.testBit i || (l.flatMap (Rd.src i)).any (Src.eval o)) := by
    intro l
    induction l with
    | nil => intro v _; simp
    | cons f l ih =>
      intro v h
      rw [List.all_cons, Bool.and_eq_true] at h
      rw [List.foldl_cons, ih _ h.2, Nat.testBit_or, Rd.bit w f h.1, List.flatMap_cons, List.any_append, Bool.or_assoc]
  rw [value, this l 0 h]; simp

/-- registers have 32 bits -/
def Rd.fits : Rd → Bool
  | .fld a m l r => decide (a.width + l ≤ 32 + r) || (match m with
      | some m => decide ((m <<< l) >>> r < 2 ^ 32)
      | none => false)
  | .flag _ p => decide (p < 32)
  | .const v => decide (v < 2 ^ 32)

theorem Rd.lt {o : Obj} (w : WF o) (f : Rd) (h : f.fits = true) : f.val o < 2 ^ 32 := by
  apply Nat.lt_pow_two_of_testBit
  intro i hi
  cases f with
  | const v =>
    simp only [Rd.fits, decide_eq_true_eq] at h
    exact Nat.testBit_lt_two_pow (Nat.lt_of_lt_of_le h (Nat.pow_le_pow_right (by omega) hi))
  | flag a p =>
    simp only [Rd.fits, decide_eq_true_eq] at h
    simp only [Rd.val]
    split
    · rw [Nat.one_shiftLeft, Nat.testBit_two_pow]; simp; omega
    · simp
  | fld a m l r =>
    simp only [Rd.fits, Bool.or_eq_true, decide_eq_true_eq] at h
    simp only [Rd.val, Nat.testBit_shiftRight, Nat.testBit_shiftLeft]
    rcases h with h | h
    · by_cases hl : l ≤ r + i
      · have := w.bit a (r + i - l) (by omega)
        cases m <;> simp [Nat.testBit_and, this]
      · have : ¬ (r + i ≥ l) := hl
        simp [this]
    · cases m with
      | none => cases h
      | some m =>
        simp only [decide_eq_true_eq] at h
        have := Nat.testBit_lt_two_pow (i := i) (Nat.lt_of_lt_of_le h (Nat.pow_le_pow_right (by omega) hi))
        rw [Nat.testBit_shiftRight, Nat.testBit_shiftLeft] at this
        simp only [Nat.testBit_and]
        cases h1 : decide (r + i ≥ l)
        · simp
        · rw [h1] at this; simp only [Bool.true_and] at this ⊢; rw [this]; simp

theorem value_lt {o : Obj} (w : WF o) (l : List Rd) (h : l.all Rd.fits = true) : value o l < 2 ^ 32 := by
  have : ∀ (l : List Rd) (v : Nat), v < 2 ^ 32 → l.all Rd.fits = true → l.foldl (fun v f => v ||| f.val o) v < 2 ^ 32 := by
    intro l
    induction l with
    | nil => intro v h _; exact h
    | cons f l ih =>
      intro v hv h
      rw [List.all_cons, Bool.and_eq_true] at h
      exact ih _ (Nat.or_lt_two_pow hv (Rd.lt w f h.1)) h.2
  exact this l 0 (by omega) h

/-! ### assignments -/

/-- what an assignment does to a bit -/
inductive Eff where
  | set (lane p : Nat)
  | orr (lane p : Nat)
  | zero (lane : Nat)
  | clr (lane p : Nat)
  | const (b : Bool)
deriving DecidableEq

def Eff.app (data mask : Nat) (b : Bool) : Eff → Bool
  | .set lane p => if mask.testBit lane then data.testBit p else b
  | .orr lane p => if mask.testBit lane then b || data.testBit p else b
  | .zero lane => if mask.testBit lane then false else b
  | .clr lane p => if mask.testBit lane && data.testBit p then false else b
  | .const c => c

def Wr.attr : Wr → Option Attr
  | .set a .. | .clr a .. | .upd a .. | .wclr a .. | .or a .. | .and a .. => some a
  | _ => none

def Wr.effJ (j : Nat) : Wr → List Eff
  | .set _ keep m sh lane => match keep.testBit j, m.testBit j with
    | true, false => []
    | false, false => [.zero lane]
    | false, true => [.set lane (sh + j)]
    | true, true => [.orr lane (sh + j)]
  | .clr _ p lane => [.clr lane p]
  | .upd _ mm ml mr dl dr bm =>
    if ml ≤ mr + j / 8 ∧ mm.testBit (mr + j / 8 - ml) = true ∧ bmBit bm j = true then
      if dl ≤ dr + j then [.set (mr + j / 8 - ml) (dr + j - dl)] else [.zero (mr + j / 8 - ml)]
    else []
  | .wclr _ mm mr sh bm => if mm.testBit (mr + j / 8) = true ∧ bm.testBit j = true then [.clr (mr + j / 8) (sh + j)] else []
  | .or _ v => if v.testBit j then [.const true] else []
  | .and _ v => if v.testBit j then [] else [.const false]
  | _ => []

def Wr.eff (a : Attr) (j : Nat) (w : Wr) : List Eff := if w.attr = some a then w.effJ j else []

def effs (data mask : Nat) (l : List Eff) (b : Bool) : Bool := l.foldl (Eff.app data mask) b

theorem put_same (o : Obj) (a : Attr) (v : Nat) : o.put a v a = v := if_pos rfl

theorem put_ne (o : Obj) (a b : Attr) (v : Nat) (h : b ≠ a) : o.put a v b = o b := if_neg h

theorem bm_match (bm : Option Nat) (j : Nat) : (∀ b, bm = some b → b.testBit j = true) ↔ bmBit bm j = true := by
  cases bm <;> simp [bmBit]

theorem Wr.bit (data mask : Nat) (o o' : Obj) (w : Wr) (h : w.app data mask o = some o') (a : Attr) (j : Nat) :
    (o' a).testBit j = effs data mask (w.eff a j) ((o a).testBit j) := by
  unfold Wr.eff
  cases w with
  | set b keep m sh lane =>
    simp only [Wr.app, Option.some.injEq] at h
    subst h
    simp only [Wr.attr, Option.some.injEq]
    by_cases e : b = a
    · subst e
      rw [if_pos rfl]
      by_cases hm : mask.testBit lane = true
      · rw [if_pos hm, put_same, Nat.testBit_or, Nat.testBit_and, Nat.testBit_and, Nat.testBit_shiftRight]
        simp only [Wr.effJ]
        cases keep.testBit j <;> cases m.testBit j <;> simp [effs, Eff.app, hm]
      · rw [if_neg hm]
        simp only [Wr.effJ]
        cases keep.testBit j <;> cases m.testBit j <;> simp [effs, Eff.app, hm]
    · rw [if_neg e]
      split
      · rw [put_ne _ _ _ _ (Ne.symm e)]; rfl
      · rfl
  | clr b p lane =>
    simp only [Wr.app, Option.some.injEq] at h
    subst h
    simp only [Wr.attr, Option.some.injEq]
    by_cases e : b = a
    · subst e
      rw [if_pos rfl]
      simp only [Wr.effJ, effs, List.foldl_cons, List.foldl_nil, Eff.app]
      by_cases hm : mask.testBit lane = true ∧ data.testBit p = true
      · rw [if_pos hm, put_same]; simp [hm.1, hm.2]
      · rw [if_neg hm, if_neg (by simpa using hm)]
    · rw [if_neg e]
      split
      · rw [put_ne _ _ _ _ (Ne.symm e)]; rfl
      · rfl
  | upd b mm ml mr dl dr bm =>
    simp only [Wr.app, Option.some.injEq] at h
    subst h
    simp only [Wr.attr, Option.some.injEq]
    by_cases e : b = a
    · subst e
      rw [if_pos rfl, put_same, bmu_bit]
      simp only [bm_match, Nat.testBit_shiftRight, Nat.testBit_shiftLeft, Nat.testBit_and, Wr.effJ]
      by_cases h1 : ml ≤ mr + j / 8
      · by_cases h2 : mm.testBit (mr + j / 8 - ml) = true
        · by_cases h3 : bmBit bm j = true
          · rw [if_pos (show ml ≤ mr + j / 8 ∧ _ from ⟨h1, h2, h3⟩)]
            by_cases h4 : dl ≤ dr + j
            · rw [if_pos h4]
              by_cases hm : mask.testBit (mr + j / 8 - ml) = true
              · rw [if_pos (by simp [h1, h2, hm]; exact h3)]; simp [h4, effs, Eff.app, hm]
              · rw [if_neg (by simp [h1, h2, hm])]; simp [effs, Eff.app, hm]
            · rw [if_neg h4]
              have h4' : ¬ (dr + j ≥ dl) := h4
              by_cases hm : mask.testBit (mr + j / 8 - ml) = true
              · rw [if_pos (by simp [h1, h2, hm]; exact h3)]; simp [h4', effs, Eff.app, hm]
              · rw [if_neg (by simp [h1, h2, hm])]; simp [effs, Eff.app, hm]
          · rw [if_neg (fun e => h3 e.2), if_neg (fun e => h3 e.2.2)]; rfl
        · rw [if_neg (by simp [h2]), if_neg (fun e => h2 e.2.1)]; rfl
      · have h1' : ¬ (mr + j / 8 ≥ ml) := h1
        rw [if_neg (by simp [h1']), if_neg (fun e => h1 e.1)]; rfl
    · rw [if_neg e, put_ne _ _ _ _ (Ne.symm e)]; rfl
  | wclr b mm mr sh bm =>
    simp only [Wr.app, Option.some.injEq] at h
    subst h
    simp only [Wr.attr, Option.some.injEq]
    by_cases e : b = a
    · subst e
      rw [if_pos rfl, put_same, bmu_bit]
      simp only [Option.some.injEq, forall_eq', Nat.testBit_shiftRight, Nat.testBit_and, Wr.effJ, Bool.and_eq_true]
      by_cases h1 : mm.testBit (mr + j / 8) = true
      · by_cases h2 : bm.testBit j = true
        · rw [if_pos (show _ ∧ _ from ⟨h1, h2⟩)]
          by_cases hm : mask.testBit (mr + j / 8) = true <;> by_cases hd : data.testBit (sh + j) = true <;> simp [effs, Eff.app, hm, hd, h1, h2]
        · rw [if_neg (fun e => h2 e.2.2), if_neg (fun e => h2 e.2)]; rfl
      · rw [if_neg (fun e => h1 e.1.2), if_neg (fun e => h1 e.1)]; rfl
    · rw [if_neg e, put_ne _ _ _ _ (Ne.symm e)]; rfl
  | or b v =>
    simp only [Wr.app, Option.some.injEq] at h
    subst h
    simp only [Wr.attr, Option.some.injEq]
    by_cases e : b = a
    · subst e
      rw [if_pos rfl, put_same, Nat.testBit_or]
      simp only [Wr.effJ]
      cases v.testBit j <;> simp [effs, Eff.app]
    · rw [if_neg e, put_ne _ _ _ _ (Ne.symm e)]; rfl
  | and b v =>
    simp only [Wr.app, Option.some.injEq] at h
    subst h
    simp only [Wr.attr, Option.some.injEq]
    by_cases e : b = a
    · subst e
      rw [if_pos rfl, put_same, Nat.testBit_and]
      simp only [Wr.effJ]
      cases v.testBit j <;> simp [effs, Eff.app]
    · rw [if_neg e, put_ne _ _ _ _ (Ne.symm e)]; rfl
  | raiseIf b =>
    simp only [Wr.app] at h
    split at h
    · cases h
    · cases h; simp [Wr.attr, effs]
  | raise => cases h

theorem assign_cons (data mask : Nat) (o : Obj) (w : Wr) (l : List Wr) : assign data mask o (w :: l) = (w.app data mask o).bind fun o => assign data mask o l := rfl

theorem assign_bit (data mask : Nat) (a : Attr) (j : Nat) : ∀ (l : List Wr) (o o' : Obj), assign data mask o l = some o' →
    (o' a).testBit j = effs data mask (l.flatMap (Wr.eff a j)) ((o a).testBit j)
  | [], o, o', h => by cases h; rfl
  | w :: l, o, o', h => by
    rw [assign_cons] at h
    obtain ⟨o1, h1, h2⟩ := Option.bind_eq_some_iff.1 h
    rw [assign_bit data mask a j l o1 o' h2, Wr.bit data mask o o1 w h1 a j, List.flatMap_cons, effs, effs, effs, List.foldl_append]

/-! ### conditions on the tables -/

/-- the bits of a register behave as the masks say -/
def bitOk (rw w1c : Nat) (i : Nat) (srcs : List Src) (ws : List Wr) : Bool :=
  match srcs with
  | [.bit a j] =>
    let e := ws.flatMap (Wr.eff a j)
    if rw.testBit i then decide (e = [.set (i / 8) i]) else if w1c.testBit i then decide (e = [.clr (i / 8) i]) else decide (e = [])
  | l => !rw.testBit i && (l.isEmpty || !w1c.testBit i) && l.all fun s => match s with
    | .bit a j => decide (ws.flatMap (Wr.eff a j) = [])
    | .one => true

def regOk (rw w1c dev : Nat) (rs : List Rd) (ws : List Wr) : Bool :=
  (List.range 32).all fun i => dev.testBit i || bitOk rw w1c i (rs.flatMap (Rd.src i)) ws

/-- a write does not change another register -/
def indep (rs : List Rd) (ws : List Wr) : Bool :=
  rs.all fun f => match f with
    | .fld a .. | .flag a _ => ws.all fun w => decide (w.attr ≠ some a) || (List.range 32).all fun i => (f.src i).all fun s => match s with
      | .bit a j => decide (w.eff a j = [])
      | .one => true
    | .const _ => true

theorem eval_same {o o' : Obj} {data mask : Nat} {ws : List Wr} (h : assign data mask o ws = some o') (s : Src)
    (hs : (match s with
      | .bit a j => decide (ws.flatMap (Wr.eff a j) = [])
      | .one => true) = true) : s.eval o' = s.eval o := by
  cases s with
  | one => rfl
  | bit a j =>
    simp only [decide_eq_true_eq] at hs
    simp only [Src.eval]
    rw [assign_bit data mask a j ws o o' h, hs]; rfl

theorem any_congr {α : Type} (l : List α) (p q : α → Bool) (h : ∀ x ∈ l, p x = q x) : l.any p = l.any q := by
  induction l with
  | nil => rfl
  | cons x l ih => rw [List.any_cons, List.any_cons, h x (List.mem_cons_self ..), ih fun y hy => h y (List.mem_cons_of_mem _ hy)]

theorem reg_bit {o o' : Obj} {data mask rw w1c dev : Nat} {rs : List Rd} {ws : List Wr} (w : WF o) (w' : WF o') (hk : rs.all Rd.ok = true)
    (ok : regOk rw w1c dev rs ws = true) (h : assign data mask o ws = some o') (i : Nat) (hi : i < 32) (hd : dev.testBit i = false) :
    (value o' rs).testBit i = if mask.testBit (i / 8) then after rw w1c i (data.testBit i) ((value o rs).testBit i) else (value o rs).testBit i := by
  rw [value_bit w' rs hk, value_bit w rs hk]
  have ok := List.all_eq_true.1 ok i (List.mem_range.2 hi)
  rw [hd, Bool.false_or] at ok
  unfold bitOk at ok
  split at ok
  · rename_i a j e
    rw [e]
    simp only [List.any_cons, List.any_nil, Bool.or_false, Src.eval]
    rw [assign_bit data mask a j ws o o' h]
    unfold after
    cases h1 : rw.testBit i
    · rw [h1] at ok
      cases h2 : w1c.testBit i
      · rw [h2] at ok
        simp only [Bool.false_eq_true, if_false, decide_eq_true_eq] at ok
        rw [ok]; simp [effs]
      · rw [h2] at ok
        simp only [Bool.false_eq_true, if_false, if_true, decide_eq_true_eq] at ok
        rw [ok]
        simp only [effs, List.foldl_cons, List.foldl_nil, Eff.app]
        cases mask.testBit (i / 8) <;> cases data.testBit i <;> simp
    · rw [h1] at ok
      simp only [if_true, decide_eq_true_eq] at ok
      rw [ok]
      simp [effs, Eff.app]
  · simp only [Bool.and_eq_true, Bool.not_eq_true', Bool.or_eq_true] at ok
    obtain ⟨⟨h1, h2⟩, h3⟩ := ok
    have e := any_congr (rs.flatMap (Rd.src i)) (Src.eval o') (Src.eval o) fun s hs => eval_same h s (List.all_eq_true.1 h3 s hs)
    rw [e]
    unfold after
    rw [h1]
    rcases h2 with h2 | h2
    · rw [List.isEmpty_iff.1 h2]; simp
    · rw [h2]; simp

theorem flatMap_nil {α β : Type} (l : List α) (f : α → List β) (h : ∀ x ∈ l, f x = []) : l.flatMap f = [] := by
  induction l with
  | nil => rfl
  | cons x l ih => rw [List.flatMap_cons, h x (List.mem_cons_self ..), ih fun y hy => h y (List.mem_cons_of_mem _ hy)]; rfl

theorem indep_value {o o' : Obj} {data mask : Nat} {rs : List Rd} {ws : List Wr} (w : WF o) (w' : WF o') (hk : rs.all Rd.ok = true) (hf : rs.all Rd.fits = true)
    (ok : indep rs ws = true) (h : assign data mask o ws = some o') : value o' rs = value o rs := by
  apply Nat.eq_of_testBit_eq
  intro i
  by_cases hi : i < 32
  · rw [value_bit w' rs hk, value_bit w rs hk]
    apply any_congr
    intro s hs
    obtain ⟨f, hf1, hf2⟩ := List.mem_flatMap.1 hs
    apply eval_same h
    have ok := List.all_eq_true.1 ok f hf1
    cases s with
    | one => rfl
    | bit a j =>
      simp only [decide_eq_true_eq]
      apply flatMap_nil
      intro x hx
      have key : ∀ b, (ws.all fun w => decide (w.attr ≠ some b) || (List.range 32).all fun i => (f.src i).all fun s => match s with
          | .bit a j => decide (w.eff a j = [])
          | .one => true) = true → a = b → x.eff a j = [] := by
        intro b hb e
        have hb := List.all_eq_true.1 hb x hx
        rw [Bool.or_eq_true] at hb
        rcases hb with hb | hb
        · rw [decide_eq_true_eq] at hb
          unfold Wr.eff
          rw [if_neg (by rw [e]; exact hb)]
        · have := List.all_eq_true.1 (List.all_eq_true.1 hb i (List.mem_range.2 hi)) _ hf2
          simpa using this
      cases f with
      | const v =>
        simp only [Rd.src] at hf2
        split at hf2 <;> simp at hf2
      | flag b p =>
        simp only [Rd.src] at hf2
        split at hf2
        · simp only [List.mem_singleton, Src.bit.injEq] at hf2
          exact key b ok hf2.1
        · cases hf2
      | fld b m l r =>
        have hab : a = b := by
          simp only [Rd.src] at hf2
          split at hf2
          · simp only [List.mem_singleton, Src.bit.injEq] at hf2
            exact hf2.1
          · cases hf2
        exact key b ok hab
  · have hp : 2 ^ 32 ≤ 2 ^ i := Nat.pow_le_pow_right (by omega) (by omega)
    rw [Nat.testBit_lt_two_pow (Nat.lt_of_lt_of_le (value_lt w' rs hf) hp), Nat.testBit_lt_two_pow (Nat.lt_of_lt_of_le (value_lt w rs hf) hp)]

/-! ### widths are kept -/

def Wr.wf : Wr → Bool
  | .set a _ m _ _ => decide (m < 2 ^ a.width)
  | .upd a mm ml mr _ _ bm => decide ((((15 &&& mm) <<< ml) >>> mr) * 8 < 8 * 2 ^ (a.width / 8)) || (match bm with
      | some b => decide (b < 2 ^ a.width)
      | none => false)
  | .or a v => decide (v < 2 ^ a.width)
  | _ => true

theorem Wr.wf_app (data mask : Nat) (hm : mask < 16) (o o' : Obj) (w : Wr) (h : w.app data mask o = some o') (hw : w.wf = true) (wf : WF o) : WF o' := by
  intro a
  apply Nat.lt_pow_two_of_testBit
  intro j hj
  have hz := wf.bit a j hj
  have hlt : ∀ v, v < 2 ^ a.width → v.testBit j = false := fun v hv => Nat.testBit_lt_two_pow (Nat.lt_of_lt_of_le hv (Nat.pow_le_pow_right (by omega) hj))
  rw [Wr.bit data mask o o' w h a j, hz]
  unfold Wr.eff
  split
  · rename_i e
    cases w with
    | set b keep m sh lane =>
      simp only [Wr.attr, Option.some.injEq] at e
      subst e
      simp only [Wr.wf, decide_eq_true_eq] at hw
      simp only [Wr.effJ, hlt _ hw]
      cases keep.testBit j <;> simp [effs, Eff.app]
    | clr b p lane => simp [Wr.effJ, effs, Eff.app]
    | upd b mm ml mr dl dr bm =>
      simp only [Wr.attr, Option.some.injEq] at e
      subst e
      simp only [Wr.wf, Bool.or_eq_true, decide_eq_true_eq] at hw
      simp only [Wr.effJ]
      split
      · rename_i hc
        rcases hw with hw | hw
        · by_cases hmm : mask.testBit (mr + j / 8 - ml) = true
          · exfalso
            have h15 : mr + j / 8 - ml < 4 := by
              apply Classical.byContradiction
              intro hn
              rw [Nat.testBit_lt_two_pow (Nat.lt_of_lt_of_le (show mask < 2 ^ 4 from hm) (Nat.pow_le_pow_right (by omega) (by omega)))] at hmm
              cases hmm
            have hb : (((15 &&& mm) <<< ml) >>> mr).testBit (j / 8) = true := by
              rw [Nat.testBit_shiftRight, Nat.testBit_shiftLeft, Nat.testBit_and, show (15 : Nat) = 2 ^ 4 - 1 from rfl, Nat.testBit_two_pow_sub_one, hc.2.1]
              simp [hc.1, h15]
            rw [Nat.testBit_lt_two_pow (Nat.lt_of_lt_of_le (show _ < 2 ^ (b.width / 8) from by omega) (Nat.pow_le_pow_right (by omega) (Nat.div_le_div_right hj)))] at hb
            cases hb
          · split <;> simp [effs, Eff.app, hmm]
        · cases bm with
          | none => cases hw
          | some m =>
            simp only [decide_eq_true_eq] at hw
            have := hlt _ hw
            have hc := hc.2.2
            rw [show bmBit (some m) j = m.testBit j from rfl, this] at hc; cases hc
      · rfl
    | wclr b mm mr sh bm =>
      simp only [Wr.effJ]
      split <;> simp [effs, Eff.app]
    | or b v =>
      simp only [Wr.attr, Option.some.injEq] at e
      subst e
      simp only [Wr.wf, decide_eq_true_eq] at hw
      simp [Wr.effJ, hlt _ hw, effs]
    | and b v =>
      simp only [Wr.effJ]
      split <;> simp [effs, Eff.app]
    | raiseIf b => cases e
    | raise => cases e
  · rfl

theorem assign_wf (data mask : Nat) (hm : mask < 16) : ∀ (l : List Wr) (o o' : Obj), assign data mask o l = some o' → l.all Wr.wf = true → WF o → WF o'
  | [], o, o', h, _, w => by cases h; exact w
  | x :: l, o, o', h, hw, w => by
    rw [assign_cons] at h
    obtain ⟨o1, h1, h2⟩ := Option.bind_eq_some_iff.1 h
    rw [List.all_cons, Bool.and_eq_true] at hw
    exact assign_wf data mask hm l o1 o' h2 hw.2 (Wr.wf_app data mask hm o o1 x h1 hw.1 w)

theorem assign_attr (data mask : Nat) (a : Attr) : ∀ (l : List Wr) (o o' : Obj), assign data mask o l = some o' → (l.all fun w => decide (w.attr ≠ some a)) = true → o' a = o a := by
  intro l o o' h hl
  apply Nat.eq_of_testBit_eq
  intro j
  rw [assign_bit data mask a j l o o' h, flatMap_nil]
  · rfl
  · intro w hw
    have := List.all_eq_true.1 hl w hw
    rw [decide_eq_true_eq] at this
    exact if_neg this

end Corundum.CfgSpace
