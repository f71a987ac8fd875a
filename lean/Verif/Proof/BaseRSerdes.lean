import Verif.Proof.BaseRSerdesEnc
import Verif.Proof.Scrambler
import Verif.Props.Scrambler
import Verif.Proof.XgmiiRun
/-! Coding, scrambling and bit reversal undone by the sink. -/
namespace Corundum.BaseRSerdes
open Corundum.BaseR (Word Block cat dF kF anyC isOs osCode SYNC_CTRL SYNC_DATA pyDec)
open Corundum.Scrambler (pyScr pyDescr pyBit)
open Corundum.Xgmii (Ch IDLE START TERM PRE Frame Rx wrap parse fill)

/-! ### scrambler -/

def Eq58 (s t : Nat) : Prop := ∀ j < 58, s.testBit j = t.testBit j

theorem pyBit_congr {s t : Nat} (h : Eq58 s t) (x i : Nat) : pyBit s x i = pyBit t x i := by
  unfold pyBit
  simp only [Scrambler.and_bit]
  rw [h 38 (by decide), h 57 (by decide)]

theorem descr_congr {s t : Nat} (h : Eq58 s t) (x : Nat) : ∀ n, (pyDescr s x n).2 = (pyDescr t x n).2 ∧ Eq58 (pyDescr s x n).1 (pyDescr t x n).1
  | 0 => ⟨rfl, h⟩
  | n + 1 => by
    obtain ⟨h1, h2⟩ := descr_congr h x n
    unfold pyDescr
    dsimp only
    refine ⟨?_, ?_⟩
    · rw [pyBit_congr h2, h1]
    · intro j hj
      rw [Scrambler.shl_bit _ _ j hj, Scrambler.shl_bit _ _ j hj]
      by_cases h0 : j = 0
      · rw [if_pos h0, if_pos h0]
      · rw [if_neg h0, if_neg h0, h2 (j - 1) (by omega)]

theorem descr_last (s x : Nat) : ∀ n, ∀ j < 58, (pyDescr s x n).1.testBit j = if j < n then x.testBit (n - 1 - j) else s.testBit (j - n)
  | 0, j, _ => by simp [pyDescr]
  | n + 1, j, hj => by
    unfold pyDescr
    dsimp only
    rw [Scrambler.shl_bit _ _ j hj, Scrambler.and_bit]
    by_cases h0 : j = 0
    · rw [if_pos h0, if_pos (by omega)]; congr 1; omega
    · rw [if_neg h0, descr_last s x n (j - 1) (by omega)]
      by_cases h1 : j < n + 1
      · rw [if_pos (by omega), if_pos h1]; congr 1; omega
      · rw [if_neg (by omega), if_neg h1]; congr 1; omega

theorem scr_last (s x : Nat) : ∀ n, (pyScr s x n).2 < 2 ^ n ∧ ∀ j < 58, (pyScr s x n).1.testBit j = if j < n then (pyScr s x n).2.testBit (n - 1 - j) else s.testBit (j - n)
  | 0 => ⟨by simp [pyScr], fun j _ => by simp [pyScr]⟩
  | n + 1 => by
    obtain ⟨hlt, ih⟩ := scr_last s x n
    obtain ⟨v, hv⟩ : ∃ v, v = pyBit (pyScr s x n).1 x n := ⟨_, rfl⟩
    have e : pyScr s x (n + 1) = ((((pyScr s x n).1 &&& 0x1ffffffffffffff) <<< 1) ||| v.toNat, if v then (pyScr s x n).2 ||| (1 <<< n) else (pyScr s x n).2) := by
      conv => lhs; unfold pyScr
      dsimp only
      rw [← hv]
      cases v <;> simp
    have hbit : ∀ i, (if v then (pyScr s x n).2 ||| (1 <<< n) else (pyScr s x n).2).testBit i = if i = n then v else (pyScr s x n).2.testBit i := by
      intro i
      have hn : (pyScr s x n).2.testBit n = false := Nat.testBit_lt_two_pow hlt
      cases v
      · by_cases hi : i = n
        · subst hi; simp [hn]
        · simp [hi]
      · rw [if_pos rfl, Nat.testBit_or, Nat.one_shiftLeft, Nat.testBit_two_pow]
        by_cases hi : i = n
        · subst hi; simp
        · rw [if_neg hi, decide_eq_false (fun e => hi e.symm), Bool.or_false]
    rw [e]
    refine ⟨Scrambler.or_bit_lt _ _ hlt v, ?_⟩
    intro j hj
    dsimp only
    rw [Scrambler.shl_bit _ _ j hj]
    by_cases h0 : j = 0
    · rw [if_pos h0, if_pos (by omega), hbit, if_pos (by omega)]
    · rw [if_neg h0, ih (j - 1) (by omega)]
      by_cases h1 : j < n + 1
      · rw [if_pos (by omega), if_pos h1, hbit, if_neg (by omega)]; congr 1; omega
      · rw [if_neg (by omega), if_neg h1]; congr 1; omega

/-- a block later the descrambler has the state of the scrambler -/
theorem scr_sync (s t x : Nat) : Eq58 (pyDescr t (pyScr s x 64).2 64).1 (pyScr s x 64).1 := by
  intro j hj
  rw [descr_last _ _ 64 j hj, (scr_last s x 64).2 j hj, if_pos (by omega), if_pos (by omega)]

/-! ### bit reversal -/

theorem rev_aux (n x : Nat) : ∀ m, m ≤ n → ∃ v, ((List.range m).map fun i => if (x >>> i) &&& 1 = 1 then 1 <<< (n - 1 - i) else 0).sum = 2 ^ (n - m) * v ∧ v < 2 ^ m ∧ ∀ j < m, v.testBit j = x.testBit (m - 1 - j)
  | 0, _ => ⟨0, by simp, by simp, fun j h => by omega⟩
  | m + 1, h => by
    obtain ⟨v, h1, h2, h3⟩ := rev_aux n x m (by omega)
    refine ⟨(x.testBit m).toNat + 2 * v, ?_, ?_, ?_⟩
    · rw [List.range_succ, List.map_append, List.sum_append, h1]
      have hb : ((x >>> m) &&& 1 = 1) = (x.testBit m = true) := by
        rw [Nat.testBit, Nat.and_comm]
        rcases Nat.mod_two_eq_zero_or_one (x >>> m) with e | e <;> simp [Nat.one_and_eq_mod_two, e]
      simp only [List.map_cons, List.map_nil, List.sum_cons, List.sum_nil, Nat.add_zero, hb]
      rw [Nat.one_shiftLeft, show n - m = (n - (m + 1)) + 1 by omega, show n - 1 - m = n - (m + 1) by omega, Nat.pow_succ, Nat.mul_add, Nat.mul_assoc]
      cases x.testBit m <;> simp <;> omega
    · rw [Nat.pow_succ]; have := Bool.toNat_le (x.testBit m); omega
    · intro j hj
      cases j with
      | zero => rw [BaseR.tb_zero]; congr 1
      | succ j => rw [BaseR.tb_succ, h3 j (by omega)]; congr 1; omega

theorem rev_bit (n x : Nat) : rev n x < 2 ^ n ∧ ∀ j < n, (rev n x).testBit j = x.testBit (n - 1 - j) := by
  obtain ⟨v, h1, h2, h3⟩ := rev_aux n x n (Nat.le_refl _)
  have : rev n x = v := by unfold rev; rw [h1]; simp
  rw [this]
  exact ⟨h2, h3⟩

theorem rev_rev {n x : Nat} (h : x < 2 ^ n) : rev n (rev n x) = x := by
  apply Nat.eq_of_testBit_eq
  intro j
  by_cases hj : j < n
  · rw [(rev_bit n _).2 j hj, (rev_bit n x).2 _ (by omega)]; congr 1; omega
  · have hp : 2 ^ n ≤ 2 ^ j := Nat.pow_le_pow_right (by decide) (by omega)
    rw [Nat.testBit_lt_two_pow (Nat.lt_of_lt_of_le (rev_bit n _).1 hp), Nat.testBit_lt_two_pow (Nat.lt_of_lt_of_le h hp)]

/-! ### the line -/

def Agree (c : Cfg) (t s : Nat) : Prop := c.scramble = true → Eq58 t s

theorem unline_line {c : Cfg} {s t : Nat} (h : Agree c t s) {b : Block} (hb : b.data < 2 ^ 64) (hh : b.hdr < 2 ^ 2) :
    (unline c t (line c s b).2).2 = b ∧ Agree c (unline c t (line c s b).2).1 (line c s b).1 := by
  obtain ⟨ifg, dic, offset, scramble, reverse⟩ := c
  obtain ⟨hdr, data⟩ := b
  unfold unline line
  dsimp only at hb hh ⊢
  cases scramble
  · simp only [Bool.false_eq_true, if_false]
    refine ⟨?_, fun e => by cases e⟩
    cases reverse
    · simp
    · simp only [if_true]; rw [rev_rev hb, rev_rev hh]
  · have h := h rfl
    simp only [if_true]
    have hl := (scr_last s data 64).1
    have key : (pyDescr t (pyScr s data 64).2 64).2 = data := by
      rw [(descr_congr h _ 64).1]; exact (Scrambler.C26_python_roundtrip 64 s data hb).1
    cases reverse
    · simp only [Bool.false_eq_true, if_false]
      exact ⟨by rw [key], fun _ => scr_sync s t data⟩
    · simp only [if_true]
      rw [rev_rev hl, rev_rev hh]
      exact ⟨by rw [key], fun _ => scr_sync s t data⟩

/-- whatever the state of the sink was -/
theorem unline_sync (c : Cfg) (s t : Nat) (b : Block) : Agree c (unline c t (line c s b).2).1 (line c s b).1 := by
  obtain ⟨ifg, dic, offset, scramble, reverse⟩ := c
  intro hs
  dsimp only at hs
  subst hs
  unfold unline line
  simp only [if_true]
  have hl := (scr_last s b.data 64).1
  cases reverse
  · simp only [Bool.false_eq_true, if_false]; exact scr_sync s t b.data
  · simp only [if_true]; rw [rev_rev hl]; exact scr_sync s t b.data

/-! ### coding -/

theorem cat_lt : ∀ l : List (Nat × Nat), (∀ p ∈ l, p.2 < 2 ^ p.1) → cat l < 2 ^ (l.map Prod.fst).sum
  | [], _ => by simp [cat]
  | (w, v) :: l, h => by
    have ih := cat_lt l fun p hp => h p (List.mem_cons_of_mem _ hp)
    have hv : v < 2 ^ w := h _ List.mem_cons_self
    rw [cat, List.map_cons, List.sum_cons, Nat.pow_add]
    show _ < 2 ^ w * _
    have : 2 ^ w * cat l + 2 ^ w ≤ 2 ^ w * 2 ^ (l.map Prod.fst).sum := by
      rw [← Nat.mul_succ]; exact Nat.mul_le_mul_left _ ih
    omega

theorem k_lt (w : Word) (i : Nat) : w.k i < 2 ^ 7 := by
  unfold BaseR.Word.k
  split
  · unfold BaseR.encCtl
    repeat' split
    all_goals decide
  · decide

theorem dF_ok {w : Word} (hb : ∀ i, w.d i < 2 ^ 8) (lo n : Nat) : ∀ p ∈ dF w lo n, p.2 < 2 ^ p.1 := by
  intro p hp
  obtain ⟨i, -, e⟩ := List.mem_map.1 hp
  subst e; exact hb _

theorem kF_ok (w : Word) (lo n : Nat) : ∀ p ∈ kF w lo n, p.2 < 2 ^ p.1 := by
  intro p hp
  obtain ⟨i, -, e⟩ := List.mem_map.1 hp
  subst e; exact k_lt _ _

theorem app_ok {a b : List (Nat × Nat)} (ha : ∀ p ∈ a, p.2 < 2 ^ p.1) (hb : ∀ p ∈ b, p.2 < 2 ^ p.1) : ∀ p ∈ a ++ b, p.2 < 2 ^ p.1 := by
  intro p hp
  rcases List.mem_append.1 hp with h | h
  · exact ha p h
  · exact hb p h

def dat (l : List Nat) : List Ch := l.map fun b => (false, b)

/-- words of frames without error and between them -/
inductive WF : List Ch → Prop
  | idle : WF (List.replicate 8 IDLE)
  | data (l : List Nat) (hl : l.length = 8) (hb : ∀ b ∈ l, b < 256) : WF (dat l)
  | start0 (l : List Nat) (hl : l.length = 7) (hb : ∀ b ∈ l, b < 256) : WF (START :: dat l)
  | start4 (l : List Nat) (hl : l.length = 3) (hb : ∀ b ∈ l, b < 256) : WF (List.replicate 4 IDLE ++ START :: dat l)
  | term (l : List Nat) (hl : l.length ≤ 7) (hb : ∀ b ∈ l, b < 256) : WF (dat l ++ TERM :: List.replicate (7 - l.length) IDLE)

theorem WF.length {l : List Ch} (h : WF l) : l.length = 8 := by
  cases h with
  | idle => rfl
  | data l hl => simp [dat, hl]
  | start0 l hl => simp [dat, hl]
  | start4 l hl => simp [dat, hl]
  | term l hl => simp [dat]; omega

theorem dat_byte {l : List Nat} (hb : ∀ b ∈ l, b < 256) : ∀ x ∈ dat l, x.2 < 256 := by
  intro x hx
  obtain ⟨b, h1, e⟩ := List.mem_map.1 hx
  subst e; exact hb b h1

theorem WF.bytes {l : List Ch} (h : WF l) : ∀ x ∈ l, Xgmii.Byte x := by
  have hi : ∀ n, ∀ x ∈ List.replicate n IDLE, x.2 < 256 := by
    intro n x hx; rw [(List.mem_replicate.1 hx).2]; decide
  intro x hx
  show x.2 < 256
  cases h with
  | idle => exact hi 8 x hx
  | data l hl hb => exact dat_byte hb x hx
  | start0 l hl hb =>
    rcases List.mem_cons.1 hx with h | h
    · rw [h]; decide
    · exact dat_byte hb x h
  | start4 l hl hb =>
    rcases List.mem_append.1 hx with h | h
    · exact hi 4 x h
    · rcases List.mem_cons.1 h with h | h
      · rw [h]; decide
      · exact dat_byte hb x h
  | term l hl hb =>
    rcases List.mem_append.1 hx with h | h
    · exact dat_byte hb x h
    · rcases List.mem_cons.1 h with h | h
      · rw [h]; decide
      · exact hi _ x h

theorem wordOf_byte {l : List Ch} (h : ∀ x ∈ l, Xgmii.Byte x) (i : Nat) : (wordOf l).d i < 2 ^ 8 := by
  show (l.getD i (false, 0)).2 < 256
  rw [List.getD_eq_getElem?_getD]
  cases e : l[i]? with
  | none => decide
  | some x => exact h x (List.mem_of_getElem? e)

theorem wordOf_lanes {l : List Ch} (h : l.length = 8) : (wordOf l).lanes = l := by
  match l, h with
  | [a, b, c, d, e, f, g, x], _ => rfl

theorem mod_cat (t : Nat) (l : List (Nat × Nat)) (h : t < 256) : cat ((8, t) :: l) % 256 = t := by
  rw [cat]; omega

theorem cw_eq {w : Word} (b0 b1 b2 b3 b4 b5 b6 b7 : Bool) (h0 : w.c 0 = b0) (h1 : w.c 1 = b1) (h2 : w.c 2 = b2) (h3 : w.c 3 = b3) (h4 : w.c 4 = b4) (h5 : w.c 5 = b5) (h6 : w.c 6 = b6) (h7 : w.c 7 = b7) {n : Nat}
    (hn : b0.toNat + 2 * (b1.toNat + 2 * (b2.toNat + 2 * (b3.toNat + 2 * (b4.toNat + 2 * (b5.toNat + 2 * (b6.toNat + 2 * (b7.toNat + 2 * 0))))))) = n) : w.cw = n := by
  rw [← hn, ← h0, ← h1, ← h2, ← h3, ← h4, ← h5, ← h6, ← h7]; rfl

theorem idle_tail (a : List Ch) (n : Nat) : ∀ i < n, (wordOf (a ++ List.replicate n IDLE)).c (a.length + i) = true ∧ (wordOf (a ++ List.replicate n IDLE)).d (a.length + i) = 7 := by
  intro i hi
  have : (a ++ List.replicate n IDLE).getD (a.length + i) (false, 0) = IDLE := by
    rw [List.getD_eq_getElem?_getD, List.getElem?_append_right (by omega), Nat.add_sub_cancel_left, List.getElem?_replicate, if_pos hi]; rfl
  unfold wordOf
  dsimp only
  rw [this]
  exact ⟨rfl, rfl⟩

theorem noErr {w : Word} {lo n : Nat} (h : ∀ i < n, w.c (lo + i) = true ∧ w.d (lo + i) = 7) : BaseR.anyErr w.e lo n = false := by
  unfold BaseR.anyErr
  rw [List.any_eq_false]
  intro i hi
  obtain ⟨h1, h2⟩ := h i (List.mem_range.1 hi)
  unfold BaseR.Word.e
  rw [h1, h2]
  simp [BaseR.encCtl]

theorem idle_head (b : List Ch) (n : Nat) : ∀ i < n, (wordOf (List.replicate n IDLE ++ b)).c (0 + i) = true ∧ (wordOf (List.replicate n IDLE ++ b)).d (0 + i) = 7 := by
  intro i hi
  have : (List.replicate n IDLE ++ b).getD (0 + i) (false, 0) = IDLE := by
    rw [Nat.zero_add, List.getD_eq_getElem?_getD, List.getElem?_append_left (by simpa using hi), List.getElem?_replicate, if_pos hi]; rfl
  unfold wordOf
  dsimp only
  rw [this]
  exact ⟨rfl, rfl⟩

/-- what a block carries -/
structure CodedW (w : Word) : Prop where
  data : (sEnc w).data < 2 ^ 64
  hdr : (sEnc w).hdr < 2 ^ 2
  dec : pyDec (sEnc w) = w.lanes

theorem mk {w : Word} {fs : List (Nat × Nat)} {hd : Nat} (e1 : sEnc w = ⟨hd, cat fs⟩) (e2 : hd < 2 ^ 2) (e3 : ∀ p ∈ fs, p.2 < 2 ^ p.1) (e4 : (fs.map Prod.fst).sum = 64) (e5 : pyDec ⟨hd, cat fs⟩ = w.lanes) : CodedW w := by
  refine ⟨?_, ?_, ?_⟩
  · rw [e1]; show cat fs < 2 ^ 64; rw [← e4]; exact cat_lt fs e3
  · rw [e1]; exact e2
  · rw [e1, e5]

theorem one {w v : Nat} (h : v < 2 ^ w) : ∀ p ∈ [(w, v)], p.2 < 2 ^ p.1 := by
  intro p hp; rw [List.mem_singleton.1 hp]; exact h

theorem four {a b c d : List (Nat × Nat)} (ha : ∀ p ∈ a, p.2 < 2 ^ p.1) (hb : ∀ p ∈ b, p.2 < 2 ^ p.1) (hc : ∀ p ∈ c, p.2 < 2 ^ p.1) (hd : ∀ p ∈ d, p.2 < 2 ^ p.1) : ∀ p ∈ a ++ b ++ c ++ d, p.2 < 2 ^ p.1 :=
  app_ok (app_ok (app_ok ha hb) hc) hd

theorem ctl_c {w : Word} (hb : ∀ i, w.d i < 2 ^ 8) (h : w.cw = 0xff) (he : BaseR.anyErr w.e 0 8 = false) : CodedW w :=
  mk (ctl_senc h he) (by decide) (app_ok (one (by decide)) (kF_ok _ _ _)) rfl (BaseR.ctl_py (fun i _ => hb i) h he)

theorem data_c {w : Word} (hb : ∀ i, w.d i < 2 ^ 8) (h : w.cw = 0x00) : CodedW w :=
  mk (data_senc h) (by decide) (dF_ok hb _ _) rfl (BaseR.data_py (fun i _ => hb i) h)

theorem start0_c {w : Word} (hb : ∀ i, w.d i < 2 ^ 8) (h : w.cw = 0x01) (h0 : w.d 0 = 0xfb) : CodedW w :=
  mk (start0_senc h h0) (by decide) (app_ok (one (by decide)) (dF_ok hb _ _)) rfl (BaseR.start0_py (fun i _ => hb i) h h0)

theorem start4_c {w : Word} (hb : ∀ i, w.d i < 2 ^ 8) (h : w.cw = 0x1f) (h4 : w.d 4 = 0xfb) (he : BaseR.anyErr w.e 0 4 = false) : CodedW w :=
  mk (start4_senc h h4 he) (by decide) (four (one (by decide)) (kF_ok _ _ _) (one (by decide)) (dF_ok hb _ _)) rfl (BaseR.start4_py (fun i _ => hb i) h h4 he)

theorem term0_c {w : Word} (hb : ∀ i, w.d i < 2 ^ 8) (h : w.cw = 0xff) (ht : w.d 0 = 0xfd) (he : BaseR.anyErr w.e 1 7 = false) : CodedW w ∧ termLane ((sEnc w).data % 256) = some 0 :=
  ⟨mk (term0_senc h ht he) (by decide) (app_ok (by intro p hp; simp at hp; rcases hp with h | h <;> subst h <;> decide) (kF_ok _ _ _)) rfl (BaseR.term0_py (fun i _ => hb i) h ht he), by
    rw [term0_senc h ht he]; show termLane (cat ((8, _) :: _) % 256) = _; rw [mod_cat _ _ (by decide)]; rfl⟩

theorem term1_c {w : Word} (hb : ∀ i, w.d i < 2 ^ 8) (h : w.cw = 0xfe) (ht : w.d 1 = 0xfd) (he : BaseR.anyErr w.e 2 6 = false) : CodedW w ∧ termLane ((sEnc w).data % 256) = some 1 :=
  ⟨mk (term1_senc h ht he) (by decide) (four (one (by decide)) (dF_ok hb _ _) (one (by decide)) (kF_ok _ _ _)) rfl (BaseR.term1_py (fun i _ => hb i) h ht he), by
    rw [term1_senc h ht he]; show termLane (cat ((8, _) :: _) % 256) = _; rw [mod_cat _ _ (by decide)]; rfl⟩

theorem term2_c {w : Word} (hb : ∀ i, w.d i < 2 ^ 8) (h : w.cw = 0xfc) (ht : w.d 2 = 0xfd) (he : BaseR.anyErr w.e 3 5 = false) : CodedW w ∧ termLane ((sEnc w).data % 256) = some 2 :=
  ⟨mk (term2_senc h ht he) (by decide) (four (one (by decide)) (dF_ok hb _ _) (one (by decide)) (kF_ok _ _ _)) rfl (BaseR.term2_py (fun i _ => hb i) h ht he), by
    rw [term2_senc h ht he]; show termLane (cat ((8, _) :: _) % 256) = _; rw [mod_cat _ _ (by decide)]; rfl⟩

theorem term3_c {w : Word} (hb : ∀ i, w.d i < 2 ^ 8) (h : w.cw = 0xf8) (ht : w.d 3 = 0xfd) (he : BaseR.anyErr w.e 4 4 = false) : CodedW w ∧ termLane ((sEnc w).data % 256) = some 3 :=
  ⟨mk (term3_senc h ht he) (by decide) (four (one (by decide)) (dF_ok hb _ _) (one (by decide)) (kF_ok _ _ _)) rfl (BaseR.term3_py (fun i _ => hb i) h ht he), by
    rw [term3_senc h ht he]; show termLane (cat ((8, _) :: _) % 256) = _; rw [mod_cat _ _ (by decide)]; rfl⟩

theorem term4_c {w : Word} (hb : ∀ i, w.d i < 2 ^ 8) (h : w.cw = 0xf0) (ht : w.d 4 = 0xfd) (he : BaseR.anyErr w.e 5 3 = false) : CodedW w ∧ termLane ((sEnc w).data % 256) = some 4 :=
  ⟨mk (term4_senc h ht he) (by decide) (four (one (by decide)) (dF_ok hb _ _) (one (by decide)) (kF_ok _ _ _)) rfl (BaseR.term4_py (fun i _ => hb i) h ht he), by
    rw [term4_senc h ht he]; show termLane (cat ((8, _) :: _) % 256) = _; rw [mod_cat _ _ (by decide)]; rfl⟩

theorem term5_c {w : Word} (hb : ∀ i, w.d i < 2 ^ 8) (h : w.cw = 0xe0) (ht : w.d 5 = 0xfd) (he : BaseR.anyErr w.e 6 2 = false) : CodedW w ∧ termLane ((sEnc w).data % 256) = some 5 :=
  ⟨mk (term5_senc h ht he) (by decide) (four (one (by decide)) (dF_ok hb _ _) (one (by decide)) (kF_ok _ _ _)) rfl (BaseR.term5_py (fun i _ => hb i) h ht he), by
    rw [term5_senc h ht he]; show termLane (cat ((8, _) :: _) % 256) = _; rw [mod_cat _ _ (by decide)]; rfl⟩

theorem term6_c {w : Word} (hb : ∀ i, w.d i < 2 ^ 8) (h : w.cw = 0xc0) (ht : w.d 6 = 0xfd) (he : BaseR.anyErr w.e 7 1 = false) : CodedW w ∧ termLane ((sEnc w).data % 256) = some 6 :=
  ⟨mk (term6_senc h ht he) (by decide) (four (one (by decide)) (dF_ok hb _ _) (one (by decide)) (kF_ok _ _ _)) rfl (BaseR.term6_py (fun i _ => hb i) h ht he), by
    rw [term6_senc h ht he]; show termLane (cat ((8, _) :: _) % 256) = _; rw [mod_cat _ _ (by decide)]; rfl⟩

theorem term7_c {w : Word} (hb : ∀ i, w.d i < 2 ^ 8) (h : w.cw = 0x80) (ht : w.d 7 = 0xfd) : CodedW w ∧ termLane ((sEnc w).data % 256) = some 7 :=
  ⟨mk (term7_senc h ht) (by decide) (app_ok (one (by decide)) (dF_ok hb _ _)) rfl (BaseR.term7_py (fun i _ => hb i) h ht), by
    rw [term7_senc h ht]; show termLane (cat ((8, _) :: _) % 256) = _; rw [mod_cat _ _ (by decide)]; rfl⟩

theorem coded_term (l : List Nat) (hl : l.length ≤ 7) (hb : ∀ b ∈ l, b < 256) : CodedW (wordOf (dat l ++ TERM :: List.replicate (7 - l.length) IDLE)) ∧
    termLane ((sEnc (wordOf (dat l ++ TERM :: List.replicate (7 - l.length) IDLE))).data % 256) = some l.length := by
  have hw := wordOf_byte (WF.term l hl hb).bytes
  match l, hl with
  | [], _ => exact term0_c hw (cw_eq true true true true true true true true rfl rfl rfl rfl rfl rfl rfl rfl rfl) rfl (noErr (idle_tail (dat [] ++ [TERM]) 7))
  | [a], _ => exact term1_c hw (cw_eq false true true true true true true true rfl rfl rfl rfl rfl rfl rfl rfl rfl) rfl (noErr (idle_tail (dat [a] ++ [TERM]) 6))
  | [a, b], _ => exact term2_c hw (cw_eq false false true true true true true true rfl rfl rfl rfl rfl rfl rfl rfl rfl) rfl (noErr (idle_tail (dat [a, b] ++ [TERM]) 5))
  | [a, b, c], _ => exact term3_c hw (cw_eq false false false true true true true true rfl rfl rfl rfl rfl rfl rfl rfl rfl) rfl (noErr (idle_tail (dat [a, b, c] ++ [TERM]) 4))
  | [a, b, c, d], _ => exact term4_c hw (cw_eq false false false false true true true true rfl rfl rfl rfl rfl rfl rfl rfl rfl) rfl (noErr (idle_tail (dat [a, b, c, d] ++ [TERM]) 3))
  | [a, b, c, d, e], _ => exact term5_c hw (cw_eq false false false false false true true true rfl rfl rfl rfl rfl rfl rfl rfl rfl) rfl (noErr (idle_tail (dat [a, b, c, d, e] ++ [TERM]) 2))
  | [a, b, c, d, e, f], _ => exact term6_c hw (cw_eq false false false false false false true true rfl rfl rfl rfl rfl rfl rfl rfl rfl) rfl (noErr (idle_tail (dat [a, b, c, d, e, f] ++ [TERM]) 1))
  | [a, b, c, d, e, f, g], _ => exact term7_c hw (cw_eq false false false false false false false true rfl rfl rfl rfl rfl rfl rfl rfl rfl) rfl

theorem coded {l : List Ch} (h : WF l) : (sEnc (wordOf l)).data < 2 ^ 64 ∧ (sEnc (wordOf l)).hdr < 2 ^ 2 ∧ pyDec (sEnc (wordOf l)) = l := by
  have hl := h.length
  have hw := wordOf_byte h.bytes
  have hc : CodedW (wordOf l) := by
    cases h with
    | idle => exact ctl_c hw (cw_eq true true true true true true true true rfl rfl rfl rfl rfl rfl rfl rfl rfl) (noErr (idle_tail [] 8))
    | data l hl hb =>
      match l, hl with
      | [a, b, c, d, e, f, g, x], _ => exact data_c hw (cw_eq false false false false false false false false rfl rfl rfl rfl rfl rfl rfl rfl rfl)
    | start0 l hl hb =>
      match l, hl with
      | [a, b, c, d, e, f, g], _ => exact start0_c hw (cw_eq true false false false false false false false rfl rfl rfl rfl rfl rfl rfl rfl rfl) rfl
    | start4 l hl hb =>
      match l, hl with
      | [a, b, c], _ => exact start4_c hw (cw_eq true true true true true false false false rfl rfl rfl rfl rfl rfl rfl rfl rfl) rfl (noErr (idle_head (START :: dat [a, b, c]) 4))
    | term l hl' hb => exact (coded_term l hl' hb).1
  exact ⟨hc.data, hc.hdr, by rw [hc.dec, wordOf_lanes hl]⟩

theorem idle_block : sEnc (wordOf (List.replicate 8 IDLE)) = idleBlock := by decide +kernel

end Corundum.BaseRSerdes
