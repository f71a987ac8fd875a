import Verif.Proof.BaseREnc
/-! Property theorems C25: 64b/66b coding. -/
set_option linter.unusedSimpArgs false

namespace Corundum.BaseR
open Spec

/-- **C25** hardware: every XGMII word that the encoder accepts (no `tx_bad_block`) decodes to the same control flags and bytes, with no
`rx_bad_block`, except a word with an ordered set in lane 0 and a start in lane 4 (see `C25_os_start_flags`). -/
theorem C25_rtl_roundtrip (w : Word) (hb : ∀ i < 8, w.d i < 256) (hacc : (enc w).2 = false) (f : Bool)
    (hno : ¬ (w.cw = 0x11 ∧ w.d 0 = 0x9c ∧ w.d 4 = 0xfb)) :
    (dec (enc w).1 f).lanes = w.lanes ∧ (dec (enc w).1 f).bad = false := by
  have hb : ∀ i < 8, w.d i < 2 ^ 8 := hb
  suffices ∃ sq fr, dec (enc w).1 f = ⟨w.lanes, false, sq, fr⟩ by
    obtain ⟨sq, fr, e⟩ := this
    rw [e]; exact ⟨rfl, rfl⟩
  unfold enc at hacc ⊢
  simp only at hacc ⊢
  by_cases h0 : w.cw = 0x00
  · rw [if_pos h0]; exact ⟨_, _, data_ok hb h0 f⟩
  rw [if_neg h0] at hacc ⊢
  by_cases h1 : w.cw = 0x1f ∧ w.d 4 = 0x9c
  · rw [if_pos h1] at hacc ⊢; exact ⟨_, _, os4_ok hb h1.1 h1.2 hacc f⟩
  rw [if_neg h1] at hacc ⊢
  by_cases h2 : w.cw = 0x1f ∧ w.d 4 = 0xfb
  · rw [if_pos h2] at hacc ⊢; exact ⟨_, _, start4_ok hb h2.1 h2.2 hacc f⟩
  rw [if_neg h2, if_neg hno] at hacc ⊢
  by_cases h4 : w.cw = 0x11 ∧ w.d 0 = 0x9c ∧ w.d 4 = 0x9c
  · rw [if_pos h4] at hacc ⊢; exact ⟨_, _, os04_ok hb h4.1 h4.2.1 h4.2.2 f⟩
  rw [if_neg h4] at hacc ⊢
  by_cases h5 : w.cw = 0x01 ∧ w.d 0 = 0xfb
  · rw [if_pos h5] at hacc ⊢; exact ⟨_, _, start0_ok hb h5.1 h5.2 f⟩
  rw [if_neg h5] at hacc ⊢
  by_cases h6 : w.cw = 0xf1 ∧ w.d 0 = 0x9c
  · rw [if_pos h6] at hacc ⊢; exact ⟨_, _, os0_ok hb h6.1 h6.2 hacc f⟩
  rw [if_neg h6] at hacc ⊢
  by_cases t0 : w.cw = 0xff ∧ w.d 0 = 0xfd
  · rw [if_pos t0] at hacc ⊢; exact ⟨_, _, term0_ok hb t0.1 t0.2 hacc f⟩
  rw [if_neg t0] at hacc ⊢
  by_cases t1 : w.cw = 0xfe ∧ w.d 1 = 0xfd
  · rw [if_pos t1] at hacc ⊢; exact ⟨_, _, term1_ok hb t1.1 t1.2 hacc f⟩
  rw [if_neg t1] at hacc ⊢
  by_cases t2 : w.cw = 0xfc ∧ w.d 2 = 0xfd
  · rw [if_pos t2] at hacc ⊢; exact ⟨_, _, term2_ok hb t2.1 t2.2 hacc f⟩
  rw [if_neg t2] at hacc ⊢
  by_cases t3 : w.cw = 0xf8 ∧ w.d 3 = 0xfd
  · rw [if_pos t3] at hacc ⊢; exact ⟨_, _, term3_ok hb t3.1 t3.2 hacc f⟩
  rw [if_neg t3] at hacc ⊢
  by_cases t4 : w.cw = 0xf0 ∧ w.d 4 = 0xfd
  · rw [if_pos t4] at hacc ⊢; exact ⟨_, _, term4_ok hb t4.1 t4.2 hacc f⟩
  rw [if_neg t4] at hacc ⊢
  by_cases t5 : w.cw = 0xe0 ∧ w.d 5 = 0xfd
  · rw [if_pos t5] at hacc ⊢; exact ⟨_, _, term5_ok hb t5.1 t5.2 hacc f⟩
  rw [if_neg t5] at hacc ⊢
  by_cases t6 : w.cw = 0xc0 ∧ w.d 6 = 0xfd
  · rw [if_pos t6] at hacc ⊢; exact ⟨_, _, term6_ok hb t6.1 t6.2 hacc f⟩
  rw [if_neg t6] at hacc ⊢
  by_cases t7 : w.cw = 0x80 ∧ w.d 7 = 0xfd
  · rw [if_pos t7] at hacc ⊢; exact ⟨_, _, term7_ok hb t7.1 t7.2 f⟩
  rw [if_neg t7] at hacc ⊢
  by_cases k8 : w.cw = 0xff
  · rw [if_pos k8] at hacc ⊢; exact ⟨_, _, ctl_ok hb k8 hacc f⟩
  rw [if_neg k8] at hacc
  simp at hacc

/-- **C25** disagreement: an ordered set followed by a start comes back with the three data bytes of lanes 1-3 flagged as
control characters, and no error is reported. -/
theorem C25_os_start_flags (w : Word) (hb : ∀ i < 8, w.d i < 256) (h : w.cw = 0x11) (h0 : w.d 0 = 0x9c) (h4 : w.d 4 = 0xfb) (f : Bool) :
    (enc w).2 = false ∧ (dec (enc w).1 f).bad = false ∧
    (dec (enc w).1 f).lanes = (List.range 8).map (fun i => (w.c i || decide (i < 4), w.d i)) ∧ (dec (enc w).1 f).lanes ≠ w.lanes := by
  rw [osStart_enc h h0 h4]
  simp only
  rw [osStart_ok hb h h0 h4 f]
  refine ⟨trivial, rfl, rfl, fun e => ?_⟩
  have := congrArg (·[1]?) e
  simp [Word.lanes, (cw_bits h).2.1] at this
  revert this; decide

/-- the word of a list of characters -/
def ofChars (l : List Ch) : Word := ⟨fun i => ((l[i]?.map Ch.lane).getD (false, 0)).1, fun i => ((l[i]?.map Ch.lane).getD (false, 0)).2⟩

theorem ctl_noerr : ∀ k : Fin 9, (encCtl (ctlByte k)).2 = false := by decide

theorem lane_lt (l : List Ch) (i : Nat) : (ofChars l).d i < 256 := by
  unfold ofChars
  simp only
  cases l[i]? with
  | none => simp
  | some c =>
    simp only [Option.map_some, Option.getD_some]
    cases c with
    | data b => exact b.2
    | ctl k => exact (show ∀ k : Fin 9, ctlByte k < 256 by decide) k
    | _ => decide

theorem ctl_anyErr {w : Word} {lo n : Nat} (h : ∀ i < n, w.c (lo + i) = true ∧ (encCtl (w.d (lo + i))).2 = false) : anyErr w.e lo n = false := by
  unfold anyErr
  rw [List.any_eq_false]
  intro i hi
  obtain ⟨a, b⟩ := h i (List.mem_range.mp hi)
  unfold Word.e
  rw [if_pos a, b]; simp

theorem lst_anyErr {l : List Ch} {lo n : Nat} (h : ∀ i < n, ∃ k, l[lo + i]? = some (Ch.ctl k)) : anyErr (ofChars l).e lo n = false := by
  apply ctl_anyErr
  intro i hi
  obtain ⟨k, hk⟩ := h i hi
  simp only [ofChars, hk, Option.map_some, Option.getD_some, Ch.lane]
  exact ⟨trivial, ctl_noerr k⟩

theorem lst4 {l : List Ch} {lo : Nat} (h : (∃ k, l[lo + 0]? = some (Ch.ctl k)) ∧ (∃ k, l[lo + 1]? = some (Ch.ctl k)) ∧
    (∃ k, l[lo + 2]? = some (Ch.ctl k)) ∧ (∃ k, l[lo + 3]? = some (Ch.ctl k))) : anyErr (ofChars l).e lo 4 = false := by
  apply lst_anyErr
  intro i hi
  obtain ⟨a, b, c, d⟩ := h
  have : i = 0 ∨ i = 1 ∨ i = 2 ∨ i = 3 := by omega
  rcases this with e | e | e | e <;> subst e <;> assumption

theorem lst8 {l : List Ch} (h : (∃ k, l[0 + 0]? = some (Ch.ctl k)) ∧ (∃ k, l[0 + 1]? = some (Ch.ctl k)) ∧
    (∃ k, l[0 + 2]? = some (Ch.ctl k)) ∧ (∃ k, l[0 + 3]? = some (Ch.ctl k)) ∧ (∃ k, l[0 + 4]? = some (Ch.ctl k)) ∧
    (∃ k, l[0 + 5]? = some (Ch.ctl k)) ∧ (∃ k, l[0 + 6]? = some (Ch.ctl k)) ∧ (∃ k, l[0 + 7]? = some (Ch.ctl k))) :
    anyErr (ofChars l).e 0 8 = false := by
  apply lst_anyErr
  intro i hi
  obtain ⟨a, b, c, d, e', f, g, k⟩ := h
  have : i = 0 ∨ i = 1 ∨ i = 2 ∨ i = 3 ∨ i = 4 ∨ i = 5 ∨ i = 6 ∨ i = 7 := by omega
  rcases this with e | e | e | e | e | e | e | e <;> subst e <;> assumption

/-- terminate format: what the word looks like -/
theorem term_word (n : Fin 8) (d : Fin n.1 → Fin 256) (k : Fin (7 - n.1) → Fin 9) :
    let w := ofChars ((List.finRange n.1).map (fun i => Ch.data (d i)) ++ Ch.term :: (List.finRange (7 - n.1)).map (fun i => Ch.ctl (k i)))
    w.cw = 0xff - (2 ^ n.1 - 1) ∧ w.d n.1 = 0xfd ∧ anyErr w.e (n.1 + 1) (7 - n.1) = false := by
  have lt : ∀ i, i < n.1 → ∃ b, ((List.finRange n.1).map (fun i => Ch.data (d i)) ++ Ch.term :: (List.finRange (7 - n.1)).map (fun i => Ch.ctl (k i)))[i]? = some (Ch.data b) := by
    intro i hi
    exact ⟨d ⟨i, hi⟩, by rw [List.getElem?_append_left (by simpa using hi)]; simp [hi]⟩
  have eq : ((List.finRange n.1).map (fun i => Ch.data (d i)) ++ Ch.term :: (List.finRange (7 - n.1)).map (fun i => Ch.ctl (k i)))[n.1]? = some Ch.term := by
    rw [List.getElem?_append_right (by simp)]; simp
  have gt : ∀ i, n.1 < i → i < 8 → ∃ b, ((List.finRange n.1).map (fun i => Ch.data (d i)) ++ Ch.term :: (List.finRange (7 - n.1)).map (fun i => Ch.ctl (k i)))[i]? = some (Ch.ctl b) := by
    intro i hi h8
    suffices ∀ j (hj : j < 7 - n.1), j = i - n.1 - 1 → ((List.finRange n.1).map (fun i => Ch.data (d i)) ++ Ch.term :: (List.finRange (7 - n.1)).map (fun i => Ch.ctl (k i)))[i]? = some (Ch.ctl (k ⟨j, hj⟩)) from
      ⟨_, this (i - n.1 - 1) (by omega) rfl⟩
    intro j hj he
    rw [List.getElem?_append_right (by simp; omega)]
    simp only [List.length_map, List.length_finRange]
    generalize hm : i - n.1 = m
    cases m with
    | zero => omega
    | succ m =>
      rw [List.getElem?_cons_succ]
      have hlt : j = m := by omega
      subst hlt
      simp [hj]
  generalize ((List.finRange n.1).map (fun i => Ch.data (d i)) ++ Ch.term :: (List.finRange (7 - n.1)).map (fun i => Ch.ctl (k i))) = l at *
  have cflag : ∀ i < 8, (ofChars l).c i = decide (n.1 ≤ i) := by
    intro i hi
    unfold ofChars
    simp only
    by_cases h1 : i < n.1
    · obtain ⟨b, e⟩ := lt i h1
      rw [e]; simp [Ch.lane, h1]
    · by_cases h2 : i = n.1
      · subst h2; rw [eq]; simp [Ch.lane]
      · obtain ⟨b, e⟩ := gt i (by omega) hi
        rw [e]; simp [Ch.lane]; omega
  refine ⟨?_, ?_, ?_⟩
  · show ((ofChars l).c 0).toNat + 2 * (((ofChars l).c 1).toNat + 2 * (((ofChars l).c 2).toNat + 2 * (((ofChars l).c 3).toNat + 2 * (((ofChars l).c 4).toNat + 2 * (((ofChars l).c 5).toNat + 2 * (((ofChars l).c 6).toNat + 2 * (((ofChars l).c 7).toNat + 2 * 0))))))) = _
    rw [cflag 0 (by decide), cflag 1 (by decide), cflag 2 (by decide), cflag 3 (by decide), cflag 4 (by decide), cflag 5 (by decide), cflag 6 (by decide), cflag 7 (by decide)]
    have : ∀ m : Fin 8, (decide (m.1 ≤ 0)).toNat + 2 * ((decide (m.1 ≤ 1)).toNat + 2 * ((decide (m.1 ≤ 2)).toNat + 2 * ((decide (m.1 ≤ 3)).toNat + 2 * ((decide (m.1 ≤ 4)).toNat + 2 * ((decide (m.1 ≤ 5)).toNat + 2 * ((decide (m.1 ≤ 6)).toNat + 2 * ((decide (m.1 ≤ 7)).toNat + 2 * 0))))))) = 255 - (2 ^ m.1 - 1) := by decide
    exact this n
  · show ((l[n.1]?.map Ch.lane).getD (false, 0)).2 = _
    rw [eq]; rfl
  · refine ctl_anyErr (fun i hi => ⟨by rw [cflag _ (by omega)]; simp; omega, ?_⟩)
    obtain ⟨b, e⟩ := gt (n.1 + 1 + i) (by omega) (by omega)
    show (encCtl ((l[n.1 + 1 + i]?.map Ch.lane).getD (false, 0)).2).2 = false
    rw [e]; exact ctl_noerr b

theorem fr3 : List.finRange 3 = [0, 1, 2] := by decide
theorem fr4 : List.finRange 4 = [0, 1, 2, 3] := by decide
theorem fr7 : List.finRange 7 = [0, 1, 2, 3, 4, 5, 6] := by decide
theorem fr8 : List.finRange 8 = [0, 1, 2, 3, 4, 5, 6, 7] := by decide

theorem cw8 (a0 a1 a2 a3 a4 a5 a6 a7 : Ch) : (ofChars [a0, a1, a2, a3, a4, a5, a6, a7]).cw =
    a0.lane.1.toNat + 2 * (a1.lane.1.toNat + 2 * (a2.lane.1.toNat + 2 * (a3.lane.1.toNat + 2 * (a4.lane.1.toNat + 2 * (a5.lane.1.toNat +
      2 * (a6.lane.1.toNat + 2 * (a7.lane.1.toNat + 2 * 0))))))) := rfl

theorem cw8' {a0 a1 a2 a3 a4 a5 a6 a7 : Ch} {n : Nat} (h :
    a0.lane.1.toNat + 2 * (a1.lane.1.toNat + 2 * (a2.lane.1.toNat + 2 * (a3.lane.1.toNat + 2 * (a4.lane.1.toNat + 2 * (a5.lane.1.toNat +
      2 * (a6.lane.1.toNat + 2 * (a7.lane.1.toNat + 2 * 0))))))) = n) : (ofChars [a0, a1, a2, a3, a4, a5, a6, a7]).cw = n := h

/-- **C25** hardware: every word of an IEEE 802.3 block format (sequence ordered sets; signal ordered sets are not supported) is accepted by the
encoder, so the round trip theorem applies to it. -/
theorem C25_rtl_accepts (l : List Ch) (h : Fmt false l) : (enc (ofChars l)).2 = false := by
  cases h with
  | data d => simp only [fr3, fr4, fr7, fr8, List.map_cons, List.map_nil, List.cons_append, List.nil_append]; exact congrArg Prod.snd (data_enc (cw8' (by simp [Ch.lane])))
  | start0 d => simp only [fr3, fr4, fr7, fr8, List.map_cons, List.map_nil, List.cons_append, List.nil_append]; exact congrArg Prod.snd (start0_enc (cw8' (by simp [Ch.lane])) rfl)
  | start4 k d => simp only [fr3, fr4, fr7, fr8, List.map_cons, List.map_nil, List.cons_append, List.nil_append]; exact congrArg Prod.snd (start4_enc (cw8' (by simp [Ch.lane])) rfl (lst4 ⟨⟨_, rfl⟩, ⟨_, rfl⟩, ⟨_, rfl⟩, ⟨_, rfl⟩⟩))
  | os0 o ho d k =>
    cases ho with
    | sig c => cases c
    | seq => simp only [fr3, fr4, fr7, fr8, List.map_cons, List.map_nil, List.cons_append, List.nil_append]; exact congrArg Prod.snd (os0_enc (cw8' (by simp [Ch.lane])) rfl (lst4 ⟨⟨_, rfl⟩, ⟨_, rfl⟩, ⟨_, rfl⟩, ⟨_, rfl⟩⟩))
  | os4 k o ho d =>
    cases ho with
    | sig c => cases c
    | seq => simp only [fr3, fr4, fr7, fr8, List.map_cons, List.map_nil, List.cons_append, List.nil_append]; exact congrArg Prod.snd (os4_enc (cw8' (by simp [Ch.lane])) rfl (lst4 ⟨⟨_, rfl⟩, ⟨_, rfl⟩, ⟨_, rfl⟩, ⟨_, rfl⟩⟩))
  | os04 o o' ho ho' d d' =>
    cases ho with
    | sig c => cases c
    | seq =>
      cases ho' with
      | sig c => cases c
      | seq => simp only [fr3, fr4, fr7, fr8, List.map_cons, List.map_nil, List.cons_append, List.nil_append]; exact congrArg Prod.snd (os04_enc (cw8' (by simp [Ch.lane])) rfl rfl)
  | osStart o ho d d' =>
    cases ho with
    | sig c => cases c
    | seq => simp only [fr3, fr4, fr7, fr8, List.map_cons, List.map_nil, List.cons_append, List.nil_append]; exact congrArg Prod.snd (osStart_enc (cw8' (by simp [Ch.lane])) rfl rfl)
  | term n d k =>
    obtain ⟨a, b, c⟩ := term_word n d k
    generalize ofChars _ = w at *
    have hn : n = 0 ∨ n = 1 ∨ n = 2 ∨ n = 3 ∨ n = 4 ∨ n = 5 ∨ n = 6 ∨ n = 7 := by omega
    rcases hn with e | e | e | e | e | e | e | e <;> subst e
    · rw [term0_enc a b c]
    · rw [term1_enc a b c]
    · rw [term2_enc a b c]
    · rw [term3_enc a b c]
    · rw [term4_enc a b c]
    · rw [term5_enc a b c]
    · rw [term6_enc a b c]
    · rw [term7_enc a b]
  | ctl k => simp only [fr3, fr4, fr7, fr8, List.map_cons, List.map_nil, List.cons_append, List.nil_append]; exact congrArg Prod.snd (ctl_enc (cw8' (by simp [Ch.lane])) (lst8 ⟨⟨_, rfl⟩, ⟨_, rfl⟩, ⟨_, rfl⟩, ⟨_, rfl⟩, ⟨_, rfl⟩, ⟨_, rfl⟩, ⟨_, rfl⟩, ⟨_, rfl⟩⟩))

/-- the Python endpoints mishandle words with an ordered set in lane 0 and control characters in lanes 4-7 -/
def isOs0 (w : Word) : Bool := w.cw == 0xf1 && isOs (w.d 0)

theorem tr {a b : Block} {c : List (Bool × Nat)} (h1 : a = b) (h2 : pyDec b = c) : pyDec a = c := by rw [h1, h2]

set_option maxHeartbeats 4000000 in
/-- **C25** Python: for every word of an IEEE block format, with sequence or signal ordered sets, except ordered set plus four control
characters, the Python sink decodes what the Python source encoded to the same flags and bytes. -/
theorem C25_python_roundtrip (l : List Ch) (h : Fmt true l) (hno : isOs0 (ofChars l) = false) :
    pyDec (pyEnc (ofChars l)) = (ofChars l).lanes := by
  have hb : ∀ i < 8, (ofChars l).d i < 2 ^ 8 := fun i _ => lane_lt l i
  cases h with
  | data d => simp only [fr3, fr4, fr7, fr8, List.map_cons, List.map_nil, List.cons_append, List.nil_append] at hb ⊢; exact tr (data_pyenc (cw8' (by simp [Ch.lane]))) (data_py hb (cw8' (by simp [Ch.lane])))
  | start0 d => simp only [fr3, fr4, fr7, fr8, List.map_cons, List.map_nil, List.cons_append, List.nil_append] at hb ⊢; exact tr (start0_pyenc (cw8' (by simp [Ch.lane])) rfl) (start0_py hb (cw8' (by simp [Ch.lane])) rfl)
  | start4 k d => simp only [fr3, fr4, fr7, fr8, List.map_cons, List.map_nil, List.cons_append, List.nil_append] at hb ⊢; exact tr (start4_pyenc (cw8' (by simp [Ch.lane])) rfl (lst4 ⟨⟨_, rfl⟩, ⟨_, rfl⟩, ⟨_, rfl⟩, ⟨_, rfl⟩⟩)) (start4_py hb (cw8' (by simp [Ch.lane])) rfl (lst4 ⟨⟨_, rfl⟩, ⟨_, rfl⟩, ⟨_, rfl⟩, ⟨_, rfl⟩⟩))
  | os0 o ho d k => cases ho <;> (simp only [fr3, fr4, fr7, fr8, List.map_cons, List.map_nil, List.cons_append, List.nil_append] at hno; unfold isOs0 at hno; rw [cw8] at hno; cases hno)
  | os4 k o ho d => cases ho <;> (simp only [fr3, fr4, fr7, fr8, List.map_cons, List.map_nil, List.cons_append, List.nil_append] at hb ⊢; exact tr (os4_pyenc (cw8' (by simp [Ch.lane])) rfl (lst4 ⟨⟨_, rfl⟩, ⟨_, rfl⟩, ⟨_, rfl⟩, ⟨_, rfl⟩⟩)) (os4_py hb (cw8' (by simp [Ch.lane])) rfl (lst4 ⟨⟨_, rfl⟩, ⟨_, rfl⟩, ⟨_, rfl⟩, ⟨_, rfl⟩⟩)))
  | os04 o o' ho ho' d d' => cases ho <;> cases ho' <;> (simp only [fr3, fr4, fr7, fr8, List.map_cons, List.map_nil, List.cons_append, List.nil_append] at hb ⊢; exact tr (os04_pyenc (cw8' (by simp [Ch.lane])) rfl rfl) (os04_py hb (cw8' (by simp [Ch.lane])) rfl rfl))
  | osStart o ho d d' => cases ho <;> (simp only [fr3, fr4, fr7, fr8, List.map_cons, List.map_nil, List.cons_append, List.nil_append] at hb ⊢; exact tr (osStart_pyenc (cw8' (by simp [Ch.lane])) rfl rfl) (osStart_py hb (cw8' (by simp [Ch.lane])) rfl rfl))
  | term n d k =>
    obtain ⟨a, b, c⟩ := term_word n d k
    generalize ofChars _ = w at *
    have hn : n = 0 ∨ n = 1 ∨ n = 2 ∨ n = 3 ∨ n = 4 ∨ n = 5 ∨ n = 6 ∨ n = 7 := by omega
    rcases hn with e | e | e | e | e | e | e | e <;> subst e
    · rw [term0_pyenc a b c, term0_py hb a b c]
    · rw [term1_pyenc a b c, term1_py hb a b c]
    · rw [term2_pyenc a b c, term2_py hb a b c]
    · rw [term3_pyenc a b c, term3_py hb a b c]
    · rw [term4_pyenc a b c, term4_py hb a b c]
    · rw [term5_pyenc a b c, term5_py hb a b c]
    · rw [term6_pyenc a b c, term6_py hb a b c]
    · rw [term7_pyenc a b, term7_py hb a b]
  | ctl k => simp only [fr3, fr4, fr7, fr8, List.map_cons, List.map_nil, List.cons_append, List.nil_append] at hb ⊢; exact tr (ctl_pyenc (cw8' (by simp [Ch.lane])) (lst8 ⟨⟨_, rfl⟩, ⟨_, rfl⟩, ⟨_, rfl⟩, ⟨_, rfl⟩, ⟨_, rfl⟩, ⟨_, rfl⟩, ⟨_, rfl⟩, ⟨_, rfl⟩⟩)) (ctl_py hb (cw8' (by simp [Ch.lane])) (lst8 ⟨⟨_, rfl⟩, ⟨_, rfl⟩, ⟨_, rfl⟩, ⟨_, rfl⟩, ⟨_, rfl⟩, ⟨_, rfl⟩, ⟨_, rfl⟩, ⟨_, rfl⟩⟩))

/-- ordered set, three data bytes, four idles -/
def os0Word : List Ch := [.seq, .data 0, .data 0, .data 1, .ctl 0, .ctl 0, .ctl 0, .ctl 0]

/-- **C25** disagreement: the Python source puts the wrong control codes into an ordered-set-plus-control block (a 68-bit number), so even the
Python sink does not recover the word; the hardware does. -/
theorem C25_python_os0_counterexample :
    pyDec (pyEnc (ofChars os0Word)) ≠ (ofChars os0Word).lanes ∧ 2 ^ 64 ≤ (pyEnc (ofChars os0Word)).data ∧
    (dec (enc (ofChars os0Word)).1 false).lanes = (ofChars os0Word).lanes := by
  decide

/-- **C25** disagreement: the Python sink decodes a correctly coded signal ordered set in lane 0 (with control characters) as a sequence ordered set. -/
theorem C25_python_sig_os_counterexample :
    (pyDec ⟨SYNC_CTRL, cat [(8, 0x4b), (8, 0), (8, 0), (8, 1), (4, 0xf), (7, 0), (7, 0), (7, 0), (7, 0)]⟩)[0]? = some (true, 0x9c) := by
  decide

/-- **C25** interoperability: on every word the hardware encoder accepts (again except ordered set plus control), the Python source produces the
same block, and the Python sink decodes the hardware block to the same word. -/
theorem C25_python_matches_rtl (w : Word) (hb : ∀ i < 8, w.d i < 256) (hacc : (enc w).2 = false) (hno : isOs0 w = false) :
    pyEnc w = (enc w).1 ∧ pyDec (enc w).1 = w.lanes := by
  have hb : ∀ i < 8, w.d i < 2 ^ 8 := hb
  have key : ∀ b, pyEnc w = b → pyDec b = w.lanes → ∀ b', b' = b → pyEnc w = b' ∧ pyDec b' = w.lanes := by
    intro b h1 h2 b' e; subst e; exact ⟨h1, h2⟩
  unfold enc at hacc ⊢
  simp only at hacc ⊢
  by_cases h0 : w.cw = 0x00
  · rw [if_pos h0]; exact ⟨data_pyenc h0, data_py hb h0⟩
  rw [if_neg h0] at hacc ⊢
  by_cases h1 : w.cw = 0x1f ∧ w.d 4 = 0x9c
  · rw [if_pos h1] at hacc ⊢
    have o : isOs (w.d 4) = true := by rw [h1.2]; rfl
    exact key _ (os4_pyenc h1.1 o hacc) (os4_py hb h1.1 o hacc) _ (by rw [show osCode (w.d 4) = 0 by rw [h1.2]; rfl])
  rw [if_neg h1] at hacc ⊢
  by_cases h2 : w.cw = 0x1f ∧ w.d 4 = 0xfb
  · rw [if_pos h2] at hacc ⊢; exact ⟨start4_pyenc h2.1 h2.2 hacc, start4_py hb h2.1 h2.2 hacc⟩
  rw [if_neg h2] at hacc ⊢
  by_cases h3 : w.cw = 0x11 ∧ w.d 0 = 0x9c ∧ w.d 4 = 0xfb
  · rw [if_pos h3] at hacc ⊢
    have o : isOs (w.d 0) = true := by rw [h3.2.1]; rfl
    exact key _ (osStart_pyenc h3.1 h3.2.2 o) (osStart_py hb h3.1 h3.2.2 o) _ (by rw [show osCode (w.d 0) = 0 by rw [h3.2.1]; rfl])
  rw [if_neg h3] at hacc ⊢
  by_cases h4 : w.cw = 0x11 ∧ w.d 0 = 0x9c ∧ w.d 4 = 0x9c
  · rw [if_pos h4] at hacc ⊢
    have o : isOs (w.d 0) = true := by rw [h4.2.1]; rfl
    have o' : isOs (w.d 4) = true := by rw [h4.2.2]; rfl
    exact key _ (os04_pyenc h4.1 o o') (os04_py hb h4.1 o o') _ (by
      rw [show osCode (w.d 0) = 0 by rw [h4.2.1]; rfl, show osCode (w.d 4) = 0 by rw [h4.2.2]; rfl])
  rw [if_neg h4] at hacc ⊢
  by_cases h5 : w.cw = 0x01 ∧ w.d 0 = 0xfb
  · rw [if_pos h5] at hacc ⊢; exact ⟨start0_pyenc h5.1 h5.2, start0_py hb h5.1 h5.2⟩
  rw [if_neg h5] at hacc ⊢
  by_cases h6 : w.cw = 0xf1 ∧ w.d 0 = 0x9c
  · unfold isOs0 at hno; rw [h6.1, h6.2] at hno; cases hno
  rw [if_neg h6] at hacc ⊢
  by_cases t0 : w.cw = 0xff ∧ w.d 0 = 0xfd
  · rw [if_pos t0] at hacc ⊢; exact ⟨term0_pyenc t0.1 t0.2 hacc, term0_py hb t0.1 t0.2 hacc⟩
  rw [if_neg t0] at hacc ⊢
  by_cases t1 : w.cw = 0xfe ∧ w.d 1 = 0xfd
  · rw [if_pos t1] at hacc ⊢; exact ⟨term1_pyenc t1.1 t1.2 hacc, term1_py hb t1.1 t1.2 hacc⟩
  rw [if_neg t1] at hacc ⊢
  by_cases t2 : w.cw = 0xfc ∧ w.d 2 = 0xfd
  · rw [if_pos t2] at hacc ⊢; exact ⟨term2_pyenc t2.1 t2.2 hacc, term2_py hb t2.1 t2.2 hacc⟩
  rw [if_neg t2] at hacc ⊢
  by_cases t3 : w.cw = 0xf8 ∧ w.d 3 = 0xfd
  · rw [if_pos t3] at hacc ⊢; exact ⟨term3_pyenc t3.1 t3.2 hacc, term3_py hb t3.1 t3.2 hacc⟩
  rw [if_neg t3] at hacc ⊢
  by_cases t4 : w.cw = 0xf0 ∧ w.d 4 = 0xfd
  · rw [if_pos t4] at hacc ⊢; exact ⟨term4_pyenc t4.1 t4.2 hacc, term4_py hb t4.1 t4.2 hacc⟩
  rw [if_neg t4] at hacc ⊢
  by_cases t5 : w.cw = 0xe0 ∧ w.d 5 = 0xfd
  · rw [if_pos t5] at hacc ⊢; exact ⟨term5_pyenc t5.1 t5.2 hacc, term5_py hb t5.1 t5.2 hacc⟩
  rw [if_neg t5] at hacc ⊢
  by_cases t6 : w.cw = 0xc0 ∧ w.d 6 = 0xfd
  · rw [if_pos t6] at hacc ⊢; exact ⟨term6_pyenc t6.1 t6.2 hacc, term6_py hb t6.1 t6.2 hacc⟩
  rw [if_neg t6] at hacc ⊢
  by_cases t7 : w.cw = 0x80 ∧ w.d 7 = 0xfd
  · rw [if_pos t7] at hacc ⊢; exact ⟨term7_pyenc t7.1 t7.2, term7_py hb t7.1 t7.2⟩
  rw [if_neg t7] at hacc ⊢
  by_cases k8 : w.cw = 0xff
  · rw [if_pos k8] at hacc ⊢; exact ⟨ctl_pyenc k8 hacc, ctl_py hb k8 hacc⟩
  rw [if_neg k8] at hacc
  simp at hacc

/-- a start in lane 4 after four idles is accepted and is not one of the excluded words -/
example : (enc (ofChars [.ctl 0, .ctl 0, .ctl 0, .ctl 0, .start, .data 0x55, .data 0x55, .data 0x55])).2 = false := by decide

end Corundum.BaseR
