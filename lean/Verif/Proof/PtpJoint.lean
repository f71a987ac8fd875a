import Verif.Proof.PtpSer
import Verif.Proof.PtpTime

/-! Source and sink together. -/

namespace Corundum.Ptp

theorem build_length (k : Clk) (i : Nat) (hi : i < 3) (ru tu : Bool) : (build k i ru tu).length = 14 := by
  unfold build
  rcases i with _ | _ | _ | i
  · simp
  · simp
  · simp
  · omega

theorem apply_keep : ∀ (l : List Op) (s : Src), (l.foldl Src.apply s).idx = s.idx ∧
    (l.foldl Src.apply s).delay = s.delay ∧ (l.foldl Src.apply s).ser = s.ser
  | [], _ => ⟨rfl, rfl, rfl⟩
  | o :: l, s => apply_keep l (s.apply o)

theorem work_none (k : Snk) (h : k.msg = none) : k.work = some { k with clk := tick k.clk, delay := k.delay - 1 } := by
  unfold Snk.work; rw [h]

theorem work_wait (k : Snk) (h : ¬ k.delay - 1 = 0) :
    k.work = some { k with clk := tick k.clk, delay := k.delay - 1 } := by
  unfold Snk.work
  split
  · rw [if_neg h]
  · rfl

theorem work_do (k : Snk) (m : List Nat) (hm : k.msg = some m) (h : k.delay - 1 = 0) (hl : ¬ m.length < 14) :
    k.work = some { (({ k with clk := tick k.clk, delay := k.delay - 1 } : Snk).process m) with msg := none } := by
  unfold Snk.work
  rw [hm]
  simp only [if_pos h, if_neg hl]

section
variable (td : Nat) (ops : Nat → List Op) (k0 k1 : Clk)

/-- Source just before edge `n + 1`. -/
def pre (n : Nat) : Src := (ops n).foldl Src.apply (joint td ops k0 k1 n).1

/-- Source counters after `n` edges. -/
def srcClk (n : Nat) : Clk := (joint td ops k0 k1 n).1.clk

/-- Message `j`. -/
def theMsg (j : Nat) : List Nat :=
  build (tick (pre td ops k0 k1 (256 * j)).clk) (j % 3) (pre td ops k0 k1 (256 * j)).relUpd (pre td ops k0 k1 (256 * j)).todUpd

theorem theMsg_length (j : Nat) : (theMsg td ops k0 k1 j).length = 14 := build_length _ _ (by omega) _ _

theorem theMsg_ne (j : Nat) : theMsg td ops k0 k1 j ≠ [] := by
  intro h
  have := theMsg_length td ops k0 k1 j
  rw [h] at this
  simp at this

theorem joint_src (n : Nat) : (joint td ops k0 k1 (n + 1)).1 = (pre td ops k0 k1 n).step := rfl

theorem step_clk (s : Src) : s.step.clk = tick s.clk := by
  unfold Src.step
  simp only
  split <;> rfl

theorem step_load (s : Src) (hd : s.delay = 0) (hi : s.idx < 3) (hw : s.ser.word = none) :
    s.step.delay = 255 ∧ s.step.idx = (s.idx + 1) % 3 ∧
      s.step.ser = serAt (build (tick s.clk) s.idx s.relUpd s.todUpd) 0 := by
  unfold Src.step
  simp only
  rw [if_pos hd]
  refine ⟨rfl, ?_, ?_⟩
  · generalize s.idx = i at *
    simp only
    rcases i with _ | _ | _ | i
    · rfl
    · rfl
    · rfl
    · omega
  · have hl := build_length (tick s.clk) s.idx hi s.relUpd s.todUpd
    generalize hB : build (tick s.clk) s.idx s.relUpd s.todUpd = B at *
    cases B with
    | nil => simp at hl
    | cons w t => exact ser_load _ hw w t

theorem step_wait (s : Src) (hd : s.delay ≠ 0) :
    s.step.delay = s.delay - 1 ∧ s.step.idx = s.idx ∧ s.step.ser = s.ser.step := by
  unfold Src.step
  simp only
  rw [if_neg hd]
  exact ⟨rfl, rfl, rfl⟩

theorem src_state (n : Nat) :
    (joint td ops k0 k1 (n + 1)).1.delay = 255 - n % 256 ∧
    (joint td ops k0 k1 (n + 1)).1.idx = (n / 256 + 1) % 3 ∧
    (joint td ops k0 k1 (n + 1)).1.ser = serAt (theMsg td ops k0 k1 (n / 256)) (n % 256) := by
  induction n with
  | zero =>
    have hk := apply_keep (ops 0) (joint td ops k0 k1 0).1
    have := step_load (pre td ops k0 k1 0) hk.2.1 (by unfold pre; rw [hk.1]; show 0 < 3; omega)
      (by unfold pre; rw [hk.2.2]; rfl)
    rw [joint_src]
    refine ⟨this.1, ?_, ?_⟩
    · rw [this.2.1]; unfold pre; rw [hk.1]; rfl
    · rw [this.2.2]
      unfold theMsg
      have : (pre td ops k0 k1 0).idx = 0 := by unfold pre; rw [hk.1]; rfl
      rw [this]
  | succ n ih =>
    have hk := apply_keep (ops (n + 1)) (joint td ops k0 k1 (n + 1)).1
    change (pre td ops k0 k1 (n + 1)).idx = _ ∧ (pre td ops k0 k1 (n + 1)).delay = _ ∧ (pre td ops k0 k1 (n + 1)).ser = _ at hk
    rw [ih.1, ih.2.1, ih.2.2] at hk
    rw [joint_src]
    by_cases h : n % 256 = 255
    · have hw : (pre td ops k0 k1 (n + 1)).ser.word = none := by
        rw [hk.2.2, h]
        exact ser_free _ _ (by rw [theMsg_length]; omega)
      have := step_load (pre td ops k0 k1 (n + 1)) (by rw [hk.2.1]; omega) (by rw [hk.1]; omega) hw
      have e1 : (n + 1) / 256 = n / 256 + 1 := by omega
      have e2 : (n + 1) % 256 = 0 := by omega
      have e3 : 256 * (n / 256 + 1) = n + 1 := by omega
      rw [this.1, this.2.1, this.2.2, e1, e2]
      refine ⟨by omega, by rw [hk.1]; omega, ?_⟩
      unfold theMsg
      rw [e3, hk.1]
    · have := step_wait (pre td ops k0 k1 (n + 1)) (by rw [hk.2.1]; omega)
      have e1 : (n + 1) / 256 = n / 256 := by omega
      have e2 : (n + 1) % 256 = n % 256 + 1 := by omega
      rw [this.1, this.2.1, this.2.2, hk.1, hk.2.1, hk.2.2, e1, e2, ser_next _ (theMsg_ne td ops k0 k1 _)]
      exact ⟨by omega, rfl, rfl⟩

/-- Message `j` as the sink sees it. -/
def rxMsg (j : Nat) : List Nat := (theMsg td ops k0 k1 j).map (· % 2 ^ 16)

/-- Sink pending message after `n + 1` edges. -/
def pend (n : Nat) : Option (List Nat) :=
  if n < 239 then none else if (n - 239) % 256 < td then some (rxMsg td ops k0 k1 ((n - 239) / 256)) else none

theorem snk_state (h1 : 1 ≤ td) (h2 : td ≤ 255) (n : Nat) :
    ∃ k, (joint td ops k0 k1 (n + 1)).2 = some k ∧
      k.des = desAt (theMsg td ops k0 k1 (n / 256)) (if n < 256 then 0 else 16) (n % 256) ∧
      k.msg = pend td ops k0 k1 n ∧ k.delay = (if n < 239 then 0 else td - (n - 239) % 256) := by
  induction n with
  | zero =>
    refine ⟨_, rfl, ?_⟩
    refine ⟨rfl, rfl, rfl⟩
  | succ n ih =>
    obtain ⟨k, hk, hd, hm, hl⟩ := ih
    have hs := (src_state td ops k0 k1 n).2.2
    have hdes := des_next (theMsg td ops k0 k1 (n / 256)) (theMsg_ne td ops k0 k1 _) (if n < 256 then 0 else 16) (n % 256)
    rw [theMsg_length] at hdes
    have hdes' : k.des.step (joint td ops k0 k1 (n + 1)).1.ser.data =
        (desAt (theMsg td ops k0 k1 ((n + 1) / 256)) (if n + 1 < 256 then 0 else 16) ((n + 1) % 256),
         if n % 256 = 238 then some (rxMsg td ops k0 k1 (n / 256)) else none) := by
      rw [hd, hs, hdes]
      congr 1
      by_cases h : n % 256 = 255
      · have e1 : (n + 1) / 256 = n / 256 + 1 := by omega
        have e2 : (n + 1) % 256 = 0 := by omega
        rw [e1, e2, h]
        unfold desAt
        rw [if_neg (by omega), dif_neg (by rw [theMsg_length]; omega), if_pos rfl, if_neg (by omega)]
      · have e1 : (n + 1) / 256 = n / 256 := by omega
        have e2 : (n + 1) % 256 = n % 256 + 1 := by omega
        rw [e1, e2]
        have : (n + 1 < 256) ↔ n < 256 := by omega
        simp only [this]
    have hj : (joint td ops k0 k1 (n + 1 + 1)).2 = k.step td (joint td ops k0 k1 (n + 1)).1.ser.data := by
      show ((joint td ops k0 k1 (n + 1)).2.bind fun k => k.step td (joint td ops k0 k1 (n + 1)).1.ser.data) = _
      rw [hk]; rfl
    rw [hj]
    unfold Snk.step
    rw [hdes']
    have hlen : ∀ j, ¬ (rxMsg td ops k0 k1 j).length < 14 := by
      intro j
      unfold rxMsg
      rw [List.length_map, theMsg_length]
      omega
    by_cases hem : n % 256 = 238
    · -- the last word has just been sampled
      have e1 : n + 1 - 239 = 256 * (n / 256) := by omega
      have e3 : 256 * (n / 256) / 256 = n / 256 := by omega
      have e4 : 256 * (n / 256) % 256 = 0 := by omega
      have hnone : k.msg = none := by
        rw [hm]
        unfold pend
        split
        · rfl
        · rw [if_neg (by omega)]
      rw [work_none k hnone, if_pos hem]
      refine ⟨_, rfl, rfl, ?_, ?_⟩
      · unfold pend
        rw [if_neg (show ¬ n + 1 < 239 by omega), e1, e3, e4, if_pos (show 0 < td by omega)]
        rfl
      · rw [if_neg (show ¬ n + 1 < 239 by omega), e1, e4]
        rfl
    · rw [if_neg hem]
      by_cases hlt : n < 239
      · have hn : k.msg = none := by rw [hm]; unfold pend; rw [if_pos hlt]
        rw [work_none k hn]
        refine ⟨_, rfl, rfl, ?_, ?_⟩
        · show k.msg = _
          rw [hn]
          unfold pend
          rw [if_pos (show n + 1 < 239 by omega)]
        · show k.delay - 1 = _
          rw [hl, if_pos hlt, if_pos (show n + 1 < 239 by omega)]
      · have e1 : (n + 1 - 239) / 256 = (n - 239) / 256 := by omega
        have e2 : (n + 1 - 239) % 256 = (n - 239) % 256 + 1 := by omega
        have hp : pend td ops k0 k1 n = if (n - 239) % 256 < td then some (rxMsg td ops k0 k1 ((n - 239) / 256)) else none := by
          unfold pend; rw [if_neg hlt]
        have hp' : pend td ops k0 k1 (n + 1) = if (n - 239) % 256 + 1 < td then some (rxMsg td ops k0 k1 ((n - 239) / 256)) else none := by
          unfold pend; rw [if_neg (show ¬ n + 1 < 239 by omega), e1, e2]
        rw [hp', if_neg (show ¬ n + 1 < 239 by omega), e2]
        rw [if_neg hlt] at hl
        by_cases ht : (n - 239) % 256 < td
        · have hp2 : k.msg = some (rxMsg td ops k0 k1 ((n - 239) / 256)) := by rw [hm, hp, if_pos ht]
          by_cases hz : k.delay - 1 = 0
          · rw [work_do k _ hp2 hz (hlen _)]
            refine ⟨_, rfl, rfl, ?_, ?_⟩
            · rw [if_neg (show ¬ (n - 239) % 256 + 1 < td by omega)]; rfl
            · show k.delay - 1 = _
              omega
          · rw [work_wait k hz]
            refine ⟨_, rfl, rfl, ?_, ?_⟩
            · show k.msg = _
              rw [hp2, if_pos (show (n - 239) % 256 + 1 < td by omega)]
            · show k.delay - 1 = _
              omega
        · have hp2 : k.msg = none := by rw [hm, hp, if_neg ht]
          rw [work_none k hp2]
          refine ⟨_, rfl, rfl, ?_, ?_⟩
          · show k.msg = _
            rw [hp2, if_neg (show ¬ (n - 239) % 256 + 1 < td by omega)]
          · show k.delay - 1 = _
            omega

/-- How one edge changes the sink counters and offsets. -/
theorem snk_step (h1 : 1 ≤ td) (h2 : td ≤ 255) (n : Nat) :
    ∃ k k', (joint td ops k0 k1 (n + 1)).2 = some k ∧ (joint td ops k0 k1 (n + 2)).2 = some k' ∧
      if n ≥ 239 ∧ (n - 239) % 256 + 1 = td then
        k'.clk = (({ k with clk := tick k.clk } : Snk).process (rxMsg td ops k0 k1 ((n - 239) / 256))).clk ∧
        k'.off = (({ k with clk := tick k.clk } : Snk).process (rxMsg td ops k0 k1 ((n - 239) / 256))).off ∧
        k'.altS = (({ k with clk := tick k.clk } : Snk).process (rxMsg td ops k0 k1 ((n - 239) / 256))).altS ∧
        k'.altOff = (({ k with clk := tick k.clk } : Snk).process (rxMsg td ops k0 k1 ((n - 239) / 256))).altOff
      else k'.clk = tick k.clk ∧ k'.off = k.off ∧ k'.altS = k.altS ∧ k'.altOff = k.altOff := by
  obtain ⟨k, hk, _, hm, hl⟩ := snk_state td ops k0 k1 h1 h2 n
  obtain ⟨k', hk', _⟩ := snk_state td ops k0 k1 h1 h2 (n + 1)
  refine ⟨k, k', hk, hk', ?_⟩
  have hj : (joint td ops k0 k1 (n + 1 + 1)).2 = k.step td (joint td ops k0 k1 (n + 1)).1.ser.data := by
    show ((joint td ops k0 k1 (n + 1)).2.bind fun k => k.step td (joint td ops k0 k1 (n + 1)).1.ser.data) = _
    rw [hk]; rfl
  rw [hj] at hk'
  unfold Snk.step at hk'
  have hlen : ∀ j, ¬ (rxMsg td ops k0 k1 j).length < 14 := by
    intro j
    unfold rxMsg
    rw [List.length_map, theMsg_length]
    omega
  by_cases hc : n ≥ 239 ∧ (n - 239) % 256 + 1 = td
  · rw [if_pos hc]
    have hp : k.msg = some (rxMsg td ops k0 k1 ((n - 239) / 256)) := by
      rw [hm]
      unfold pend
      rw [if_neg (show ¬ n < 239 by omega), if_pos (show (n - 239) % 256 < td by omega)]
    have hz : k.delay - 1 = 0 := by
      rw [if_neg (show ¬ n < 239 by omega)] at hl
      omega
    rw [work_do k _ hp hz (hlen _), Option.map_some, Option.some.injEq] at hk'
    rw [← hk']
    exact ⟨rfl, rfl, rfl, rfl⟩
  · rw [if_neg hc]
    have hw : k.work = some { k with clk := tick k.clk, delay := k.delay - 1 } := by
      by_cases hn : k.msg = none
      · exact work_none k hn
      · apply work_wait k
        rw [hm] at hn
        unfold pend at hn
        split at hn
        · simp at hn
        · rename_i h239
          rw [if_neg h239] at hl
          split at hn
          · omega
          · simp at hn
    rw [hw, Option.map_some, Option.some.injEq] at hk'
    rw [← hk']
    exact ⟨rfl, rfl, rfl, rfl⟩

end

end Corundum.Ptp
