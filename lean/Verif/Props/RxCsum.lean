import Verif.Proof.RxCsum
/-!
C30: the receive checksum is the ones' complement sum of the frame from the start offset.
-/
namespace Corundum.RxCsum

/-- a frame on the bus: its bytes, and whatever the unused lanes of the last word hold -/
structure Frame where
  bytes : List Nat
  pad : Nat → Nat

def Frame.at (f : Frame) (o : Nat) : Nat := if o < f.bytes.length then f.bytes.getD o 0 else f.pad o
def Frame.words (K : Nat) (f : Frame) : Nat := (f.bytes.length + K - 1) / K
/-- the words of a frame on a bus of `K` byte lanes -/
def Frame.beats (K : Nat) (f : Frame) : List Beat :=
  (List.range (f.words K)).map (fun i => ⟨fun j => f.at (i * K + j), fun j => decide (i * K + j < f.bytes.length), i + 1 == f.words K⟩)

structure Frame.Ok (f : Frame) : Prop where
  byte : ∀ x ∈ f.bytes, x < 256
  pad : ∀ o, f.pad o < 256
  pos : f.bytes ≠ []

/-- parameters for which the offset counter is wide enough; the bus is at most 2^16 bytes wide -/
structure Cfg.Ok (c : Cfg) : Prop where
  even : c.start % 2 = 0
  width : c.d ≤ 14
  off : c.off0 = c.start / c.K

theorem Frame.at_lt {f : Frame} (h : f.Ok) (o : Nat) : f.at o < 256 := by
  unfold Frame.at
  split
  · next hl => rw [List.getD_eq_getElem?_getD, List.getElem?_eq_getElem hl, Option.getD_some]; exact h.byte _ (List.getElem_mem hl)
  · exact h.pad o

/-- masking registers before beat `i` -/
structure MI (c : Cfg) (i : Nat) (m : Mask) : Prop where
  mask : ∀ j < c.K, m.mask j = decide (c.start ≤ i * c.K + j)
  off : m.off = c.start / c.K - i

theorem K_pos (c : Cfg) : 0 < c.K := by unfold Cfg.K; have := Nat.two_pow_pos c.d; omega

theorem mi0 (c : Cfg) (h : c.Ok) : MI c 0 ⟨c.off0, c.mask0⟩ := by
  refine ⟨?_, ?_⟩
  · intro j _; simp [Cfg.mask0]
  · rw [h.off]; rfl

theorem mi_step (c : Cfg) (h : c.Ok) {i : Nat} {m : Mask} (I : MI c i m) {b : Beat} (hb : b.last = false) : MI c (i + 1) (m.step c b) := by
  have hK := K_pos c
  have hdm := Nat.div_add_mod c.start c.K
  have hml := Nat.mod_lt c.start hK
  unfold Mask.step
  rw [hb, if_neg (by simp)]
  by_cases h1 : c.start < c.K ∨ m.off = 0
  · rw [if_pos h1]
    refine ⟨?_, ?_⟩
    · intro j _
      simp only
      symm
      rw [decide_eq_true_eq]
      have hq : c.start / c.K ≤ i := by
        rcases h1 with h1 | h1
        · rw [Nat.div_eq_of_lt h1]; omega
        · have := I.off; omega
      have : c.K * (c.start / c.K) ≤ c.K * i := Nat.mul_le_mul_left _ hq
      rw [Nat.mul_comm (i + 1), Nat.mul_add]
      omega
    · have : m.off = 0 := by
        rcases h1 with h1 | h1
        · have := I.off; rw [Nat.div_eq_of_lt h1] at this; omega
        · exact h1
      have e := I.off
      simp only
      omega
  · rw [if_neg h1]
    have hne : m.off ≠ 0 := fun x => h1 (Or.inr x)
    have hoff := I.off
    have hlt : c.start / c.K < 2 ^ c.offW := by rw [← h.off]; exact Nat.mod_lt _ (Nat.two_pow_pos _)
    refine ⟨?_, ?_⟩
    · intro j hj
      simp only
      by_cases e1 : m.off = 1
      · rw [if_pos e1]
        have : c.start / c.K = i + 1 := by omega
        rw [this] at hdm
        rw [decide_eq_decide, Nat.mul_comm (i + 1)]
        omega
      · rw [if_neg e1]
        symm
        rw [decide_eq_false_iff_not]
        have hq : i + 2 ≤ c.start / c.K := by omega
        have : c.K * (i + 2) ≤ c.K * (c.start / c.K) := Nat.mul_le_mul_left _ hq
        rw [Nat.mul_add] at this
        rw [Nat.mul_comm (i + 1), Nat.mul_add]
        omega
    · simp only
      rw [show m.off + 2 ^ c.offW - 1 = (m.off - 1) + 2 ^ c.offW by omega, Nat.add_mod_right, Nat.mod_eq_of_lt (by omega)]
      omega

/-- bytes of the frame that count -/
def cnt (c : Cfg) (f : Frame) (o : Nat) : Nat := if c.start ≤ o ∧ o < f.bytes.length then f.bytes.getD o 0 else 0

theorem masked_cnt (c : Cfg) (f : Frame) {i : Nat} {m : Mask} (I : MI c i m) (l : Bool) {j : Nat} (hj : j < c.K) :
    masked m ⟨fun j => f.at (i * c.K + j), fun j => decide (i * c.K + j < f.bytes.length), l⟩ j = cnt c f (i * c.K + j) := by
  unfold masked cnt
  simp only [I.mask j hj]
  by_cases h1 : i * c.K + j < f.bytes.length
  · by_cases h2 : c.start ≤ i * c.K + j
    · simp [h1, h2, Frame.at]
    · simp [h2]
  · simp [h1]

theorem cnt_lt (c : Cfg) {f : Frame} (h : f.Ok) (o : Nat) : cnt c f o < 256 := by
  unfold cnt
  split
  · next hh =>
    have := Frame.at_lt h o
    unfold Frame.at at this
    rw [if_pos hh.2] at this
    exact this
  · omega

theorem cnt_sum (c : Cfg) (h : c.Ok) (f : Frame) (N : Nat) (hN : f.bytes.length ≤ N) :
    W (cnt c f) N = (Spec.words (f.bytes.drop c.start)).sum := by
  rw [words_W, List.length_drop]
  by_cases hs : c.start ≤ f.bytes.length
  · obtain ⟨r, hr⟩ : ∃ r, N = c.start + (f.bytes.length - c.start + r) := ⟨N - f.bytes.length, by omega⟩
    rw [hr, W_add _ _ _ h.even, W_null (n := c.start) (by intro o ho; unfold cnt; rw [if_neg (by omega)]), Nat.zero_add]
    have tail : ∀ (g : Nat → Nat) (n r : Nat), (∀ o, n ≤ o → g o = 0) → W g (n + r) = W g n := by
      intro g n r hg
      induction r with
      | zero => rfl
      | succ r ih => rw [← Nat.add_assoc, W_succ, ih, hg _ (by omega)]; simp
    rw [tail _ _ _ (by intro o ho; unfold cnt; rw [if_neg (by omega)])]
    apply W_congr
    intro o ho
    unfold cnt
    rw [if_pos (by omega)]
    simp [List.getD_eq_getElem?_getD]
  · rw [show f.bytes.length - c.start = 0 by omega, W_zero]
    apply W_null
    intro o _
    unfold cnt; rw [if_neg (by omega)]

theorem K_even (c : Cfg) : c.K % 2 = 0 := by unfold Cfg.K; omega

theorem frame_run (c : Cfg) (h : c.Ok) (f : Frame) (hf : f.Ok) (rest : List Beat) : ∀ (k i : Nat) (m : Mask) (a : Nat), i + k + 1 = f.words c.K →
    MI c i m → Oc a (W (cnt c f) (i * c.K)) →
    beatRun c m a (((List.range' i (k + 1)).map (fun i => (⟨fun j => f.at (i * c.K + j), fun j => decide (i * c.K + j < f.bytes.length), i + 1 == f.words c.K⟩ : Beat))) ++ rest)
      = Spec.ocSum (f.bytes.drop c.start) :: beatRun c ⟨c.off0, c.mask0⟩ 0 rest := by
  intro k
  induction k with
  | zero =>
    intro i m a hi I ha
    rw [List.range'_succ, List.map_cons, List.cons_append, beatRun]
    have hl : (i + 1 == f.words c.K) = true := by simp; omega
    rw [hl, if_pos rfl]
    have em : ∀ b : Beat, b.last = true → m.step c b = ⟨c.off0, c.mask0⟩ := by intro b hb; unfold Mask.step; rw [if_pos hb]
    rw [em _ rfl]
    congr 1
    rw [W_congr (fun j hj => masked_cnt c f I true hj)]
    have o1 := accumulate_oc c h.width ha (W_bound c (fun j => cnt c f (i * c.K + j)) (fun j => cnt_lt c hf _))
    rw [← W_add _ _ _ (by rw [Nat.mul_mod, K_even]; simp)] at o1
    have hN : f.bytes.length ≤ i * c.K + c.K := by
      have hK := K_pos c
      have hw : f.words c.K = i + 1 := by omega
      have := Nat.div_add_mod (f.bytes.length + c.K - 1) c.K
      have hml := Nat.mod_lt (f.bytes.length + c.K - 1) hK
      unfold Frame.words at hw
      rw [hw, Nat.mul_add, Nat.mul_comm] at this
      omega
    rw [cnt_sum c h f _ hN] at o1
    apply Oc.unique o1
    have hby : ∀ b ∈ f.bytes.drop c.start, b < 256 := fun b hb => hf.byte b (List.mem_of_mem_drop hb)
    exact Spec.ocSum_spec _ hby
  | succ k ih =>
    intro i m a hi I ha
    rw [List.range'_succ, List.map_cons, List.cons_append, beatRun]
    have hl : (i + 1 == f.words c.K) = false := by simp; omega
    rw [hl, if_neg (by simp)]
    refine ih (i + 1) _ _ (by omega) (mi_step c h I rfl) ?_
    rw [W_congr (fun j hj => masked_cnt c f I false hj)]
    have o1 := accumulate_oc c h.width ha (W_bound c (fun j => cnt c f (i * c.K + j)) (fun j => cnt_lt c hf _))
    rw [← W_add _ _ _ (by rw [Nat.mul_mod, K_even]; simp)] at o1
    rw [Nat.add_mul, Nat.one_mul]
    exact o1

theorem frames_run (c : Cfg) (h : c.Ok) : ∀ (fs : List Frame), (∀ f ∈ fs, f.Ok) →
    beatRun c ⟨c.off0, c.mask0⟩ 0 (fs.flatMap (Frame.beats c.K)) = fs.map (fun f => Spec.ocSum (f.bytes.drop c.start))
  | [], _ => rfl
  | f :: fs, hf => by
    have ok := hf f List.mem_cons_self
    have hw : 0 < f.words c.K := by
      unfold Frame.words
      have hl : 0 < f.bytes.length := List.length_pos_iff.mpr ok.pos
      exact Nat.div_pos (by omega) (K_pos c)
    obtain ⟨m, hm⟩ : ∃ m, f.words c.K = m + 1 := ⟨f.words c.K - 1, by omega⟩
    rw [List.flatMap_cons, List.map_cons, ← frames_run c h fs (fun f h => hf f (List.mem_cons_of_mem _ h))]
    have := frame_run c h f ok (fs.flatMap (Frame.beats c.K)) m 0 ⟨c.off0, c.mask0⟩ 0 (by omega) (mi0 c h) (by
      rw [Nat.zero_mul, W_zero]; exact ⟨by omega, rfl, by omega⟩)
    rw [← this, Frame.beats, List.range_eq_range', hm]

/-- **C30** for every bus width `4 * 2^d` bytes (up to 64 KiB), every sequence of non-empty frames and every placement of idle cycles, the
module reports exactly one checksum per frame, in order: the ones' complement sum of the 16-bit words from the start offset on. -/
theorem C30_ones_complement_sum (c : Cfg) (h : c.Ok) (fs : List Frame) (hf : ∀ f ∈ fs, f.Ok) (cs : List (Option Beat))
    (hc : cs.filterMap id = fs.flatMap (Frame.beats c.K)) :
    outs c (init c) (cs ++ List.replicate (c.d + 1) none) = fs.map (fun f => Spec.ocSum (f.bytes.drop c.start)) := by
  rw [outs_flush c (init c) (fun _ => rfl) cs, accRun_beats, hc]
  · exact frames_run c h fs hf
  · intro b hb
    have : b ∈ cs.filterMap id := List.mem_filterMap.mpr ⟨some b, hb, rfl⟩
    rw [hc] at this
    obtain ⟨f, hfm, hbm⟩ := List.mem_flatMap.mp this
    obtain ⟨i, _, e⟩ := List.mem_map.mp hbm
    intro j
    rw [← e]
    exact Frame.at_lt (hf f hfm) _

/-- the default start offset 14 satisfies the parameter hypotheses on every bus width -/
theorem cfg14 (d : Nat) (hd : d ≤ 14) : Cfg.Ok ⟨d, 14⟩ := by
  refine ⟨show 14 % 2 = 0 by decide, hd, ?_⟩
  by_cases h : d < 2
  · have : d = 0 ∨ d = 1 := by omega
    rcases this with e | e <;> subst e <;> decide
  · have hK : 14 < Cfg.K ⟨d, 14⟩ := by
      have : 2 ^ 2 ≤ 2 ^ d := Nat.pow_le_pow_right (by omega) (by omega)
      unfold Cfg.K; simp only; omega
    unfold Cfg.off0
    simp only
    rw [Nat.div_eq_of_lt hK]; simp

/-- **C30** as used (start offset 14): the sum over the frame without its Ethernet header -/
theorem C30_default_offset (d : Nat) (hd : d ≤ 14) (fs : List Frame) (hf : ∀ f ∈ fs, f.Ok) (cs : List (Option Beat))
    (hc : cs.filterMap id = fs.flatMap (Frame.beats (4 * 2 ^ d))) :
    outs ⟨d, 14⟩ (init ⟨d, 14⟩) (cs ++ List.replicate (d + 1) none) = fs.map (fun f => Spec.ocSum (f.bytes.drop 14)) :=
  C30_ones_complement_sum ⟨d, 14⟩ (cfg14 d hd) fs hf cs hc

/-- one clock with `rst` asserted and no input, rx_checksum.v:107-111,131-133,157-159: the accumulator is not reset -/
def St.reset (c : Cfg) (s : St) : St :=
  { m := ⟨c.off0, c.mask0⟩, pipe := fun _ => none, acc := (s.stepAcc c).1, csum := (s.stepAcc c).2.1, valid := false }

def run (c : Cfg) (s : St) (cs : List (Option Beat)) : St := cs.foldl (fun s i => s.step c i) s

/-- three words on a 128-bit bus -/
def longFrame : Frame := ⟨List.replicate 40 1, fun _ => 0⟩
def zeroFrame : Frame := ⟨List.replicate 16 0, fun _ => 0⟩

set_option maxRecDepth 100000 in
/-- **C30** disagreement: a reset in the middle of a frame leaves the partial sum in the accumulator, and the next frame (all zero)
is reported with checksum 0x0909 instead of 0. -/
theorem C30_reset_counterexample :
    outs ⟨2, 14⟩ ((run ⟨2, 14⟩ (init ⟨2, 14⟩) (((longFrame.beats 16).take 2).map some ++ [none, none, none, none])).reset ⟨2, 14⟩)
      ((zeroFrame.beats 16).map some ++ [none, none, none]) = [0x0909] ∧ Spec.ocSum (zeroFrame.bytes.drop 14) = 0 := by
  decide

/-- with START_OFFSET a power of two multiple of the bus width the offset counter is too narrow (not the case for 14) -/
example : ¬ Cfg.Ok ⟨0, 16⟩ := fun h => absurd h.off (by decide)

/-- a frame of odd length meets the hypotheses -/
example : Frame.Ok ⟨(List.range 61).map (fun i => i * 4), fun _ => 3⟩ := ⟨by decide, fun _ => show 3 < 256 by decide, by decide⟩

end Corundum.RxCsum
