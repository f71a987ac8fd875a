import Verif.Proof.RxHash
/-!
Header capture invariant of rx_hash.v, beat by beat, for any bus width.
-/
namespace Corundum.RxHash
open Spec

section
variable (K : Nat) (b : Nat → Nat)

def ety : Nat := b 12 * 256 + b 13
def bV4 : Bool := ety b == 0x0800
def bTcp : Bool := bV4 b && b 23 == 0x06 && b 14 % 16 == 5
def bUdp : Bool := bV4 b && b 23 == 0x11 && b 14 % 16 == 5

/-- beat `i` of a frame of `n` beats -/
def beat (n i : Nat) : Beat := ⟨fun j => b (i * K + j), i + 1 == n⟩

/-- capture registers after `i` beats of the frame, no result emitted yet -/
structure Inv (i : Nat) (s : Front) : Prop where
  act : s.active = true
  ptr : s.ptr = i
  eth1 : 12 / K < i → s.eth / 256 = b 12
  eth2 : 13 / K < i → s.eth = ety b
  ihl : 14 / K < i → s.ihl = b 14 % 16
  v4 : 0 < i → s.ipv4 = (decide (13 / K < i) && bV4 b)
  tcp : 0 < i → s.tcp = (decide (23 / K < i) && bTcp b)
  udp : 0 < i → s.udp = (decide (23 / K < i) && bUdp b)
  hd : bV4 b = true → ∀ j < 12, (26 + j) / K < i → (j < 8 ∨ (bTcp b || bUdp b) = true) → s.hd j = b (26 + j)

variable {K b}

theorem byteAt_beat {n i o : Nat} (h : o / K = i) : byteAt K (beat K b n i) o = b o := by
  unfold byteAt beat
  simp only
  rw [← h, Nat.div_add_mod']

theorem le_div {o o' : Nat} (h : o ≤ o') : o / K ≤ o' / K := Nat.div_le_div_right h

theorem hit_eq {s : Front} {i o : Nat} (h : s.ptr = i) : hit K s o = decide (o / K = i) := by
  unfold hit; rw [h]
  by_cases e : o / K = i
  · simp [e]
  · have e' : ¬ i = o / K := fun x => e x.symm
    simp [e, e']

variable {n i : Nat} {s : Front} (hb : ∀ o, b o < 256) (I : Inv K b i s)
include I

include hb in
theorem eth1N (h : 12 / K < i + 1) : (ethN K s (beat K b n i)) / 256 = b 12 := by
  unfold ethN
  rw [hit_eq I.ptr, hit_eq I.ptr]
  have h12 := hb 12
  have h13 := hb 13
  have key : (if decide (12 / K = i) = true then byteAt K (beat K b n i) 12 * 256 + s.eth % 256 else s.eth) / 256 = b 12 := by
    by_cases e : 12 / K = i
    · simp only [e, decide_true, if_true]; rw [byteAt_beat e]; omega
    · simp only [e, decide_false]; exact I.eth1 (by omega)
  simp only
  by_cases e : 13 / K = i
  · simp only [e, decide_true, if_true]
    rw [byteAt_beat e, key]; omega
  · simp only [e, decide_false]; exact key

include hb in
theorem eth2N (h : 13 / K < i + 1) : ethN K s (beat K b n i) = ety b := by
  have h13 := hb 13
  by_cases e : 13 / K = i
  · have k := eth1N (n := n) hb I (by have := le_div (K := K) (show 12 ≤ 13 by omega); omega)
    unfold ethN at k ⊢
    rw [hit_eq I.ptr, hit_eq I.ptr] at *
    simp only [e, decide_true, if_true] at k ⊢
    rw [byteAt_beat e] at k ⊢
    unfold ety
    omega
  · have e2 : 13 / K < i := by omega
    have e1 : ¬ 12 / K = i := by have := le_div (K := K) (show 12 ≤ 13 by omega); omega
    unfold ethN
    rw [hit_eq I.ptr, hit_eq I.ptr]
    simp only [e, e1, decide_false]
    exact I.eth2 e2

theorem ihlN_eq (h : 14 / K < i + 1) : ihlN K s (beat K b n i) = b 14 % 16 := by
  unfold ihlN
  rw [hit_eq I.ptr]
  by_cases e : 14 / K = i
  · simp only [e, decide_true, if_true]; rw [byteAt_beat e]
  · simp only [e, decide_false]; exact I.ihl (by omega)

include hb in
theorem ipv4N_eq : ipv4N K s (beat K b n i) = (decide (13 / K < i + 1) && bV4 b) := by
  unfold ipv4N
  rw [hit_eq I.ptr, I.ptr]
  by_cases e : 13 / K = i
  · rw [eth2N hb I (by omega)]
    rw [decide_eq_true (show 13 / K < i + 1 by omega)]
    simp only [e, decide_true, Bool.true_and]
    change (if bV4 b = true then _ else _) = _
    cases hv : bV4 b
    · by_cases i0 : i = 0
      · simp [i0]
      · have := I.v4 (by omega)
        rw [hv, Bool.and_false] at this
        simp [i0, this]
    · simp
  · simp only [e, decide_false, Bool.false_and]
    by_cases i0 : i = 0
    · subst i0
      have : ¬ 13 / K < 0 + 1 := by have := Nat.pos_of_ne_zero e; omega
      simp [this]
    · have := I.v4 (by omega)
      have e2 : decide (13 / K < i) = decide (13 / K < i + 1) := by rw [decide_eq_decide]; omega
      rw [this, e2]; simp [i0]

include hb in
theorem tcpN_eq : tcpN K s (beat K b n i) = (decide (23 / K < i + 1) && bTcp b) := by
  unfold tcpN
  rw [hit_eq I.ptr, I.ptr, ipv4N_eq hb I]
  have l1 := le_div (K := K) (show 13 ≤ 23 by omega)
  have l2 := le_div (K := K) (show 14 ≤ 23 by omega)
  by_cases e : 23 / K = i
  · rw [ihlN_eq I (by omega), byteAt_beat e]
    rw [decide_eq_true (show 13 / K < i + 1 by omega), decide_eq_true (show 23 / K < i + 1 by omega)]
    simp only [e, decide_true, Bool.true_and, Bool.and_true]
    change (if bTcp b = true then _ else _) = _
    cases hv : bTcp b
    · by_cases i0 : i = 0
      · simp [i0]
      · have := I.tcp (by omega)
        rw [hv, Bool.and_false] at this
        simp [i0, this]
    · simp
  · simp only [e, decide_false, Bool.and_false, Bool.false_and]
    by_cases i0 : i = 0
    · subst i0
      have : ¬ 23 / K < 0 + 1 := by have := Nat.pos_of_ne_zero e; omega
      simp [this]
    · have := I.tcp (by omega)
      have e2 : decide (23 / K < i) = decide (23 / K < i + 1) := by rw [decide_eq_decide]; omega
      rw [this, e2]; simp [i0]

include hb in
theorem udpN_eq : udpN K s (beat K b n i) = (decide (23 / K < i + 1) && bUdp b) := by
  unfold udpN
  rw [hit_eq I.ptr, I.ptr, ipv4N_eq hb I]
  have l1 := le_div (K := K) (show 13 ≤ 23 by omega)
  have l2 := le_div (K := K) (show 14 ≤ 23 by omega)
  by_cases e : 23 / K = i
  · rw [ihlN_eq I (by omega), byteAt_beat e]
    rw [decide_eq_true (show 13 / K < i + 1 by omega), decide_eq_true (show 23 / K < i + 1 by omega)]
    simp only [e, decide_true, Bool.true_and, Bool.and_true]
    change (if bUdp b = true then _ else _) = _
    cases hv : bUdp b
    · by_cases i0 : i = 0
      · simp [i0]
      · have := I.udp (by omega)
        rw [hv, Bool.and_false] at this
        simp [i0, this]
    · simp
  · simp only [e, decide_false, Bool.and_false, Bool.false_and]
    by_cases i0 : i = 0
    · subst i0
      have : ¬ 23 / K < 0 + 1 := by have := Nat.pos_of_ne_zero e; omega
      simp [this]
    · have := I.udp (by omega)
      have e2 : decide (23 / K < i) = decide (23 / K < i + 1) := by rw [decide_eq_decide]; omega
      rw [this, e2]; simp [i0]

include hb in
theorem hdN_eq (hv : bV4 b = true) (j : Nat) (hj : j < 12) (h : (26 + j) / K < i + 1) (hl : j < 8 ∨ (bTcp b || bUdp b) = true) :
    hdN K s (beat K b n i) j = b (26 + j) := by
  unfold hdN
  rw [hit_eq I.ptr, ipv4N_eq hb I, tcpN_eq hb I, udpN_eq hb I]
  have l1 := le_div (K := K) (show 13 ≤ 26 + j by omega)
  have l2 := le_div (K := K) (show 23 ≤ 26 + j by omega)
  by_cases e : (26 + j) / K = i
  · rw [byteAt_beat e]
    rw [decide_eq_true (show 13 / K < i + 1 by omega), decide_eq_true (show 23 / K < i + 1 by omega)]
    simp only [e, decide_true, Bool.true_and, Bool.and_true, hv, hj]
    rw [if_pos]
    rcases hl with hl | hl
    · simp [hl]
    · rw [hl]; simp
  · simp only [e, decide_false, Bool.and_false, Bool.false_and]
    exact I.hd hv j hj (by omega) hl

include hb in
theorem doneOther_eq : doneOther K s (beat K b n i) = (decide (13 / K = i) && (ety b != 0x0800 && ety b != 0x86dd)) := by
  unfold doneOther
  rw [hit_eq I.ptr]
  by_cases e : 13 / K = i
  · rw [eth2N hb I (by omega), Bool.and_assoc]
  · simp [e]

include hb in
theorem doneIp_eq : doneIp K s (beat K b n i) = (decide (33 / K = i) && (bV4 b && !(bTcp b || bUdp b))) := by
  unfold doneIp
  rw [hit_eq I.ptr, ipv4N_eq hb I, tcpN_eq hb I, udpN_eq hb I]
  have l1 := le_div (K := K) (show 13 ≤ 33 by omega)
  have l2 := le_div (K := K) (show 23 ≤ 33 by omega)
  by_cases e : 33 / K = i
  · rw [decide_eq_true (show 13 / K < i + 1 by omega), decide_eq_true (show 23 / K < i + 1 by omega)]
    simp [e]
  · simp [e]

include hb in
theorem doneL4_eq : doneL4 K s (beat K b n i) = (decide (37 / K = i) && (bV4 b && (bTcp b || bUdp b))) := by
  unfold doneL4
  rw [hit_eq I.ptr, ipv4N_eq hb I, tcpN_eq hb I, udpN_eq hb I]
  have l1 := le_div (K := K) (show 13 ≤ 37 by omega)
  have l2 := le_div (K := K) (show 23 ≤ 37 by omega)
  by_cases e : 37 / K = i
  · rw [decide_eq_true (show 13 / K < i + 1 by omega), decide_eq_true (show 23 / K < i + 1 by omega)]
    simp [e]
  · simp [e]

end

/-- offset of the byte that completes the result; none for IPv6 -/
def fin (b : Nat → Nat) : Option Nat :=
  if bV4 b then (if bTcp b || bUdp b then some 37 else some 33) else if ety b = 0x86dd then none else some 13

theorem v4_ne {b : Nat → Nat} (h : bV4 b = true) : ety b = 0x0800 := by simpa [bV4] using h

theorem done_eq {K : Nat} {b : Nat → Nat} {n i : Nat} {s : Front} (hb : ∀ o, b o < 256) (I : Inv K b i s) :
    done K s (beat K b n i) = (match fin b with | none => false | some o => decide (o / K = i)) := by
  unfold done fin
  rw [doneOther_eq hb I, doneIp_eq hb I, doneL4_eq hb I]
  cases hv : bV4 b
  · have h0 : ety b ≠ 0x0800 := by simpa [bV4] using hv
    by_cases h6 : ety b = 0x86dd
    · simp [h6]
    · simp [h6, h0]
  · have h0 := v4_ne hv
    cases hl : (bTcp b || bUdp b) <;> simp [h0]

theorem step_some {K : Nat} {s : Front} {bt : Beat} (h : s.active = true) : s.step K (some bt) =
      { active := if bt.last then true else !done K s bt
        ptr := if bt.last then 0 else (s.ptr + 1) % ptrMod K
        eth := ethN K s bt
        ihl := ihlN K s bt
        hd := hdN K s bt
        ipv4 := ipv4N K s bt
        tcp := tcpN K s bt
        udp := udpN K s bt
        typ := if bt.last && !done K s bt then 0 else typN K s bt
        valid := done K s bt || bt.last } := by
  unfold Front.step
  simp only [h, if_true]

theorem inv_step {K : Nat} {b : Nat → Nat} {n i : Nat} {s : Front} (hb : ∀ o, b o < 256) (I : Inv K b i s)
    (hd : done K s (beat K b n i) = false) (hl : i + 1 ≠ n) (hm : i + 1 < ptrMod K) :
    Inv K b (i + 1) (s.step K (some (beat K b n i))) ∧ (s.step K (some (beat K b n i))).valid = false := by
  have hlast : (beat K b n i).last = false := by simp [beat, hl]
  rw [step_some I.act, hlast, hd]
  refine ⟨⟨rfl, ?_, eth1N hb I, eth2N hb I, ihlN_eq I, fun _ => ipv4N_eq hb I, fun _ => tcpN_eq hb I, fun _ => udpN_eq hb I, hdN_eq hb I⟩, rfl⟩
  simp only
  rw [I.ptr, Nat.mod_eq_of_lt hm]; rfl

theorem ptr_bound {K : Nat} (hK : 0 < K) : 37 / K < ptrMod K := by
  have hc : (38 + K - 1) / K = 37 / K + 1 := by
    rw [show 38 + K - 1 = 37 + K by omega, Nat.add_div_right _ hK]
  unfold ptrMod
  rw [hc]
  simp only
  unfold clog2
  by_cases h : 37 / K + 1 ≤ 1
  · rw [if_pos h]; simp; omega
  · rw [if_neg h, if_neg (by omega), show 37 / K + 1 - 1 = 37 / K by omega]
    exact Nat.lt_log2_self

/-- the expected result in terms of the byte function -/
def bres (key : Nat) (b : Nat → Nat) : Nat × Nat :=
  if bV4 b then
    if bTcp b || bUdp b then (toeplitz key ((List.range 12).map (fun j => b (26 + j))), 1 + 4 * (bTcp b).toNat + 8 * (bUdp b).toNat)
    else (toeplitz key ((List.range 8).map (fun j => b (26 + j))), 1)
  else (0, 0)

theorem res_done {K key : Nat} {b : Nat → Nat} {n i : Nat} {s : Front} (hk : key < 2 ^ 320) (hb : ∀ o, b o < 256) (I : Inv K b i s)
    (hd : done K s (beat K b n i) = true) : res key (s.step K (some (beat K b n i))) = bres key b := by
  have h := done_eq (n := n) hb I
  rw [hd] at h
  rw [step_some I.act, hd]
  unfold res bres
  simp only [Bool.not_true, Bool.and_false, Bool.false_eq_true, if_false]
  unfold typN
  rw [doneOther_eq hb I, doneIp_eq hb I, doneL4_eq hb I, ipv4N_eq hb I, tcpN_eq hb I, udpN_eq hb I]
  unfold fin at h
  cases hv : bV4 b
  · rw [hv] at h
    have h0 : ety b ≠ 0x0800 := by simpa [bV4] using hv
    by_cases h6 : ety b = 0x86dd
    · simp [h6] at h
    · simp [h6] at h
      simp [h, h0, h6]
  · rw [hv] at h
    have H := hdN_eq (n := n) hb I hv
    cases hl : (bTcp b || bUdp b)
    · rw [hl] at h
      simp at h
      have l1 := le_div (K := K) (show 13 ≤ 33 by omega)
      have l2 := le_div (K := K) (show 23 ≤ 33 by omega)
      rw [hash_l3 _ _ hk]
      rw [decide_eq_true (show 13 / K < i + 1 by omega), decide_eq_true (show 23 / K < i + 1 by omega)]
      have hl' := hl
      simp only [Bool.or_eq_false_iff] at hl'
      simp only [hl'.1, hl'.2, h, decide_true, Bool.and_false, Bool.false_eq_true, if_false, Bool.or_false, Bool.true_and, if_true, Bool.not_false]
      congr 2
      apply List.map_congr_left
      intro j hj
      have hj' := List.mem_range.mp hj
      have := le_div (K := K) (show 26 + j ≤ 33 by omega)
      exact H j (by omega) (by omega) (Or.inl hj')
    · rw [hl] at h
      simp at h
      have l1 := le_div (K := K) (show 13 ≤ 37 by omega)
      have l2 := le_div (K := K) (show 23 ≤ 37 by omega)
      rw [hash_l4 _ _ hk]
      rw [decide_eq_true (show 13 / K < i + 1 by omega), decide_eq_true (show 23 / K < i + 1 by omega)]
      simp only [h, decide_true, Bool.true_and, if_true, hl, Bool.and_true]
      congr 2
      apply List.map_congr_left
      intro j hj
      have hj' := List.mem_range.mp hj
      have := le_div (K := K) (show 26 + j ≤ 37 by omega)
      exact H j (by omega) (by omega) (Or.inr hl)

def ready (s : Front) : Prop := s.active = true ∧ s.ptr = 0

theorem inactive {K key : Nat} {b : Nat → Nat} {n : Nat} (rest : List (Option Beat)) : ∀ (m i : Nat) (s : Front), i + m + 1 = n → s.active = false →
    ∃ s', ready s' ∧ emits K key s (((List.range' i (m + 1)).map (fun i => some (beat K b n i))) ++ rest) = emits K key s' rest := by
  intro m
  induction m with
  | zero =>
    intro i s hi hs
    refine ⟨s.step K (some (beat K b n i)), ?_, ?_⟩
    rotate_left 1
    · rw [List.range'_succ, List.map_cons, List.cons_append, emits]
      rw [show (s.step K (some (beat K b n i))).valid = false by simp [Front.step, hs], if_neg (by simp)]
      rfl
    · have : i + 1 = n := by omega
      simp [ready, Front.step, hs, beat, this]
  | succ m ih =>
    intro i s hi hs
    obtain ⟨s', r, e⟩ := ih (i + 1) (s.step K (some (beat K b n i))) (by omega) (by simp [Front.step, hs, beat]; omega)
    refine ⟨s', r, ?_⟩
    rw [List.range'_succ, List.map_cons, List.cons_append, emits,
      show (s.step K (some (beat K b n i))).valid = false by simp [Front.step, hs], if_neg (by simp)]
    exact e

theorem frame_emits {K key : Nat} (hK : 0 < K) (hk : key < 2 ^ 320) {b : Nat → Nat} {n : Nat} (hb : ∀ o, b o < 256) (hn : 37 / K < n)
    (h6 : ety b = 0x86dd → n ≤ ptrMod K) (rest : List (Option Beat)) :
    ∀ (m i : Nat) (s : Front), i + m + 1 = n → Inv K b i s → (∀ o, fin b = some o → i ≤ o / K) →
    ∃ s', ready s' ∧ emits K key s (((List.range' i (m + 1)).map (fun i => some (beat K b n i))) ++ rest) = bres key b :: emits K key s' rest := by
  intro m
  induction m with
  | zero =>
    intro i s hi I hf
    have hlast : (beat K b n i).last = true := by simp [beat]; omega
    refine ⟨s.step K (some (beat K b n i)), ?_, ?_⟩
    · rw [step_some I.act, hlast]; exact ⟨rfl, rfl⟩
    · rw [List.range'_succ, List.map_cons, List.cons_append, emits]
      have hv : (s.step K (some (beat K b n i))).valid = true := by rw [step_some I.act, hlast]; simp
      rw [if_pos hv]
      change res key _ :: emits K key _ rest = _
      congr 1
      cases hd : done K s (beat K b n i)
      · have h := done_eq (n := n) hb I
        rw [hd] at h
        have hfn : fin b = none := by
          cases hfb : fin b with
          | none => rfl
          | some o =>
            rw [hfb] at h
            have h1 := hf o hfb
            have : o ≤ 37 := by
              unfold fin at hfb
              split at hfb
              · split at hfb <;> (cases hfb; omega)
              · split at hfb
                · cases hfb
                · cases hfb; omega
            have := le_div (K := K) this
            simp at h
            omega
        have hv4 : bV4 b = false := by
          cases hv : bV4 b
          · rfl
          · unfold fin at hfn; rw [hv] at hfn; simp at hfn; split at hfn <;> cases hfn
        rw [step_some I.act, hd, hlast]
        unfold res bres
        simp only
        rw [ipv4N_eq hb I, hv4]
        simp
      · exact res_done hk hb I hd
  | succ m ih =>
    intro i s hi I hf
    have hlast : (beat K b n i).last = false := by simp [beat]; omega
    cases hd : done K s (beat K b n i)
    · have h := done_eq (n := n) hb I
      rw [hd] at h
      have hm : i + 1 < ptrMod K ∧ ∀ o, fin b = some o → i + 1 ≤ o / K := by
        cases hfb : fin b with
        | none =>
          have : ety b = 0x86dd := by
            unfold fin at hfb
            split at hfb
            · split at hfb <;> cases hfb
            · split at hfb
              · assumption
              · cases hfb
          have := h6 this
          exact ⟨by omega, by intro o ho; cases ho⟩
        | some o =>
          rw [hfb] at h
          have h1 := hf o hfb
          have : o ≤ 37 := by
            unfold fin at hfb
            split at hfb
            · split at hfb <;> (cases hfb; omega)
            · split at hfb
              · cases hfb
              · cases hfb; omega
          have := le_div (K := K) this
          have hp := ptr_bound hK
          simp at h
          exact ⟨by omega, by intro o' ho'; cases ho'; omega⟩
      obtain ⟨I', hv⟩ := inv_step hb I hd (by omega) hm.1
      obtain ⟨s', r, e⟩ := ih (i + 1) _ (by omega) I' hm.2
      refine ⟨s', r, ?_⟩
      rw [List.range'_succ, List.map_cons, List.cons_append, emits, hv, if_neg (by simp)]
      exact e
    · have hv : (s.step K (some (beat K b n i))).valid = true := by rw [step_some I.act, hd]; rfl
      have ha : (s.step K (some (beat K b n i))).active = false := by rw [step_some I.act, hd, hlast]; rfl
      obtain ⟨s', r, e⟩ := inactive (K := K) (key := key) (b := b) (n := n) rest m (i + 1) _ (by omega) ha
      refine ⟨s', r, ?_⟩
      rw [List.range'_succ, List.map_cons, List.cons_append, emits, if_pos hv, e, res_done hk hb I hd]
      rfl

theorem emits_valid (K key : Nat) (s : Front) (v : Bool) (cs : List (Option Beat)) : emits K key { s with valid := v } cs = emits K key s cs := by
  cases cs with
  | nil => rfl
  | cons c cs => cases c <;> rfl

/-- idle cycles change nothing -/
theorem emits_idle (K key : Nat) : ∀ (cs : List (Option Beat)) (s : Front), emits K key s cs = emits K key s ((cs.filterMap id).map some)
  | [], _ => rfl
  | none :: cs, s => by
    rw [emits]
    change [] ++ emits K key { s with valid := false } cs = _
    rw [emits_valid, List.nil_append, emits_idle K key cs s]; rfl
  | some b :: cs, s => by
    rw [emits, emits_idle K key cs]
    rfl

end Corundum.RxHash
