import Verif.Proof.MacCtrlTx
/-!
C135, C136, C137: control frames merged with the data stream (mac_ctrl_tx.v).
-/
namespace Corundum.MacCtrl

open Corundum.ArbMux (Skid)

/-- all data accepted before cycle n -/
def dataUpTo (c : Cfg) (ins : Nat → TxIn) (n : Nat) : List Beat := upTo (fun k => dataIn (tx c ins k) (ins k)) n

/-- all requests accepted before cycle n -/
def reqsUpTo (c : Cfg) (ins : Nat → TxIn) (n : Nat) : List Req := upTo (fun k => reqIn (tx c ins k) (ins k)) n

/-- everything put out before cycle n -/
def outUpTo (c : Cfg) (ins : Nat → TxIn) (n : Nat) : List Beat := upTo (fun k => beatOut (tx c ins k) (ins k)) n

/-- the stream ends inside of a frame -/
def midFrame (bs : List Beat) : Bool := match bs.getLast? with
  | none => false
  | some b => !b.last

theorem mid_eq {c : Cfg} (hL : 0 < c.lanes) (ins : Nat → TxIn) (n : Nat) : midFrame (dataUpTo c ins n) = (tx c ins n).data := by
  induction n with
  | zero => rfl
  | succ n ih =>
    have I := tx_inv hL ins n
    have eS : tx c ins (n + 1) = (tx c ins n).step c (ins n) := rfl
    have eD : dataUpTo c ins (n + 1) = dataUpTo c ins n ++ dataIn (tx c ins n) (ins n) := rfl
    have hdi : dataIn (tx c ins n) (ins n) = (if (tx c ins n).sready then (ins n).s else none).toList := by
      unfold dataIn; split <;> rfl
    cases hm : (tx c ins n).mcf with
    | true =>
      have hs : (tx c ins n).sready = false := by
        cases hs : (tx c ins n).sready with
        | false => rfl
        | true => have := (I.sr hs).2; rw [hm] at this; cases this
      rw [eD, hdi, hs]
      simp only [Bool.false_eq_true, if_false, Option.toList_none, List.append_nil]
      rw [ih, eS]
      cases hrd : (tx c ins n).out.ready with
      | false => rw [(step_wait (c := c) (ins n) hm hrd).1]
      | true => rw [(step_mcf hL (ins n) hm hrd).1]
    | false =>
      cases hb : (if (tx c ins n).sready then (ins n).s else none) with
      | some b =>
        rw [eS, (step_data (c := c) (ins n) b hm hb).1, eD, hdi, hb]
        simp [midFrame]
      | none =>
        rw [eS, (step_none (c := c) (ins n) hm hb).1, eD, hdi, hb]
        simpa using ih

/-- **C135.** At every time the stream put out, with at most two transfers still in the module, is made of the data
transfers accepted, in their order and unchanged, and one control frame of 60 bytes with the fields asked for each
request accepted, in their order, and no control frame is inside of a data frame.  At its end there may be a part of
the control frame of the request that waits. -/
theorem C135_merge (c : Cfg) (hL : 0 < c.lanes) (hP : c.params ≤ 44) (ins : Nat → TxIn) (hh : Held c ins) (hr : ∀ n, (ins n).mcf.Ok c.params) (n : Nat) :
    ∃ (ps : List Piece) (part buf : List Beat),
      ps.filterMap Piece.isData = dataUpTo c ins n ∧ ps.filterMap Piece.isCtrl = reqsUpTo c ins n ∧
      inside ps = some (midFrame (dataUpTo c ins n)) ∧
      outUpTo c ins n ++ buf = ps.flatMap (Piece.beats c.lanes) ++ part ∧ buf.length ≤ 2 ∧
      (part = [] ∨ (midFrame (dataUpTo c ins n) = false ∧ (ins n).mcfValid = true ∧ ∃ k, k < beats c.lanes ∧ part = (ctrlFrame c.lanes (ins n).mcf).take k)) := by
  obtain ⟨ps, M⟩ := merged hL hP hh hr n
  have I := tx_inv hL ins n
  refine ⟨ps, _, _, M.data, M.ctrl, ?_, M.out, ?_, ?_⟩
  · rw [M.bound, mid_eq hL]
  · cases (tx c ins n).out.m <;> cases (tx c ins n).out.temp <;> simp
  · cases hm : (tx c ins n).mcf with
    | false => exact Or.inl rfl
    | true =>
      refine Or.inr ⟨?_, M.held hm, (tx c ins n).ptr, ?_, by simp⟩
      · rw [mid_eq hL]; exact (I.md hm).1
      · rw [← cycles_eq hL]; exact (I.md hm).2

/-- **C135.** Without requests and pauses, and with a sink that is always ready, data is accepted in every cycle. -/
theorem C135_rate (c : Cfg) (hL : 0 < c.lanes) (ins : Nat → TxIn) (h : ∀ k, (ins k).mcfValid = false ∧ (ins k).pause = false ∧ (ins k).ready = true) (n : Nat) :
    (tx c ins (n + 1)).sready = true := by
  have key : ∀ n, (tx c ins n).mcf = false ∧ (tx c ins n).mready = false := by
    intro n
    induction n with
    | zero => exact ⟨rfl, rfl⟩
    | succ n ih =>
      have hm : (tx c ins (n + 1)).mcf = false := by
        show ((tx c ins n).step c (ins n)).mcf = false
        cases hs : ((tx c ins n).step c (ins n)).mcf with
        | false => rfl
        | true =>
          have : (ins n).mcfValid = true := by
            cases hb : (if (tx c ins n).sready then (ins n).s else none) with
            | some b => exact ((step_data (c := c) (ins n) b ih.1 hb).2.2.1 hs).1
            | none => exact ((step_none (c := c) (ins n) ih.1 hb).2.1 hs).1
          rw [(h n).1] at this; cases this
      refine ⟨hm, ?_⟩
      cases hs : (tx c ins (n + 1)).mready with
      | false => rfl
      | true =>
        have := ((tx_inv hL ins (n + 1)).mr.1 hs).1
        rw [hm] at this; cases this
  obtain ⟨hm, hmr⟩ := key n
  obtain ⟨h1, h2, h3⟩ := h n
  have he : (tx c ins n).early c (ins n) = true := by unfold Tx.early; rw [h3]; rfl
  show ((tx c ins n).step c (ins n)).sready = true
  cases hb : (if (tx c ins n).sready then (ins n).s else none) with
  | some b =>
    obtain ⟨_, _, _, s4, s5, _, _, s8⟩ := step_data (c := c) (ins n) b hm hb
    cases hl : b.last with
    | false => rw [s8 hl, he]
    | true =>
      cases hd : (tx c ins n).data with
      | true => rw [(s4 hl hd).2, he, h1, h2]; rfl
      | false => rw [(s5 hl hd).2, he, h1, hmr]; rfl
  | none =>
    obtain ⟨_, _, s3, s4⟩ := step_none (c := c) (ins n) hm hb
    cases hd : (tx c ins n).data with
    | true => rw [(s4 hd).2.1, he]
    | false => rw [(s3 hd).2.2, he, h1, h2]; rfl

/-! ### pause -/

theorem pause_inv {c : Cfg} (hL : 0 < c.lanes) {ins : Nat → TxIn} (hf : FourPhase c ins) (n : Nat) :
    (tx c ins n).ack = true → (tx c ins n).sready = true → (ins n).pause = false := by
  induction n with
  | zero => intro h; cases h
  | succ n ih =>
    have I := tx_inv hL ins n
    intro ha hs
    have ha' : ((tx c ins n).step c (ins n)).ack = true := ha
    have hs' : ((tx c ins n).step c (ins n)).sready = true := hs
    cases hm : (tx c ins n).mcf with
    | true =>
      cases hrd : (tx c ins n).out.ready with
      | false => rw [(step_wait (c := c) (ins n) hm hrd).2.2.2.1] at hs'; cases hs'
      | true =>
        obtain ⟨s1, s2, s3, s4⟩ := step_mcf hL (ins n) hm hrd
        by_cases hp : (tx c ins n).ptr = c.cycles - 1
        · rw [(s3 hp).2] at hs'
          rw [s2] at ha'
          have hp : (ins n).pause = false := by
            cases h : (ins n).pause with
            | false => rfl
            | true => rw [h] at hs'; simp at hs'
          rw [hf n (by rw [ha', hp]; rfl), hp]
        · rw [(s4 hp).2.1] at hs'; cases hs'
    | false =>
      cases hb : (if (tx c ins n).sready then (ins n).s else none) with
      | some b =>
        obtain ⟨_, _, _, _, _, s6, s7, _⟩ := step_data (c := c) (ins n) b hm hb
        cases hd : (tx c ins n).data with
        | true => rw [s7 hd] at ha'; rw [I.ack ha'] at hd; cases hd
        | false => rw [s6 hd] at ha'; cases ha'
      | none =>
        obtain ⟨_, _, s3, s4⟩ := step_none (c := c) (ins n) hm hb
        cases hd : (tx c ins n).data with
        | true => rw [(s4 hd).1] at ha'; rw [I.ack ha'] at hd; cases hd
        | false =>
          rw [(s3 hd).2.1] at ha'
          rw [(s3 hd).2.2, ha'] at hs'; simp at hs'

/-- **C136.** While a pause is requested and acknowledged no data is accepted, and no data frame is in progress. -/
theorem C136_stopped (c : Cfg) (hL : 0 < c.lanes) (ins : Nat → TxIn) (hf : FourPhase c ins) (n : Nat) (hp : (ins n).pause = true) (ha : (tx c ins n).ack = true) :
    (tx c ins n).sready = false ∧ midFrame (dataUpTo c ins n) = false := by
  refine ⟨?_, ?_⟩
  · cases hs : (tx c ins n).sready with
    | false => rfl
    | true => have := pause_inv hL hf n ha hs; rw [hp] at this; cases this
  · rw [mid_eq hL]; exact (tx_inv hL ins n).ack ha

theorem quiet_step {c : Cfg} (hL : 0 < c.lanes) {s : Tx} {i : TxIn} (hp : i.pause = true) (hs : s.sready = false) (hd : s.data = false) :
    (s.step c i).sready = false ∧ (s.step c i).data = false := by
  cases hm : s.mcf with
  | true =>
    cases hrd : s.out.ready with
    | false => obtain ⟨s1, _, _, s4, _⟩ := step_wait (c := c) i hm hrd; exact ⟨s4, by rw [s1, hd]⟩
    | true =>
      obtain ⟨s1, s2, s3, s4⟩ := step_mcf hL i hm hrd
      refine ⟨?_, by rw [s1, hd]⟩
      by_cases h : s.ptr = c.cycles - 1
      · rw [(s3 h).2, hp]; simp
      · exact (s4 h).2.1
  | false =>
    obtain ⟨s1, _, s3, _⟩ := step_none (c := c) i hm (by rw [hs]; rfl)
    exact ⟨by rw [(s3 hd).2.2, hp]; simp, by rw [s1, hd]⟩

/-- **C136.** If a pause is requested when a data frame of more than one transfer ends, no data is accepted after it as
long as the request stays. -/
theorem C136_frame_end (c : Cfg) (hL : 0 < c.lanes) (ins : Nat → TxIn) (n m : Nat) (b : Beat) (hm : midFrame (dataUpTo c ins n) = true)
    (hb : dataIn (tx c ins n) (ins n) = [b]) (hl : b.last = true) (hp : ∀ k, n ≤ k → k < m → (ins k).pause = true) (k : Nat) (h1 : n < k) (h2 : k ≤ m) :
    (tx c ins k).sready = false ∧ midFrame (dataUpTo c ins k) = false := by
  rw [mid_eq hL] at hm
  rw [mid_eq hL]
  have I := tx_inv hL ins n
  have hb' : (if (tx c ins n).sready then (ins n).s else none) = some b := by
    unfold dataIn at hb
    cases hs : (tx c ins n).sready with
    | false => rw [hs] at hb; cases hb
    | true =>
      rw [hs] at hb
      cases hi : (ins n).s with
      | none => rw [hi] at hb; cases hb
      | some x => rw [hi] at hb; simp at hb ⊢; exact hb
  have hmc : (tx c ins n).mcf = false := by
    cases h : (tx c ins n).mcf with
    | false => rfl
    | true => rw [(I.md h).1] at hm; cases hm
  obtain ⟨d, rfl⟩ : ∃ d, k = n + 1 + d := ⟨k - (n + 1), by omega⟩
  clear h1
  induction d with
  | zero =>
    obtain ⟨s1, _, _, s4, _⟩ := step_data (c := c) (ins n) b hmc hb'
    refine ⟨?_, ?_⟩
    · show ((tx c ins n).step c (ins n)).sready = false
      rw [(s4 hl hm).2, hp n (by omega) (by omega)]; simp
    · show ((tx c ins n).step c (ins n)).data = false
      rw [s1, hl]; rfl
  | succ d ih =>
    obtain ⟨q1, q2⟩ := ih (by omega)
    exact quiet_step hL (hp (n + 1 + d) (by omega) (by omega)) q1 q2

/-- **C136.** From a cycle on in which no data is accepted and none is in progress, with a request that stays and a sink
that is ready, the pause is acknowledged after at most one control frame. -/
theorem C136_acknowledged (c : Cfg) (hL : 0 < c.lanes) (ins : Nat → TxIn) (n : Nat) (hs : (tx c ins n).sready = false) (hm : midFrame (dataUpTo c ins n) = false)
    (hp : ∀ k, n ≤ k → (ins k).pause = true) (hr : ∀ k, n ≤ k → (ins k).ready = true) :
    ∃ k, n ≤ k ∧ k ≤ n + beats c.lanes + 2 ∧ (tx c ins k).ack = true ∧ (tx c ins k).sready = false := by
  rw [mid_eq hL] at hm
  have quiet : ∀ d, (tx c ins (n + d)).sready = false ∧ (tx c ins (n + d)).data = false := by
    intro d
    induction d with
    | zero => exact ⟨hs, hm⟩
    | succ d ih => exact quiet_step hL (hp (n + d) (by omega)) ih.1 ih.2
  have idle : ∀ d, (tx c ins (n + d)).mcf = false → (tx c ins (n + d + 1)).ack = true := by
    intro d h
    obtain ⟨q1, q2⟩ := quiet d
    obtain ⟨_, _, s3, _⟩ := step_none (c := c) (ins (n + d)) h (by rw [q1]; rfl)
    show ((tx c ins (n + d)).step c (ins (n + d))).ack = true
    rw [(s3 q2).2.1, hp _ (by omega)]
  have rdy : ∀ d, (tx c ins (n + d + 1)).out.ready = true := by
    intro d
    show ((tx c ins (n + d)).step c (ins (n + d))).out.ready = true
    rw [step_out, early_ready]
    unfold Tx.early
    rw [hr _ (by omega)]; rfl
  -- either idle at some time before, or in the same control frame
  have go : ∀ d, (∃ e, e ≤ d + 1 ∧ (tx c ins (n + e)).mcf = false) ∨ ((tx c ins (n + d + 1)).mcf = true ∧ d ≤ (tx c ins (n + d + 1)).ptr) := by
    intro d
    induction d with
    | zero =>
      cases h : (tx c ins (n + 0 + 1)).mcf with
      | false => exact Or.inl ⟨1, by omega, h⟩
      | true => exact Or.inr ⟨rfl, by omega⟩
    | succ d ih =>
      rcases ih with ⟨e, he, h⟩ | ⟨h1, h2⟩
      · exact Or.inl ⟨e, by omega, h⟩
      · obtain ⟨s1, s2, s3, s4⟩ := step_mcf hL (ins (n + d + 1)) h1 (rdy d)
        have hI := (tx_inv hL ins (n + d + 1)).md h1
        by_cases hq : (tx c ins (n + d + 1)).ptr = c.cycles - 1
        · exact Or.inl ⟨d + 1 + 1, by omega, (s3 hq).1⟩
        · obtain ⟨t1, _, t3⟩ := s4 hq
          refine Or.inr ⟨t1, ?_⟩
          have t3 := t3 (by omega)
          show d + 1 ≤ ((tx c ins (n + d + 1)).step c (ins (n + d + 1))).ptr
          omega
  rcases go (beats c.lanes) with ⟨e, he, h⟩ | ⟨h1, h2⟩
  · exact ⟨n + e + 1, by omega, by omega, idle e h, (quiet (e + 1)).1⟩
  · have := (tx_inv hL ins (n + beats c.lanes + 1)).md h1
    rw [cycles_eq hL] at this
    omega

/-- **C136.** But frames of a single transfer starve the pause: as long as they come without gaps, each is accepted and
the pause is not acknowledged, however long it is requested. -/
theorem C136_single_counterexample (c : Cfg) (hL : 0 < c.lanes) (ins : Nat → TxIn) (hb : ∀ k, 1 ≤ k → ∃ b, (ins k).s = some b ∧ b.last = true)
    (h0 : (ins 0).s = none ∧ (ins 0).pause = false) (hp : ∀ k, 1 ≤ k → (ins k).pause = true) (hr : ∀ k, (ins k).ready = true ∧ (ins k).mcfValid = false) (n : Nat) :
    (dataIn (tx c ins (n + 1)) (ins (n + 1))).length = 1 ∧ (tx c ins (n + 1)).ack = false := by
  have key : (tx c ins (n + 1)).sready = true ∧ (tx c ins (n + 1)).ack = false ∧ (tx c ins (n + 1)).data = false := by
    induction n with
    | zero =>
      obtain ⟨r1, r2⟩ := hr 0
      show (Tx.step c {} (ins 0)).sready = true ∧ (Tx.step c {} (ins 0)).ack = false ∧ (Tx.step c {} (ins 0)).data = false
      obtain ⟨s1, _, s3, _⟩ := step_none (c := c) (s := {}) (ins 0) rfl rfl
      obtain ⟨t1, t2, t3⟩ := s3 rfl
      refine ⟨?_, by rw [t2, h0.2], by rw [s1]⟩
      rw [t3, h0.2, r2]; unfold Tx.early; rw [r1]; rfl
    | succ n ih =>
      obtain ⟨i1, i2, i3⟩ := ih
      obtain ⟨b, b1, b2⟩ := hb (n + 1) (by omega)
      have I := tx_inv hL ins (n + 1)
      have hm := (I.sr i1).2
      have hmr : (tx c ins (n + 1)).mready = false := by
        cases hs : (tx c ins (n + 1)).mready with
        | false => rfl
        | true => have := (I.mr.1 hs).1; rw [hm] at this; cases this
      obtain ⟨s1, _, _, _, s5, s6, _⟩ := step_data (c := c) (ins (n + 1)) b hm (by rw [i1]; exact b1)
      refine ⟨?_, s6 i3, by show ((tx c ins (n + 1)).step c (ins (n + 1))).data = false; rw [s1, b2]; rfl⟩
      show ((tx c ins (n + 1)).step c (ins (n + 1))).sready = true
      rw [(s5 b2 i3).2, (hr (n + 1)).2, hmr]; unfold Tx.early; rw [(hr (n + 1)).1]; rfl
  obtain ⟨b, b1, _⟩ := hb (n + 1) (by omega)
  refine ⟨?_, key.2.1⟩
  unfold dataIn
  rw [key.1, b1]; rfl

/-! ### priority -/

/-- ends of data frames among the data accepted from cycle n up to before cycle n + d -/
def ends (c : Cfg) (ins : Nat → TxIn) (n d : Nat) : Nat := ((dataUpTo c ins (n + d)).drop (dataUpTo c ins n).length).countP (·.last)

theorem ends_succ (c : Cfg) (ins : Nat → TxIn) (n d : Nat) : ends c ins n (d + 1) = ends c ins n d + (dataIn (tx c ins (n + d)) (ins (n + d))).countP (·.last) := by
  unfold ends
  have eD : dataUpTo c ins (n + (d + 1)) = dataUpTo c ins (n + d) ++ dataIn (tx c ins (n + d)) (ins (n + d)) := rfl
  have hle : ∀ d, (dataUpTo c ins n).length ≤ (dataUpTo c ins (n + d)).length := by
    intro d
    induction d with
    | zero => exact Nat.le_refl _
    | succ d ih =>
      have : dataUpTo c ins (n + (d + 1)) = dataUpTo c ins (n + d) ++ dataIn (tx c ins (n + d)) (ins (n + d)) := rfl
      rw [this, List.length_append]; omega
  rw [eD, List.drop_append_of_le_length (hle d), List.countP_append]

/-- **C137.** From the time of a request until it is accepted at most one data frame ends: a request waits for one data
frame at most. -/
theorem C137_one_frame (c : Cfg) (hL : 0 < c.lanes) (ins : Nat → TxIn) (n d : Nat) (hv : ∀ k, n ≤ k → k < n + d → (ins k).mcfValid = true ∧ (tx c ins k).mready = false) :
    ends c ins n d ≤ 1 := by
  -- after one end: in the control frame, or about to enter it
  have key : ∀ d, (∀ k, n ≤ k → k < n + d → (ins k).mcfValid = true ∧ (tx c ins k).mready = false) →
      ends c ins n d = 0 ∨ (ends c ins n d = 1 ∧ (tx c ins (n + d)).sready = false ∧ (tx c ins (n + d)).data = false) := by
    intro d
    induction d with
    | zero => intro _; left; unfold ends; simp
    | succ d ih =>
      intro hv
      obtain ⟨v1, v2⟩ := hv (n + d) (by omega) (by omega)
      have I := tx_inv hL ins (n + d)
      have hdi : dataIn (tx c ins (n + d)) (ins (n + d)) = (if (tx c ins (n + d)).sready then (ins (n + d)).s else none).toList := by
        unfold dataIn; split <;> rfl
      rw [ends_succ]
      have eS : tx c ins (n + (d + 1)) = (tx c ins (n + d)).step c (ins (n + d)) := rfl
      rcases ih (fun k h1 h2 => hv k h1 (by omega)) with h | ⟨h, hs, hd⟩
      · rw [h]
        cases hb : (if (tx c ins (n + d)).sready then (ins (n + d)).s else none) with
        | none => left; rw [hdi, hb]; rfl
        | some b =>
          rw [hdi, hb]
          cases hl : b.last with
          | false => left; simp [hl]
          | true =>
            right
            have hsr : (tx c ins (n + d)).sready = true := by
              cases hs : (tx c ins (n + d)).sready with
              | true => rfl
              | false => rw [hs] at hb; cases hb
            have hm := (I.sr hsr).2
            obtain ⟨s1, _, _, s4, s5, _⟩ := step_data (c := c) (ins (n + d)) b hm hb
            refine ⟨by simp [hl], ?_, by rw [eS, s1, hl]; rfl⟩
            rw [eS]
            cases hd : (tx c ins (n + d)).data with
            | true => rw [(s4 hl hd).2, v1]; simp
            | false => rw [(s5 hl hd).2, v1]; simp
      · right
        have e0 : dataIn (tx c ins (n + d)) (ins (n + d)) = [] := by unfold dataIn; rw [hs]; rfl
        rw [e0, h]
        refine ⟨rfl, ?_⟩
        rw [eS]
        cases hm : (tx c ins (n + d)).mcf with
        | true =>
          cases hrd : (tx c ins (n + d)).out.ready with
          | false => obtain ⟨s1, _, _, s4, _⟩ := step_wait (c := c) (ins (n + d)) hm hrd; exact ⟨s4, by rw [s1, hd]⟩
          | true =>
            obtain ⟨s1, s2, s3, s4⟩ := step_mcf hL (ins (n + d)) hm hrd
            refine ⟨?_, by rw [s1, hd]⟩
            by_cases hp : (tx c ins (n + d)).ptr = c.cycles - 1
            · rw [I.mr.2 ⟨hm, hp, hrd⟩] at v2; cases v2
            · exact (s4 hp).2.1
        | false =>
          obtain ⟨s1, _, s3, _⟩ := step_none (c := c) (ins (n + d)) hm (by rw [hs]; rfl)
          exact ⟨by rw [(s3 hd).2.2, v1]; simp, by rw [s1, hd]⟩
  rcases key d hv with h | ⟨h, _⟩ <;> omega

/-- **C137.** With a sink that is ready, a request made when no data frame is in progress and none begins is accepted, its
control frame put out, within the cycles of that frame and two more. -/
theorem C137_served (c : Cfg) (hL : 0 < c.lanes) (ins : Nat → TxIn) (n : Nat) (hh : Held c ins) (hv : (ins n).mcfValid = true) (hr : ∀ k, n ≤ k → (ins k).ready = true)
    (hm : midFrame (dataUpTo c ins n) = false) (hd : dataIn (tx c ins n) (ins n) = []) : ∃ k, n ≤ k ∧ k ≤ n + beats c.lanes + 1 ∧ reqIn (tx c ins k) (ins k) = [(ins n).mcf] := by
  rw [mid_eq hL] at hm
  have hL' := cycles_eq hL
  have hb0 := beats_pos hL
  have rdy : ∀ d, (tx c ins (n + d + 1)).out.ready = true := by
    intro d
    show ((tx c ins (n + d)).step c (ins (n + d))).out.ready = true
    rw [step_out, early_ready]
    unfold Tx.early
    rw [hr _ (by omega)]; rfl
  have done : ∀ k, (ins k).mcfValid = true → (ins k).mcf = (ins n).mcf → (tx c ins k).mready = true → reqIn (tx c ins k) (ins k) = [(ins n).mcf] := by
    intro k h1 h2 h3; unfold reqIn; rw [h1, h3, h2]; rfl
  have first : reqIn (tx c ins n) (ins n) = [(ins n).mcf] ∨ ((tx c ins (n + 1)).mcf = true ∧ (ins (n + 1)).mcfValid = true ∧ (ins (n + 1)).mcf = (ins n).mcf) := by
    cases hq : (tx c ins n).mready with
    | true => exact Or.inl (done n hv rfl hq)
    | false =>
      obtain ⟨q1, q2⟩ := hh n hv hq
      refine Or.inr ⟨?_, q1, q2⟩
      show ((tx c ins n).step c (ins n)).mcf = true
      cases hmc : (tx c ins n).mcf with
      | true =>
        cases hrd : (tx c ins n).out.ready with
        | false => exact (step_wait (c := c) (ins n) hmc hrd).2.1
        | true =>
          by_cases hp : (tx c ins n).ptr = c.cycles - 1
          · rw [(tx_inv hL ins n).mr.2 ⟨hmc, hp, hrd⟩] at hq; cases hq
          · exact ((step_mcf hL (ins n) hmc hrd).2.2.2 hp).1
      | false =>
        have hbn : (if (tx c ins n).sready then (ins n).s else none) = none := by
          unfold dataIn at hd
          cases hs : (tx c ins n).sready with
          | false => rfl
          | true =>
            rw [hs] at hd
            cases hi : (ins n).s with
            | none => rfl
            | some x => rw [hi] at hd; cases hd
        rw [((step_none (c := c) (ins n) hmc hbn).2.2.1 hm).1, hv]
  rcases first with h | ⟨f1, f2, f3⟩
  · exact ⟨n, Nat.le_refl _, by omega, h⟩
  · have go : ∀ d, (∃ k, n ≤ k ∧ k ≤ n + d ∧ reqIn (tx c ins k) (ins k) = [(ins n).mcf]) ∨
        ((tx c ins (n + d + 1)).mcf = true ∧ (ins (n + d + 1)).mcfValid = true ∧ (ins (n + d + 1)).mcf = (ins n).mcf ∧ d ≤ (tx c ins (n + d + 1)).ptr) := by
      intro d
      induction d with
      | zero => exact Or.inr ⟨f1, f2, f3, by omega⟩
      | succ d ih =>
        rcases ih with ⟨k, k1, k2, k3⟩ | ⟨h1, h2, h3, h4⟩
        · exact Or.inl ⟨k, k1, by omega, k3⟩
        · have I := tx_inv hL ins (n + d + 1)
          cases hq : (tx c ins (n + d + 1)).mready with
          | true => exact Or.inl ⟨n + d + 1, by omega, by omega, done _ h2 h3 hq⟩
          | false =>
            obtain ⟨q1, q2⟩ := hh _ h2 hq
            have hp : (tx c ins (n + d + 1)).ptr ≠ c.cycles - 1 := by
              intro hp
              rw [I.mr.2 ⟨h1, hp, rdy d⟩] at hq; cases hq
            obtain ⟨s1, s2, s3, s4⟩ := step_mcf hL (ins (n + d + 1)) h1 (rdy d)
            have hI := I.md h1
            obtain ⟨t1, _, t3⟩ := s4 hp
            have t3 := t3 (by omega)
            refine Or.inr ⟨t1, q1, by rw [← h3]; exact q2, ?_⟩
            show d + 1 ≤ ((tx c ins (n + d + 1)).step c (ins (n + d + 1))).ptr
            omega
    rcases go (beats c.lanes) with ⟨k, k1, k2, k3⟩ | ⟨h1, _, _, h4⟩
    · exact ⟨k, k1, by omega, k3⟩
    · have := (tx_inv hL ins (n + beats c.lanes + 1)).md h1
      rw [cycles_eq hL] at this
      omega

/-! ### an example: 32 lanes, a data frame of two transfers, a request during the first of them -/

def exReq : Req := { dst := [1, 0, 0, 0xc2, 0x80, 1], src := [6, 5, 4, 3, 2, 1], etype := [8, 0x88], opcode := [1, 0], params := [0xff, 0xff], id := 0, dest := 0, user := 0 }
def exBeat (v : Nat) (l : Bool) : Beat := { data := List.replicate 32 v, keep := List.replicate 32 true, last := l, id := 0, dest := 0, user := 0 }
def exCfg : Cfg := ⟨32, 2⟩
def exIns : Nat → TxIn
  | 1 => { s := some (exBeat 7 false), mcf := exReq }
  | 2 => { s := some (exBeat 8 true), mcf := exReq, mcfValid := true }
  | 3 => { s := none, mcf := exReq, mcfValid := true }
  | 4 => { s := none, mcf := exReq, mcfValid := true }
  | _ => { mcf := exReq }

example : exReq.Ok 2 := ⟨rfl, rfl, rfl, rfl, rfl⟩
example : (outUpTo exCfg exIns 7).map (fun b => (b.data.take 4, b.last)) = [([7, 7, 7, 7], false), ([8, 8, 8, 8], true), ([1, 0x80, 0xc2, 0], false), ([0, 0, 0, 0], true)] := by decide +kernel
example : reqsUpTo exCfg exIns 7 = [exReq] := by decide +kernel
example : ∀ n, n < 7 → (exIns n).mcfValid = true → (tx exCfg exIns n).mready = false → (exIns (n + 1)).mcfValid = true ∧ (exIns (n + 1)).mcf = (exIns n).mcf := by decide +kernel
/-- a pause in a frame of two transfers: acknowledged after its end -/
def exPause : Nat → TxIn
  | 1 => { s := some (exBeat 7 false), mcf := exReq }
  | 2 => { s := some (exBeat 8 true), mcf := exReq, pause := true }
  | n => { s := some (exBeat 9 true), mcf := exReq, pause := decide (2 ≤ n) }
example : (List.range 6).map (fun n => ((tx exCfg exPause n).sready, (tx exCfg exPause n).ack)) = [(false, false), (true, false), (true, false), (false, false), (false, true), (false, true)] := by decide +kernel
end Corundum.MacCtrl
