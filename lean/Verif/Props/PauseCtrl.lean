import Verif.Proof.PauseCtrl
/-! Pause frames and priority flow control: properties C127, C128 and C129. -/
namespace Corundum.PauseCtrl

/-! ### C127: the receiver pauses for the time in the last frame -/

/-- Pause of the whole link: after a pause frame with time `q` at edge `m`, and no other since, the request is set by edge `n` just if less than `q` units of
512 bit times have been counted (in steps of 2 bit times, while the request is acknowledged), and the receiver is enabled. -/
theorem C127_pause (p : Bool) (ins : Nat → RxIn) (m n q : Nat) (hf : (ins m).Pause q) (hn : ∀ i, m < i → i < m + 1 + n → ∀ q, ¬ (ins i).Pause q) :
    (Rx.at p ins (m + 1 + n + 1)).lfcReq = true ↔
      total (fun i => (ins i).time) (m + 1) n < q * 256 ∧ (ins (m + 1 + n)).lfcEn = true ∧ (ins (m + 1 + n)).cfgLfcEn = true := by
  have h0 : (Rx.at p ins (m + 1)).lfcQuanta = q * 256 := (lfc_edge p _ _).1 q hf
  have := counter (c := fun i => (Rx.at p ins i).lfcQuanta) (t := fun i => (ins i).time) h0 n (fun i hi hi' => (lfc_edge p _ _).2 (hn i hi hi'))
  show (((Rx.at p ins (m + 1 + n)).lfcQuanta != 0) && _ && _) = true ↔ _
  rw [this]
  simp only [Bool.and_eq_true, bne_iff_ne, and_assoc]
  constructor
  · rintro ⟨a, b⟩; exact ⟨by omega, b⟩
  · rintro ⟨a, b⟩; exact ⟨by omega, b⟩

/-- Without a pause frame there is no request. -/
theorem C127_no_pause (p : Bool) (ins : Nat → RxIn) (n : Nat) (hn : ∀ i, i < n → ∀ q, ¬ (ins i).Pause q) : (Rx.at p ins (n + 1)).lfcReq = false := by
  have := never (c := fun i => (Rx.at p ins i).lfcQuanta) (t := fun i => (ins i).time) rfl n (fun i hi => (lfc_edge p _ _).2 (hn i hi))
  show (((Rx.at p ins n).lfcQuanta != 0) && _ && _) = false
  rw [this]
  rfl

/-- The same for each priority by itself: only frames that name the priority count. -/
theorem C127_priority (ins : Nat → RxIn) (k m n q : Nat) (hf : (ins m).Prio k q) (hn : ∀ i, m < i → i < m + 1 + n → ∀ q, ¬ (ins i).Prio k q) :
    (Rx.at true ins (m + 1 + n + 1)).pfcReq k = true ↔
      total (fun i => (ins i).timeOf k) (m + 1) n < q * 256 ∧ (ins (m + 1 + n)).pfcEn k = true ∧ (ins (m + 1 + n)).cfgPfcEn = true := by
  have h0 : (Rx.at true ins (m + 1)).pfcQuanta k = q * 256 := (pfc_edge _ _ k).1 q hf
  have := counter (c := fun i => (Rx.at true ins i).pfcQuanta k) (t := fun i => (ins i).timeOf k) h0 n
    (fun i hi hi' => (pfc_edge _ _ k).2 (hn i hi hi'))
  show (((Rx.at true ins (m + 1 + n)).pfcQuanta k != 0) && _ && _) = true ↔ _
  rw [this]
  simp only [Bool.and_eq_true, bne_iff_ne, and_assoc]
  constructor
  · rintro ⟨a, b⟩; exact ⟨by omega, b⟩
  · rintro ⟨a, b⟩; exact ⟨by omega, b⟩

/-- Without a frame that names the priority there is no request. -/
theorem C127_no_priority (ins : Nat → RxIn) (k n : Nat) (hn : ∀ i, i < n → ∀ q, ¬ (ins i).Prio k q) : (Rx.at true ins (n + 1)).pfcReq k = false := by
  have := never (c := fun i => (Rx.at true ins i).pfcQuanta k) (t := fun i => (ins i).timeOf k) rfl n (fun i hi => (pfc_edge _ _ k).2 (hn i hi))
  show (((Rx.at true ins n).pfcQuanta k != 0) && _ && _) = false
  rw [this]
  rfl

/-- What the transmitter puts into a frame is what the receiver at the other end takes out of it: the time of a pause, and the time of each of the eight
priorities that are named. -/
theorem C127_same_frame (p : Bool) (s : Tx) (x : TxIn) (y : RxIn) (hy : y.valid = true) (hb : y.params = (s.frame p x).bytes) :
    (∀ q, s.frame p x = .pause q → q < 2 ^ 16 → y.opcode = y.cfgLfcOpcode → y.cfgLfcEn = true → y.Pause q) ∧
      (∀ e f k, s.frame p x = .prio e f → e < 2 ^ 8 → k < 8 → f k < 2 ^ 16 → y.opcode = y.cfgPfcOpcode → y.cfgPfcEn = true →
        ¬(y.opcode = y.cfgLfcOpcode ∧ y.cfgLfcEn = true) →
        (e.testBit k = true → y.Prio k (f k)) ∧ (e.testBit k = false → ∀ q, ¬ y.Prio k q)) := by
  constructor
  · intro q hf hq ho he
    refine ⟨hy, ho, he, ?_⟩
    rw [hb, hf]
    simp only [Frame.bytes]
    omega
  · intro e f k hf hlt hk hfk ho he hl
    have h1 : y.params 1 = e := by rw [hb, hf]; simp only [Frame.bytes]; omega
    constructor
    · intro ht
      refine ⟨hy, hl, ho, he, by rw [h1]; exact ht, ?_⟩
      have e0 : (Frame.prio e f).bytes (2 + 2 * k) = f k / 256 % 256 := by
        have : Frame.bytes (.prio e f) (2 + 2 * k) = if 2 + 2 * k ≥ 18 then 0 else if (2 + 2 * k) % 2 = 0 then f ((2 + 2 * k - 2) / 2) / 256 % 256 else
          f ((2 + 2 * k - 2) / 2) % 256 := by
          obtain ⟨j, hj⟩ : ∃ j, 2 + 2 * k = j + 2 := ⟨2 * k, by omega⟩
          rw [hj]
          rfl
        rw [this, if_neg (by omega), if_pos (by omega)]
        have : (2 + 2 * k - 2) / 2 = k := by omega
        rw [this]
      have e1 : (Frame.prio e f).bytes (3 + 2 * k) = f k % 256 := by
        have : Frame.bytes (.prio e f) (3 + 2 * k) = if 3 + 2 * k ≥ 18 then 0 else if (3 + 2 * k) % 2 = 0 then f ((3 + 2 * k - 2) / 2) / 256 % 256 else
          f ((3 + 2 * k - 2) / 2) % 256 := by
          obtain ⟨j, hj⟩ : ∃ j, 3 + 2 * k = j + 2 := ⟨2 * k + 1, by omega⟩
          rw [hj]
          rfl
        rw [this, if_neg (by omega), if_neg (by omega)]
        have : (3 + 2 * k - 2) / 2 = k := by omega
        rw [this]
      rw [hb, hf, e0, e1]
      omega
    · intro ht q hp
      have := hp.2.2.2.2.1
      rw [h1, ht] at this
      cases this

/-- a pause frame with time 1 at edge 1, acknowledged from edge 3 on, counted in steps of 128: the request is there from edge 2 to edge 5 -/
def rxSample (n : Nat) : RxIn :=
  { valid := n == 1, opcode := 1, params := fun i => if i = 1 then 1 else 0, lfcAck := n ≥ 3, step := 128, clkEn := true }

example : (rxSample 1).Pause 1 := ⟨rfl, rfl, rfl, rfl⟩
example : (List.range 8).map (fun n => (Rx.at true rxSample n).lfcReq) = [false, false, false, true, true, true, false, false] := by decide
example : ∃ s : Tx, s.frame true {} = .prio 1 (fun k => if s.pfcReq.testBit k then 0xffff else 0) := ⟨{ pfcEn := 1, pfcReq := 1 }, rfl⟩

/-! ### C128: the partner is told what is asked for -/

theorem plain_three {p : Bool} {s : Tx} {a b c d : TxIn} {fs : List Frame} (ha : a.Plain p) (hb : b.Plain p) (hc : c.Plain p) (hd : d.Plain p) :
    lastP (fs ++ (s.run p [a, b, c, d]).2) =
      ((((s.fl p fs).next a.lfcReq (s.due a)).next b.lfcReq ((s.edge p a).due b)).next c.lfcReq (((s.edge p a).edge p b).due c)).eff := by
  rw [← fl_edge ha, ← fl_edge hb, ← fl_edge hc]
  have := lastP_ready (p := p) (s := ((s.edge p a).edge p b).edge p c) (fs := fs ++ s.taken p a ++ (s.edge p a).taken p b ++ ((s.edge p a).edge p b).taken p c) hd.1 hd.2.2.2.2
  show _ = (((s.edge p a).edge p b).edge p c).eff p _
  rw [← this]
  simp [Tx.run, List.append_assoc]

theorem lastP_some {fs : List Frame} : lastP fs = some true ↔ ∃ q, (pauses fs).getLast? = some q ∧ q ≠ 0 := by
  unfold lastP
  cases h : (pauses fs).getLast? with
  | none => simp
  | some q => simp

/-- The request for a pause is never lost: however the requests, the taking of frames, the refresh and the priorities went before, when a pause has been asked
for over four edges at which frames are taken (pause frames enabled, priorities not, and no `tx_lfc_resend` at any time), the pause frame handed over last
asks for a pause. -/
theorem C128_pause_told (p : Bool) (xs : List TxIn) (a b c d : TxIn) (hx : ∀ x ∈ xs, x.lfcQuanta ≠ 0 ∧ x.lfcResend = false)
    (ha : ∀ x ∈ [a, b, c, d], x.Plain p ∧ x.lfcReq = true) :
    ∃ q, (pauses (Tx.run p {} (xs ++ [a, b, c, d])).2).getLast? = some q ∧ q ≠ 0 := by
  have hj := J_run (p := p) xs {} [] hx (by cases p <;> rfl)
  rw [List.nil_append] at hj
  rw [← lastP_some, run_append]
  rw [plain_three (ha a (by simp)).1 (ha b (by simp)).1 (ha c (by simp)).1 (ha d (by simp)).1]
  rw [(ha a (by simp)).2, (ha b (by simp)).2, (ha c (by simp)).2]
  exact (soon_one _ _ _ _ hj).1

/-- The end of the pause is told likewise, provided that the request never came back in the cycle in which the end of the pause was about to be sent. -/
theorem C128_end_told (p : Bool) (xs : List TxIn) (a b c d : TxIn) (hx : ∀ x ∈ xs, x.lfcQuanta ≠ 0 ∧ x.lfcResend = false) (hc : Calm p {} xs)
    (ha : ∀ x ∈ [a, b, c, d], x.Plain p ∧ x.lfcReq = false) :
    ∀ q, (pauses (Tx.run p {} (xs ++ [a, b, c, d])).2).getLast? = some q → q = 0 := by
  have hk := K_run (p := p) xs {} [] hx hc (by cases p <;> rfl)
  rw [List.nil_append] at hk
  have : lastP (Tx.run p {} (xs ++ [a, b, c, d])).2 ≠ some true := by
    rw [run_append, plain_three (ha a (by simp)).1 (ha b (by simp)).1 (ha c (by simp)).1 (ha d (by simp)).1]
    rw [(ha a (by simp)).2, (ha b (by simp)).2, (ha c (by simp)).2]
    exact (soon_zero _ _ _ _ hk).1
  intro q hq
  refine Classical.byContradiction fun h0 => this (lastP_some.2 ⟨q, hq, h0⟩)

/-- a pause that is given up for one cycle -/
def glitch : List TxIn := [true, true, true, false, true, true, true].map fun b => { lfcReq := b }

/-- Otherwise the end of the pause can be lost for good: the request is withdrawn for one cycle; when later it is withdrawn altogether no frame is sent, and the
partner goes on waiting until the time runs out. -/
theorem C128_end_counterexample (p : Bool) (n : Nat) :
    pauses (Tx.run p {} (glitch ++ List.replicate n { lfcReq := false })).2 = [0xffff, 0xffff] := by
  have h1 : ∀ p n (s : Tx), s.lfcReq = false → s.lfcSend = false → s.pfcSend = false → s.valid = false → (s.run p (List.replicate n { lfcReq := false })).2 = [] := by
    intro p n
    induction n with
    | zero => intros; rfl
    | succ n ih =>
      intro s a b c d
      have hl : s.launch p { lfcReq := false } = false := by simp [Tx.launch, b]
      show s.taken p { lfcReq := false } ++ ((s.edge p { lfcReq := false }).run p (List.replicate n { lfcReq := false })).2 = []
      rw [ih (s.edge p { lfcReq := false }) (by rw [edge_req, a, d]; rfl) (by rw [edge_send, hl, a, b, d]; rfl) (by rw [edgeK_send]; simp [Tx.launchK, c, Tx.count])
        (by rw [edge_valid p s { lfcReq := false } (by cases p <;> rfl), hl, d]; rfl)]
      simp [Tx.taken, d]
  match n with
  | 0 => cases p <;> decide
  | 1 => cases p <;> decide
  | n + 2 =>
    have e : (glitch ++ List.replicate (n + 2) { lfcReq := false } : List TxIn) = (glitch ++ [{ lfcReq := false }, { lfcReq := false }]) ++ List.replicate n { lfcReq := false } := by
      simp [List.replicate_succ]
    have h2 : pauses (Tx.run p {} (glitch ++ [{ lfcReq := false }, { lfcReq := false }])).2 = [0xffff, 0xffff] := by cases p <;> decide
    have h3 := h1 p n (Tx.run p {} (glitch ++ [{ lfcReq := false }, { lfcReq := false }])).1 (by cases p <;> decide) (by cases p <;> decide)
      (by cases p <;> decide) (by cases p <;> decide)
    rw [e, run_append]
    simp only [h3, List.append_nil]
    exact h2

/-- With `tx_lfc_resend` the request itself can be lost: no frame is sent at all as long as the counter of time does not move. -/
theorem C128_resend_counterexample (p : Bool) (n : Nat) :
    (Tx.run p {} ({ lfcResend := true } :: List.replicate n { lfcReq := true })).2 = [] := by
  have h1 : ∀ p n (s : Tx), s.lfcReq = true → s.lfcSend = false → s.pfcSend = false → s.valid = false →
      (s.run p (List.replicate n { lfcReq := true })).2 = [] := by
    intro p n
    induction n with
    | zero => intros; rfl
    | succ n ih =>
      intro s a b c d
      have hl : s.launch p { lfcReq := true } = false := by simp [Tx.launch, b]
      show s.taken p { lfcReq := true } ++ ((s.edge p { lfcReq := true }).run p (List.replicate n { lfcReq := true })).2 = []
      rw [ih (s.edge p { lfcReq := true }) (by rw [edge_req, a, d]; rfl) (by rw [edge_send, hl, a, b, d]; simp [Tx.due])
        (by rw [edgeK_send]; simp [Tx.launchK, c, Tx.count]) (by rw [edge_valid p s _ (by cases p <;> rfl), hl, d]; rfl)]
      simp [Tx.taken, d]
  match n with
  | 0 => cases p <;> decide
  | n + 1 =>
    have e : ({ lfcResend := true } :: List.replicate (n + 1) { lfcReq := true } : List TxIn) =
        [{ lfcResend := true }, { lfcReq := true }] ++ List.replicate n { lfcReq := true } := by
      simp [List.replicate_succ]
    rw [e, run_append, h1]
    · cases p <;> rfl
    · cases p <;> rfl
    · cases p <;> rfl
    · cases p <;> rfl
    · cases p <;> rfl

theorem lastK_prios (k : Nat) (fs : List Frame) : lastK k fs = (prios k fs).getLast?.map (· != 0) := by
  induction fs with
  | nil => rfl
  | cons f fs ih =>
    cases f with
    | pause q => simpa [lastK, prios] using ih
    | prio e q =>
      simp only [lastK, ih]
      have : prios k (.prio e q :: fs) = (if e.testBit k then [q k] else []) ++ prios k fs := by
        by_cases h : e.testBit k = true <;> simp [prios, h]
      rw [this]
      cases hl : (prios k fs).getLast? with
      | none =>
        rw [List.getLast?_eq_none_iff] at hl
        rw [hl]
        by_cases h : e.testBit k = true <;> simp [h]
      | some v => simp [List.getLast?_append, hl]

/-- Priorities: when no frame is offered or waiting, the last frame that named priority `k` asked for a pause of it just if `stat_tx_pfc_paused[k]`, provided
that the request for priority `k` never came while a frame for priorities was about to be sent. -/
theorem C128_priority_told (p : Bool) (k : Nat) (xs : List TxIn) (hx : ∀ x ∈ xs, x.pfcQuanta k ≠ 0) (hc : CalmK p k {} xs)
    (hs : (Tx.run p {} xs).1.pfcSend = false) (hv : (Tx.run p {} xs).1.valid = false) :
    (∃ q, (prios k (Tx.run p {} xs).2).getLast? = some q ∧ q ≠ 0) ↔ (Tx.run p {} xs).1.pfcReq.testBit k = true := by
  have hm := M_run (p := p) (k := k) xs {} [] hx hc (by cases p <;> simp [M, Tx.effK, Tx.pendK, lastK])
  rw [List.nil_append] at hm
  have he : (Tx.run p {} xs).1.effK p (Tx.run p {} xs).2 k = lastK k (Tx.run p {} xs).2 := by simp [Tx.effK, Tx.pendK, hv]
  rw [he, lastK_prios, hs] at hm
  simp only [M, Bool.and_eq_true, Bool.false_eq_true, if_false] at hm
  have h3 := hm.2
  cases hl : (prios k (Tx.run p {} xs).2).getLast? with
  | none => rw [hl] at h3; cases hr : (Tx.run p {} xs).1.pfcReq.testBit k <;> rw [hr] at h3 <;> simp at h3 ⊢
  | some q => rw [hl] at h3; cases hr : (Tx.run p {} xs).1.pfcReq.testBit k <;> rw [hr] at h3 <;> simp at h3 ⊢ <;> simp [h3]

/-- Two priorities that ask one cycle after the other: the partner is told of the first only, and so it stays as long as the counter of time does not move. -/
theorem C128_priority_counterexample (n : Nat) :
    ∃ q, (Tx.run true {} ({ cfgPfcEn := true, pfcReq := 1 } :: List.replicate (n + 3) { cfgPfcEn := true, pfcReq := 3 })).2 = [.prio 1 q] := by
  have h1 : ∀ n (s : Tx), s.lfcReq = false → s.lfcSend = false → s.pfcSend = false → s.valid = false → s.pfcReq = 3 →
      (s.run true (List.replicate n { cfgPfcEn := true, pfcReq := 3 })).2 = [] := by
    intro n
    induction n with
    | zero => intros; rfl
    | succ n ih =>
      intro s a b c d e
      have hl : s.launch true { cfgPfcEn := true, pfcReq := 3 } = false := by simp [Tx.launch, b]
      have hk : s.launchK true { cfgPfcEn := true, pfcReq := 3 } = false := by simp [Tx.launchK, c]
      show s.taken true { cfgPfcEn := true, pfcReq := 3 } ++
        ((s.edge true { cfgPfcEn := true, pfcReq := 3 }).run true (List.replicate n { cfgPfcEn := true, pfcReq := 3 })).2 = []
      rw [ih]
      · simp [Tx.taken, d]
      · rw [edge_req, a, d]; rfl
      · rw [edge_send, hl, a, b, d]; simp [Tx.due]
      · rw [edgeK_send, hk, e]; simp [Tx.count, c]
      · simp [Tx.edge, Tx.pfc, Tx.lfc, Tx.count, a, b, c, d, e]
      · rw [edgeK_req, d]; rfl
  have e : ({ cfgPfcEn := true, pfcReq := 1 } :: List.replicate (n + 3) { cfgPfcEn := true, pfcReq := 3 } : List TxIn) =
      [{ cfgPfcEn := true, pfcReq := 1 }, { cfgPfcEn := true, pfcReq := 3 }, { cfgPfcEn := true, pfcReq := 3 }, { cfgPfcEn := true, pfcReq := 3 }] ++
        List.replicate n { cfgPfcEn := true, pfcReq := 3 } := by
    simp [List.replicate_succ]
  rw [e, run_append, h1]
  · exact ⟨_, rfl⟩
  · decide
  · decide
  · decide
  · decide
  · decide

/-- the plain course: asked for, told; withdrawn, told -/
def txSample : List TxIn := [true, true, true, true, false, false, false, false].map fun b => { lfcReq := b }

example : pauses (Tx.run true {} txSample).2 = [0xffff, 0] := by decide
example : ∀ x ∈ txSample, x.Plain true ∧ x.lfcQuanta ≠ 0 ∧ x.lfcResend = false := by
  intro x hx
  simp only [txSample, List.map_cons, List.map_nil, List.mem_cons, List.not_mem_nil, or_false] at hx
  rcases hx with rfl | rfl | rfl | rfl | rfl | rfl | rfl | rfl <;> simp [TxIn.Plain]
example : Calm true {} txSample := by simp [Calm, txSample, Tx.edge, Tx.pfc, Tx.lfc, Tx.count]
example : (Tx.run true {} (List.replicate 4 { cfgPfcEn := true, pfcReq := 5 })).1.pfcReq = 5 ∧
    prios 2 (Tx.run true {} (List.replicate 4 { cfgPfcEn := true, pfcReq := 5 })).2 = [0xffff] := by decide

/-! ### C129: the pause is renewed -/

theorem launched {p : Bool} {s : Tx} {x : TxIn} (hx : x.Plain p) (h0 : s.valid = false) (h1 : (s.edge p x).valid = true) :
    s.launch p x = true ∧ s.lfcAct = true := by
  rw [edge_valid p s x hx.2.2.1, h0] at h1
  cases hl : s.launch p x
  · rw [hl] at h1; simp at h1
  · rw [hl] at h1; exact ⟨rfl, by simpa using h1⟩

theorem after {p : Bool} {s : Tx} {x : TxIn} (hx : x.Plain p) (hr : x.lfcReq = true) (h0 : s.valid = false) (h1 : (s.edge p x).valid = true)
    (hp : s.lfcReq = true) :
    (s.edge p x).lfcReq = true ∧ (s.edge p x).lfcAct = true ∧ (s.edge p x).lfcSend = false ∧ (s.edge p x).lfcRefresh = x.lfcRefresh * 256 := by
  obtain ⟨hl, ha⟩ := launched hx h0 h1
  refine ⟨?_, ?_, ?_, ?_⟩
  · rw [edge_req, hr, hp]; simp
  · rw [edge_act, hl, hp]; rfl
  · rw [edge_send, hl]; rfl
  · rw [edge_refresh, hl, hp]; rfl

/-- While the pause is asked for, no further frame is sent before the refresh time has been counted since the last one was launched. -/
theorem C129_not_sooner (p : Bool) (s : Tx) (x : TxIn) (ys : List TxIn) (hx : x.Plain p) (hr : x.lfcReq = true) (h0 : s.valid = false)
    (h1 : (s.edge p x).valid = true) (hp : s.lfcReq = true) (hy : ∀ y ∈ ys, y.Plain p ∧ y.lfcReq = true) (ht : spent ys < x.lfcRefresh * 256) :
    ((s.edge p x).run p ys).2.length ≤ 1 := by
  obtain ⟨a, b, c, d⟩ := after hx hr h0 h1 hp
  rw [(quiet ys _ hy a b c (by rw [d]; exact ht)).2.2.2.2.2]
  split <;> omega

/-- Once the refresh time has been counted the next frame is launched at the following edge, and asks for the pause again. -/
theorem C129_again (p : Bool) (s : Tx) (x y z : TxIn) (ys : List TxIn) (hx : x.Plain p) (hr : x.lfcReq = true) (h0 : s.valid = false)
    (h1 : (s.edge p x).valid = true) (hp : s.lfcReq = true) (hy : ∀ w ∈ ys ++ [y, z], w.Plain p ∧ w.lfcReq = true) (hn : ys ≠ [])
    (ht : spent ys < x.lfcRefresh * 256) (hk : y.clkEn = true) (ht' : x.lfcRefresh * 256 ≤ spent ys + y.step) :
    ((s.edge p x).run p (ys ++ [y, z])).1.valid = true ∧
      ∀ w, ((s.edge p x).run p (ys ++ [y, z])).1.frame p w = .pause w.lfcQuanta := by
  obtain ⟨a, b, c, d⟩ := after hx hr h0 h1 hp
  obtain ⟨q1, q2, q3, q4, q5, q6⟩ := quiet ys _ (fun w hw => hy w (by simp [hw])) a b c (by rw [d]; exact ht)
  rw [run_append]
  obtain ⟨t, et⟩ : ∃ t, t = ((s.edge p x).run p ys).1 := ⟨_, rfl⟩
  rw [← et] at q1 q2 q3 q4 q5 ⊢
  have q5 := q5 (.inl hn)
  obtain ⟨⟨y1, y2, y3, y4, y5⟩, y6⟩ := hy y (by simp)
  obtain ⟨⟨z1, z2, z3, z4, z5⟩, z6⟩ := hy z (by simp)
  show ((t.edge p y).edge p z).valid = true ∧ ∀ w, ((t.edge p y).edge p z).frame p w = _
  have hl : t.launch p y = false := by simp [Tx.launch, q3]
  have hd : t.due y = true := by
    have : ¬ t.lfcRefresh > y.step := by rw [q4, d]; omega
    simp [Tx.due, hk, this, q1]
  have e1 : (t.edge p y).lfcReq = true := by rw [edge_req, y6, q1]; simp
  have e2 : (t.edge p y).lfcAct = true := by rw [edge_act, hl, q2]; simp
  have e3 : (t.edge p y).lfcSend = true := by rw [edge_send, hl, hd]; simp
  have e5 : (t.edge p y).valid = false := by rw [edge_valid p t y y3, hl, q5]; simp
  have hl2 : (t.edge p y).launch p z = true := by simp [Tx.launch, e3, e5, z2, z3]
  have f1 : ((t.edge p y).edge p z).valid = true := by rw [edge_valid p _ z z3, hl2, e2]; rfl
  have f2 : ((t.edge p y).edge p z).pend p = true := by rw [edge_pend, hl2, e2]; rfl
  have f3 : ((t.edge p y).edge p z).lfcReq = true := by rw [edge_req, z6, e1]; simp
  refine ⟨f1, fun w => ?_⟩
  have : (p && ((t.edge p y).edge p z).sel) = false := by
    have f2' := f2
    simp only [Tx.pend, f1, Bool.true_and, Bool.not_eq_true'] at f2'
    exact f2'
  simp [Tx.frame, this, f3]

/-- refresh after one unit, counted in steps of 128 -/
def tick : TxIn := { lfcReq := true, lfcRefresh := 1, step := 128, clkEn := true }

example : tick.Plain true ∧ spent [tick] < tick.lfcRefresh * 256 ∧ tick.lfcRefresh * 256 ≤ spent [tick] + tick.step := by
  refine ⟨by simp [TxIn.Plain, tick], by decide, by decide⟩
example : (Tx.run true {} [tick]).1.valid = false ∧ (Tx.run true {} [tick]).1.lfcReq = true ∧ ((Tx.run true {} [tick]).1.edge true tick).valid = true := by decide
example : (List.range 12).map (fun n => (Tx.run true {} (List.replicate n tick)).1.valid) =
    [false, false, true, false, false, true, false, false, true, false, false, true] := by decide

end Corundum.PauseCtrl
