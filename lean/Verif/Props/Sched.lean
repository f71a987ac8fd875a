import Verif.Proof.SchedRun
import Verif.Proof.SchedBus
/-! Property theorems C16, C17, C18, C46: the round-robin transmit scheduler. -/
namespace Corundum.Sched

/-- power-up of the scheduler: pipeline of depth `P`, arbitrary memory contents -/
structure Up (p : Params) (P : Nat) (s : State) : Prop where
  pos : 0 < P
  reset : IsReset P s
  width : ∀ k, s.tq k < 2 ^ p.qw

theorem Up.ne {p : Params} {P : Nat} {s : State} (h : Up p P s) : s.pipe ≠ [] := by
  have := h.pos
  rw [h.reset.pipe]; intro e; rw [List.replicate_eq_nil_iff] at e; omega

theorem Up.inv {p : Params} {P : Nat} {s : State} (h : Up p P s) (is : List In) (hst : strbOK is) :
    Inv p (run p s is).1 ∧ (run p s is).1.pipe ≠ [] := inv_run is (inv_reset h.reset h.width) h.ne hst

/-! ### C16 -/

/-- **C16** each queue is in the scheduling FIFO at most once, and for an initialised queue the `scheduled` flag says
exactly whether it is in the FIFO or its request is in the pipeline (and never both). -/
theorem C16_scheduled_once {p : Params} {P : Nat} {s : State} (h : Up p P s) (is : List In) (hst : strbOK is) :
    (run p s is).1.rr.Nodup ∧
    (∀ q < 2 ^ p.qw, fresh (run p s is).1 q = false →
      (((run p s is).1.ram q).sched = true ↔ q ∈ (run p s is).1.rr ∨ ∃ sl ∈ (run p s is).1.pipe, sl.op = .req ∧ sl.q = q)) ∧
    (∀ sl ∈ (run p s is).1.pipe, sl.op = .req → sl.q ∉ (run p s is).1.rr) ∧
    (∀ q, fresh (run p s is).1 q = true → q ∉ (run p s is).1.rr) := by
  obtain ⟨hi, _⟩ := h.inv is hst
  exact ⟨hi.nodup, hi.sched, hi.reqout, hi.fr⟩

/-- **C16** whenever the final stage pushes a queue there is room in the FIFO of depth `2 ^ QUEUE_INDEX_WIDTH`: no
push is ever dropped. -/
theorem C16_no_overflow {p : Params} {P : Nat} {s : State} (h : Up p P s) (is : List In) (hst : strbOK is) (pre : List Slot) (sl : Slot)
    (hp : (run p s is).1.pipe = pre ++ [sl]) (hpush : push p.ctrl sl = true) (i : In) :
    (run p s is).1.rr.length < 2 ^ p.qw ∧ (step p (run p s is).1 i).1.rr.getLast? = some sl.q := by
  obtain ⟨hi, _⟩ := h.inv is hst
  refine ⟨(push_out hp hi hpush).2.1, ?_⟩
  rw [step_rr' hp hi, hpush]
  simp

/-- **C16** the active queue count (which drives the `active` output) is the number of scheduled queues. -/
theorem C16_count {p : Params} {P : Nat} {s : State} (h : Up p P s) (is : List In) (hst : strbOK is) :
    (run p s is).1.count = ((List.range (2 ^ p.qw)).filter (fun q => !fresh (run p s is).1 q && ((run p s is).1.ram q).sched)).length :=
  (h.inv is hst).1.count

/-- once initialisation has finished the count is the number of queues in line, so it is zero exactly when no queue is
waiting -/
theorem C16_count_zero {p : Params} {P : Nat} {s : State} (h : Up p P s) (is : List In) (hst : strbOK is) :
    (run p s is).1.count = 0 ↔ line (run p s is).1 = [] := by
  obtain ⟨hi, _⟩ := h.inv is hst
  rw [hi.count, List.length_eq_zero_iff, List.filter_eq_nil_iff]
  constructor
  · intro h0
    rw [List.eq_nil_iff_forall_not_mem]
    intro q hq
    have hql := line_lt hi q hq
    have hm := mem_line.mp hq
    cases hf : fresh (run p s is).1 q with
    | false =>
      have := (hi.sched q hql hf).mpr hm
      have h1 := h0 q (List.mem_range.mpr hql)
      rw [hf, this] at h1; simp at h1
    | true =>
      rcases hm with e | ⟨sl, h1, h2, h3⟩
      · exact hi.fr q hf e
      · have := not_fresh hi h1 (by rw [h2]; simp) (by rw [h2]; simp)
        rw [h3, hf] at this; cases this
  · intro h0 q hq hc
    simp only [Bool.and_eq_true, Bool.not_eq_true'] at hc
    have := (hi.sched q (List.mem_range.mp hq) hc.1).mp hc.2
    rw [← mem_line, h0] at this
    simp at this

/-! Concrete executions: 2 queues, 2 table entries, pipeline depth 2. -/
def nop : In := ⟨false, 0, false, 0, 0, true, false, 0, true, true, false, 0, 0, false, 0, false, 0, false, false, true, true⟩
def gap : List In := [nop, nop, nop, nop]
def wrI (q d : Nat) : In := { nop with awvalid := true, wvalid := true, awaddr := 4 * q, wdata := d, wstrb := 15 }
def dbI (q : Nat) : In := { nop with dbValid := true, dbQueue := q }
def goI : In := { nop with enable := true }
def stI (t l : Nat) : In := { nop with stValid := true, stTag := t, stLen := l }
def s0 : State := ⟨[Slot.none, Slot.none], fun _ => ⟨true, true, true, true, true, 3⟩, fun _ => false, fun _ => 0, fun _ => true, fun _ => true,
  fun _ => 1, fun _ => 1, [], [], [], none, false, 0, 0, false, 0, 0, false, false, 0, false, false, false⟩
def pp (c : Bool) : Params := ⟨1, 2, 1, c⟩
def seqI (l : List In) : List In := gap ++ l.flatMap (fun i => i :: gap)

theorem up0 (c : Bool) : Up (pp c) 2 s0 := ⟨by decide, ⟨rfl, fun _ => rfl, rfl, rfl, rfl, rfl, rfl, rfl, rfl, rfl, rfl, rfl⟩, fun _ => show 0 < 2 ^ 1 by omega⟩

/-- both queues enabled and ringing, then served: hypotheses of C16 hold and the state is not trivial -/
example : strbOK (seqI [wrI 0 1, wrI 1 1, dbI 0, dbI 1]) ∧ (run (pp false) s0 (seqI [wrI 0 1, wrI 1 1, dbI 0, dbI 1])).1.rr = [0, 1] ∧
    (run (pp false) s0 (seqI [wrI 0 1, wrI 1 1, dbI 0, dbI 1])).1.count = 2 := by
  refine ⟨?_, by decide, by decide⟩
  intro i hi
  have : (seqI [wrI 0 1, wrI 1 1, dbI 0, dbI 1]).all (fun i => !i.awvalid || i.wstrb.testBit 0) = true := by decide
  have := List.all_eq_true.mp this i hi
  intro h; rw [h] at this; simpa using this

/-- **C16, counterexample without the strobe condition.** A register write with byte 0 disabled leaves the queue word
alone but still pushes the queue and counts it: an active queue written twice that way is in the FIFO twice. -/
theorem C16_strobe_counterexample :
    (run (pp false) s0 (seqI [dbI 0, { wrI 0 1 with wstrb := 14 }, { wrI 0 1 with wstrb := 14 }])).1.rr = [0, 0] ∧
    ((run (pp false) s0 (seqI [dbI 0, { wrI 0 1 with wstrb := 14 }, { wrI 0 1 with wstrb := 14 }])).1.ram 0).sched = false ∧
    (run (pp false) s0 (seqI [dbI 0, { wrI 0 1 with wstrb := 14 }, { wrI 0 1 with wstrb := 14 }])).1.count = 2 := by decide

/-- **C16** a register read of queue `q` tells the truth: bit 0 is the enable last written, bit 16 the active flag (set by
the last doorbell or by the status of the last finished operation), bit 24 whether the queue is in the scheduling FIFO at
that time, bits 1 and 2 (control port present) the two control enables; all other bits are zero.  `flagEv` replays the
operations executed before the read; every queue has been cleared before it can be read, so the start value `f` of the
replay does not matter. -/
theorem C16_read_value {p : Params} {P : Nat} {s : State} (h : Up p P s) (is : List In) (hst : strbOK is) (e1 e2 : List Ev) (q v : Nat)
    (ht : (run p s is).2 = e1 ++ .rd q v :: e2) :
    ∃ is1 i is2, is = is1 ++ i :: is2 ∧ (run p s is1).2 = e1 ∧ ∀ f n,
      v.testBit n = ((n == 0 && (e1.foldl (flagEv q) f).1) || (n == 1 && (p.ctrl && (e1.foldl (flagEv q) f).2.1)) ||
        (n == 2 && (p.ctrl && (e1.foldl (flagEv q) f).2.2.1)) || (n == 16 && (e1.foldl (flagEv q) f).2.2.2) ||
        (n == 24 && decide (q ∈ (run p s is1).1.rr))) := by
  obtain ⟨is1, i, is2, g1, g2, g3⟩ := run_cut is s e1 e2 _ ht
  have hst1 : strbOK is1 := fun x hx => hst x (by rw [g1]; simp [hx])
  obtain ⟨hi, hne⟩ := h.inv is1 hst1
  obtain ⟨pre, sl, hp, hev⟩ := ev_slot hne g3
  have hm : sl ∈ (run p s is1).1.pipe := by rw [hp]; simp
  have hop : sl.op = .rd ∧ sl.q = q ∧
      v = statusVal sl.w.en (p.ctrl && sl.w.gen) (p.ctrl && sl.w.sen) sl.w.active sl.w.sched := by
    unfold evOf at hev
    cases ho : sl.op <;> rw [ho] at hev <;> simp at hev
    · refine ⟨rfl, hev.1, ?_⟩
      unfold statusVal
      rw [← hev.2]
      simp
    · split at hev <;> simp at hev
  obtain ⟨o1, rfl, o3⟩ := hop
  have hidle : sl.op ≠ .idle := by rw [o1]; decide
  have hfr : fresh (run p s is1).1 sl.q = false := by
    cases hf : fresh (run p s is1).1 sl.q
    · rfl
    · rw [not_fresh hi hm hidle (by rw [o1]; decide)] at hf; cases hf
  refine ⟨is1, i, is2, g1, g2, ?_⟩
  intro f n
  have hk := known_run is1 (inv_reset h.reset h.width) h.ne hst1 (known_reset (p := p) h.reset) sl.q (hi.qlt sl hm) hfr f
  rw [List.nil_append, g2, ← hi.snap sl hm hidle] at hk
  have hsch : sl.w.sched = decide (sl.q ∈ (run p s is1).1.rr) := by
    have := hi.sched sl.q (hi.qlt sl hm) hfr
    rw [← hi.snap sl hm hidle] at this
    rw [Bool.eq_iff_iff, this, decide_eq_true_iff]
    constructor
    · rintro (e | ⟨x, x1, x2, x3⟩)
      · exact e
      · by_cases hx : x = sl
        · rw [hx, o1] at x2; cases x2
        · exact absurd x3 (pairwise_dist hi.dist x1 hm hx (by rw [x2]; decide) hidle)
    · exact Or.inl
  rw [o3, statusVal_bit, hk.1, hk.2.2, hsch]
  cases hc : p.ctrl
  · rfl
  · rw [(hk.2.1 hc).1, (hk.2.1 hc).2]

/-- **C16** the read data beats transferred, followed by the one still waiting, are the values of the reads executed, in
order; every register write gets exactly one response. -/
theorem C16_register_channel {p : Params} {P : Nat} {s : State} (h : Up p P s) (is : List In) :
    readsOf (run p s is).2 = rTaken p s is ++ (if (run p s is).1.rvalid then [(run p s is).1.rdata] else []) ∧
    writesOf (run p s is).2 = bTaken p s is + (if (run p s is).1.bvalid then 1 else 0) := by
  have := run_bus (p := p) is h.ne (one_reset h.reset .rd (by decide) _) (one_reset h.reset .wr (by decide) _)
  simpa [rPend, bPend, h.reset.rvalid, h.reset.bvalid] using this

/-- queue 1 enabled, rung and scheduled, then read: enable, active and scheduled bits are seen on the read channel -/
example : (run (pp false) s0 (seqI [wrI 1 1, dbI 1, { nop with arvalid := true, araddr := 4 }])).2 =
      [.init 0, .init 1, .wr 1 true false true, .db 1, .rd 1 (1 + 2 ^ 16 + 2 ^ 24)] ∧
    rTaken (pp false) s0 (seqI [wrI 1 1, dbI 1, { nop with arvalid := true, araddr := 4 }]) = [1 + 2 ^ 16 + 2 ^ 24] := by decide

/-! ### C17 -/

/-- **C17** service order is the order of scheduling: the queues waiting at any time, followed by those scheduled
later, are served exactly in that order. -/
theorem C17_fifo {p : Params} {P : Nat} {s : State} (h : Up p P s) (is1 is2 : List In) (hst : strbOK (is1 ++ is2)) :
    ∃ X, line (run p s is1).1 ++ X = reqsOf (run p (run p s is1).1 is2).2 ++ line (run p s (is1 ++ is2)).1 := by
  have h1 : strbOK is1 := fun j hj => hst j (by simp [hj])
  have h2 : strbOK is2 := fun j hj => hst j (by simp [hj])
  obtain ⟨hi, hne⟩ := h.inv is1 h1
  rw [run_append]
  exact line_run is2 hi hne h2

theorem prefix_of_not_mem {q : Nat} {A B R X L : List Nat} (h : A ++ q :: B ++ X = R ++ L) (hq : q ∉ R) : R <+: A := by
  have e : A ++ ([q] ++ (B ++ X)) = R ++ L := by rw [← h]; simp
  rcases List.append_eq_append_iff.mp e with ⟨a, h1, h2⟩ | ⟨a, h1, h2⟩
  · -- R = A ++ a
    cases a with
    | nil => rw [h1]; simp
    | cons x a =>
      exfalso
      simp only [List.cons_append, List.nil_append, List.cons.injEq] at h2
      apply hq
      rw [h1, ← h2.1]; simp
  · exact ⟨a, h1.symm⟩

/-- **C17** a waiting queue is overtaken by nobody: as long as `q` has not been served, everything served was waiting
ahead of it. -/
theorem C17_no_overtaking {p : Params} {P : Nat} {s : State} (h : Up p P s) (is1 is2 : List In) (hst : strbOK (is1 ++ is2)) (q : Nat)
    (A B : List Nat) (hl : line (run p s is1).1 = A ++ q :: B) (hq : q ∉ reqsOf (run p (run p s is1).1 is2).2) :
    reqsOf (run p (run p s is1).1 is2).2 <+: A := by
  obtain ⟨X, hX⟩ := C17_fifo h is1 is2 hst
  rw [hl] at hX
  exact prefix_of_not_mem hX hq

theorem evOf_issue {c : Bool} {sl : Slot} {q k : Nat} (h : evOf c sl = [.issue q k]) : sl.op = .req ∧ sl.q = q ∧ push c sl = true := by
  unfold evOf at h
  cases ho : sl.op <;> simp [ho] at h
  split at h
  · rename_i hp
    simp at h
    exact ⟨rfl, h.1, hp⟩
  · simp at h

/-- **C17** round robin: after a request for `q` and until `q` is served again, every other queue is served at most
once (whatever happens in between: doorbells, completions, register writes). -/
theorem C17_round_robin {p : Params} {P : Nat} {s : State} (h : Up p P s) (is : List In) (hst : strbOK is) (q k : Nat) (e1 e2 e3 : List Ev)
    (ht : (run p s is).2 = e1 ++ .issue q k :: (e2 ++ e3)) (hq : q ∉ reqsOf e2) :
    (reqsOf e2).Nodup ∧ (reqsOf e2).length < 2 ^ p.qw := by
  obtain ⟨is1, i, is2, g1, g2, g3⟩ := run_cut is s e1 (e2 ++ e3) _ ht
  have h1 : strbOK is1 := fun j hj => hst j (by rw [g1]; simp [hj])
  have h2 : strbOK is2 := fun j hj => hst j (by rw [g1]; simp [hj])
  have h3 : i.awvalid = true → i.wstrb.testBit 0 = true := hst i (by rw [g1]; simp)
  obtain ⟨hi, hne⟩ := h.inv is1 h1
  obtain ⟨hi', hne'⟩ := inv_step hi hne i h3
  obtain ⟨pre, sl, hp, hev⟩ := ev_slot hne g3
  obtain ⟨ho, hsq, hpu⟩ := evOf_issue hev
  have hlaw := line_law hi hne i
  have hgl : (run p s is1).1.pipe.getLast hne = sl := by simp [hp]
  rw [hgl, hpu, g3, hsq] at hlaw
  simp only [if_true, reqsOf, List.cons_append, List.nil_append] at hlaw
  -- the line after the request ends with `q`
  have hend : ∃ A, line (step p (run p s is1).1 i).1 = A ++ [q] := by
    cases hc : line (run p s is1).1 with
    | nil =>
      exfalso
      have hm : q ∈ line (run p s is1).1 := mem_line.mpr (.inr ⟨sl, by rw [hp]; simp, ho, hsq⟩)
      rw [hc] at hm; simp at hm
    | cons x A =>
      rw [hc] at hlaw
      simp only [List.cons_append, List.cons.injEq] at hlaw
      exact ⟨A, hlaw.2.symm⟩
  obtain ⟨A, hA⟩ := hend
  -- the rest of the trace
  have hrest : (run p (step p (run p s is1).1 i).1 is2).2 = e2 ++ e3 := by
    rw [g1, run_append] at ht
    simp only [run, g2, g3] at ht
    have := List.append_cancel_left ht
    simpa using this
  obtain ⟨is3, is4, k1, k2, _⟩ := run_split is2 _ e2 e3 hrest
  obtain ⟨X, hX⟩ := line_run is3 hi' hne' (fun j hj => h2 j (by rw [k1]; simp [hj]))
  rw [hA, k2] at hX
  have hpre := prefix_of_not_mem (A := A) (B := []) (by simpa using hX) hq
  have hnd := line_nodup hi'
  rw [hA] at hnd
  have hlen := nodup_length_le (2 ^ p.qw) hnd (by rw [← hA]; exact line_lt hi')
  refine ⟨?_, ?_⟩
  · exact (List.nodup_append.mp hnd).1.sublist hpre.sublist
  · have := hpre.length_le
    simp at hlen
    omega

/-- **C17** progress: with no other work pending, a ready client and a free table entry, a waiting queue is served
within `2 P + 1` cycles. -/
theorem C17_progress {p : Params} {P : Nat} {s : State} (h : Up p P s) (is1 is2 : List In) (hst : strbOK is1) (hc : ∀ i ∈ is2, Calm i)
    (hs : CalmS p (run p s is1).1) (hlen : is2.length = 2 * P + 1) : reqsOf (run p (run p s is1).1 is2).2 ≠ [] := by
  obtain ⟨hi, hne⟩ := h.inv is1 hst
  refine calm_progress hi hne is2 hc hs ?_
  rw [run_len is1 s h.ne, h.reset.pipe]; simpa using hlen

/-- two busy queues alternate -/
example : reqsOf (run (pp false) s0 (seqI [wrI 0 1, wrI 1 1, dbI 0, dbI 1, goI, goI, stI 0 1, goI, stI 1 1, goI])).2 = [0, 1, 0, 1] := by decide

/-! ### C18 -/

/-- **C18** If a doorbell for `q` was processed after the last request issued for `q`, and all requests issued for `q`
have completed, the queue is active; and if it is enabled (according to the register writes; without scheduler control
port) it is waiting in the service line.  Completions may arrive in any order, except that "nothing sent" is not
reported for an overtaken request. -/
theorem C18_no_lost_doorbell {p : Params} (hn : p.n ≤ 256) (hn2 : p.n ≤ 2 ^ p.cl) {P : Nat} {s : State} (h : Up p P s) (is : List In) (hst : strbOK is)
    (henv : EnvOK p s [] is) {q : Nat} {e1 e2 : List Ev} (ht : (run p s is).2 = e1 ++ .db q :: e2) (hi : issues q e2 = 0)
    (hc : issues q (run p s is).2 = dones q (run p s is).2) :
    ((run p s is).1.ram q).active = true ∧
    (enOf q false (run p s is).2 = true → (p.ctrl = false ∨ ((run p s is).1.ram q).sen = true) → q ∈ line (run p s is).1) := by
  obtain ⟨h1, h2, h3⟩ := doorbell_kept hn hn2 h.pos h.reset h.width is hst henv ht hi hc
  obtain ⟨hI, _⟩ := h.inv is hst
  refine ⟨h3, fun hen hctl => ?_⟩
  have he := en_run is (v := fun _ => false) (inv_reset h.reset h.width) h.ne hst (by
    intro q _ hf
    have : fresh s q = true := by unfold fresh; rw [h.reset.initDone, h.reset.initIdx]; simp
    rw [this] at hf; cases hf) q h1 h2
  have hr := resched_run is (inv_reset h.reset h.width) h.ne hst (resched_reset h.reset) q h1 h2 (by rw [he]; exact hen) h3 hctl
  exact mem_line.mpr ((hI.sched q h1 h2).mp hr)

/-- **C18** with the same hypotheses the queue is not silently taken off the line: when it is served next, a transmit
request is issued. -/
theorem C18_not_skipped {p : Params} (hctl : p.ctrl = false) (hn : p.n ≤ 256) (hn2 : p.n ≤ 2 ^ p.cl) {P : Nat} {s : State} (h : Up p P s)
    (is : List In) (hst : strbOK is) (henv : EnvOK p s [] is) {q k : Nat} {e1 e2 e3 : List Ev}
    (ht : (run p s is).2 = (e1 ++ .db q :: e2) ++ .skip q k :: e3) (hi : issues q e2 = 0)
    (hc : issues q (e1 ++ .db q :: e2) = dones q (e1 ++ .db q :: e2)) (hen : enOf q false (e1 ++ .db q :: e2) = true) : False := by
  obtain ⟨is1, i, is2, g1, g2, g3⟩ := run_cut is s _ e3 _ ht
  have hst1 : strbOK is1 := fun j hj => hst j (by rw [g1]; simp [hj])
  have henv1 : EnvOK p s [] is1 := envOK_prefix is1 (i :: is2) s [] (by rw [← g1]; exact henv)
  obtain ⟨hI, hne⟩ := h.inv is1 hst1
  obtain ⟨pre, sl, hp, hev⟩ := ev_slot hne g3
  obtain ⟨ho, hsq, hpu⟩ := evOf_skip hev
  have hm : sl ∈ (run p s is1).1.pipe := by rw [hp]; simp
  have hc' := hc
  rw [← g2] at hc'
  have hact := (C18_no_lost_doorbell hn hn2 h is1 hst1 henv1 g2 hi hc').1
  obtain ⟨h1, h2, _⟩ := doorbell_kept hn hn2 h.pos h.reset h.width is1 hst1 henv1 g2 hi hc'
  have he := en_run is1 (v := fun _ => false) (inv_reset h.reset h.width) h.ne hst1 (by
    intro q _ hf
    have : fresh s q = true := by unfold fresh; rw [h.reset.initDone, h.reset.initIdx]; simp
    rw [this] at hf; cases hf) q h1 h2
  simp only [g2, hen] at he
  have hs := (hI.sched q h1 h2).mpr (.inr ⟨sl, hm, ho, hsq⟩)
  have hw := hI.snap sl hm (by rw [ho]; simp)
  rw [hsq] at hw
  simp only [push, ho, ok, hw, he, hact, hs, hctl] at hpu
  simp at hpu

/-- the hypotheses are met: a doorbell races with a completion (it is recorded in the table entry), the completion
reports "nothing sent", and the queue stays in line -/
example : (run (pp false) s0 (seqI [wrI 0 1, dbI 0, goI, dbI 0, stI 0 0])).2 =
      [.init 0, .init 1, .wr 0 true false true, .db 0, .issue 0 0] ++ .db 0 :: [.done 0 0 true] ∧
    EnvOK (pp false) s0 [] (seqI [wrI 0 1, dbI 0, goI, dbI 0, stI 0 0]) ∧
    line (run (pp false) s0 (seqI [wrI 0 1, dbI 0, goI, dbI 0, stI 0 0])).1 = [0] := by
  refine ⟨by decide, ?_, by decide⟩
  have key : ∀ (l : List In) (s : State) (E : List Fl), (∀ i ∈ l, i.stValid = false) → EnvOK (pp false) s E l := by
    intro l
    induction l with
    | nil => intro _ _ _; trivial
    | cons i l ih => intro s E h; exact ⟨fun c => absurd c (by rw [h i (by simp)]; simp), ih _ _ (fun j hj => h j (by simp [hj]))⟩
  have app : ∀ (l1 l2 : List In) (s : State) (E : List Fl), EnvOK (pp false) s E l1 →
      EnvOK (pp false) (run (pp false) s l1).1 (envRun (pp false) s E l1) l2 → EnvOK (pp false) s E (l1 ++ l2) := by
    intro l1
    induction l1 with
    | nil => intro l2 s E _ h; exact h
    | cons i l ih => intro l2 s E h1 h2; exact ⟨h1.1, ih l2 _ _ h1.2 h2⟩
  have e : seqI [wrI 0 1, dbI 0, goI, dbI 0, stI 0 0] = seqI [wrI 0 1, dbI 0, goI, dbI 0] ++ (stI 0 0 :: gap) := rfl
  rw [e]
  refine app _ _ _ _ (key _ _ _ ?_) ⟨fun _ => ⟨⟨0, 0, false⟩, ?_, rfl, fun _ => rfl⟩, key _ _ _ ?_⟩
  · have : (seqI [wrI 0 1, dbI 0, goI, dbI 0]).all (fun i => !i.stValid) = true := by decide
    intro i hi; simpa using List.all_eq_true.mp this i hi
  · have : envRun (pp false) s0 [] (seqI [wrI 0 1, dbI 0, goI, dbI 0]) = [⟨0, 0, false⟩] := by decide
    rw [this]; simp
  · have : gap.all (fun i => !i.stValid) = true := by decide
    intro i hi; simpa using List.all_eq_true.mp this i hi

/-- **C18, counterexample for overtaken completions.** Requests 0 and 1 are issued for queue 0; request 1 completes
first (nothing sent) and the queue is descheduled; a doorbell arrives; then request 0 completes with nothing sent.  The
completion clears the active flag, the doorbell was recorded nowhere (the table entry of the youngest request is gone),
and the queue is taken off the line: the doorbell is lost. -/
theorem C18_overtaken_counterexample :
    (run (pp false) s0 (seqI [wrI 0 1, dbI 0, goI, goI, stI 1 0, goI, dbI 0, stI 0 0, goI])).2 =
      [.init 0, .init 1, .wr 0 true false true, .db 0, .issue 0 0, .issue 0 1, .done 0 1 false, .skip 0 1] ++ .db 0 :: [.done 0 0 false, .skip 0 0] ∧
    ((run (pp false) s0 (seqI [wrI 0 1, dbI 0, goI, goI, stI 1 0, goI, dbI 0, stI 0 0, goI])).1.ram 0).active = false ∧
    line (run (pp false) s0 (seqI [wrI 0 1, dbI 0, goI, goI, stI 1 0, goI, dbI 0, stI 0 0, goI])).1 = [] := by decide

/-- **C18, counterexample with the scheduler control port** (SCHED_CTRL_ENABLE = 1, queue enabled with the global
enable bit only; completions in order).  A doorbell arrives while requests 0 and 1 are in flight; request 0 completes
with nothing sent, the queue is descheduled; request 1 completes and the queue is marked active again, but the
completion looks at bit 1 of its own data (always 0) instead of the global enable bit, so the queue is not scheduled. -/
theorem C18_sched_ctrl_counterexample :
    (run (pp true) s0 (seqI [wrI 0 3, dbI 0, goI, goI, dbI 0, stI 0 0, goI, stI 1 0, goI])).2 =
      [.init 0, .init 1, .wr 0 true true true, .db 0, .issue 0 0, .issue 0 1] ++ .db 0 :: [.done 0 0 false, .skip 0 0, .done 0 1 true] ∧
    ((run (pp true) s0 (seqI [wrI 0 3, dbI 0, goI, goI, dbI 0, stI 0 0, goI, stI 1 0, goI])).1.ram 0).active = true ∧
    ((run (pp true) s0 (seqI [wrI 0 3, dbI 0, goI, goI, dbI 0, stI 0 0, goI, stI 1 0, goI])).1.ram 0).gen = true ∧
    line (run (pp true) s0 (seqI [wrI 0 3, dbI 0, goI, goI, dbI 0, stI 0 0, goI, stI 1 0, goI])).1 = [] := by decide

/-! ### C46 -/

/-- **C46** Requests in flight at the client carry distinct tags below OP_TABLE_SIZE, hence there are at most that many, and the
finish FIFO of that size cannot overflow. -/
theorem C46_tags_unique {p : Params} (hn : p.n ≤ 256) (hn2 : p.n ≤ 2 ^ p.cl) {P : Nat} {s : State} (h : Up p P s) (is : List In) (hst : strbOK is)
    (henv : EnvOK p s [] is) :
    ((envRun p s [] is).map Fl.tag).Nodup ∧ (∀ x ∈ envRun p s [] is, x.tag < p.n) ∧ (envRun p s [] is).length ≤ p.n ∧
    (run p s is).1.fin.length + (envRun p s [] is).length ≤ p.n := by
  have hd := (dinv_run hn hn2 is (inv_reset h.reset h.width) h.ne (dinv_reset h.reset) hst henv).1
  generalize envRun p s [] is = E at *
  generalize (run p s is).1 = t at *
  have hk : (outst t E).map Ent.tag = ((outst t E).map key).map Prod.snd := by rw [List.map_map]; rfl
  have hlt : ∀ x ∈ (outst t E).map Ent.tag, x < p.n := by
    intro x hx
    rw [hk] at hx
    obtain ⟨y, hy, rfl⟩ := List.mem_map.mp hx
    exact (hd.live y hy).2.2
  have hsub : (t.fin.map (fun x => x.1) ++ E.map Fl.tag).Sublist ((outst t E).map Ent.tag) := by
    unfold outst
    simp only [List.map_append, List.map_map]
    refine List.Sublist.trans ?_ (List.sublist_append_right _ _)
    refine List.Sublist.append ?_ ?_
    · exact List.sublist_append_right _ _
    · exact List.sublist_append_left _ _
  have hnd := hd.a.nd.sublist hsub
  have hle := nodup_length_le p.n hnd (fun x hx => hlt x (hsub.subset hx))
  rw [List.length_append, List.length_map, List.length_map] at hle
  refine ⟨(List.nodup_append.mp hnd).2.1, ?_, by omega, hle⟩
  intro x hx
  exact hlt x.tag (hsub.subset (List.mem_append_right _ (List.mem_map.mpr ⟨x, hx, rfl⟩)))

/-- **C46** every issued request is answered exactly once: issued minus completed requests of a queue are those
outstanding, i.e. queued completions plus requests held by the client or on the request port. -/
theorem C46_balance {p : Params} (hn : p.n ≤ 256) (hn2 : p.n ≤ 2 ^ p.cl) {P : Nat} {s : State} (h : Up p P s) (is : List In) (hst : strbOK is)
    (henv : EnvOK p s [] is) (q : Nat) :
    issues q (run p s is).2 = dones q (run p s is).2 + ((outst (run p s is).1 (envRun p s [] is)).map Ent.q).count q := by
  have hd := (dinv_run hn hn2 is (inv_reset h.reset h.width) h.ne (dinv_reset h.reset) hst henv).2 q
  have hz : outst s [] = [] := by
    unfold outst outE
    rw [h.reset.finReg, h.reset.fin, h.reset.reqV, h.reset.pipe]
    unfold pipeC
    rw [List.filter_eq_nil_iff.mpr]
    · simp
    · intro x hx
      have hx : x ∈ List.replicate P Slot.none := by simpa using hx
      rw [(List.mem_replicate.mp hx).2]; simp [Slot.none]
  rw [hz] at hd
  simp at hd
  omega

/-- two requests in flight with different tags -/
example : envRun (pp false) s0 [] (seqI [wrI 0 1, dbI 0, goI, goI]) = [⟨0, 0, false⟩, ⟨0, 1, false⟩] := by decide

end Corundum.Sched
