import Verif.Proof.WakeLinux

/-!
C59: the Linux driver's interrupt handlers and NAPI polls, together with the card, do not lose wake-ups as long as no event
queue overflows; and event queues with at least as many entries as there are completion queues do not overflow when a
poll's arm command reaches the card after the consumer pointer update of the interrupt that started it.
-/

namespace Corundum.WakeLinux

/-- **C59 (no lost wake-up).**  In every interleaving of the card, the interrupt handlers and the polls: when everything has
come to rest, every completion of every open completion queue has been processed, unless an event of that queue was
dropped because its event queue was full. -/
theorem C59_no_lost_wakeup (P : Params) (as : List Act) (s : S) (h : run P init as = some s) (hq : Quiet s) (q : Nat)
    (ho : (s.cq q).opn = true) (hl : q ∉ s.lost) : (s.cq q).drv = (s.cq q).vis := by
  have hi := inv_run as (inv_init P) h
  have ht := hi.tok q
  have hx := hi.eq (P.eqOf q)
  obtain ⟨e1, e2, e3, e4⟩ := hq.eq (P.eqOf q)
  obtain ⟨c1, c2, c3, c4⟩ := hq.cq q
  have hpos : (s.eq (P.eqOf q)).pos = (s.eq (P.eqOf q)).drv := by unfold Eq.pos; rw [e2]
  have hea : (s.eq (P.eqOf q)).armed = true := by
    rcases hx.tok with g | g | g | g
    · exact g
    · rw [e3] at g; cases g
    · rw [e4] at g; cases g
    · exact absurd e2 g
  have hdrop : (s.eq (P.eqOf q)).log.drop (s.eq (P.eqOf q)).drv = [] := by
    apply List.drop_eq_nil_of_le
    rw [← e1]; exact hx.arm hea
  unfold tok Cq.tok at ht
  rw [hpos, hdrop, hq.fifo, c4, c3, c2, List.count_eq_zero_of_not_mem hl, ho] at ht
  have ha : (s.cq q).armed = true := by
    cases hb : (s.cq q).armed with
    | true => rfl
    | false => rw [hb] at ht; simp [napiTok] at ht
  have h1 := (hi.cq q).arm ha
  have h2 := (hi.cq q).dv
  omega

/-- C59: an event is never reported for a completion queue that is scheduled or being polled, so `napi_complete` never
reschedules and the poll function may ignore its return value. -/
theorem C59_never_missed (P : Params) (as : List Act) (s : S) (h : run P init as = some s) (q : Nat) : (s.cq q).missed = false :=
  ((inv_run as (inv_init P) h).cq q).missed

/-- C59: whenever an interrupt handler reaches an event, the completion queue of the event is open, idle and not armed, and no poll of it has yet to
arm it: `napi_schedule` always starts a new poll. -/
theorem C59_event_finds_idle (P : Params) (as : List Act) (s : S) (h : run P init as = some s) (e p q : Nat)
    (hp : (s.eq e).pc = .loop p) (hq : (s.eq e).log[p]? = some q) :
    (s.cq q).napi = .idle ∧ (s.cq q).opn = true ∧ (s.cq q).armed = false ∧ (s.cq q).fin = 0 ∧ P.eqOf q = e := by
  have hi := inv_run as (inv_init P) h
  have he : P.eqOf q = e := (hi.eq e).home q (List.mem_of_getElem? hq)
  have ht := hi.tok q
  have hb := Bool.toNat_le (s.cq q).opn
  have hpos : (s.eq e).pos = p := by unfold Eq.pos; rw [hp]
  have hc : 0 < ((s.eq e).log.drop (s.eq e).pos).count q := by
    rw [hpos]
    apply List.count_pos_iff.mpr
    obtain ⟨hlt, hg⟩ := List.getElem?_eq_some_iff.mp hq
    rw [List.drop_eq_getElem_cons hlt, hg]
    exact List.mem_cons_self
  unfold tok Cq.tok at ht
  rw [he] at ht
  have hn : napiTok (s.cq q).napi = 0 := by omega
  have ha : (s.cq q).armed.toNat = 0 := by omega
  refine ⟨?_, ?_, ?_, by omega, he⟩
  · unfold napiTok at hn
    split at hn
    · assumption
    · simp at hn
  · cases ho : (s.cq q).opn with
    | true => rfl
    | false => rw [ho] at ht; simp at ht; omega
  · cases hx : (s.cq q).armed with
    | false => rfl
    | true => rw [hx] at ha; simp at ha

/-- C59: at most one poll of a queue is under way, and while one is, the queue is not armed. -/
theorem C59_poll_exclusive (P : Params) (as : List Act) (s : S) (h : run P init as = some s) (q : Nat)
    (hp : (s.cq q).napi ≠ .idle) : (s.cq q).armed = false ∧ (s.cq q).fin = 0 ∧ .arm ∉ (s.cq q).wq ∧ q ∉ s.fifo := by
  have hi := inv_run as (inv_init P) h
  have ht := hi.tok q
  have hb := Bool.toNat_le (s.cq q).opn
  have hn : napiTok (s.cq q).napi = 1 := by unfold napiTok; rw [if_neg hp]
  unfold tok Cq.tok at ht
  refine ⟨?_, by omega, fun g => ?_, fun g => ?_⟩
  · cases ha : (s.cq q).armed with
    | false => rfl
    | true => rw [ha] at ht; simp at ht; omega
  · have := List.count_pos_iff.mpr g; omega
  · have := List.count_pos_iff.mpr g; omega

/-- **C59 (a dropped event is fatal).**  Once an event of a completion queue has been dropped, the driver never looks at
that queue again. -/
theorem C59_dropped_event_is_fatal (P : Params) (as bs : List Act) (s t : S) (h : run P init as = some s) (q : Nat)
    (hl : q ∈ s.lost) (ht : run P s bs = some t) : (t.cq q).drv = (s.cq q).drv ∧ q ∈ t.lost := by
  have hi := inv_run as (inv_init P) h
  clear h
  induction bs generalizing s with
  | nil => cases ht; exact ⟨rfl, hl⟩
  | cons b bs ih =>
    rw [run, Option.bind_eq_some_iff] at ht
    obtain ⟨s', h1, h2⟩ := ht
    have hs := lost_step hi hl b h1
    have := ih s' hs.2 h2 (inv_step hi b h1)
    exact ⟨this.1.trans hs.1, this.2⟩

/-- **C59 (nothing is dropped).**  With at most `m` completion queues, event queues of `m` or more entries, and arm commands
that do not overtake the consumer pointer update of the handler run that scheduled their poll (`armOk`: when an arm command
takes effect, no event of that queue is among those the handler is done with and the card does not know about), no event is
ever dropped.  The driver meets the last condition when a queue is polled on the CPU that took the interrupt: the poll
then runs after the handler, and the register writes of one CPU arrive in order. -/
theorem C59_no_drop (P : Params) (m : Nat) (as : List Act) (s : S) (h : run P init as = some s)
    (hN : m ≤ P.eqSize) (hm : ∀ q, (s.cq q).opn = true → q < m)
    (hb : ∀ bs t q, (bs ++ [.regC q]) <+: as → run P init bs = some t → armOk P t q) : s.lost = [] :=
  no_drop hN as (inv_init P) (ord_init P) rfl h hm hb

/-! ### Without that condition the event queue can overflow -/

theorem upd_upd {α : Type} (f : Nat → α) (k : Nat) (a b : α) : upd (upd f k a) k b = upd f k b := by
  funext j; unfold upd; split <;> rfl

theorem run_append (P : Params) : ∀ (as bs : List Act) (s : S), run P s (as ++ bs) = (run P s as).bind fun t => run P t bs
  | [], bs, s => rfl
  | a :: as, bs, s => by
    show (step P s a).bind _ = _
    rw [run, Option.bind_assoc]
    congr 1; funext t; exact run_append P as bs t

/-- one event queue of `N` entries, one completion queue -/
def one (N C : Nat) : Params := { cqSize := C, eqSize := N, budget := 64, eqOf := fun _ => 0 }

/-- the handler has dealt with `k` events, the polls with `k` completions; one completion and (unless dropped) its event wait -/
def busy (k : Nat) (c : Bool) (l : List Nat) : S :=
  { cq := upd (fun _ => {}) 0 { opn := true, armed := false, prod := k + 1, vis := k + 1, cons := k, drv := k }
    eq := upd (fun _ => {}) 0 { armed := false, log := List.replicate (if c then k else k + 1) 0, prod := if c then k else k + 1,
                                cons := 0, drv := 0, pc := .loop k }
    fifo := [], up := true, lost := l }

def busyStart : List Act := [.openCq 0, .regC 0, .setUp, .write 0, .commit 0, .evWrite, .evCommit 0, .irq 0]

/-- the handler reads one event, the queue is polled elsewhere and armed, and the next completion and its event arrive -/
def busyRound : List Act :=
  [.irq 0, .poll 0, .poll 0, .poll 0, .poll 0, .arm 0, .regC 0, .regC 0, .write 0, .commit 0, .evWrite]

def busyEnd : List Act := [.irq 0, .irq 0, .regE 0, .regE 0]

theorem busy_start (N C : Nat) (hN : 1 ≤ N) (hC : 1 ≤ C) : run (one N C) init busyStart = some (busy 0 false []) := by
  have h1 : 0 < N := hN
  have h2 : 0 < C := hC
  simp [run, busyStart, step, init, upd_upd, upd_same, one, h1, h2, busy]

theorem busy_round (N C k : Nat) (hk : k + 1 < N) (hC : 1 ≤ C) :
    run (one N C) (busy k false []) (busyRound ++ [.evCommit 0]) = some (busy (k + 1) false []) := by
  have h2 : 0 < C := hC
  simp [run, busyRound, step, Cq.poll, Cq.complete, Cq.schedule, upd_upd, upd_same, one, h2, busy, hk, List.replicate_succ']

theorem busy_drop (N C : Nat) (hC : 1 ≤ C) :
    run (one (N + 1) C) (busy N false []) busyRound = some (busy (N + 1) true [0]) := by
  have h2 : 0 < C := hC
  simp [run, busyRound, step, Cq.poll, Cq.complete, Cq.schedule, upd_upd, upd_same, one, h2, busy]

theorem busy_rounds (N C : Nat) (hC : 1 ≤ C) : ∀ k, k < N → ∃ as, run (one N C) init as = some (busy k false [])
  | 0, h => ⟨_, busy_start N C h hC⟩
  | k + 1, h => by
    obtain ⟨as, ha⟩ := busy_rounds N C hC k (by omega)
    exact ⟨as ++ (busyRound ++ [.evCommit 0]), by rw [run_append, ha]; exact busy_round N C k h hC⟩

theorem busy_end (N C : Nat) : ∃ s, run (one N C) (busy N true [0]) busyEnd = some s ∧ Quiet s ∧ (s.cq 0).opn = true ∧
    (s.cq 0).vis = N + 1 ∧ (s.cq 0).drv = N ∧ s.lost = [0] := by
  refine ⟨_, by simp [run, busyEnd, step, upd_upd, upd_same, one, busy]; rfl, ⟨rfl, ?_, ?_⟩, ?_, ?_, ?_, rfl⟩
  · intro q; by_cases h : q = 0
    · subst h; simp [upd_same]
    · simp [upd_ne _ _ _ h]
  · intro q; by_cases h : q = 0
    · subst h; simp [upd_same]
    · simp [upd_ne _ _ _ h]
  · simp [upd_same]
  · simp [upd_same]
  · simp [upd_same]

/-- **C59 (overflow with concurrent polling).**  If a queue may be polled on another CPU while the interrupt handler is
still reading the event queue (busy polling, threaded NAPI), then for every event queue size there is a run, with a single
completion queue, that ends at rest with an unprocessed completion, never to be processed. -/
theorem C59_overflow_stalls (N C : Nat) (hN : 1 ≤ N) (hC : 1 ≤ C) :
    ∃ as s, run (one N C) init as = some s ∧ Quiet s ∧ (s.cq 0).opn = true ∧ (s.cq 0).drv < (s.cq 0).vis ∧
      ∀ bs t, run (one N C) s bs = some t → (t.cq 0).drv = (s.cq 0).drv := by
  obtain ⟨as, ha⟩ := busy_rounds N C hC (N - 1) (by omega)
  have hd := busy_drop (N - 1) C hC
  rw [show N - 1 + 1 = N by omega] at hd
  obtain ⟨s, h1, h2, h3, h4, h5, h6⟩ := busy_end N C
  have hr : run (one N C) init (as ++ (busyRound ++ busyEnd)) = some s := by
    rw [run_append, ha]
    show run _ _ _ = _
    rw [run_append, hd]; exact h1
  refine ⟨_, s, hr, h2, h3, by omega, ?_⟩
  intro bs t ht
  exact (C59_dropped_event_is_fatal _ _ bs s t hr 0 (by rw [h6]; simp) ht).1

/-! Concrete runs. -/

/-- two completions, one interrupt, one poll; everything armed again at the end -/
example : ∃ s, run (one 4 4) init [.openCq 0, .regC 0, .setUp, .write 0, .write 0, .commit 0, .evWrite, .evCommit 0, .irq 0, .irq 0,
    .irq 0, .irq 0, .regE 0, .regE 0, .poll 0, .poll 0, .commit 0, .poll 0, .poll 0, .poll 0, .arm 0, .regC 0, .regC 0] = some s ∧
    (s.cq 0).drv = 2 ∧ (s.cq 0).vis = 2 ∧ (s.cq 0).armed = true ∧ (s.eq 0).armed = true ∧ (s.cq 0).napi = .idle ∧ s.fifo = [] ∧
    s.lost = [] := ⟨_, rfl, by decide⟩

/-- a completion that arrives between the last look at the queue and the arm command makes the arm command report an event -/
example : ∃ s, run (one 4 4) init [.openCq 0, .regC 0, .setUp, .write 0, .commit 0, .evWrite, .evCommit 0, .irq 0, .irq 0,
    .irq 0, .irq 0, .regE 0, .regE 0, .poll 0, .poll 0, .poll 0, .write 0, .commit 0, .poll 0, .arm 0, .regC 0, .regC 0] = some s ∧
    (s.cq 0).armed = false ∧ s.fifo = [0] := ⟨_, rfl, by decide⟩

/-- the ordering condition holds where the handler has finished and its consumer pointer has reached the card -/
example : ∃ s, run (one 1 4) init [.openCq 0, .regC 0, .setUp, .write 0, .commit 0, .evWrite, .evCommit 0, .irq 0, .irq 0,
    .irq 0, .irq 0, .regE 0, .poll 0, .poll 0, .poll 0, .poll 0, .arm 0, .regC 0] = some s ∧ (s.cq 0).wq = [.arm] ∧
    armOk (one 1 4) s 0 := ⟨_, rfl, rfl, by intro _; decide⟩

/-- and fails where the arm command overtakes it -/
example : ∃ s, run (one 1 4) init [.openCq 0, .regC 0, .setUp, .write 0, .commit 0, .evWrite, .evCommit 0, .irq 0, .irq 0,
    .poll 0, .poll 0, .poll 0, .poll 0, .arm 0, .regC 0] = some s ∧ (s.cq 0).wq = [.arm] ∧
    ¬ armOk (one 1 4) s 0 := ⟨_, rfl, rfl, fun h => absurd (h rfl) (by decide)⟩

end Corundum.WakeLinux
