import Verif.Proof.Wake

/-!
C58: the interrupt handler and the card together do not lose wake-ups, as long as the event queue does not overflow;
an event dropped by a full event queue silences its completion queue for good; and when overflow can and cannot happen.
-/

namespace Corundum.Wake

/-- **C58 (no lost wake-up).**  Whatever the order in which the card writes and commits completions and events, register
writes arrive and the interrupt handler runs: when everything has come to rest, every completion of every open completion
queue has been processed, unless an event of that queue was dropped because the event queue was full. -/
theorem C58_no_lost_wakeup (P : Params) (as : List Act) (s : S) (h : run P init as = some s) (hq : Quiet s) (q : Nat)
    (ho : (s.cq q).opn = true) (he : P.eqOf q < P.nEq) (hl : q ∉ s.lost) : (s.cq q).drv = (s.cq q).vis := by
  have hi := inv_run as (inv_init P) h
  have ht := hi.tok q
  have hpos : pos s (P.eqOf q) = (s.eq (P.eqOf q)).drv := by unfold pos; rw [hq.pc]
  have hea : (s.eq (P.eqOf q)).armed = true := by
    rcases hi.etok _ he with g | g | g | g
    · exact g
    · rw [hq.irq] at g; cases g
    · rw [hq.wq] at g; cases g
    · rw [hq.pc] at g; cases g
  have hdrop : (s.eq (P.eqOf q)).log.drop (s.eq (P.eqOf q)).drv = [] := by
    apply List.drop_eq_nil_of_le
    rw [← hq.eq]; exact hi.earm _ hea
  unfold tok at ht
  rw [hpos, hdrop, hq.fifo, hq.wq, List.count_eq_zero_of_not_mem hl, ho] at ht
  have ha : (s.cq q).armed = true := by
    cases hb : (s.cq q).armed with
    | true => rfl
    | false => rw [hb] at ht; simp at ht
  have h1 := hi.carm q ha
  have h2 := hi.cle q
  have h3 := hq.cq q
  omega

/-- C58: while a completion of an open queue is unprocessed (and no event of it was dropped), the card or the handler can
take a step; the system never gets stuck short of it. -/
theorem C58_never_stuck (P : Params) (as : List Act) (s : S) (h : run P init as = some s) (q : Nat)
    (ho : (s.cq q).opn = true) (he : P.eqOf q < P.nEq) (hl : q ∉ s.lost) (hw : (s.cq q).drv < (s.cq q).vis) :
    ∃ a, a.internal = true ∧ (step P s a).isSome := by
  by_cases hq : Quiet s
  · have := C58_no_lost_wakeup P as s h hq q ho he hl; omega
  · apply Classical.byContradiction
    intro hn
    have hn : ∀ a, a.internal = true → step P s a = none := by
      intro a ha
      cases hs : step P s a with
      | none => rfl
      | some t => exact absurd ⟨a, ha, by rw [hs]; rfl⟩ hn
    have hi := inv_run as (inv_init P) h
    apply hq
    have hd := hn .drv rfl
    have hpc : s.pc = .idle ∧ ¬ 0 < s.irq := by
      simp only [step] at hd
      unfold drv at hd
      cases hp : s.pc <;> rw [hp] at hd <;> dsimp only at hd
      · split at hd
        · cases hd
        · rename_i g; exact ⟨rfl, g⟩
      · split at hd
        · split at hd <;> cases hd
        · cases hd
      · split at hd
        · split at hd <;> cases hd
        · cases hd
      · split at hd <;> cases hd
      · cases hd
      · cases hd
      · cases hd
      · cases hd
    refine ⟨hpc.1, by omega, ?_, ?_, ?_, ?_⟩
    · have := hn .reg rfl
      cases hw : s.wq with
      | nil => rfl
      | cons w ws => simp only [step, hw] at this; cases this
    · have := hn .evWrite rfl
      cases hw : s.fifo with
      | nil => rfl
      | cons w ws =>
        simp only [step, hw] at this
        split at this <;> cases this
    · intro q'
      have := hn (.commit q') rfl
      simp only [step] at this
      have hc := hi.cle q'
      split at this
      · split at this <;> cases this
      · omega
    · intro e'
      have := hn (.evCommit e') rfl
      simp only [step] at this
      have hc := hi.ele e'
      split at this
      · split at this <;> cases this
      · omega

/-- **C58 (a dropped event is fatal).**  Once an event of a completion queue has been dropped, the driver never looks at
that queue again: whatever happens afterwards, its consumer pointer stays where it is. -/
theorem C58_dropped_event_is_fatal (P : Params) (as bs : List Act) (s t : S) (h : run P init as = some s) (q : Nat)
    (hl : q ∈ s.lost) (ht : run P s bs = some t) : (t.cq q).drv = (s.cq q).drv ∧ q ∈ t.lost := by
  have hi := inv_run as (inv_init P) h
  clear h
  induction bs generalizing s with
  | nil => cases ht; exact ⟨rfl, hl⟩
  | cons b bs ih =>
    rw [run, Option.bind_eq_some_iff] at ht
    obtain ⟨s', h1, h2⟩ := ht
    have hs := lost_step hi hl b h1
    have := ih s' hs.2 h2 (inv_step hi b h1)
    exact ⟨this.1.trans hs.1, this.2⟩

/-- **C58 (when nothing is dropped).**  If an interface has at most `m` completion queues and the handler, at every point
of the run, has gone through at most `eqSize - m` events of each event queue that the card does not know about yet, then no
event is ever dropped. -/
theorem C58_no_drop (P : Params) (m : Nat) (as : List Act) (s : S) (h : run P init as = some s)
    (hm : ∀ q, (s.cq q).opn = true → q < m)
    (hb : ∀ bs t, bs <+: as → run P init bs = some t → ∀ e, pos t e - (t.eq e).cons + m ≤ P.eqSize) : s.lost = [] := by
  exact no_drop as (inv_init P) rfl h hm hb

/-! ### The event queue can overflow -/

theorem upd_upd {α : Type} (f : Nat → α) (k : Nat) (a b : α) : upd (upd f k a) k b = upd f k b := by
  funext j; unfold upd; split <;> rfl

theorem run_append (P : Params) : ∀ (as bs : List Act) (s : S), run P s (as ++ bs) = (run P s as).bind fun t => run P t bs
  | [], bs, s => rfl
  | a :: as, bs, s => by
    show (step P s a).bind _ = _
    rw [run, Option.bind_assoc]
    congr 1; funext t; exact run_append P as bs t

/-- one event queue of `N` entries, one completion queue -/
def one (N C : Nat) : Params := { nEq := 1, cqSize := C, eqSize := N, eqOf := fun _ => 0 }

/-- the handler has dealt with `k` events and `k` completions in this interrupt and is about to read the next event -/
def busy (k : Nat) (c : Bool) (l : List Nat) : S :=
  { cq := upd (fun _ => {}) 0 { opn := true, armed := false, prod := k + 1, vis := k + 1, cons := k, drv := k }
    eq := upd (fun _ => {}) 0 { armed := false, log := List.replicate (if c then k else k + 1) 0, prod := if c then k else k + 1, cons := 0, drv := 0 }
    fifo := [], wq := [], irq := 0, up := true, pc := .loop 0 k, lost := l }

def busyStart : List Act := [.openCq 0, .reg, .setUp, .write 0, .commit 0, .evWrite, .evCommit 0, .drv, .drv]

/-- the handler deals with one event and one completion, and the next completion and its event arrive -/
def busyRound : List Act := [.drv, .drv, .drv, .drv, .drv, .reg, .reg, .write 0, .commit 0, .evWrite]

def busyEnd : List Act := [.drv, .drv, .drv, .drv, .reg, .reg]

theorem busy_start (N C : Nat) (hN : 1 ≤ N) (hC : 1 ≤ C) : run (one N C) init busyStart = some (busy 0 false []) := by
  have h1 : 0 < N := hN
  have h2 : 0 < C := hC
  simp [run, busyStart, step, init, apply, drv, upd_upd, upd_same, one, h1, h2, busy]

theorem busy_round (N C k : Nat) (hk : k + 1 < N) (hC : 1 ≤ C) :
    run (one N C) (busy k false []) (busyRound ++ [.evCommit 0]) = some (busy (k + 1) false []) := by
  have h2 : 0 < C := hC
  simp [run, busyRound, step, apply, drv, upd_upd, upd_same, one, h2, busy, hk, List.replicate_succ']

theorem busy_drop (N C : Nat) (hC : 1 ≤ C) :
    run (one (N + 1) C) (busy N false []) busyRound = some (busy (N + 1) true [0]) := by
  have h2 : 0 < C := hC
  simp [run, busyRound, step, apply, drv, upd_upd, upd_same, one, h2, busy]

theorem busy_rounds (N C : Nat) (hC : 1 ≤ C) : ∀ k, k < N → ∃ as, run (one N C) init as = some (busy k false [])
  | 0, h => ⟨_, busy_start N C h hC⟩
  | k + 1, h => by
    obtain ⟨as, ha⟩ := busy_rounds N C hC k (by omega)
    exact ⟨as ++ (busyRound ++ [.evCommit 0]), by rw [run_append, ha]; exact busy_round N C k h hC⟩

theorem busy_end (N C : Nat) : ∃ s, run (one N C) (busy N true [0]) busyEnd = some s ∧ Quiet s ∧ (s.cq 0).opn = true ∧
    (s.cq 0).vis = N + 1 ∧ (s.cq 0).drv = N ∧ s.lost = [0] := by
  refine ⟨_, by simp [run, busyEnd, step, apply, drv, upd_upd, upd_same, one, busy]; rfl, ⟨rfl, rfl, rfl, rfl, ?_, ?_⟩, ?_, ?_, ?_, rfl⟩
  · intro q; by_cases h : q = 0
    · subst h; simp [upd_same]
    · simp [upd_ne _ _ _ h]
  · intro q; by_cases h : q = 0
    · subst h; simp [upd_same]
    · simp [upd_ne _ _ _ h]
  · simp [upd_same]
  · simp [upd_same]
  · simp [upd_same]

/-- **C58 (the event queue can overflow).**  Whatever the size of the event queue, and with a single completion queue, there
is a run that ends with everything at rest, a completion in host memory that was never processed, and the interface deaf to
that queue: completions and their events keep arriving while the handler goes through the event queue, it re-arms the
completion queue after every event but tells the card about its progress only when it is done, so the card
believes the event queue is full and drops an event. -/
theorem C58_overflow_stalls (N C : Nat) (hN : 1 ≤ N) (hC : 1 ≤ C) :
    ∃ as s, run (one N C) init as = some s ∧ Quiet s ∧ (s.cq 0).opn = true ∧ (s.cq 0).drv < (s.cq 0).vis ∧
      ∀ bs t, run (one N C) s bs = some t → (t.cq 0).drv = (s.cq 0).drv := by
  obtain ⟨as, ha⟩ := busy_rounds N C hC (N - 1) (by omega)
  have hd := busy_drop (N - 1) C hC
  rw [show N - 1 + 1 = N by omega] at hd
  obtain ⟨s, h1, h2, h3, h4, h5, h6⟩ := busy_end N C
  have hr : run (one N C) init (as ++ (busyRound ++ busyEnd)) = some s := by
    rw [run_append, ha]
    show run _ _ _ = _
    rw [run_append, hd]; exact h1
  refine ⟨_, s, hr, h2, h3, by omega, ?_⟩
  intro bs t ht
  exact (C58_dropped_event_is_fatal _ _ bs s t hr 0 (by rw [h6]; simp) ht).1

/-! Concrete runs: two completions on a queue, processed in one interrupt; and the overflow with an event queue of two. -/

example : ∃ s, run (one 4 4) init [.openCq 0, .reg, .setUp, .write 0, .write 0, .commit 0, .evWrite, .evCommit 0, .drv, .drv, .drv, .drv,
    .drv, .commit 0, .drv, .drv, .drv, .reg, .reg, .drv, .drv, .drv, .drv, .reg, .reg] = some s ∧ s.pc = .idle ∧ s.irq = 0 ∧
    s.wq = [] ∧ s.fifo = [] ∧ (s.cq 0).drv = 2 ∧ (s.cq 0).vis = 2 ∧ (s.cq 0).armed = true ∧ (s.eq 0).armed = true := ⟨_, rfl, by decide⟩

/-- a completion that arrives after the handler has read the queue and before the arm command takes effect produces an event -/
example : ∃ s, run (one 4 4) init [.openCq 0, .reg, .setUp, .write 0, .commit 0, .evWrite, .evCommit 0, .drv, .drv, .drv, .drv,
    .drv, .drv, .drv, .write 0, .commit 0, .reg, .reg] = some s ∧ s.fifo = [0] ∧ (s.cq 0).armed = false := ⟨_, rfl, by decide⟩

example : ∃ s, run (one 2 4) init (busyStart ++ (busyRound ++ [.evCommit 0]) ++ busyRound ++ busyEnd) = some s ∧ s.pc = .idle ∧
    (s.cq 0).vis = 3 ∧ (s.cq 0).drv = 2 ∧ s.lost = [0] := ⟨_, rfl, by decide⟩

end Corundum.Wake
