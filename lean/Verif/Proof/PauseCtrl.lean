import Verif.Spec.PauseCtrl
namespace Corundum.PauseCtrl

theorem countdown_eq (t : Bool) (st q : Nat) : countdown t st q = q - (if t then st else 0) := by
  unfold countdown
  cases t <;> simp
  omega

theorem pause_iff (x : RxIn) : (x.valid && x.opcode == x.cfgLfcOpcode && x.cfgLfcEn) = true ↔ x.Pause (x.word 0) := by
  simp [RxIn.Pause, RxIn.word, Bool.and_eq_true, and_assoc, Nat.mul_comm]

theorem Pause_word {x : RxIn} {q : Nat} (h : x.Pause q) : q = x.word 0 := by
  rw [h.2.2.2, RxIn.word, Nat.mul_comm]

theorem prio_iff (x : RxIn) (k : Nat) :
    (x.valid && !(x.opcode == x.cfgLfcOpcode && x.cfgLfcEn) && (true && x.opcode == x.cfgPfcOpcode && x.cfgPfcEn) && (x.params 1).testBit k) = true ↔
      x.Prio k (x.word (2 + 2 * k)) := by
  have e : 2 + 2 * k + 1 = 3 + 2 * k := by omega
  simp only [RxIn.Prio, RxIn.word, e, Bool.and_eq_true, Bool.not_eq_true', and_assoc, Bool.and_eq_false_iff, beq_iff_eq, Nat.mul_comm 256, and_true, true_and]
  constructor
  · rintro ⟨a, b, c, d, e⟩
    refine ⟨a, ?_, c, d, e⟩
    rintro ⟨f, g⟩
    rcases b with b | b
    · simp [f] at b
    · rw [g] at b; cases b
  · rintro ⟨a, b, c, d, e⟩
    refine ⟨a, ?_, c, d, e⟩
    by_cases f : x.opcode = x.cfgLfcOpcode
    · refine .inr ?_
      cases g : x.cfgLfcEn
      · rfl
      · exact absurd ⟨f, g⟩ b
    · exact .inl (by simp [f])

theorem Prio_word {x : RxIn} {k q : Nat} (h : x.Prio k q) : q = x.word (2 + 2 * k) := by
  have e : 2 + 2 * k + 1 = 3 + 2 * k := by omega
  rw [h.2.2.2.2.2, RxIn.word, e, Nat.mul_comm]

/-- the counter for the whole link -/
theorem lfc_edge (p : Bool) (s : Rx) (x : RxIn) :
    (∀ q, x.Pause q → (s.edge p x).lfcQuanta = q * 256) ∧ ((∀ q, ¬ x.Pause q) → (s.edge p x).lfcQuanta = s.lfcQuanta - x.time) := by
  constructor
  · intro q h
    have hq := Pause_word h
    rw [hq] at h
    have := (pause_iff x).2 h
    simp only [Rx.edge, this, if_true, hq]
  · intro h
    have := mt (pause_iff x).1 (h _)
    simp only [Rx.edge, this, countdown_eq, RxIn.time, Bool.and_eq_true]
    rfl

theorem pfc_edge (s : Rx) (x : RxIn) (k : Nat) :
    (∀ q, x.Prio k q → (s.edge true x).pfcQuanta k = q * 256) ∧
      ((∀ q, ¬ x.Prio k q) → (s.edge true x).pfcQuanta k = s.pfcQuanta k - x.timeOf k) := by
  constructor
  · intro q h
    have hq := Prio_word h
    rw [hq] at h
    have := (prio_iff x k).2 h
    simp only [Rx.edge, this, if_true, hq]
  · intro h
    have := mt (prio_iff x k).1 (h _)
    unfold Rx.edge
    dsimp only
    rw [if_neg this, countdown_eq]
    simp only [RxIn.timeOf, Bool.and_eq_true]

/-- a counter that is set at `m` and not set again -/
theorem counter {c : Nat → Nat} {t : Nat → Nat} {m v : Nat} (h0 : c (m + 1) = v) :
    ∀ n, (∀ i, m < i → i < m + 1 + n → c (i + 1) = c i - t i) → c (m + 1 + n) = v - total t (m + 1) n
  | 0, _ => by simpa [total] using h0
  | n + 1, h => by
    have ih := counter (t := t) h0 n (fun i hi hi' => h i hi (by omega))
    have := h (m + 1 + n) (by omega) (by omega)
    show c (m + 1 + n + 1) = v - (total t (m + 1) n + t (m + 1 + n))
    rw [this, ih]
    omega

theorem never {c : Nat → Nat} {t : Nat → Nat} (h0 : c 0 = 0) : ∀ n, (∀ i, i < n → c (i + 1) = c i - t i) → c n = 0
  | 0, _ => h0
  | n + 1, h => by
    have ih := never (t := t) h0 n (fun i hi => h i (by omega))
    rw [h n (by omega), ih]
    omega

/-! ### transmitter -/

/-- the frame that is offered is a pause frame -/
def Tx.pend (p : Bool) (s : Tx) : Bool := s.valid && !(p && s.sel)

/-- a pause frame is launched, or would be if it were wanted -/
def Tx.launch (p : Bool) (s : Tx) (x : TxIn) : Bool := x.cfgLfcEn && !s.valid && s.lfcSend && !(p && x.cfgPfcEn && s.pfcSend)

/-- the refresh counter asks for a frame -/
def Tx.due (s : Tx) (x : TxIn) : Bool := x.clkEn && !(s.lfcRefresh > x.step) && s.lfcReq

theorem edge_req (p : Bool) (s : Tx) (x : TxIn) : (s.edge p x).lfcReq = if x.cfgLfcEn && !s.valid then x.lfcReq else s.lfcReq := by
  unfold Tx.edge Tx.pfc Tx.lfc Tx.count
  cases p <;> cases x.cfgLfcEn <;> cases hc : x.cfgPfcEn <;> cases hv : s.valid <;> cases hs : s.lfcSend <;> cases hp : s.pfcSend <;>
    cases hr : s.lfcReq <;> cases hx : x.lfcReq <;> simp [hr, hx, hv, hs, hp] <;> (repeat' split) <;> (try simp_all)

theorem edge_act (p : Bool) (s : Tx) (x : TxIn) :
    (s.edge p x).lfcAct = if s.launch p x then s.lfcReq else if x.cfgLfcEn && !s.valid then s.lfcAct || (s.lfcReq != x.lfcReq && x.lfcReq) else s.lfcAct := by
  unfold Tx.edge Tx.pfc Tx.lfc Tx.count Tx.launch
  cases p <;> cases x.cfgLfcEn <;> cases hc : x.cfgPfcEn <;> cases hv : s.valid <;> cases hs : s.lfcSend <;> cases hp : s.pfcSend <;>
    cases hr : s.lfcReq <;> cases hx : x.lfcReq <;> simp [hr, hx, hv, hs, hp] <;> (repeat' split) <;> (try simp_all)

theorem edge_send (p : Bool) (s : Tx) (x : TxIn) :
    (s.edge p x).lfcSend = if s.launch p x then false else
      (s.lfcSend || x.lfcResend || s.due x || (x.cfgLfcEn && !s.valid && s.lfcReq != x.lfcReq)) := by
  unfold Tx.edge Tx.pfc Tx.lfc Tx.count Tx.launch Tx.due
  cases p <;> cases x.cfgLfcEn <;> cases hc : x.cfgPfcEn <;> cases hv : s.valid <;> cases hs : s.lfcSend <;> cases hp : s.pfcSend <;>
    cases hr : s.lfcReq <;> cases hx : x.lfcReq <;> simp [hr, hx, hv, hs, hp] <;> (repeat' split) <;> (try simp_all)

theorem edge_pend (p : Bool) (s : Tx) (x : TxIn) : (s.edge p x).pend p = if s.launch p x then s.lfcAct else s.pend p && !x.ready := by
  unfold Tx.edge Tx.pfc Tx.lfc Tx.count Tx.launch Tx.pend
  cases p <;> cases x.cfgLfcEn <;> cases hc : x.cfgPfcEn <;> cases hv : s.valid <;> cases hs : s.lfcSend <;> cases hp : s.pfcSend <;>
    cases hr : s.lfcReq <;> cases hx : x.lfcReq <;> simp [hr, hx, hv, hs, hp] <;> (repeat' split) <;> (try simp_all) <;>
    exact Bool.and_comm _ _

theorem edge_valid (p : Bool) (s : Tx) (x : TxIn) (h : (p && x.cfgPfcEn) = false) :
    (s.edge p x).valid = if s.launch p x then s.lfcAct else s.valid && !x.ready := by
  unfold Tx.edge Tx.pfc Tx.lfc Tx.count Tx.launch
  cases p <;> cases x.cfgLfcEn <;> cases hc : x.cfgPfcEn <;> cases hv : s.valid <;> cases hs : s.lfcSend <;> cases hp : s.pfcSend <;>
    cases hr : s.lfcReq <;> cases hx : x.lfcReq <;> simp [hr, hx, hv, hs, hp] <;> (repeat' split) <;> (try simp_all)

theorem edge_refresh (p : Bool) (s : Tx) (x : TxIn) :
    (s.edge p x).lfcRefresh = if s.launch p x then (if s.lfcReq then x.lfcRefresh * 256 else 0) else s.lfcRefresh - (if x.clkEn then x.step else 0) := by
  rw [← countdown_eq]
  unfold Tx.edge Tx.pfc Tx.lfc Tx.count Tx.launch
  cases p <;> cases x.cfgLfcEn <;> cases hc : x.cfgPfcEn <;> cases hv : s.valid <;> cases hs : s.lfcSend <;> cases hp : s.pfcSend <;>
    cases hr : s.lfcReq <;> cases hx : x.lfcReq <;> simp [hr, hx, hv, hs, hp] <;> (repeat' split) <;> (try simp_all)

theorem run_append (p : Bool) (s : Tx) (a b : List TxIn) :
    Tx.run p s (a ++ b) = (((s.run p a).1.run p b).1, (s.run p a).2 ++ ((s.run p a).1.run p b).2) := by
  induction a generalizing s with
  | nil => simp [Tx.run]
  | cons x a ih => simp [Tx.run, ih]

/-- whether the pause frame handed over last asked for a pause -/
def lastP (fs : List Frame) : Option Bool := (pauses fs).getLast?.map (· != 0)

/-- the same once the frame that is offered is handed over -/
def Tx.eff (p : Bool) (s : Tx) (fs : List Frame) : Option Bool := if s.pend p then some s.lfcReq else lastP fs

theorem lastP_pause (fs : List Frame) (q : Nat) : lastP (fs ++ [.pause q]) = some (q != 0) := by
  have : pauses (fs ++ [.pause q]) = pauses fs ++ [q] := by simp [pauses, List.filterMap_append]
  simp [lastP, this]

theorem lastP_prio (fs : List Frame) (e : Nat) (q : Nat → Nat) : lastP (fs ++ [.prio e q]) = lastP fs := by
  have : pauses (fs ++ [.prio e q]) = pauses fs := by simp [pauses, List.filterMap_append]
  simp [lastP, this]

theorem eff_step (p : Bool) (s : Tx) (x : TxIn) (fs : List Frame) (hq : x.lfcQuanta ≠ 0) :
    (s.edge p x).eff p (fs ++ s.taken p x) = if s.launch p x && s.lfcAct then some (s.edge p x).lfcReq else s.eff p fs := by
  by_cases hl : s.launch p x = true
  · have hv : s.valid = false := by
      simp only [Tx.launch, Bool.and_eq_true, Bool.not_eq_true'] at hl
      exact hl.1.1.2
    have ht : s.taken p x = [] := by simp [Tx.taken, hv]
    have hp : s.pend p = false := by simp [Tx.pend, hv]
    rw [ht, List.append_nil, Tx.eff, edge_pend, hl]
    simp only [if_true, Bool.true_and, Tx.eff, hp]
    cases s.lfcAct <;> simp
  · have hl' : s.launch p x = false := by simpa using hl
    rw [Tx.eff, edge_pend, hl']
    simp only [Bool.false_and, Bool.false_eq_true, if_false]
    by_cases hp : s.pend p = true
    · have hp' := hp
      simp only [Tx.pend, Bool.and_eq_true, Bool.not_eq_true'] at hp'
      have he : s.eff p fs = some s.lfcReq := by simp [Tx.eff, hp]
      rw [he, hp]
      cases hr : x.ready
      · simp [edge_req, hp'.1]
      · have ht : s.taken p x = [.pause (if s.lfcReq then x.lfcQuanta else 0)] := by
          simp [Tx.taken, hp'.1, hr, Tx.frame, hp'.2]
        rw [ht, lastP_pause]
        cases s.lfcReq <;> simp [hq]
    · have hp' : s.pend p = false := by simpa using hp
      have he : s.eff p fs = lastP fs := by simp [Tx.eff, hp']
      rw [he, hp']
      simp only [Bool.false_and, Bool.false_eq_true, if_false]
      cases hv : s.valid
      · simp [Tx.taken, hv]
      · have : (p && s.sel) = true := by simpa [Tx.pend, hv] using hp'
        cases hr : x.ready
        · simp [Tx.taken, hr]
        · have ht : s.taken p x = [.prio s.pfcEn (fun k => if s.pfcReq.testBit k then x.pfcQuanta k else 0)] := by
            simp only [Tx.taken, hv, hr, Tx.frame, this, Bool.and_true, if_true]
          rw [ht, lastP_prio]

/-- invariant: a pause that is asked for is told, or will be -/
def J (req act send : Bool) (e : Option Bool) : Bool :=
  (if !act && req then e == some true else true) && (if !act && !req && send then e == some true else true) &&
    (if !send && req && act then e == some true else true)

theorem J_step : ∀ (req act send : Bool) (e : Option Bool) (g l x due : Bool), (l = true → g = true ∧ send = true) → J req act send e = true →
    J (if g then x else req) (if l then req else if g then act || (req != x && x) else act)
      (if l then false else (send || false || (due && req) || (g && req != x)))
      (if l && act then some (if g then x else req) else e) = true := by
  intro req act send e
  rcases e with _ | e
  · revert req act send; decide
  · revert req act send e; decide

/-- invariant under the condition that a request does not come while the end of the pause waits to be sent -/
def K (req act send : Bool) (e : Option Bool) : Bool :=
  (if req then act else true) && (if send then act else true) && (if !send && !req then e != some true else true)

theorem K_step : ∀ (req act send : Bool) (e : Option Bool) (g l x due : Bool), (l = true → g = true ∧ send = true) →
    ¬ (send = true ∧ req = false ∧ x = true) → K req act send e = true →
    K (if g then x else req) (if l then req else if g then act || (req != x && x) else act)
      (if l then false else (send || false || (due && req) || (g && req != x)))
      (if l && act then some (if g then x else req) else e) = true := by
  intro req act send e
  rcases e with _ | e
  · revert req act send; decide
  · revert req act send e; decide

theorem launch_imp {p : Bool} {s : Tx} {x : TxIn} (h : s.launch p x = true) : (x.cfgLfcEn && !s.valid) = true ∧ s.lfcSend = true := by
  simp only [Tx.launch, Bool.and_eq_true] at h
  exact ⟨by simp [h.1.1.1, h.1.1.2], h.1.2⟩

theorem due_req (s : Tx) (x : TxIn) : s.due x = (s.due x && s.lfcReq) := by
  unfold Tx.due
  cases s.lfcReq <;> simp

theorem J_edge {p : Bool} {s : Tx} {x : TxIn} {fs : List Frame} (hq : x.lfcQuanta ≠ 0) (hr : x.lfcResend = false)
    (h : J s.lfcReq s.lfcAct s.lfcSend (s.eff p fs) = true) :
    J (s.edge p x).lfcReq (s.edge p x).lfcAct (s.edge p x).lfcSend ((s.edge p x).eff p (fs ++ s.taken p x)) = true := by
  rw [eff_step p s x fs hq, edge_req, edge_act, edge_send, hr, due_req]
  exact J_step _ _ _ _ (x.cfgLfcEn && !s.valid) (s.launch p x) x.lfcReq (s.due x) launch_imp h

theorem K_edge {p : Bool} {s : Tx} {x : TxIn} {fs : List Frame} (hq : x.lfcQuanta ≠ 0) (hr : x.lfcResend = false)
    (hc : ¬ (s.lfcSend = true ∧ s.lfcReq = false ∧ x.lfcReq = true)) (h : K s.lfcReq s.lfcAct s.lfcSend (s.eff p fs) = true) :
    K (s.edge p x).lfcReq (s.edge p x).lfcAct (s.edge p x).lfcSend ((s.edge p x).eff p (fs ++ s.taken p x)) = true := by
  rw [eff_step p s x fs hq, edge_req, edge_act, edge_send, hr, due_req]
  exact K_step _ _ _ _ (x.cfgLfcEn && !s.valid) (s.launch p x) x.lfcReq (s.due x) launch_imp hc h

theorem J_run {p : Bool} : ∀ (xs : List TxIn) (s : Tx) (fs : List Frame), (∀ x ∈ xs, x.lfcQuanta ≠ 0 ∧ x.lfcResend = false) →
    J s.lfcReq s.lfcAct s.lfcSend (s.eff p fs) = true →
    J (s.run p xs).1.lfcReq (s.run p xs).1.lfcAct (s.run p xs).1.lfcSend ((s.run p xs).1.eff p (fs ++ (s.run p xs).2)) = true
  | [], s, fs, _, h => by simpa [Tx.run] using h
  | x :: xs, s, fs, hx, h => by
    have := J_run xs (s.edge p x) (fs ++ s.taken p x) (fun y hy => hx y (List.mem_cons_of_mem _ hy))
      (J_edge (hx x (by simp)).1 (hx x (by simp)).2 h)
    simpa [Tx.run, List.append_assoc] using this

theorem K_run {p : Bool} : ∀ (xs : List TxIn) (s : Tx) (fs : List Frame), (∀ x ∈ xs, x.lfcQuanta ≠ 0 ∧ x.lfcResend = false) → Calm p s xs →
    K s.lfcReq s.lfcAct s.lfcSend (s.eff p fs) = true →
    K (s.run p xs).1.lfcReq (s.run p xs).1.lfcAct (s.run p xs).1.lfcSend ((s.run p xs).1.eff p (fs ++ (s.run p xs).2)) = true
  | [], s, fs, _, _, h => by simpa [Tx.run] using h
  | x :: xs, s, fs, hx, hc, h => by
    have := K_run xs (s.edge p x) (fs ++ s.taken p x) (fun y hy => hx y (List.mem_cons_of_mem _ hy)) hc.2
      (K_edge (hx x (by simp)).1 (hx x (by simp)).2 hc.1 h)
    simpa [Tx.run, List.append_assoc] using this

/-! #### the last edges -/

/-- flags of the transmitter -/
structure Fl where
  req : Bool
  act : Bool
  send : Bool
  valid : Bool
  pend : Bool
  eff : Option Bool
deriving DecidableEq

/-- an edge without priorities, ready, with request `x` -/
def Fl.next (f : Fl) (x due : Bool) : Fl :=
  { req := if !f.valid then x else f.req
    act := if !f.valid && f.send then f.req else if !f.valid then f.act || (f.req != x && x) else f.act
    send := if !f.valid && f.send then false else (f.send || false || (due && f.req) || (!f.valid && f.req != x))
    valid := if !f.valid && f.send then f.act else false
    pend := if !f.valid && f.send then f.act else false
    eff := if !f.valid && f.send && f.act then some (if !f.valid then x else f.req) else f.eff }

def Tx.fl (p : Bool) (s : Tx) (fs : List Frame) : Fl := ⟨s.lfcReq, s.lfcAct, s.lfcSend, s.valid, s.pend p, s.eff p fs⟩

theorem fl_edge {p : Bool} {s : Tx} {x : TxIn} {fs : List Frame} (h : x.Plain p) :
    (s.edge p x).fl p (fs ++ s.taken p x) = (s.fl p fs).next x.lfcReq (s.due x) := by
  obtain ⟨h1, h2, h3, h4, h5⟩ := h
  have hl : s.launch p x = (!s.valid && s.lfcSend) := by simp [Tx.launch, h2, h3]
  unfold Tx.fl Fl.next
  rw [eff_step p s x fs h5, edge_req, edge_act, edge_send, edge_pend, edge_valid p s x h3, hl, h1, h2, h4, due_req]
  simp

theorem soon_one : ∀ (f : Fl) (a b c : Bool), J f.req f.act f.send f.eff = true →
    let g := ((f.next true a).next true b).next true c
    g.eff = some true ∧ g.req = true := by
  intro ⟨req, act, send, valid, pend, e⟩
  rcases e with _ | e
  · revert req act send valid pend; decide
  · revert req act send valid pend e; decide

theorem soon_zero : ∀ (f : Fl) (a b c : Bool), K f.req f.act f.send f.eff = true →
    let g := ((f.next false a).next false b).next false c
    g.eff ≠ some true ∧ g.req = false := by
  intro ⟨req, act, send, valid, pend, e⟩
  rcases e with _ | e
  · revert req act send valid pend; decide
  · revert req act send valid pend e; decide

theorem lastP_ready {p : Bool} {s : Tx} {x : TxIn} {fs : List Frame} (hr : x.ready = true) (hq : x.lfcQuanta ≠ 0) :
    lastP (fs ++ s.taken p x) = s.eff p fs := by
  unfold Tx.eff Tx.pend Tx.taken
  cases hv : s.valid
  · simp
  · cases hp : p && s.sel
    · simp only [hr, Bool.and_true, if_true, Tx.frame, hp, Bool.false_eq_true, if_false, lastP_pause, Bool.not_false]
      cases s.lfcReq <;> simp [hq]
    · simp only [hr, Bool.and_true, if_true, Tx.frame, hp, Bool.not_true, Bool.and_false, Bool.false_eq_true, if_false]
      rw [lastP_prio]

/-! #### priorities -/

/-- whether the last frame handed over that names priority `k` asked for a pause -/
def lastK (k : Nat) : List Frame → Option Bool
  | [] => none
  | .pause _ :: fs => lastK k fs
  | .prio e q :: fs => match lastK k fs with
    | some b => some b
    | none => if e.testBit k then some (q k != 0) else none

theorem lastK_snoc (k : Nat) (fs : List Frame) (f : Frame) :
    lastK k (fs ++ [f]) = match f with
      | .pause _ => lastK k fs
      | .prio e q => if e.testBit k then some (q k != 0) else lastK k fs := by
  induction fs with
  | nil => cases f <;> simp [lastK]
  | cons g fs ih =>
    cases g with
    | pause q => simpa [lastK] using ih
    | prio e q =>
      simp only [List.cons_append, lastK, ih]
      cases f with
      | pause _ => rfl
      | prio e' q' =>
        dsimp only
        by_cases h : e'.testBit k = true
        · simp [h]
        · simp [h]

def Tx.pendK (p : Bool) (s : Tx) (k : Nat) : Bool := s.valid && (p && s.sel) && s.pfcEn.testBit k

def Tx.launchK (p : Bool) (s : Tx) (x : TxIn) : Bool := p && x.cfgPfcEn && !s.valid && s.pfcSend

def Tx.effK (p : Bool) (s : Tx) (fs : List Frame) (k : Nat) : Option Bool := if s.pendK p k then some (s.pfcReq.testBit k) else lastK k fs

theorem edgeK_req (p : Bool) (s : Tx) (x : TxIn) : (s.edge p x).pfcReq = if p && x.cfgPfcEn && !s.valid then x.pfcReq else s.pfcReq := by
  have h : ∀ t, (s.lfc p (s.count x) x) = t → t.pfcReq = s.pfcReq := by
    rintro _ rfl
    unfold Tx.lfc Tx.count
    dsimp only
    repeat' split
    all_goals rfl
  have h := h _ rfl
  unfold Tx.edge Tx.pfc
  by_cases g : (p && x.cfgPfcEn && !s.valid) = true
  · simp only [g, if_true]
    by_cases c : s.pfcReq = x.pfcReq
    · have c' : (s.pfcReq != x.pfcReq) = false := by simp [c]
      rw [c']
      simp only [Bool.false_eq_true, if_false]
      split <;> simp [h, c]
    · have c' : (s.pfcReq != x.pfcReq) = true := by simp [c]
      rw [c']
      simp only [if_true]
      split <;> rfl
  · simp only [g]
    exact h

theorem edgeK_act (p : Bool) (s : Tx) (x : TxIn) :
    (s.edge p x).pfcAct = if s.launchK p x then s.pfcReq else
      if (p && x.cfgPfcEn && !s.valid) && s.pfcReq != x.pfcReq then s.pfcAct ||| x.pfcReq else s.pfcAct := by
  have h : ∀ t, (s.lfc p (s.count x) x) = t → t.pfcAct = s.pfcAct := by
    rintro _ rfl
    unfold Tx.lfc Tx.count
    dsimp only
    repeat' split
    all_goals rfl
  have h := h _ rfl
  unfold Tx.edge Tx.pfc Tx.launchK
  cases g : (p && x.cfgPfcEn && !s.valid) <;> cases hs : s.pfcSend <;> cases hc : s.pfcReq != x.pfcReq <;> simp [h]

theorem edgeK_send (p : Bool) (s : Tx) (x : TxIn) :
    (s.edge p x).pfcSend = if s.launchK p x then false else
      ((s.count x).pfcSend || ((p && x.cfgPfcEn && !s.valid) && s.pfcReq != x.pfcReq)) := by
  have h : ∀ t, (s.lfc p (s.count x) x) = t → t.pfcSend = (s.count x).pfcSend := by
    rintro _ rfl
    unfold Tx.lfc
    dsimp only
    repeat' split
    all_goals rfl
  have h := h _ rfl
  unfold Tx.edge Tx.pfc Tx.launchK
  cases g : (p && x.cfgPfcEn && !s.valid) <;> cases hs : s.pfcSend <;> cases hc : s.pfcReq != x.pfcReq <;> simp [h]

theorem edgeK_pend (p : Bool) (s : Tx) (x : TxIn) (k : Nat) :
    (s.edge p x).pendK p k = if s.launchK p x then s.pfcAct.testBit k else s.pendK p k && !x.ready := by
  cases hl : s.launchK p x
  · have : (s.edge p x).valid = (s.lfc p (s.count x) x).valid ∧ (s.edge p x).sel = (s.lfc p (s.count x) x).sel ∧
        (s.edge p x).pfcEn = (s.lfc p (s.count x) x).pfcEn := by
      unfold Tx.edge Tx.pfc
      unfold Tx.launchK at hl
      cases g : (p && x.cfgPfcEn && !s.valid) <;> cases hs : s.pfcSend <;> simp [g, hs] at hl ⊢
      split <;> simp
    rw [Tx.pendK, this.1, this.2.1, this.2.2]
    have h2 : (s.lfc p (s.count x) x).pfcEn = s.pfcEn := by
      unfold Tx.lfc Tx.count
      dsimp only
      repeat' split
      all_goals rfl
    rw [h2]
    simp only [Bool.false_eq_true, if_false]
    unfold Tx.pendK Tx.lfc Tx.count
    cases hv : s.valid
    · cases hr : s.lfcSend && !(p && x.cfgPfcEn && s.pfcSend)
      · dsimp only
        simp
        repeat' split
        all_goals simp_all
      · dsimp only
        simp
        repeat' split
        all_goals simp_all
    · simp
      cases p <;> cases s.sel <;> cases x.ready <;> simp
  · have hl' := hl
    simp only [Tx.launchK, Bool.and_eq_true] at hl'
    obtain ⟨⟨⟨h1, h2⟩, h3⟩, h4⟩ := hl'
    have : (s.edge p x).valid = (s.pfcAct != 0) ∧ (s.edge p x).sel = true ∧ (s.edge p x).pfcEn = s.pfcAct := by
      unfold Tx.edge Tx.pfc
      simp [h1, h2, h3, h4]
    rw [Tx.pendK, this.1, this.2.1, this.2.2, h1]
    simp only [Bool.and_true, if_true]
    by_cases ha : s.pfcAct = 0
    · simp [ha]
    · simp [ha]

theorem effK_step (p : Bool) (s : Tx) (x : TxIn) (fs : List Frame) (k : Nat) (hq : x.pfcQuanta k ≠ 0) :
    (s.edge p x).effK p (fs ++ s.taken p x) k =
      if s.launchK p x && s.pfcAct.testBit k then some ((s.edge p x).pfcReq.testBit k) else s.effK p fs k := by
  cases hl : s.launchK p x
  · rw [Tx.effK, edgeK_pend, hl]
    simp only [Bool.false_and, Bool.false_eq_true, if_false]
    cases hp : s.pendK p k
    · have he : s.effK p fs k = lastK k fs := by simp [Tx.effK, hp]
      rw [he]
      simp only [Bool.false_and, Bool.false_eq_true, if_false]
      unfold Tx.taken
      cases hv : s.valid && x.ready
      · simp
      · simp only [if_true]
        rw [lastK_snoc]
        unfold Tx.frame
        cases hs : p && s.sel
        · simp
        · have : s.pfcEn.testBit k = false := by
            simp only [Bool.and_eq_true] at hv
            simpa [Tx.pendK, hv.1, hs] using hp
          simp [this]
    · have he : s.effK p fs k = some (s.pfcReq.testBit k) := by simp [Tx.effK, hp]
      have hp' := hp
      simp only [Tx.pendK, Bool.and_eq_true] at hp'
      rw [he]
      cases hr : x.ready
      · simp [edgeK_req, hp'.1.1]
      · have ht : s.taken p x = [s.frame p x] := by simp [Tx.taken, hp'.1.1, hr]
        rw [ht, lastK_snoc]
        simp [Tx.frame, hp'.1.2.1, hp'.1.2.2, hp'.2]
        cases s.pfcReq.testBit k <;> simp [hq]
  · have hv : s.valid = false := by
      simp only [Tx.launchK, Bool.and_eq_true, Bool.not_eq_true'] at hl
      exact hl.1.2
    have ht : s.taken p x = [] := by simp [Tx.taken, hv]
    have hp : s.pendK p k = false := by simp [Tx.pendK, hv]
    rw [ht, List.append_nil, Tx.effK, edgeK_pend, hl]
    simp only [if_true, Bool.true_and, Tx.effK, hp]
    cases s.pfcAct.testBit k <;> simp

/-- invariant of a priority -/
def M (req act send : Bool) (e : Option Bool) : Bool :=
  (if req then act else true) && (if act then true else e != some true) && (if send then true else (e == some true) == req)

theorem M_step : ∀ (req act send : Bool) (e : Option Bool) (g l x ch more : Bool), (l = true → g = true ∧ send = true) →
    (req ≠ x → ch = true) → ¬ (send = true ∧ req = false ∧ x = true) → M req act send e = true →
    M (if g then x else req) (if l then req else if g && ch then act || x else act) (if l then false else ((send || more) || (g && ch)))
      (if l && act then some (if g then x else req) else e) = true := by
  intro req act send e
  rcases e with _ | e
  · revert req act send; decide
  · revert req act send e; decide

theorem M_edge {p : Bool} {s : Tx} {x : TxIn} {fs : List Frame} {k : Nat} (hq : x.pfcQuanta k ≠ 0)
    (hc : ¬ (s.pfcSend = true ∧ s.pfcReq.testBit k = false ∧ x.pfcReq.testBit k = true))
    (h : M (s.pfcReq.testBit k) (s.pfcAct.testBit k) s.pfcSend (s.effK p fs k) = true) :
    M ((s.edge p x).pfcReq.testBit k) ((s.edge p x).pfcAct.testBit k) (s.edge p x).pfcSend ((s.edge p x).effK p (fs ++ s.taken p x) k) = true := by
  obtain ⟨m, hm⟩ : ∃ m, (s.count x).pfcSend = (s.pfcSend || m) := by
    refine ⟨x.pfcResend || (x.clkEn && (List.range 8).any fun k => !(s.pfcRefresh k > x.step) && s.pfcReq.testBit k), ?_⟩
    simp only [Tx.count, Bool.or_assoc]
  have e1 : (s.edge p x).pfcReq.testBit k = if p && x.cfgPfcEn && !s.valid then x.pfcReq.testBit k else s.pfcReq.testBit k := by
    rw [edgeK_req]; split <;> rfl
  have e2 : (s.edge p x).pfcAct.testBit k = if s.launchK p x then s.pfcReq.testBit k else
      if (p && x.cfgPfcEn && !s.valid) && s.pfcReq != x.pfcReq then s.pfcAct.testBit k || x.pfcReq.testBit k else s.pfcAct.testBit k := by
    rw [edgeK_act]
    split
    · rfl
    · split
      · rw [Nat.testBit_or]
      · rfl
  rw [effK_step p s x fs k hq, e2, edgeK_send, e1, hm]
  refine M_step _ _ _ _ (p && x.cfgPfcEn && !s.valid) (s.launchK p x) (x.pfcReq.testBit k) (s.pfcReq != x.pfcReq) m ?_ ?_ hc h
  · intro hl
    simp only [Tx.launchK, Bool.and_eq_true] at hl
    exact ⟨by simp [hl.1.1.1, hl.1.1.2, hl.1.2], hl.2⟩
  · intro hne
    have : s.pfcReq ≠ x.pfcReq := fun e => hne (by rw [e])
    simp [this]

theorem M_run {p : Bool} {k : Nat} : ∀ (xs : List TxIn) (s : Tx) (fs : List Frame), (∀ x ∈ xs, x.pfcQuanta k ≠ 0) → CalmK p k s xs →
    M (s.pfcReq.testBit k) (s.pfcAct.testBit k) s.pfcSend (s.effK p fs k) = true →
    M ((s.run p xs).1.pfcReq.testBit k) ((s.run p xs).1.pfcAct.testBit k) (s.run p xs).1.pfcSend
      ((s.run p xs).1.effK p (fs ++ (s.run p xs).2) k) = true
  | [], s, fs, _, _, h => by simpa [Tx.run] using h
  | x :: xs, s, fs, hx, hc, h => by
    have := M_run xs (s.edge p x) (fs ++ s.taken p x) (fun y hy => hx y (List.mem_cons_of_mem _ hy)) hc.2
      (M_edge (hx x (by simp)) hc.1 h)
    simpa [Tx.run, List.append_assoc] using this

/-! #### refresh -/

/-- the pause lasts: the state while the refresh counter runs -/
theorem quiet {p : Bool} : ∀ (ys : List TxIn) (s : Tx), (∀ y ∈ ys, y.Plain p ∧ y.lfcReq = true) → s.lfcReq = true → s.lfcAct = true → s.lfcSend = false →
    spent ys < s.lfcRefresh →
    (s.run p ys).1.lfcReq = true ∧ (s.run p ys).1.lfcAct = true ∧ (s.run p ys).1.lfcSend = false ∧
      (s.run p ys).1.lfcRefresh = s.lfcRefresh - spent ys ∧ (ys ≠ [] ∨ s.valid = false → (s.run p ys).1.valid = false) ∧
      (s.run p ys).2.length = if s.valid && !ys.isEmpty then 1 else 0
  | [], s, _, h1, h2, h3, _ => by simp [Tx.run, h1, h2, h3, spent]
  | y :: ys, s, hy, h1, h2, h3, h4 => by
    obtain ⟨⟨a1, a2, a3, a4, a5⟩, a6⟩ := hy y (by simp)
    have hl : s.launch p y = false := by simp [Tx.launch, h3]
    have hs : spent (y :: ys) = (if y.clkEn then y.step else 0) + spent ys := by simp [spent]
    rw [hs] at h4
    have hd : s.due y = false := by
      unfold Tx.due
      cases hc : y.clkEn
      · simp
      · rw [hc] at h4
        simp only [if_true] at h4
        have : s.lfcRefresh > y.step := by omega
        simp [this]
    have e1 : (s.edge p y).lfcReq = true := by rw [edge_req, a6, h1]; simp
    have e2 : (s.edge p y).lfcAct = true := by rw [edge_act, hl, h2]; simp
    have e3 : (s.edge p y).lfcSend = false := by rw [edge_send, hl, h3, a4, hd, h1, a6]; simp
    have e4 : (s.edge p y).lfcRefresh = s.lfcRefresh - (if y.clkEn then y.step else 0) := by rw [edge_refresh, hl]; simp
    have e5 : (s.edge p y).valid = false := by rw [edge_valid p s y a3, hl, a1]; simp
    obtain ⟨i1, i2, i3, i4, i5, i6⟩ := quiet ys (s.edge p y) (fun z hz => hy z (List.mem_cons_of_mem _ hz)) e1 e2 e3 (by rw [e4]; omega)
    have r1 : (s.run p (y :: ys)).1 = ((s.edge p y).run p ys).1 := rfl
    have r2 : (s.run p (y :: ys)).2 = s.taken p y ++ ((s.edge p y).run p ys).2 := rfl
    rw [r1, r2]
    refine ⟨i1, i2, i3, by rw [i4, e4, hs]; omega, fun _ => i5 (.inr e5), ?_⟩
    rw [List.length_append, i6, e5]
    simp only [Tx.taken, a1]
    cases s.valid <;> simp

end Corundum.PauseCtrl
