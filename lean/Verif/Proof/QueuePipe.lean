import Verif.Proof.QueueTrace
/-! Interface facts of the pipelined queue manager: responses are not overwritten, operations are executed in the order
of acceptance exactly PIPELINE cycles later, and retirement makes progress. -/
namespace Corundum.QueueManager
open Spec

/-! ### shape of one step -/

theorem step_eq {p : Params} {s : State} {pre : List Slot} {sl : Slot} (hpipe : s.pipe = pre ++ [sl]) (i : In) :
    step p s i = ((record p (admit p (final p s i sl).1 (stage0 p s i)) i).1,
      (final p s i sl).2 ++ (record p (admit p (final p s i sl).1 (stage0 p s i)) i).2) := by
  have hlast : s.pipe.getLast?.getD Slot.none = sl := by rw [hpipe]; simp
  simp only [step, hlast]

theorem final_pipe (p : Params) (s : State) (i : In) (sl : Slot) : (final p s i sl).1.pipe = s.pipe := by
  unfold final
  cases sl.op <;> simp only <;> (try split) <;> rfl

theorem admit_pipe (p : Params) (s : State) (sl : Slot) : (admit p s sl).pipe = sl :: s.pipe.dropLast := by
  unfold admit; simp only; split <;> rfl
theorem admit_resp (p : Params) (s : State) (sl : Slot) : (admit p s sl).resp = s.resp ∧ (admit p s sl).respV = s.respV := by
  unfold admit; simp only; split <;> exact ⟨rfl, rfl⟩
theorem admit_ready (p : Params) (s : State) (sl : Slot) : (admit p s sl).reqReady = (sl.op == .req) ∧
    (admit p s sl).awready = (sl.op == .wr) ∧ (admit p s sl).arready = (sl.op == .rd) := by
  unfold admit; simp only; split <;> exact ⟨rfl, rfl, rfl⟩
theorem record_same (p : Params) (s : State) (i : In) : (record p s i).1.pipe = s.pipe ∧ (record p s i).1.resp = s.resp ∧
    (record p s i).1.respV = s.respV ∧ (record p s i).1.reqReady = s.reqReady ∧ (record p s i).1.fp = s.fp ∧
    (record p s i).1.awready = s.awready ∧ (record p s i).1.arready = s.arready := by
  unfold record; split <;> exact ⟨rfl, rfl, rfl, rfl, rfl, rfl, rfl⟩

theorem step_pipe {p : Params} {s : State} (hne : s.pipe ≠ []) (i : In) :
    (step p s i).1.pipe = stage0 p s i :: s.pipe.dropLast := by
  rw [step_eq (List.dropLast_concat_getLast hne).symm i]
  simp only
  rw [(record_same _ _ _).1, admit_pipe, final_pipe]

/-! ### responses -/

/-- responses issued in a trace -/
def respsOf : List Ev → List Resp
  | [] => []
  | .req _ _ r :: es => r :: respsOf es
  | _ :: es => respsOf es

theorem respsOf_append : ∀ (x y : List Ev), respsOf (x ++ y) = respsOf x ++ respsOf y
  | [], y => rfl
  | e :: x, y => by cases e <;> simp [respsOf, respsOf_append x y]

/-- responses transferred on the response interface (valid and ready in the same cycle) -/
def taken (p : Params) (s : State) : List In → List Resp
  | [] => []
  | i :: is => (if s.respV && i.respReady then [s.resp] else []) ++ taken p (step p s i).1 is

def pend (s : State) : List Resp := if s.respV then [s.resp] else []

/-- no request is in the pipeline while a response is waiting -/
def Quiet (s : State) : Prop := (∃ sl ∈ s.pipe, sl.op = .req) → s.respV = false

theorem record_resps (p : Params) (s : State) (i : In) : respsOf (record p s i).2 = [] := by
  unfold record; split <;> rfl

theorem final_resps (p : Params) (s : State) (i : In) (sl : Slot) (h : sl.op = .req → s.respV = false) :
    pend s ++ respsOf (final p s i sl).2 = (if s.respV && i.respReady then [s.resp] else []) ++ pend (final p s i sl).1 := by
  by_cases ho : sl.op = .req
  · have hv := h ho
    unfold final
    rw [ho]
    simp only
    split <;> simp [pend, hv, respsOf]
  · have h1 : respsOf (final p s i sl).2 = [] := by
      unfold final
      cases hop : sl.op <;> simp only [respsOf] <;> exact absurd hop ho
    have h2 : (final p s i sl).1.resp = s.resp ∧ (final p s i sl).1.respV = (s.respV && !i.respReady) := by
      unfold final
      cases hop : sl.op <;> first | exact absurd hop ho | exact ⟨rfl, rfl⟩
    rw [h1]
    unfold pend
    rw [h2.1, h2.2]
    cases s.respV <;> cases i.respReady <;> rfl

theorem stage0_req {p s i} (h : (stage0 p s i).op = .req) :
    (!s.respV || i.respReady) = true ∧ inPipe s .req = false ∧ (stage0 p s i).q = i.reqQueue % 2 ^ p.qw ∧ (stage0 p s i).tag = i.reqTag ∧
      i.reqValid = true := by
  unfold stage0 at h ⊢
  simp only at h ⊢
  split at h
  · cases h
  · rename_i c1
    rw [if_neg c1]
    split at h
    · cases h
    · rename_i c2
      rw [if_neg c2]
      split at h
      · cases h
      · rename_i c3
        rw [if_neg c3]
        split at h
        · rename_i c4
          rw [if_pos c4]
          simp only [Bool.and_eq_true, Bool.not_eq_true'] at c4
          exact ⟨c4.1.1.2, c4.1.2, rfl, rfl, c4.1.1.1.2⟩
        · cases h

theorem quiet_step {p s} (hr : s.pipe.Pairwise (fun x y => ¬ (x.op = .req ∧ y.op = .req))) (hq : Quiet s) (hne : s.pipe ≠ []) (i : In) :
    Quiet (step p s i).1 ∧
    pend s ++ respsOf (step p s i).2 = (if s.respV && i.respReady then [s.resp] else []) ++ pend (step p s i).1 := by
  obtain ⟨pre, sl, hpipe⟩ : ∃ pre sl, s.pipe = pre ++ [sl] :=
    ⟨s.pipe.dropLast, s.pipe.getLast hne, (List.dropLast_concat_getLast hne).symm⟩
  rw [hpipe] at hr
  have hslm : sl ∈ s.pipe := by rw [hpipe]; simp
  have hfin : sl.op ≠ .req → (final p s i sl).1.respV = (s.respV && !i.respReady) := by
    intro ho
    unfold final
    cases hop : sl.op <;> first | exact absurd hop ho | rfl
  constructor
  · rintro ⟨x, hx, hxr⟩
    rw [step_pipe hne] at hx
    have hv : (step p s i).1.respV = (final p s i sl).1.respV := by
      rw [step_eq hpipe]; simp only; rw [(record_same _ _ _).2.2.1, (admit_resp _ _ _).2]
    rw [hv]
    rcases List.mem_cons.mp hx with rfl | hx
    · obtain ⟨h1, h2, _⟩ := stage0_req hxr
      rw [hfin (inPipe_false h2 sl hslm)]
      cases hv : s.respV <;> simp_all
    · rw [hpipe, List.dropLast_concat] at hx
      have : sl.op ≠ .req := fun e => (List.pairwise_append.mp hr).2.2 x hx sl (by simp) ⟨hxr, e⟩
      rw [hfin this, hq ⟨x, by rw [hpipe]; simp [hx], hxr⟩]; rfl
  · rw [step_eq hpipe]
    simp only
    rw [respsOf_append, record_resps, List.append_nil, final_resps p s i sl (fun e => hq ⟨sl, hslm, e⟩)]
    congr 1
    unfold pend
    rw [(record_same _ _ _).2.1, (record_same _ _ _).2.2.1, (admit_resp _ _ _).1, (admit_resp _ _ _).2]

theorem run_resps {p : Params} (hcl : p.cl ≤ 8) : ∀ (is : List In) {s a R T}, Inv p s s.pipe a R T → s.pipe ≠ [] → Quiet s →
    pend s ++ respsOf (run p s is).2 = taken p s is ++ pend (run p s is).1
  | [], s, a, R, T, _, _, _ => by simp [run, respsOf, taken]
  | i :: is, s, a, R, T, h, hne, hq => by
    obtain ⟨a1, R1, T1, hr, hi, hl⟩ := step_spec hcl h hne i
    obtain ⟨q1, q2⟩ := quiet_step (p := p) h.reqs hq hne i
    have := run_resps hcl is hi (by intro e; rw [e] at hl; exact hne (List.eq_nil_of_length_eq_zero hl.symm)) q1
    show pend s ++ respsOf ((step p s i).2 ++ (run p (step p s i).1 is).2) =
      ((if s.respV && i.respReady then [s.resp] else []) ++ taken p (step p s i).1 is) ++ pend (run p (step p s i).1 is).1
    rw [respsOf_append, ← List.append_assoc, q2, List.append_assoc, this, List.append_assoc]

/-! ### order of execution -/

/-- identity of an operation: kind, queue, register, data, strobes, tag -/
structure Key where
  op : Op
  q : Nat
  reg : Nat
  data : Nat
  strb : Nat
  tag : Nat

def slotKey (sl : Slot) : Option Key :=
  match sl.op with
  | .idle => none
  | .wr => some ⟨.wr, sl.q, sl.reg, sl.wdata, sl.wstrb, 0⟩
  | .rd => some ⟨.rd, sl.q, sl.reg, 0, 0, 0⟩
  | .req => some ⟨.req, sl.q, 0, 0, 0, sl.tag⟩
  | .commit => some ⟨.commit, sl.q, 0, 0, 0, 0⟩

def evKey : Ev → Option Key
  | .wr q reg data strb _ => some ⟨.wr, q, reg, data, strb, 0⟩
  | .rd q reg _ => some ⟨.rd, q, reg, 0, 0, 0⟩
  | .req q tag _ => some ⟨.req, q, 0, 0, 0, tag⟩
  | .commit _ => none
  | .retire q => some ⟨.commit, q, 0, 0, 0, 0⟩

/-- the operations accepted at stage 0, cycle by cycle (idle slots included) -/
def admits (p : Params) (s : State) : List In → List Slot
  | [] => []
  | i :: is => stage0 p s i :: admits p (step p s i).1 is

theorem final_key (p : Params) (s : State) (i : In) (sl : Slot) : (final p s i sl).2.filterMap evKey = (slotKey sl).toList := by
  unfold final slotKey
  cases sl.op <;> simp only <;> (try split) <;> simp [evKey]

theorem record_key (p : Params) (s : State) (i : In) : (record p s i).2.filterMap evKey = [] := by
  unfold record; split <;> simp [evKey]

theorem run_keys {p : Params} : ∀ (is : List In) {s : State}, s.pipe ≠ [] →
    (run p s is).2.filterMap evKey = ((s.pipe.reverse ++ admits p s is).take is.length).filterMap slotKey
  | [], s, _ => by simp [run]
  | i :: is, s, hne => by
    obtain ⟨pre, sl, hpipe⟩ : ∃ pre sl, s.pipe = pre ++ [sl] :=
      ⟨s.pipe.dropLast, s.pipe.getLast hne, (List.dropLast_concat_getLast hne).symm⟩
    have hp := step_pipe (p := p) hne i
    have ih := run_keys (p := p) is (s := (step p s i).1) (by rw [hp]; simp)
    show ((step p s i).2 ++ (run p (step p s i).1 is).2).filterMap evKey = _
    rw [List.filterMap_append, ih, hp, step_eq hpipe]
    simp only
    rw [List.filterMap_append, final_key, record_key, List.append_nil, hpipe, List.dropLast_concat, List.reverse_append,
      List.reverse_singleton, List.singleton_append, List.cons_append, List.length_cons, List.take_succ_cons,
      List.filterMap_cons]
    have : (stage0 p s i :: pre).reverse ++ admits p (step p s i).1 is = pre.reverse ++ admits p s (i :: is) := by
      simp [admits]
    rw [step_eq hpipe] at this
    rw [this]
    cases slotKey sl <;> simp

theorem admits_length (p : Params) : ∀ (is : List In) (s : State), (admits p s is).length = is.length
  | [], _ => rfl
  | i :: is, s => by simp [admits, admits_length p is]

/-! ### progress of retirement -/

/-- no AXI-lite access is presented -/
def noAxil (i : In) : Prop := i.awvalid = false ∧ i.arvalid = false

theorem stage0_quiet {p s i} (hi : noAxil i) (hact : s.act s.fp = true) (hcmt : s.cmt s.fp = true)
    (hh : s.pipe.head?.map (·.op) ≠ some .commit) (hz : hazard s (s.tq s.fp) = false) : (stage0 p s i).op = .commit := by
  unfold stage0
  simp only [hi.1, hi.2, Bool.false_and, Bool.false_eq_true, if_false]
  rw [if_pos]
  simp only [hact, hcmt, hz, Bool.true_and, Bool.not_false, Bool.and_true, Bool.not_eq_true']
  simpa using hh

/-- while the head of the op table is committed but blocked, nothing new for its queue enters -/
theorem stage0_blocked {p s i} (hi : noAxil i) (hnc : (stage0 p s i).op ≠ .commit)
    (hz : hazard s (s.tq s.fp) = true) : (stage0 p s i).op ≠ .idle → (stage0 p s i).q ≠ s.tq s.fp := by
  unfold stage0 at hnc ⊢
  simp only [hi.1, hi.2, Bool.false_and, Bool.false_eq_true, if_false] at hnc ⊢
  split
  · rename_i c; rw [if_pos c] at hnc; simp at hnc
  · split
    · rename_i c
      simp only [Bool.and_eq_true, Bool.not_eq_true'] at c
      intro _ he
      simp only at he
      rw [he, hz] at c
      exact absurd c.2 (by simp)
    · intro h; simp [Slot.none] at h

/-- the table head as seen through the invariant -/
theorem head_of {p s a R T} (h : Inv p s s.pipe a R T) (hact : s.act s.fp = true) : ∃ o T', T = o :: T' ∧ s.tq s.fp = o.q ∧
    s.cmt s.fp = o.done := by
  obtain ⟨k, hk, e⟩ := h.inact s.fp h.fp hact
  have hk0 : k = 0 := by
    have : (s.fp + k) % 2 ^ p.cl = (s.fp + 0) % 2 ^ p.cl := by rw [Nat.add_zero, ← e, Nat.mod_eq_of_lt h.fp]
    have hl := h.len
    exact mod_win (by omega) (by omega) this
  subst hk0
  obtain ⟨t1, t2, t3, t4, t5⟩ := h.tbl 0 hk
  rw [Nat.add_zero, Nat.mod_eq_of_lt h.fp] at t2 t4
  cases hT : T with
  | nil => rw [hT] at hk; simp at hk
  | cons o T' =>
    simp only [hT, List.getElem_cons_zero] at t2 t4
    exact ⟨o, T', rfl, t2, t4⟩

/-- the head of the table is untouched by a step that does not retire it -/
theorem head_stable {p s a R T} (hcl : p.cl ≤ 8) (h : Inv p s s.pipe a R T) (hne : s.pipe ≠ []) (i : In)
    (hact : s.act s.fp = true) (hcmt : s.cmt s.fp = true) (hnc : (stage0 p s i).op ≠ .commit) :
    (step p s i).1.fp = s.fp ∧ (step p s i).1.act s.fp = true ∧ (step p s i).1.cmt s.fp = true ∧ (step p s i).1.tq s.fp = s.tq s.fp := by
  obtain ⟨pre, sl, hpipe⟩ : ∃ pre sl, s.pipe = pre ++ [sl] :=
    ⟨s.pipe.dropLast, s.pipe.getLast hne, (List.dropLast_concat_getLast hne).symm⟩
  obtain ⟨a1, R1, T1, _, hf⟩ := final_spec hcl (by rw [← hpipe]; exact h) i (sl := sl) (pre := pre)
  obtain ⟨o, T', hT, hq, hd⟩ := head_of h hact
  have hT1 : ∃ T'', T1 = o :: T'' := by
    rcases hf.tt with e | ⟨_, x, e⟩
    · exact ⟨T', by rw [e, hT]⟩
    · exact ⟨T' ++ [x], by rw [e, hT]; rfl⟩
  obtain ⟨T'', hT1⟩ := hT1
  have t := hf.inv.tbl 0 (by rw [hT1]; simp)
  rw [Nat.add_zero, Nat.mod_eq_of_lt hf.inv.fp, hf.fp] at t
  simp only [hT1, List.getElem_cons_zero] at t
  rw [step_eq hpipe]
  simp only
  have hadm : admit p (final p s i sl).1 (stage0 p s i) = shift (final p s i sl).1 (stage0 p s i) := by
    unfold admit; simp only; rw [if_neg hnc]
  rw [hadm]
  have hrec : ∀ s' : State, (record p s' i).1.act = s'.act ∧ (record p s' i).1.tq = s'.tq ∧ (s'.cmt s.fp = true → (record p s' i).1.cmt s.fp = true) := by
    intro s'
    unfold record
    split
    · refine ⟨rfl, rfl, fun hc => ?_⟩
      simp only [upd]; split <;> simp_all
    · exact ⟨rfl, rfl, id⟩
  refine ⟨?_, ?_, ?_, ?_⟩
  · rw [(record_same _ _ _).2.2.2.2.1]; exact hf.fp
  · rw [(hrec _).1]; exact t.1
  · apply (hrec _).2.2
    show (final p s i sl).1.cmt s.fp = true
    rw [t.2.2.2.1, ← hd]; exact hcmt
  · rw [(hrec _).2.1]
    show (final p s i sl).1.tq s.fp = s.tq s.fp
    rw [t.2.1, hq]

theorem progress_aux {p : Params} (hcl : p.cl ≤ 8) : ∀ (n : Nat) (is : List In) (s : State) (a : A) (R T : List AOp), Inv p s s.pipe a R T →
    s.pipe ≠ [] → (∀ i ∈ is, noAxil i) → s.act s.fp = true → s.cmt s.fp = true → s.pipe.head?.map (·.op) ≠ some .commit →
    (∀ x ∈ s.pipe.take (s.pipe.length - n), x.op ≠ .idle → x.q ≠ s.tq s.fp) → n < is.length →
    ∃ sl ∈ admits p s is, sl.op = .commit
  | n, [], s, a, R, T, _, _, _, _, _, _, _, hn => by simp at hn
  | n, i :: is, s, a, R, T, h, hne, hq, hact, hcmt, hh, hb, hn => by
    by_cases hc : (stage0 p s i).op = .commit
    · exact ⟨_, by simp [admits], hc⟩
    · have hi := hq i (by simp)
      have hz : hazard s (s.tq s.fp) = true := by
        cases hz : hazard s (s.tq s.fp) with
        | true => rfl
        | false => exact absurd (stage0_quiet hi hact hcmt hh hz) hc
      have hnb := stage0_blocked hi hc hz
      cases n with
      | zero =>
        exfalso
        unfold hazard at hz
        rw [List.any_eq_true] at hz
        obtain ⟨x, hx, hxx⟩ := hz
        simp only [Bool.and_eq_true, bne_iff_ne, ne_eq, beq_iff_eq] at hxx
        exact hb x (by simpa using hx) hxx.1 hxx.2
      | succ n =>
        obtain ⟨a1, R1, T1, hr, hinv, hl⟩ := step_spec hcl h hne i
        obtain ⟨f1, f2, f3, f4⟩ := head_stable hcl h hne i hact hcmt hc
        have hp := step_pipe (p := p) hne i
        obtain ⟨sl, hm, hsc⟩ := progress_aux hcl n is (step p s i).1 a1 R1 T1 hinv (by rw [hp]; simp)
          (fun x hx => hq x (by simp [hx])) (by rw [f1]; exact f2) (by rw [f1]; exact f3)
          (by rw [hp]; simpa using hc) (by
            rw [f1, f4, hl, hp]
            intro x hx
            have hpos : 0 < s.pipe.length := List.length_pos_iff.mpr hne
            by_cases hk : s.pipe.length - n = 0
            · rw [hk] at hx; simp at hx
            · obtain ⟨k, hk'⟩ : ∃ k, s.pipe.length - n = k + 1 := ⟨s.pipe.length - n - 1, by omega⟩
              rw [hk', List.take_succ_cons] at hx
              rcases List.mem_cons.mp hx with rfl | hx
              · exact hnb
              · apply hb
                have hk2 : s.pipe.length - (n + 1) = k := by omega
                rw [hk2]
                rw [List.dropLast_eq_take, List.take_take] at hx
                exact List.take_subset_take_left _ (by omega) hx) (by simpa using hn)
        exact ⟨sl, by simp [admits, hm], hsc⟩

end Corundum.QueueManager
