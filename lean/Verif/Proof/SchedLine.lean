import Verif.Proof.Sched
/-! The service line of the transmit scheduler is a FIFO; traces; progress. -/
namespace Corundum.Sched

/-- queues waiting for a transmit request, oldest first -/
def line (s : State) : List Nat := (s.pipe.filter (fun sl => sl.op == .req)).map Slot.q ++ s.rr

/-- queues taken from the line by the events of a trace -/
def reqsOf : List Ev → List Nat
  | [] => []
  | .issue q _ :: es => q :: reqsOf es
  | .skip q _ :: es => q :: reqsOf es
  | _ :: es => reqsOf es

theorem reqsOf_append : ∀ (x y : List Ev), reqsOf (x ++ y) = reqsOf x ++ reqsOf y
  | [], y => rfl
  | e :: x, y => by cases e <;> simp [reqsOf, reqsOf_append x y]

theorem filter_req_nil {l : List Slot} (h : ∀ x ∈ l, x.op ≠ .req) : l.filter (fun sl => sl.op == .req) = [] :=
  List.filter_eq_nil_iff.mpr (fun x hx => by simpa using h x hx)

theorem evOf_reqs (c : Bool) (sl : Slot) : reqsOf (evOf c sl) = if sl.op = .req then [sl.q] else [] := by
  unfold evOf
  cases sl.op <;> simp [reqsOf]
  split <;> rfl

theorem line_law {p : Params} {s : State} (h : Inv p s) (hne : s.pipe ≠ []) (i : In) :
    line s ++ (if push p.ctrl (s.pipe.getLast hne) then [(s.pipe.getLast hne).q] else []) = reqsOf (step p s i).2 ++ line (step p s i).1 := by
  obtain ⟨pre, sl, hp⟩ : ∃ pre sl, s.pipe = pre ++ [sl] :=
    ⟨s.pipe.dropLast, s.pipe.getLast hne, (List.dropLast_concat_getLast hne).symm⟩
  have hl : s.pipe.getLast hne = sl := by simp [hp]
  rw [hl]
  have he : (step p s i).2 = evOf p.ctrl sl := by rw [step_eq hp]
  have ho := h.one
  rw [hp, List.pairwise_append] at ho
  have hs := (stage0_spec p s i).1
  unfold line
  rw [he, evOf_reqs, step_pipe hp, step_rr' hp h, hp, List.filter_append, List.filter_cons]
  by_cases hr0 : (stage0 p s i).op = .req
  · simp only [Stage0, hr0] at hs
    obtain ⟨_, ⟨rest, hrr⟩, _, hin⟩ := hs
    have hnr := inPipe_false hin
    have hsl : sl.op ≠ .req := hnr sl (by rw [hp]; simp)
    have hpre : ∀ x ∈ pre, ¬ x.op = .req := fun x hx => hnr x (by rw [hp]; simp [hx])
    rw [filter_req_nil (l := pre) hpre]
    simp [hr0, hsl, hrr]
    exact hpre
  · by_cases hsr : sl.op = .req
    · have hpre : ∀ x ∈ pre, x.op ≠ .req := fun x hx e => ho.2.2 x hx sl (by simp) ⟨e, hsr⟩
      rw [filter_req_nil hpre]
      simp [hr0, hsr]
      exact hpre
    · simp [hr0, hsr]

theorem line_nodup {p : Params} {s : State} (h : Inv p s) : (line s).Nodup := by
  unfold line
  rw [List.nodup_append]
  refine ⟨?_, h.nodup, ?_⟩
  · have : (s.pipe.filter (fun sl => sl.op == .req)).Pairwise (fun x y => x.q ≠ y.q) := by
      have h1 := h.dist.filter (p := fun sl => sl.op == .req)
      refine h1.imp_of_mem ?_
      intro a b ha hb hab
      have ha := (List.mem_filter.mp ha).2
      have hb := (List.mem_filter.mp hb).2
      simp at ha hb
      exact hab (by rw [ha]; simp) (by rw [hb]; simp)
    exact List.pairwise_map.mpr this
  · intro a ha b hb e
    obtain ⟨sl, hm, rfl⟩ := List.mem_map.mp ha
    have := List.mem_filter.mp hm
    exact h.reqout sl this.1 (by simpa using this.2) (e ▸ hb)

theorem line_lt {p : Params} {s : State} (h : Inv p s) : ∀ q ∈ line s, q < 2 ^ p.qw := by
  intro q hq
  rcases List.mem_append.mp hq with e | e
  · obtain ⟨sl, hm, rfl⟩ := List.mem_map.mp e
    exact h.qlt sl (List.mem_filter.mp hm).1
  · exact h.rrlt q e

/-- FIFO law over an execution -/
theorem line_run {p : Params} : ∀ (is : List In) {s : State}, Inv p s → s.pipe ≠ [] → strbOK is →
    ∃ X, line s ++ X = reqsOf (run p s is).2 ++ line (run p s is).1
  | [], s, _, _, _ => ⟨[], by simp [run, reqsOf]⟩
  | i :: is, s, h, hne, hst => by
    obtain ⟨h1, h2⟩ := inv_step h hne i (hst i (by simp))
    obtain ⟨X, hX⟩ := line_run is h1 h2 (fun j hj => hst j (by simp [hj]))
    have hl := line_law h hne i
    refine ⟨(if push p.ctrl (s.pipe.getLast hne) then [(s.pipe.getLast hne).q] else []) ++ X, ?_⟩
    show _ = reqsOf ((step p s i).2 ++ (run p (step p s i).1 is).2) ++ line (run p (step p s i).1 is).1
    rw [← List.append_assoc, hl, List.append_assoc, hX, reqsOf_append, List.append_assoc]

theorem evOf_le (c : Bool) (sl : Slot) : (evOf c sl).length ≤ 1 := by
  unfold evOf; cases sl.op <;> simp; split <;> simp

theorem step_ev_le (p : Params) (s : State) (i : In) : (step p s i).2.length ≤ 1 := evOf_le _ _

theorem run_append (p : Params) : ∀ (x y : List In) (s : State),
    run p s (x ++ y) = ((run p (run p s x).1 y).1, (run p s x).2 ++ (run p (run p s x).1 y).2)
  | [], y, s => by simp [run]
  | i :: x, y, s => by simp [run, run_append p x y]

/-- a trace can be cut at every event -/
theorem run_split {p : Params} : ∀ (is : List In) (s : State) (e1 e2 : List Ev), (run p s is).2 = e1 ++ e2 →
    ∃ is1 is2, is = is1 ++ is2 ∧ (run p s is1).2 = e1 ∧ (run p (run p s is1).1 is2).2 = e2
  | [], s, e1, e2, h => by
    simp only [run] at h
    obtain ⟨h1, h2⟩ := List.append_eq_nil_iff.mp h.symm
    exact ⟨[], [], rfl, by simp [run, h1], by simp [run, h2]⟩
  | i :: is, s, e1, e2, h => by
    have hrun : (run p s (i :: is)).2 = (step p s i).2 ++ (run p (step p s i).1 is).2 := rfl
    rw [hrun] at h
    cases e1 with
    | nil => exact ⟨[], i :: is, rfl, rfl, by rw [show (run p s []).1 = s from rfl, hrun]; simpa using h⟩
    | cons e e1 =>
      have hle := step_ev_le p s i
      cases hev : (step p s i).2 with
      | nil =>
        rw [hev, List.nil_append] at h
        obtain ⟨is1, is2, g1, g2, g3⟩ := run_split is _ (e :: e1) e2 h
        refine ⟨i :: is1, is2, by rw [g1]; rfl, ?_, g3⟩
        show (step p s i).2 ++ (run p (step p s i).1 is1).2 = _
        rw [hev, g2]; rfl
      | cons x xs =>
        rw [hev] at hle h
        have : xs = [] := by
          cases xs with
          | nil => rfl
          | cons => simp at hle
        subst this
        simp only [List.cons_append, List.nil_append, List.cons.injEq] at h
        obtain ⟨is1, is2, g1, g2, g3⟩ := run_split is _ e1 e2 h.2
        refine ⟨i :: is1, is2, by rw [g1]; rfl, ?_, g3⟩
        show (step p s i).2 ++ (run p (step p s i).1 is1).2 = _
        rw [hev, g2, h.1]; rfl

/-! ### execution in order of admission -/

def admits (p : Params) (s : State) : List In → List Slot
  | [] => []
  | i :: is => stage0 p s i :: admits p (step p s i).1 is

theorem admits_length (p : Params) : ∀ (is : List In) (s : State), (admits p s is).length = is.length
  | [], _ => rfl
  | i :: is, s => by simp [admits, admits_length p is]

theorem run_trace {p : Params} : ∀ (is : List In) {s : State}, s.pipe ≠ [] →
    (run p s is).2 = ((s.pipe.reverse ++ admits p s is).take is.length).flatMap (evOf p.ctrl)
  | [], s, _ => by simp [run]
  | i :: is, s, hne => by
    obtain ⟨pre, sl, hp⟩ : ∃ pre sl, s.pipe = pre ++ [sl] :=
      ⟨s.pipe.dropLast, s.pipe.getLast hne, (List.dropLast_concat_getLast hne).symm⟩
    have ih := run_trace (p := p) is (s := (step p s i).1) (by rw [step_pipe hp]; simp)
    show (step p s i).2 ++ (run p (step p s i).1 is).2 = _
    have he : (step p s i).2 = evOf p.ctrl sl := by rw [step_eq hp]
    rw [ih, step_pipe hp, hp, he]
    simp [admits]

/-! ### progress -/

/-- nothing but transmit requests wants the pipeline, and the client is ready -/
structure Calm (i : In) : Prop where
  aw : i.awvalid = false
  ar : i.arvalid = false
  db : i.dbValid = false
  st : i.stValid = false
  ct : i.ctrlValid = false
  en : i.enable = true
  vis : i.rrVis = true
  rdy : i.reqReady = true

structure CalmS (p : Params) (s : State) : Prop where
  ini : s.initDone = true
  dbf : s.dbf = []
  fin : s.fin = []
  finReg : s.finReg = none
  rr : s.rr ≠ []
  free : freeOp p s ≠ none

theorem stage0_calm {p : Params} {s : State} {i : In} (hi : Calm i) (hs : CalmS p s) :
    (stage0 p s i = Slot.none ∨ (stage0 p s i).op = .req) ∧ ((∀ x ∈ s.pipe, x.op = .idle) → (stage0 p s i).op = .req) := by
  obtain ⟨q, rest, hrr⟩ : ∃ q rest, s.rr = q :: rest := by
    cases h : s.rr with
    | nil => exact absurd h hs.rr
    | cons q rest => exact ⟨q, rest, rfl⟩
  obtain ⟨k, hk⟩ : ∃ k, freeOp p s = some k := Option.ne_none_iff_exists'.mp hs.free
  have e : stage0 p s i = if !inPipe s .req && !hazard s q then ⟨.req, q, false, false, false, k, s.ram q⟩ else Slot.none := by
    unfold stage0
    simp only [hs.ini, hi.aw, hi.ar, hs.dbf, Bool.not_true, Bool.false_and, Bool.false_eq_true, if_false]
    unfold stage0.stage0b
    simp only [hs.finReg]
    unfold stage0.stage0c
    simp only [hi.ct, hk, hrr, hi.en, hi.vis, hi.rdy, Bool.and_false, Bool.false_and, Bool.false_eq_true, if_false, Bool.true_and,
      Bool.or_true]
  rw [e]
  constructor
  · split
    · exact .inr rfl
    · exact .inl rfl
  · intro hid
    have h1 : inPipe s .req = false := by
      unfold inPipe; rw [List.any_eq_false]; intro x hx; rw [hid x hx]; simp
    have h2 : hazard s q = false := by
      unfold hazard; rw [List.any_eq_false]; intro x hx; rw [hid x hx]; simp
    rw [h1, h2]; rfl

theorem step_fin {p : Params} {s : State} {pre : List Slot} {sl : Slot} (h : s.pipe = pre ++ [sl]) (i : In) :
    (step p s i).1.fin = (match s.finReg, s.fin with | none, _ :: rest => rest | _, _ => s.fin) ++
      (if i.stValid then [(i.stTag % 2 ^ p.cl, i.stLen != 0)] else []) ∧
    (step p s i).1.finReg = (match s.finReg, s.fin with
      | none, x :: _ => some x
      | _, _ => if (stage0 p s i).op = .done then none else s.finReg) := by
  rw [step_eq h]
  have e1 : (final p s (admit p s (stage0 p s i)) i sl).fin = s.fin := by
    unfold final
    simp only
    rw [(outs_same _ _ _ _).2.2.2.2.2.2.2.2.2.1, (table_same _ _ _ _).2.2.2.2.2.2.2.1, (admit_same _ _ _).2.2.2.2.2.2.2.2.2.1]
  have e2 : (final p s (admit p s (stage0 p s i)) i sl).finReg = if (stage0 p s i).op = .done then none else s.finReg := by
    unfold final
    simp only
    rw [(outs_same _ _ _ _).2.2.2.2.2.2.2.2.2.2.1, (table_same _ _ _ _).2.2.2.2.2.2.2.2.1, (admit_same _ _ _).2.2.2.2.2.2.2.2.2.2.1]
  simp only
  unfold inputs
  simp only
  cases hf : s.finReg <;> cases hg : s.fin <;> cases i.stValid <;> simp [e1, e2, hf, hg]

theorem step_tact {p : Params} {s : State} {pre : List Slot} {sl : Slot} (h : s.pipe = pre ++ [sl]) (i : In) :
    (step p s i).1.tact = (let t := if (stage0 p s i).op = .req then upd s.tact (stage0 p s i).idx true else s.tact
      if (sl.op = .req ∧ push p.ctrl sl = false) ∨ sl.op = .done then upd t sl.idx false else t) := by
  rw [step_eq h]
  simp only
  rw [(inputs_same _ _ _ _).2.2.2.2.2.2.1]
  unfold final
  simp only
  rw [(outs_same _ _ _ _).2.2.2.2.2.2.1]
  unfold table
  cases hop : sl.op <;> simp [(admit_same p s (stage0 p s i)).2.2.2.2.2.2.1]
  · split <;> first | rfl | exact (admit_same p s (stage0 p s i)).2.2.2.2.2.2.1
  · cases push p.ctrl sl <;> simp [(admit_same p s (stage0 p s i)).2.2.2.2.2.2.1]

theorem calm_step {p : Params} {s : State} (h : Inv p s) (hne : s.pipe ≠ []) {i : In} (hi : Calm i) (hs : CalmS p s)
    (hn : (stage0 p s i).op ≠ .req) : CalmS p (step p s i).1 := by
  obtain ⟨pre, sl, hp⟩ : ∃ pre sl, s.pipe = pre ++ [sl] :=
    ⟨s.pipe.dropLast, s.pipe.getLast hne, (List.dropLast_concat_getLast hne).symm⟩
  have h0 : stage0 p s i = Slot.none := by
    rcases (stage0_calm hi hs).1 with e | e
    · exact e
    · exact absurd e hn
  refine ⟨?_, ?_, ?_, ?_, ?_, ?_⟩
  · rw [(step_init hp i).1, h0]; exact hs.ini
  · rw [step_dbf hp, h0, hs.dbf, hi.db]; rfl
  · rw [(step_fin hp i).1, hs.finReg, hs.fin, hi.st]; rfl
  · rw [(step_fin hp i).2, hs.finReg, hs.fin, h0]; rfl
  · rw [step_rr' hp h, h0]; simp [Slot.none, hs.rr]
  · have hf := hs.free
    unfold freeOp at hf ⊢
    rw [Ne, List.find?_eq_none] at hf ⊢
    intro hall
    apply hf
    intro k hk
    have := hall k hk
    rw [step_tact hp, h0] at this
    simp only [Slot.none] at this
    intro hc
    apply this
    simp only [Bool.not_eq_true'] at hc ⊢
    split
    · unfold upd; split
      · rfl
      · exact hc
    · exact hc

theorem calm_admits {p : Params} : ∀ (m : Nat) (is : List In) (s : State), Inv p s → s.pipe ≠ [] → (∀ i ∈ is, Calm i) → CalmS p s →
    (∀ x ∈ s.pipe.take (s.pipe.length - m), x.op = .idle) → m < is.length → ∃ sl ∈ (admits p s is).take (m + 1), sl.op = .req
  | m, [], s, _, _, _, _, _, h => by simp at h
  | 0, i :: is, s, h, hne, hc, hs, hid, _ => by
    refine ⟨stage0 p s i, by simp [admits], (stage0_calm (hc i (by simp)) hs).2 ?_⟩
    simpa using hid
  | m + 1, i :: is, s, h, hne, hc, hs, hid, hlen => by
    by_cases hr : (stage0 p s i).op = .req
    · exact ⟨stage0 p s i, by simp [admits], hr⟩
    · obtain ⟨pre, sl, hp⟩ : ∃ pre sl, s.pipe = pre ++ [sl] :=
        ⟨s.pipe.dropLast, s.pipe.getLast hne, (List.dropLast_concat_getLast hne).symm⟩
      have hci := hc i (by simp)
      obtain ⟨h1, h2⟩ := inv_step h hne i (by rw [hci.aw]; simp)
      have h0 : stage0 p s i = Slot.none := by
        rcases (stage0_calm hci hs).1 with e | e
        · exact e
        · exact absurd e hr
      obtain ⟨x, hx, hxr⟩ := calm_admits m is _ h1 h2 (fun j hj => hc j (by simp [hj])) (calm_step h hne hci hs hr) (by
        intro x hx
        rw [step_pipe hp, h0] at hx
        rw [hp] at hid
        simp only [List.length_cons, List.length_append, List.length_nil] at hx hid
        by_cases hm : m ≤ pre.length
        · have e1 : pre.length + 1 - m = (pre.length - m) + 1 := by omega
          rw [e1, List.take_succ_cons] at hx
          rcases List.mem_cons.mp hx with e | e
          · rw [e]; rfl
          · refine hid x ?_
            have e2 : pre.length + (0 + 1) - (m + 1) = pre.length - m := by omega
            rw [e2, List.take_append_of_le_length (by omega)]
            exact e
        · rw [show pre.length + 1 - m = 0 by omega] at hx
          simp at hx) (by simp at hlen; omega)
      exact ⟨x, by simp only [admits, List.take_succ_cons]; exact List.mem_cons_of_mem _ hx, hxr⟩

theorem take_flat {c : Bool} {l : List Slot} {sl : Slot} (h : sl ∈ l) (hr : sl.op = .req) : sl.q ∈ reqsOf (l.flatMap (evOf c)) := by
  induction l with
  | nil => simp at h
  | cons x l ih =>
    rw [List.flatMap_cons, reqsOf_append, List.mem_append]
    rcases List.mem_cons.mp h with e | e
    · left; rw [← e, evOf_reqs, if_pos hr]; simp
    · exact .inr (ih e)

theorem run_len {p : Params} : ∀ (is : List In) (s : State), s.pipe ≠ [] → (run p s is).1.pipe.length = s.pipe.length
  | [], s, _ => rfl
  | i :: is, s, hn => by
    obtain ⟨pre, sl, hp⟩ : ∃ pre sl, s.pipe = pre ++ [sl] :=
      ⟨s.pipe.dropLast, s.pipe.getLast hn, (List.dropLast_concat_getLast hn).symm⟩
    have hp' := step_pipe (p := p) hp i
    show (run p (step p s i).1 is).1.pipe.length = _
    rw [run_len is _ (by rw [hp']; simp), hp', hp]
    simp

/-- with calm inputs for `2P + 1` cycles some queue is served -/
theorem calm_progress {p : Params} {s : State} (h : Inv p s) (hne : s.pipe ≠ []) (is : List In) (hc : ∀ i ∈ is, Calm i) (hs : CalmS p s)
    (hlen : is.length = 2 * s.pipe.length + 1) : reqsOf (run p s is).2 ≠ [] := by
  obtain ⟨x, hx, hr⟩ := calm_admits s.pipe.length is s h hne hc hs (by simp) (by omega)
  rw [run_trace is hne]
  have hm : x ∈ (s.pipe.reverse ++ admits p s is).take is.length := by
    rw [List.take_append, List.mem_append]
    right
    rw [List.length_reverse, hlen]
    rw [show 2 * s.pipe.length + 1 - s.pipe.length = s.pipe.length + 1 by omega]
    exact hx
  intro e
  have := take_flat (c := p.ctrl) hm hr
  rw [e] at this
  simp at this

end Corundum.Sched
