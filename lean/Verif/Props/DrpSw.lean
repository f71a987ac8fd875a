import Verif.Model.DrpSw
import Verif.Props.RbDrp
/-!
C153: a transceiver register access that succeeds is the access asked for.
-/
namespace Corundum.DrpSw
open RbDrp

/-- no register writes -/
def Quiet (es : List Ev) : Prop := ∀ e ∈ es, e.clk = none ∨ e.clk = some .none

/-- the time between the writes has no other writes -/
def Time.Quiet (t : Time) : Prop :=
  DrpSw.Quiet t.addr.before ∧ DrpSw.Quiet t.di.before ∧ DrpSw.Quiet t.ctrl.before ∧ DrpSw.Quiet t.check ∧ DrpSw.Quiet t.data

/-- the port answers accesses it has seen and not yet answered -/
def Port : St × Mon → List Ev → Prop
  | _, [] => True
  | x, e :: es => ((∃ v, e.drp = some (some v)) → x.2.answers.length < x.2.accs.length) ∧ Port (next x e) es

theorem run_append : ∀ (es fs : List Ev) (x : St × Mon), run x (es ++ fs) = run (run x es) fs
  | [], _, _ => rfl
  | e :: es, fs, x => by rw [List.cons_append, run, run, run_append es fs]

theorem run_state : ∀ (es : List Ev) (x : St × Mon), (run x es).1 = es.foldl St.step x.1
  | [], _ => rfl
  | e :: es, x => by rw [run, run_state es, List.foldl_cons]; rfl

theorem port_append : ∀ (es fs : List Ev) (x : St × Mon), Port x (es ++ fs) → Port x es ∧ Port (run x es) fs
  | [], _, _, h => ⟨trivial, h⟩
  | e :: es, fs, x, ⟨h1, h2⟩ => ⟨⟨h1, (port_append es fs _ h2).1⟩, (port_append es fs _ h2).2⟩

theorem fair_append : ∀ (es fs : List Ev) (x : St × Mon), Fair x es → Fair (run x es) fs → Fair x (es ++ fs)
  | [], _, _, _, h => h
  | e :: es, fs, x, ⟨h1, h2, h3⟩, h => ⟨h1, h2, fair_append es fs _ h3 h⟩

theorem quiet_fair : ∀ (es : List Ev) (x : St × Mon), Quiet es → Port x es → Fair x es
  | [], _, _, _ => trivial
  | e :: es, x, hq, ⟨h1, h2⟩ => by
    refine ⟨fun ⟨w, hw, hn⟩ => ?_, h1, quiet_fair es _ (fun i hi => hq i (List.mem_cons_of_mem _ hi)) h2⟩
    rcases hq e (List.mem_cons_self ..) with h | h
    · rw [h] at hw; cases hw
    · rw [h] at hw; exact absurd (Option.some.inj hw).symm hn

/-- the registers are idle -/
def Idle (s : St) : Prop := s.rb.en = false ∧ s.rb.st = .idle

theorem idle_of (x : St × Mon) (h : Inv x) (he : x.1.rb.en = false) : Idle x.1 := by
  refine ⟨he, ?_⟩
  have hc := h.1
  unfold Ctl at hc
  rw [he] at hc
  split at hc
  all_goals first | assumption | (simp at hc; done)

/-- a step that does not ask for an access leaves the registers idle -/
theorem idle_step (s : St) (e : Ev) (h : Idle s) (hw : ∀ we, e.clk ≠ some (.ctrl true we)) : Idle (s.step e) := by
  obtain ⟨h1, h2⟩ := h
  obtain ⟨clk, drp⟩ := e
  rcases clk with _ | _ | ⟨_ | _, we⟩ | a | a
  · exact ⟨h1, h2⟩
  · simp [Idle, St.step, Rb.edge, Rb.hand, Rb.write, h1, h2]
  · simp [Idle, St.step, Rb.edge, Rb.hand, Rb.write, h1, h2]
  · exact absurd rfl (hw we)
  · simp [Idle, St.step, Rb.edge, Rb.hand, Rb.write, h1, h2]
  · simp [Idle, St.step, Rb.edge, Rb.hand, Rb.write, h1, h2]

theorem quiet_idle : ∀ (es : List Ev) (x : St × Mon), Quiet es → Idle x.1 → Idle (run x es).1
  | [], _, _, h => h
  | e :: es, x, hq, h => by
    refine quiet_idle es (next x e) (fun i hi => hq i (List.mem_cons_of_mem _ hi)) (idle_step _ _ h fun we hw => ?_)
    rcases hq e (List.mem_cons_self ..) with h | h <;> rw [h] at hw <;> cases hw

/-- what software has written does not change -/
theorem quiet_soft : ∀ (es : List Ev) (x : St × Mon), Quiet es →
    (run x es).2.addr = x.2.addr ∧ (run x es).2.di = x.2.di ∧ (run x es).2.reqs = x.2.reqs
  | [], _, _ => ⟨rfl, rfl, rfl⟩
  | e :: es, x, hq => by
    obtain ⟨a, b, c⟩ := quiet_soft es (next x e) (fun i hi => hq i (List.mem_cons_of_mem _ hi))
    have h : (next x e).2.addr = x.2.addr ∧ (next x e).2.di = x.2.di ∧ (next x e).2.reqs = x.2.reqs := by
      obtain ⟨clk, drp⟩ := e
      rcases hq _ (List.mem_cons_self ..) with h | h <;> simp only at h <;> subst h <;> cases drp <;> exact ⟨rfl, rfl, rfl⟩
    exact ⟨a.trans h.1, b.trans h.2.1, c.trans h.2.2⟩

theorem answers_grow : ∀ (es : List Ev) (x : St × Mon), x.2.answers <+: (run x es).2.answers
  | [], _ => List.prefix_refl _
  | e :: es, x => by
    refine List.IsPrefix.trans ?_ (answers_grow es (next x e))
    obtain ⟨clk, drp⟩ := e
    have h : (x.2.soft clk).answers = x.2.answers := by
      rcases clk with _ | _ | ⟨_ | _, we⟩ | a | a <;> rfl
    show x.2.answers <+: ((x.2.soft clk).port x.1.dr drp).answers
    rcases drp with _ | rdy
    · rw [show ((x.2.soft clk).port x.1.dr none).answers = (x.2.soft clk).answers from rfl, h]
      exact List.prefix_refl _
    · rw [show ((x.2.soft clk).port x.1.dr (some rdy)).answers = (x.2.soft clk).answers ++ rdy.toList from rfl, h]
      exact List.prefix_append _ _

/-- a write after some time, from idle -/
theorem write_ok (g : Gap) (w : Wr) (x : St × Mon) (hq : Quiet g.before) (h : Idle x.1) (hp : Port x (g.write w)) :
    Fair x (g.write w) ∧ run x (g.write w) = next (run x g.before) ⟨some w, g.drp⟩ ∧ Idle (run x g.before).1 := by
  obtain ⟨p1, p2⟩ := port_append _ _ _ hp
  have hi := quiet_idle _ x hq h
  refine ⟨fair_append _ _ _ (quiet_fair _ _ hq p1) ⟨fun _ => hi.1, p2.1, trivial⟩, ?_, hi⟩
  rw [Gap.write, run_append]
  rfl

theorem next_soft (x : St × Mon) (w : Wr) (d : Option (Option Nat)) :
    (next x ⟨some w, d⟩).2.addr = (x.2.soft (some w)).addr ∧ (next x ⟨some w, d⟩).2.di = (x.2.soft (some w)).di ∧
      (next x ⟨some w, d⟩).2.reqs = (x.2.soft (some w)).reqs := by
  cases d <;> exact ⟨rfl, rfl, rfl⟩

theorem last_of (l m : List Nat) (h : l <+: m) (hn : m.length = l.length + 1) : m = l ++ [m.getLastD 0] := by
  obtain ⟨t, rfl⟩ := h
  rw [List.length_append] at hn
  cases t with
  | nil => simp at hn
  | cons v t =>
    cases t with
    | nil => simp
    | cons w t => simp only [List.length_cons] at hn; omega

theorem read_fair (es : List Ev) (hf : Fair ({}, {}) es) (he : (run ({}, {}) es).1.rb.en = false) (a : Nat) (t : Time) (ht : t.Quiet)
    (hp : Port (run ({}, {}) es) (readEvents a t)) :
    Fair (run ({}, {}) es) (readEvents a t) ∧
      (run (run ({}, {}) es) (readEvents a t)).2.reqs =
        (run ({}, {}) es).2.reqs ++ [⟨a, (run ({}, {}) es).2.di, false⟩] := by
  have hI := Inv_run es _ Inv_init hf
  generalize run ({}, {}) es = x at *
  obtain ⟨q1, _, q3, q4, _⟩ := ht
  obtain ⟨p12, p3⟩ := port_append _ _ _ hp
  obtain ⟨p1, p2⟩ := port_append _ _ _ p12
  obtain ⟨f1, r1, i1⟩ := write_ok t.addr (.addr a) x q1 (idle_of x hI he) p1
  have i1' : Idle (run x (t.addr.write (.addr a))).1 := by
    rw [r1]
    exact idle_step _ _ i1 (fun we h => by cases h)
  obtain ⟨f2, r2, i2⟩ := write_ok t.ctrl (.ctrl true false) _ q3 i1' p2
  refine ⟨fair_append _ _ _ (fair_append _ _ _ f1 f2) (quiet_fair _ _ q4 p3), ?_⟩
  rw [readEvents, run_append, (quiet_soft _ _ q4).2.2, run_append, r2, (next_soft _ _ _).2.2]
  have k := quiet_soft t.ctrl.before (run x (t.addr.write (.addr a))) q3
  have k' := quiet_soft t.addr.before x q1
  have n := next_soft (run x t.addr.before) (.addr a) t.addr.drp
  rw [← r1] at n
  simp only [Mon.soft] at n ⊢
  rw [k.1, k.2.1, k.2.2, n.1, n.2.1, n.2.2, k'.2.1, k'.2.2]

/-- C153. From any state in which the enable bit reads 0, whatever time passes: a read that returns data returns the answer of the port to one
access of the address asked for, made during the call. -/
theorem C153_read (es : List Ev) (hf : Fair ({}, {}) es) (he : (run ({}, {}) es).1.rb.en = false) (a v : Nat) (t : Time) (ht : t.Quiet)
    (hp : Port (run ({}, {}) es) (readEvents a t ++ t.data)) (hr : (read (run ({}, {}) es).1 a t).2 = some v) :
    let y := run (run ({}, {}) es) (readEvents a t ++ t.data)
    y.1 = (read (run ({}, {}) es).1 a t).1 ∧
    y.2.accs = (run ({}, {}) es).2.accs ++ [⟨a, (run ({}, {}) es).2.di, false⟩] ∧ y.2.answers = (run ({}, {}) es).2.answers ++ [v] ∧
      y.1.rb.en = false := by
  obtain ⟨p1, p2⟩ := port_append _ _ _ hp
  obtain ⟨f, hreq⟩ := read_fair es hf he a t ht p1
  have hc : busy ((readEvents a t).foldl St.step (run ({}, {}) es).1) = false := by
    cases hb : busy ((readEvents a t).foldl St.step (run ({}, {}) es).1)
    · rfl
    · simp [read, hb] at hr
  have hcs : Idle (run (run ({}, {}) es) (readEvents a t)).1 := by
    rw [run_state]
    simpa [busy, Idle] using hc
  have hF : Fair ({}, {}) (es ++ (readEvents a t ++ t.data)) :=
    fair_append _ _ _ hf (fair_append _ _ _ f (quiet_fair _ _ ht.2.2.2.2 p2))
  have hE : (run ({}, {}) (es ++ (readEvents a t ++ t.data))).1.rb.en = false := by
    rw [run_append, run_append]
    exact (quiet_idle _ _ ht.2.2.2.2 hcs).1
  obtain ⟨a1, a2, a3⟩ := C152_result es hf he
  obtain ⟨b1, b2, b3⟩ := C152_result _ hF hE
  rw [run_append] at b1 b2 b3 hE
  have hreq' : (run (run ({}, {}) es) (readEvents a t ++ t.data)).2.reqs =
      (run ({}, {}) es).2.reqs ++ [⟨a, (run ({}, {}) es).2.di, false⟩] := by
    rw [run_append, (quiet_soft _ _ ht.2.2.2.2).2.2, hreq]
  have hst : (run (run ({}, {}) es) (readEvents a t ++ t.data)).1 = (read (run ({}, {}) es).1 a t).1 := by
    rw [run_state, List.foldl_append]
    simp [read, hc]
  have hv : (run (run ({}, {}) es) (readEvents a t ++ t.data)).1.rb.rdata = v := by
    have : (read (run ({}, {}) es).1 a t).2 = some (t.data.foldl St.step ((readEvents a t).foldl St.step (run ({}, {}) es).1)).rb.rdata := by
      simp [read, hc]
    rw [this] at hr
    rw [run_state, List.foldl_append]
    exact Option.some.inj hr
  refine ⟨hst, by rw [b1, hreq', a1], ?_, hE⟩
  have := last_of _ _ (answers_grow (readEvents a t ++ t.data) (run ({}, {}) es)) (by
    rw [b2, hreq', a2, List.length_append]
    rfl)
  rw [this, ← b3, hv]

theorem write_fair (es : List Ev) (hf : Fair ({}, {}) es) (he : (run ({}, {}) es).1.rb.en = false) (a v : Nat) (t : Time) (ht : t.Quiet)
    (hp : Port (run ({}, {}) es) (writeEvents a v t)) :
    Fair (run ({}, {}) es) (writeEvents a v t) ∧
      (run (run ({}, {}) es) (writeEvents a v t)).2.reqs = (run ({}, {}) es).2.reqs ++ [⟨a, v, true⟩] := by
  have hI := Inv_run es _ Inv_init hf
  generalize run ({}, {}) es = x at *
  obtain ⟨q1, q2, q3, q4, _⟩ := ht
  obtain ⟨p123, p4⟩ := port_append _ _ _ hp
  obtain ⟨p12, p3⟩ := port_append _ _ _ p123
  obtain ⟨p1, p2⟩ := port_append _ _ _ p12
  obtain ⟨f1, r1, i1⟩ := write_ok t.addr (.addr a) x q1 (idle_of x hI he) p1
  have i1' : Idle (run x (t.addr.write (.addr a))).1 := by
    rw [r1]
    exact idle_step _ _ i1 (fun we h => by cases h)
  obtain ⟨f2, r2, i2⟩ := write_ok t.di (.di v) _ q2 i1' p2
  have i2' : Idle (run (run x (t.addr.write (.addr a))) (t.di.write (.di v))).1 := by
    rw [r2]
    exact idle_step _ _ i2 (fun we h => by cases h)
  rw [run_append] at p3
  obtain ⟨f3, r3, i3⟩ := write_ok t.ctrl (.ctrl true true) _ q3 i2' p3
  refine ⟨fair_append _ _ _ (fair_append _ _ _ (fair_append _ _ _ f1 f2) (by rw [run_append]; exact f3)) (quiet_fair _ _ q4 p4), ?_⟩
  rw [writeEvents, run_append, (quiet_soft _ _ q4).2.2, run_append, run_append, r3, (next_soft _ _ _).2.2]
  have k := quiet_soft t.ctrl.before (run (run x (t.addr.write (.addr a))) (t.di.write (.di v))) q3
  have k1 := quiet_soft t.di.before (run x (t.addr.write (.addr a))) q2
  have k2 := quiet_soft t.addr.before x q1
  have n := next_soft (run x t.addr.before) (.addr a) t.addr.drp
  rw [← r1] at n
  have n' := next_soft (run (run x (t.addr.write (.addr a))) t.di.before) (.di v) t.di.drp
  rw [← r2] at n'
  simp only [Mon.soft] at n n' ⊢
  rw [k.1, k.2.1, k.2.2, n'.1, n'.2.1, n'.2.2, k1.1, k1.2.2, n.1, n.2.2, k2.2.2]

/-- C153. A write that reports success was done once, with the address and data given, during the call. -/
theorem C153_write (es : List Ev) (hf : Fair ({}, {}) es) (he : (run ({}, {}) es).1.rb.en = false) (a v : Nat) (t : Time) (ht : t.Quiet)
    (hp : Port (run ({}, {}) es) (writeEvents a v t)) (hr : (write (run ({}, {}) es).1 a v t).2 = true) :
    let y := run (run ({}, {}) es) (writeEvents a v t)
    y.1 = (write (run ({}, {}) es).1 a v t).1 ∧ y.2.accs = (run ({}, {}) es).2.accs ++ [⟨a, v, true⟩] ∧
      y.2.answers.length = (run ({}, {}) es).2.answers.length + 1 ∧ y.1.rb.en = false := by
  obtain ⟨f, hreq⟩ := write_fair es hf he a v t ht hp
  have hE : (run ({}, {}) (es ++ writeEvents a v t)).1.rb.en = false := by
    rw [run_append, run_state]
    have : busy ((writeEvents a v t).foldl St.step (run ({}, {}) es).1) = false := by simpa [write] using hr
    simp only [busy, Bool.or_eq_false_iff] at this
    exact this.1
  obtain ⟨a1, a2, _⟩ := C152_result es hf he
  obtain ⟨b1, b2, _⟩ := C152_result _ (fair_append _ _ _ hf f) hE
  rw [run_append] at b1 b2 hE
  refine ⟨by rw [run_state]; rfl, by rw [b1, hreq, a1], ?_, hE⟩
  rw [b2, hreq, a2, List.length_append]
  rfl

/-- both clocks run for a while, the port answering with `v` after the `n`th edge -/
def clocks (n m v : Nat) : List Ev :=
  List.replicate n ⟨some .none, some none⟩ ++ ⟨some .none, some (some v)⟩ :: List.replicate m ⟨some .none, some none⟩

/-- a case: a read of address 5 that the port answers with 9 in time, then a write -/
example :
    (read {} 5 ⟨⟨[], none⟩, ⟨[], none⟩, ⟨[], none⟩, clocks 5 12 9, []⟩).2 = some 9 ∧
    (write (read {} 5 ⟨⟨[], none⟩, ⟨[], none⟩, ⟨[], none⟩, clocks 5 12 9, []⟩).1 6 1 ⟨⟨[], none⟩, ⟨[], none⟩, ⟨[], none⟩, clocks 5 12 0, []⟩).2
      = true := by decide +kernel

/-- the hypotheses hold in that case -/
example : Time.Quiet ⟨⟨[], none⟩, ⟨[], none⟩, ⟨[], none⟩, clocks 5 12 9, []⟩ ∧
    Port ({}, {}) (readEvents 5 ⟨⟨[], none⟩, ⟨[], none⟩, ⟨[], none⟩, clocks 5 12 9, []⟩) := by
  refine ⟨?_, ?_⟩
  · refine ⟨?_, ?_, ?_, ?_, ?_⟩ <;> simp [Quiet, clocks]
  · simp [readEvents, Gap.write, clocks, Port, next, St.step, Rb.edge, Rb.hand, Rb.write, Dr.edge, Mon.soft, Mon.port]

/-- the time of the two calls below: in the first the port is too slow -/
def slow : Time := ⟨⟨[], none⟩, ⟨[], none⟩, ⟨[], none⟩, List.replicate 6 ⟨some .none, some none⟩, []⟩
def after : Time := ⟨⟨[], none⟩, ⟨[], none⟩, ⟨[], none⟩, clocks 0 12 9, []⟩

/-- C153. Not so after a call that failed: the next call writes its registers while the first access is going on. A read of address 5 fails as the port is
slow. The read of address 6 that follows reports success with the answer to the access of address 5; address 6 is never accessed. -/
theorem C153_after_failure_counterexample :
    (read {} 5 slow).2 = none ∧ (read (read {} 5 slow).1 6 after).2 = some 9 ∧
      (run ({}, {}) (readEvents 5 slow ++ readEvents 6 after)).2.accs = [⟨5, 0, false⟩] ∧
      (run ({}, {}) (readEvents 5 slow ++ readEvents 6 after)).2.answers = [9] ∧
      (run ({}, {}) (readEvents 5 slow ++ readEvents 6 after)).1 = (read (read {} 5 slow).1 6 after).1 := by
  decide +kernel

end Corundum.DrpSw
