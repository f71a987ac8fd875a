import Verif.Proof.SchedRun
/-! The register interface of the scheduler: read data beats, write responses, and what the read value says. -/
namespace Corundum.Sched

/-- values of the register reads in a trace -/
def readsOf : List Ev → List Nat
  | [] => []
  | .rd _ v :: es => v :: readsOf es
  | _ :: es => readsOf es

/-- number of register writes in a trace -/
def writesOf : List Ev → Nat
  | [] => 0
  | .wr _ _ _ _ :: es => writesOf es + 1
  | _ :: es => writesOf es

theorem readsOf_append : ∀ (x y : List Ev), readsOf (x ++ y) = readsOf x ++ readsOf y
  | [], y => rfl
  | e :: x, y => by cases e <;> simp [readsOf, readsOf_append x y]
theorem writesOf_append : ∀ (x y : List Ev), writesOf (x ++ y) = writesOf x + writesOf y
  | [], y => by simp [writesOf]
  | e :: x, y => by cases e <;> simp [writesOf, writesOf_append x y] <;> omega

/-- data beats transferred on the read data channel -/
def rTaken (p : Params) (s : State) : List In → List Nat
  | [] => []
  | i :: is => (if s.rvalid && i.rready then [s.rdata] else []) ++ rTaken p (step p s i).1 is

/-- number of responses transferred on the write response channel -/
def bTaken (p : Params) (s : State) : List In → Nat
  | [] => 0
  | i :: is => (if s.bvalid && i.bready then 1 else 0) + bTaken p (step p s i).1 is

def rPend (s : State) : List Nat := if s.rvalid then [s.rdata] else []
def bPend (s : State) : Nat := if s.bvalid then 1 else 0

/-- at most one operation of kind `o` in the pipeline, and none while its result is waiting -/
def One (o : Op) (v : State → Bool) (s : State) : Prop :=
  s.pipe.Pairwise (fun x y => ¬ (x.op = o ∧ y.op = o)) ∧ ((∃ sl ∈ s.pipe, sl.op = o) → v s = false)

theorem inputs_bus (p : Params) (o s : State) (i : In) : (inputs p o s i).rvalid = s.rvalid ∧ (inputs p o s i).rdata = s.rdata ∧
    (inputs p o s i).bvalid = s.bvalid := by
  unfold inputs; simp only; split <;> split <;> exact ⟨rfl, rfl, rfl⟩

theorem admit_bus (p : Params) (s : State) (sl : Slot) : (admit p s sl).rvalid = s.rvalid ∧ (admit p s sl).rdata = s.rdata ∧
    (admit p s sl).bvalid = s.bvalid := by
  unfold admit; simp only; cases sl.op <;> exact ⟨rfl, rfl, rfl⟩

theorem table_bus (c : Bool) (o s : State) (sl : Slot) : (table c o s sl).rvalid = s.rvalid ∧ (table c o s sl).rdata = s.rdata ∧
    (table c o s sl).bvalid = s.bvalid := by
  unfold table; simp only; split <;> (try split) <;> exact ⟨rfl, rfl, rfl⟩

theorem step_bus {p : Params} {s : State} {pre : List Slot} {sl : Slot} (h : s.pipe = pre ++ [sl]) (i : In) :
    (step p s i).1.rvalid = ((s.rvalid && !i.rready) || sl.op == .rd) ∧
    (sl.op ≠ .rd → (step p s i).1.rdata = s.rdata) ∧
    (sl.op = .rd → evOf p.ctrl sl = [.rd sl.q (step p s i).1.rdata]) ∧
    (step p s i).1.bvalid = ((s.bvalid && !i.bready) || sl.op == .wr) := by
  rw [step_eq h]
  simp only
  rw [(inputs_bus _ _ _ _).1, (inputs_bus _ _ _ _).2.1, (inputs_bus _ _ _ _).2.2]
  unfold final
  simp only
  have e1 := table_bus p.ctrl s (admit p s (stage0 p s i)) sl
  have e2 := admit_bus p s (stage0 p s i)
  unfold outs evOf
  cases hop : sl.op <;> simp [e1, e2]

theorem stage0_rw (p : Params) (s : State) (i : In) :
    ((stage0 p s i).op = .rd → (!s.rvalid || i.rready) = true ∧ inPipe s .rd = false) ∧
    ((stage0 p s i).op = .wr → (!s.bvalid || i.bready) = true ∧ inPipe s .wr = false) := by
  have hc : ∀ cq, (stage0.stage0c p s i cq).op ≠ .rd ∧ (stage0.stage0c p s i cq).op ≠ .wr := by
    intro cq
    unfold stage0.stage0c
    split
    · simp
    · split
      · split <;> simp [Slot.none]
      · simp [Slot.none]
  have hb : ∀ cq, (stage0.stage0b p s i cq).op ≠ .rd ∧ (stage0.stage0b p s i cq).op ≠ .wr := by
    intro cq
    unfold stage0.stage0b
    split
    · split
      · simp
      · exact hc cq
    · exact hc cq
  unfold stage0
  simp only
  split
  · simp
  · split
    · rename_i c
      simp only [Bool.and_eq_true, Bool.not_eq_true'] at c
      exact ⟨by intro h; simp at h, fun _ => ⟨c.1.1.2, c.1.2⟩⟩
    · split
      · rename_i c
        simp only [Bool.and_eq_true, Bool.not_eq_true'] at c
        exact ⟨fun _ => ⟨c.1.1.2, c.1.2⟩, by intro h; simp at h⟩
      · split
        · split
          · simp
          · exact ⟨fun e => absurd e (hb _).1, fun e => absurd e (hb _).2⟩
        · exact ⟨fun e => absurd e (hb _).1, fun e => absurd e (hb _).2⟩

/-- the pipeline keeps at most one operation of kind `o`, and none while its result waits -/
theorem one_step {p : Params} {o : Op} {v : State → Bool} {rdy : In → Bool} {s : State} {i : In} {pre : List Slot} {sl : Slot}
    (hpipe : s.pipe = pre ++ [sl]) (h : One o v s)
    (hs0 : (stage0 p s i).op = o → (!v s || rdy i) = true ∧ inPipe s o = false)
    (hv' : sl.op ≠ o → v (step p s i).1 = (v s && !rdy i)) : One o v (step p s i).1 := by
  have hslm : sl ∈ s.pipe := by rw [hpipe]; simp
  obtain ⟨h1, h2⟩ := h
  rw [hpipe] at h1
  unfold One
  rw [step_pipe hpipe]
  constructor
  · rw [List.pairwise_cons]
    refine ⟨?_, (List.pairwise_append.mp h1).1⟩
    rintro y hy ⟨e1, e2⟩
    exact inPipe_false (hs0 e1).2 y (by rw [hpipe]; simp [hy]) e2
  · rintro ⟨x, hx, hxo⟩
    rcases List.mem_cons.mp hx with rfl | hx
    · obtain ⟨k1, k2⟩ := hs0 hxo
      rw [hv' (inPipe_false k2 sl hslm)]
      cases hb : v s
      · rfl
      · rw [hb] at k1; simp at k1; simp [k1]
    · have : sl.op ≠ o := fun e => (List.pairwise_append.mp h1).2.2 x hx sl (by simp) ⟨hxo, e⟩
      rw [hv' this, h2 ⟨x, by rw [hpipe]; simp [hx], hxo⟩]; rfl

theorem bus_step {p s} (hr : One .rd State.rvalid s) (hw : One .wr State.bvalid s) (hne : s.pipe ≠ []) (i : In) :
    One .rd State.rvalid (step p s i).1 ∧ One .wr State.bvalid (step p s i).1 ∧
    rPend s ++ readsOf (step p s i).2 = (if s.rvalid && i.rready then [s.rdata] else []) ++ rPend (step p s i).1 ∧
    bPend s + writesOf (step p s i).2 = (if s.bvalid && i.bready then 1 else 0) + bPend (step p s i).1 ∧
    (step p s i).1.pipe ≠ [] := by
  obtain ⟨pre, sl, hpipe⟩ : ∃ pre sl, s.pipe = pre ++ [sl] :=
    ⟨s.pipe.dropLast, s.pipe.getLast hne, (List.dropLast_concat_getLast hne).symm⟩
  obtain ⟨k1, k2, k3, k4⟩ := step_bus (p := p) hpipe i
  have hm : sl ∈ s.pipe := by rw [hpipe]; simp
  have hev : (step p s i).2 = evOf p.ctrl sl := by rw [step_eq hpipe]
  refine ⟨one_step (rdy := In.rready) hpipe hr (stage0_rw p s i).1 ?_, one_step (rdy := In.bready) hpipe hw (stage0_rw p s i).2 ?_, ?_, ?_,
    by rw [step_pipe hpipe]; simp⟩
  · intro ho
    rw [k1]
    cases hop : sl.op <;> simp_all
  · intro ho
    rw [k4]
    cases hop : sl.op <;> simp_all
  · rw [hev]
    unfold rPend
    rw [k1]
    by_cases ho : sl.op = .rd
    · rw [k3 ho, hr.2 ⟨sl, hm, ho⟩, ho]
      simp [readsOf]
    · rw [k2 ho]
      have : readsOf (evOf p.ctrl sl) = [] := by
        unfold evOf
        cases hop : sl.op <;> simp_all [readsOf]
        split <;> rfl
      rw [this]
      have : (sl.op == Op.rd) = false := by cases hop : sl.op <;> simp_all
      rw [this]
      cases s.rvalid <;> cases i.rready <;> rfl
  · rw [hev]
    unfold bPend
    rw [k4]
    by_cases ho : sl.op = .wr
    · rw [hw.2 ⟨sl, hm, ho⟩]
      unfold evOf
      rw [ho]
      simp [writesOf]
    · have : writesOf (evOf p.ctrl sl) = 0 := by
        unfold evOf
        cases hop : sl.op <;> simp_all [writesOf]
        split <;> rfl
      rw [this]
      have : (sl.op == Op.wr) = false := by cases hop : sl.op <;> simp_all
      rw [this]
      cases s.bvalid <;> cases i.bready <;> rfl

theorem run_bus {p : Params} : ∀ (is : List In) {s}, s.pipe ≠ [] → One .rd State.rvalid s → One .wr State.bvalid s →
    rPend s ++ readsOf (run p s is).2 = rTaken p s is ++ rPend (run p s is).1 ∧
    bPend s + writesOf (run p s is).2 = bTaken p s is + bPend (run p s is).1
  | [], s, _, _, _ => by simp [run, readsOf, rTaken, writesOf, bTaken]
  | i :: is, s, hne, hr, hw => by
    obtain ⟨q1, q2, q3, q4, q5⟩ := bus_step (p := p) hr hw hne i
    obtain ⟨r1, r2⟩ := run_bus is (s := (step p s i).1) (p := p) q5 q1 q2
    simp only [run, rTaken, bTaken]
    refine ⟨?_, ?_⟩
    · rw [readsOf_append, ← List.append_assoc, q3, List.append_assoc, r1, List.append_assoc]
    · rw [writesOf_append, ← Nat.add_assoc, q4, Nat.add_assoc, r2, Nat.add_assoc]

theorem one_reset {P : Nat} {s : State} (h : IsReset P s) (o : Op) (ho : o ≠ .idle) (v : State → Bool) : One o v s := by
  have : ∀ x ∈ s.pipe, x.op = .idle := by
    intro x hx
    rw [h.pipe] at hx
    rw [List.eq_of_mem_replicate hx]; rfl
  refine ⟨?_, ?_⟩
  · exact List.Pairwise.imp_of_mem (R := fun _ _ => True) (fun {a b} ha _ _ h => ho (by rw [← h.1, this a ha]))
      (List.pairwise_of_forall fun _ _ => trivial)
  · rintro ⟨x, hx, e⟩
    exact absurd (by rw [← e, this x hx]) ho

/-! ### the meaning of a read -/

/-- flags of queue `q` as determined by the operations executed: (enable, global enable, scheduler enable, active) -/
def flagEv (q : Nat) (f : Bool × Bool × Bool × Bool) : Ev → Bool × Bool × Bool × Bool
  | .init q' => if q' = q then (false, false, false, false) else f
  | .wr q' d0 d1 _ => if q' = q then (d0, d1, f.2.2.1, f.2.2.2) else f
  | .ctrl q' e => if q' = q then (f.1, f.2.1, e, f.2.2.2) else f
  | .db q' => if q' = q then (f.1, f.2.1, f.2.2.1, true) else f
  | .done q' _ a => if q' = q then (f.1, f.2.1, f.2.2.1, a) else f
  | _ => f

/-- the stored flags agree with `f` (the two control flags only where the control port exists) -/
def Agree (c : Bool) (w : Word) (f : Bool × Bool × Bool × Bool) : Prop :=
  w.en = f.1 ∧ (c = true → w.gen = f.2.1 ∧ w.sen = f.2.2.1) ∧ w.active = f.2.2.2

theorem agree_step {p : Params} {s : State} {pre : List Slot} {sl : Slot} (hp : s.pipe = pre ++ [sl]) (h : Inv p s) (i : In) (q : Nat)
    (f : Bool × Bool × Bool × Bool) (ha : Agree p.ctrl (s.ram q) f ∨ (sl.op = .init ∧ sl.q = q)) :
    Agree p.ctrl ((step p s i).1.ram q) ((evOf p.ctrl sl).foldl (flagEv q) f) := by
  rw [step_ram hp]
  have hm : sl ∈ s.pipe := by rw [hp]; simp
  by_cases hq : q = sl.q
  · subst hq
    rw [show upd s.ram sl.q (wnext p.ctrl (s.ram sl.q) sl) sl.q = wnext p.ctrl (s.ram sl.q) sl by simp [upd]]
    have hs := h.strb sl hm
    by_cases hi : sl.op = .init
    · unfold wnext evOf
      rw [hi]
      simp only [List.foldl_cons, List.foldl_nil, flagEv, if_pos]
      exact ⟨rfl, fun hc => by simp [hc], rfl⟩
    · have ha : Agree p.ctrl (s.ram sl.q) f := ha.resolve_right (fun e => hi e.1)
      unfold Agree at ha ⊢
      by_cases ho : sl.op = .idle
      · rw [wnext_idle _ _ _ ho]
        unfold evOf; rw [ho]; exact ha
      · rw [← h.snap sl hm ho] at ha ⊢
        unfold wnext evOf
        cases hop : sl.op
        · exact absurd hop ho
        · exact absurd hop hi
        · simp [hs hop, flagEv]
          cases push p.ctrl sl <;> simp <;> exact ⟨fun e => (ha.2.1 e).2, ha.2.2⟩
        · simpa [flagEv] using ha
        · simp [flagEv]
          cases push p.ctrl sl <;> simp <;> exact ⟨ha.1, ha.2.1⟩
        · cases push p.ctrl sl <;> simp [flagEv] <;> exact ha
        · simp [flagEv]
          cases push p.ctrl sl <;> simp <;> exact ⟨ha.1, ha.2.1⟩
        · simp [flagEv]
          cases push p.ctrl sl <;> simp <;> exact ⟨ha.1, fun e => (ha.2.1 e).1, ha.2.2⟩
  · rw [show upd s.ram sl.q (wnext p.ctrl (s.ram sl.q) sl) q = s.ram q by simp [upd, hq]]
    have ha : Agree p.ctrl (s.ram q) f := ha.resolve_right (fun e => hq e.2.symm)
    have : (evOf p.ctrl sl).foldl (flagEv q) f = f := by
      have hq' : ¬ sl.q = q := fun e => hq e.symm
      unfold evOf
      cases hop : sl.op <;> simp [flagEv, hq']
      split <;> simp [flagEv]
    rw [this]; exact ha

/-- for an initialised queue the stored flags are those determined by the operations executed -/
def Known (p : Params) (s : State) (es : List Ev) : Prop :=
  ∀ q < 2 ^ p.qw, fresh s q = false → ∀ f, Agree p.ctrl (s.ram q) (es.foldl (flagEv q) f)

theorem known_run {p : Params} : ∀ (is : List In) {s : State} {es : List Ev}, Inv p s → s.pipe ≠ [] → strbOK is → Known p s es →
    Known p (run p s is).1 (es ++ (run p s is).2)
  | [], s, es, _, _, _, hk => by simpa [run] using hk
  | i :: is, s, es, h, hne, hst, hk => by
    obtain ⟨pre, sl, hpipe⟩ : ∃ pre sl, s.pipe = pre ++ [sl] :=
      ⟨s.pipe.dropLast, s.pipe.getLast hne, (List.dropLast_concat_getLast hne).symm⟩
    have hi := inv_step h hne i (hst i (by simp))
    have hev : (step p s i).2 = evOf p.ctrl sl := by rw [step_eq hpipe]
    have hk1 : Known p (step p s i).1 (es ++ (step p s i).2) := by
      intro q hq hf f
      rw [List.foldl_append, hev]
      refine agree_step hpipe h i q _ ?_
      rw [fresh_step hpipe h i q hq] at hf
      cases hfs : fresh s q
      · exact Or.inl (hk q hq hfs f)
      · rw [hfs] at hf
        right
        simpa using hf
    have := known_run is hi.1 hi.2 (fun x hx => hst x (by simp [hx])) hk1
    rw [List.append_assoc] at this
    exact this

theorem known_reset {p : Params} {P : Nat} {s : State} (h : IsReset P s) : Known p s [] := by
  intro q _ hf
  unfold fresh at hf
  rw [h.initDone, h.initIdx] at hf
  simp at hf

/-- the value returned by a register read -/
def statusVal (b0 b1 b2 b16 b24 : Bool) : Nat :=
  (if b0 then 1 else 0) + (if b1 then 2 else 0) + (if b2 then 4 else 0) + (if b16 then 2 ^ 16 else 0) + (if b24 then 2 ^ 24 else 0)

theorem statusVal_bit (b0 b1 b2 b16 b24 : Bool) (n : Nat) : (statusVal b0 b1 b2 b16 b24).testBit n =
    ((n == 0 && b0) || (n == 1 && b1) || (n == 2 && b2) || (n == 16 && b16) || (n == 24 && b24)) := by
  by_cases hn : n < 25
  · have : ∀ n < 25, ∀ b0 b1 b2 b16 b24 : Bool, (statusVal b0 b1 b2 b16 b24).testBit n =
      ((n == 0 && b0) || (n == 1 && b1) || (n == 2 && b2) || (n == 16 && b16) || (n == 24 && b24)) := by decide
    exact this n hn _ _ _ _ _
  · have hlt : statusVal b0 b1 b2 b16 b24 < 2 ^ 25 := by
      unfold statusVal
      cases b0 <;> cases b1 <;> cases b2 <;> cases b16 <;> cases b24 <;> decide
    rw [Nat.testBit_lt_two_pow (Nat.lt_of_lt_of_le hlt (Nat.pow_le_pow_right (by omega) (by omega)))]
    have : (n == 0) = false ∧ (n == 1) = false ∧ (n == 2) = false ∧ (n == 16) = false ∧ (n == 24) = false := by
      refine ⟨?_, ?_, ?_, ?_, ?_⟩ <;> simp <;> omega
    simp [this]

end Corundum.Sched
