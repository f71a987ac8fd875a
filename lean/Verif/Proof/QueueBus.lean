import Verif.Proof.QueuePipe
/-! The register interface and the doorbell output of the queue manager: what is seen on the wires is what was executed. -/
namespace Corundum.QueueManager
open Spec

/-- values of the register reads in a trace -/
def readsOf : List Ev → List Nat
  | [] => []
  | .rd _ _ v :: es => v :: readsOf es
  | _ :: es => readsOf es

/-- number of register writes in a trace -/
def writesOf : List Ev → Nat
  | [] => 0
  | .wr _ _ _ _ _ :: es => writesOf es + 1
  | _ :: es => writesOf es

/-- doorbells in a trace -/
def bellsOf : List Ev → List Nat
  | [] => []
  | .wr _ _ _ _ (some q) :: es => q :: bellsOf es
  | _ :: es => bellsOf es

theorem readsOf_append : ∀ (x y : List Ev), readsOf (x ++ y) = readsOf x ++ readsOf y
  | [], y => rfl
  | e :: x, y => by cases e <;> simp [readsOf, readsOf_append x y]
theorem writesOf_append : ∀ (x y : List Ev), writesOf (x ++ y) = writesOf x + writesOf y
  | [], y => by simp [writesOf]
  | e :: x, y => by cases e <;> simp [writesOf, writesOf_append x y] <;> omega
theorem bellsOf_append : ∀ (x y : List Ev), bellsOf (x ++ y) = bellsOf x ++ bellsOf y
  | [], y => rfl
  | e :: x, y => by
    cases e with
    | wr _ _ _ _ o => cases o <;> simp [bellsOf, bellsOf_append x y]
    | _ => simp [bellsOf, bellsOf_append x y]

/-- data beats transferred on the read data channel (`rvalid` and `rready` in the same cycle) -/
def rTaken (p : Params) (s : State) : List In → List Nat
  | [] => []
  | i :: is => (if s.rvalid && i.rready then [s.rdata] else []) ++ rTaken p (step p s i).1 is

/-- number of responses transferred on the write response channel -/
def bTaken (p : Params) (s : State) : List In → Nat
  | [] => 0
  | i :: is => (if s.bvalid && i.bready then 1 else 0) + bTaken p (step p s i).1 is

/-- doorbell pulses: `m_axis_doorbell_valid` with its queue, one per cycle -/
def bells (p : Params) (s : State) : List In → List Nat
  | [] => []
  | i :: is => (step p s i).1.db.toList ++ bells p (step p s i).1 is

def rPend (s : State) : List Nat := if s.rvalid then [s.rdata] else []
def bPend (s : State) : Nat := if s.bvalid then 1 else 0

/-- at most one operation of kind `o` in the pipeline, and none while its result is waiting -/
def One (o : Op) (v : State → Bool) (s : State) : Prop :=
  s.pipe.Pairwise (fun x y => ¬ (x.op = o ∧ y.op = o)) ∧ ((∃ sl ∈ s.pipe, sl.op = o) → v s = false)

theorem record_bus (p : Params) (s : State) (i : In) : (record p s i).1.rvalid = s.rvalid ∧ (record p s i).1.rdata = s.rdata ∧
    (record p s i).1.bvalid = s.bvalid ∧ (record p s i).1.db = s.db ∧
    readsOf (record p s i).2 = [] ∧ writesOf (record p s i).2 = 0 ∧ bellsOf (record p s i).2 = [] := by
  unfold record; split <;> exact ⟨rfl, rfl, rfl, rfl, rfl, rfl, rfl⟩

theorem admit_bus (p : Params) (s : State) (sl : Slot) : (admit p s sl).rvalid = s.rvalid ∧ (admit p s sl).rdata = s.rdata ∧
    (admit p s sl).bvalid = s.bvalid ∧ (admit p s sl).db = s.db := by
  unfold admit; simp only; split <;> exact ⟨rfl, rfl, rfl, rfl⟩

theorem stage0_rd {p s i} (h : (stage0 p s i).op = .rd) : (!s.rvalid || i.rready) = true ∧ inPipe s .rd = false := by
  unfold stage0 at h
  simp only at h
  split at h
  · cases h
  · split at h
    · rename_i c
      simp only [Bool.and_eq_true, Bool.not_eq_true'] at c
      exact ⟨c.1.1.2, c.1.2⟩
    · split at h
      · cases h
      · split at h <;> cases h

theorem stage0_wr {p s i} (h : (stage0 p s i).op = .wr) : (!s.bvalid || i.bready) = true ∧ inPipe s .wr = false := by
  unfold stage0 at h
  simp only at h
  split at h
  · rename_i c
    simp only [Bool.and_eq_true, Bool.not_eq_true'] at c
    exact ⟨c.1.1.2, c.1.2⟩
  · split at h
    · cases h
    · split at h
      · cases h
      · split at h <;> cases h

theorem final_rd (p : Params) (s : State) (i : In) (sl : Slot) (h : sl.op = .rd → s.rvalid = false) :
    (sl.op ≠ .rd → (final p s i sl).1.rvalid = (s.rvalid && !i.rready)) ∧
    rPend s ++ readsOf (final p s i sl).2 = (if s.rvalid && i.rready then [s.rdata] else []) ++ rPend (final p s i sl).1 := by
  by_cases ho : sl.op = .rd
  · have hv := h ho
    refine ⟨fun e => absurd ho e, ?_⟩
    unfold final
    rw [ho]
    simp [rPend, hv, readsOf]
  · have h1 : readsOf (final p s i sl).2 = [] := by
      unfold final
      cases hop : sl.op <;> simp only [] <;> first | exact absurd hop ho | (split <;> rfl) | rfl
    have h2 : (final p s i sl).1.rdata = s.rdata ∧ (final p s i sl).1.rvalid = (s.rvalid && !i.rready) := by
      unfold final
      cases hop : sl.op <;> simp only [] <;> first | exact absurd hop ho | (split <;> exact ⟨rfl, rfl⟩) | exact ⟨rfl, rfl⟩
    refine ⟨fun _ => h2.2, ?_⟩
    rw [h1]
    unfold rPend
    rw [h2.1, h2.2]
    cases s.rvalid <;> cases i.rready <;> rfl

theorem final_wr (p : Params) (s : State) (i : In) (sl : Slot) (h : sl.op = .wr → s.bvalid = false) :
    (sl.op ≠ .wr → (final p s i sl).1.bvalid = (s.bvalid && !i.bready)) ∧
    bPend s + writesOf (final p s i sl).2 = (if s.bvalid && i.bready then 1 else 0) + bPend (final p s i sl).1 := by
  by_cases ho : sl.op = .wr
  · have hv := h ho
    refine ⟨fun e => absurd ho e, ?_⟩
    unfold final
    rw [ho]
    simp [bPend, hv, writesOf]
  · have h1 : writesOf (final p s i sl).2 = 0 := by
      unfold final
      cases hop : sl.op <;> simp only [] <;> first | exact absurd hop ho | (split <;> rfl) | rfl
    have h2 : (final p s i sl).1.bvalid = (s.bvalid && !i.bready) := by
      unfold final
      cases hop : sl.op <;> simp only [] <;> first | exact absurd hop ho | (split <;> rfl) | rfl
    refine ⟨fun _ => h2, ?_⟩
    rw [h1]
    unfold bPend
    rw [h2]
    cases s.bvalid <;> cases i.bready <;> rfl

theorem final_bells (p : Params) (s : State) (i : In) (sl : Slot) :
    (final p s i sl).1.db.toList = bellsOf (final p s i sl).2 := by
  unfold final
  cases sl.op with
  | wr =>
    simp only []
    cases (writeReg ((defaults s i).ram sl.q) sl).2 <;> rfl
  | req => simp only []; split <;> rfl
  | _ => rfl

/-- the pipeline keeps at most one operation of kind `o`, and none while its result waits -/
theorem one_step {p : Params} {o : Op} {v : State → Bool} {rdy : In → Bool} {s : State} {i : In} (hne : s.pipe ≠ []) (h : One o v s)
    (hs0 : (stage0 p s i).op = o → (!v s || rdy i) = true ∧ inPipe s o = false)
    (hv : ∀ sl, s.pipe = s.pipe.dropLast ++ [sl] → sl.op ≠ o → v (step p s i).1 = (v s && !rdy i)) : One o v (step p s i).1 := by
  obtain ⟨pre, sl, hpipe⟩ : ∃ pre sl, s.pipe = pre ++ [sl] :=
    ⟨s.pipe.dropLast, s.pipe.getLast hne, (List.dropLast_concat_getLast hne).symm⟩
  have hd : s.pipe.dropLast = pre := by rw [hpipe, List.dropLast_concat]
  have hslm : sl ∈ s.pipe := by rw [hpipe]; simp
  have hv' := hv sl (by rw [hd]; exact hpipe)
  obtain ⟨h1, h2⟩ := h
  rw [hpipe] at h1
  unfold One
  rw [step_pipe hne, hd]
  constructor
  · rw [List.pairwise_cons]
    refine ⟨?_, (List.pairwise_append.mp h1).1⟩
    rintro y hy ⟨e1, e2⟩
    exact inPipe_false (hs0 e1).2 y (by rw [hpipe]; simp [hy]) e2
  · rintro ⟨x, hx, hxo⟩
    rcases List.mem_cons.mp hx with rfl | hx
    · obtain ⟨k1, k2⟩ := hs0 hxo
      rw [hv' (inPipe_false k2 sl hslm)]
      cases hb : v s
      · rfl
      · rw [hb] at k1; simp at k1; simp [k1]
    · have : sl.op ≠ o := fun e => (List.pairwise_append.mp h1).2.2 x hx sl (by simp) ⟨hxo, e⟩
      rw [hv' this, h2 ⟨x, by rw [hpipe]; simp [hx], hxo⟩]; rfl

theorem bus_step {p s} (hr : One .rd State.rvalid s) (hw : One .wr State.bvalid s) (hne : s.pipe ≠ []) (i : In) :
    One .rd State.rvalid (step p s i).1 ∧ One .wr State.bvalid (step p s i).1 ∧
    rPend s ++ readsOf (step p s i).2 = (if s.rvalid && i.rready then [s.rdata] else []) ++ rPend (step p s i).1 ∧
    bPend s + writesOf (step p s i).2 = (if s.bvalid && i.bready then 1 else 0) + bPend (step p s i).1 ∧
    (step p s i).1.db.toList = bellsOf (step p s i).2 := by
  have key : ∀ pre sl, s.pipe = pre ++ [sl] →
      (step p s i).1.rvalid = (final p s i sl).1.rvalid ∧ (step p s i).1.rdata = (final p s i sl).1.rdata ∧
      (step p s i).1.bvalid = (final p s i sl).1.bvalid ∧ (step p s i).1.db = (final p s i sl).1.db ∧
      readsOf (step p s i).2 = readsOf (final p s i sl).2 ∧ writesOf (step p s i).2 = writesOf (final p s i sl).2 ∧
      bellsOf (step p s i).2 = bellsOf (final p s i sl).2 ∧ sl ∈ s.pipe := by
    intro pre sl hp
    rw [step_eq hp]
    simp only
    obtain ⟨a1, a2, a3, a4, a5, a6, a7⟩ := record_bus p (admit p (final p s i sl).1 (stage0 p s i)) i
    obtain ⟨b1, b2, b3, b4⟩ := admit_bus p (final p s i sl).1 (stage0 p s i)
    rw [readsOf_append, writesOf_append, bellsOf_append, a1, a2, a3, a4, a5, a6, a7, b1, b2, b3, b4]
    refine ⟨rfl, rfl, rfl, rfl, by simp, by simp, by simp, by rw [hp]; simp⟩
  obtain ⟨pre, sl, hpipe⟩ : ∃ pre sl, s.pipe = pre ++ [sl] :=
    ⟨s.pipe.dropLast, s.pipe.getLast hne, (List.dropLast_concat_getLast hne).symm⟩
  obtain ⟨k1, k2, k3, k4, k5, k6, k7, k8⟩ := key pre sl hpipe
  refine ⟨one_step (rdy := In.rready) hne hr stage0_rd ?_, one_step (rdy := In.bready) hne hw stage0_wr ?_, ?_, ?_, ?_⟩
  · intro x hx ho
    have kx := key _ x hx
    rw [kx.1]
    exact (final_rd p s i x (fun e => absurd e ho)).1 ho
  · intro x hx ho
    have kx := key _ x hx
    rw [kx.2.2.1]
    exact (final_wr p s i x (fun e => absurd e ho)).1 ho
  · rw [k5, (final_rd p s i sl (fun e => hr.2 ⟨sl, k8, e⟩)).2]
    unfold rPend
    rw [k1, k2]
  · rw [k6, (final_wr p s i sl (fun e => hw.2 ⟨sl, k8, e⟩)).2]
    unfold bPend
    rw [k3]
  · rw [k4, k7]
    exact final_bells p s i sl

theorem run_bus {p : Params} : ∀ (is : List In) {s}, s.pipe ≠ [] → One .rd State.rvalid s → One .wr State.bvalid s →
    rPend s ++ readsOf (run p s is).2 = rTaken p s is ++ rPend (run p s is).1 ∧
    bPend s + writesOf (run p s is).2 = bTaken p s is + bPend (run p s is).1 ∧
    bells p s is = bellsOf (run p s is).2
  | [], s, _, _, _ => by simp [run, readsOf, rTaken, writesOf, bTaken, bells, bellsOf]
  | i :: is, s, hne, hr, hw => by
    obtain ⟨q1, q2, q3, q4, q5⟩ := bus_step (p := p) hr hw hne i
    obtain ⟨r1, r2, r3⟩ := run_bus is (s := (step p s i).1) (p := p) (by rw [step_pipe hne]; simp) q1 q2
    simp only [run, rTaken, bTaken, bells]
    refine ⟨?_, ?_, ?_⟩
    · rw [readsOf_append, ← List.append_assoc, q3, List.append_assoc, r1, List.append_assoc]
    · rw [writesOf_append, ← Nat.add_assoc, q4, Nat.add_assoc, r2, Nat.add_assoc]
    · rw [bellsOf_append, q5, r3]

theorem one_init (P : Nat) (o : Op) (ho : o ≠ .idle) (v : State → Bool) : One o v (init P) := by
  have : ∀ x ∈ (init P).pipe, x.op = .idle := by
    intro x hx
    have := List.eq_of_mem_replicate (show x ∈ List.replicate P Slot.none from hx)
    rw [this]; rfl
  refine ⟨?_, ?_⟩
  · exact List.Pairwise.imp_of_mem (R := fun _ _ => True) (fun {a b} ha _ _ h => ho (by rw [← h.1, this a ha]))
      (List.pairwise_of_forall fun _ _ => trivial)
  · rintro ⟨x, hx, e⟩
    exact absurd (by rw [← e, this x hx]) ho

end Corundum.QueueManager
