import Verif.Proof.QueuePipe
import Verif.Proof.QueueBus
/-! C10–C13 — descriptor queue manager: property theorems.  `run p (init P) is` is any execution of the cycle-level
model from power-up: `P` pipeline stages, any inputs `is` in every cycle.  The second component is the trace of what
the final stage did. -/
namespace Corundum.QueueManager
open Spec

/-- C10 (and basis of C11–C13): every trace of the pipelined queue manager is a trace of the atomic reference machine
`Spec.accept`: all responses, read values, doorbells and retirements are those of a machine that executes the
operations one at a time. -/
theorem C10_refines_atomic (p : Params) (hcl : p.cl ≤ 8) (P : Nat) (hP : 1 ≤ P) (is : List In) :
    ∃ a, runA p A.init (run p (init P) is).2 = some a := by
  obtain ⟨a, _, _, h, _, _⟩ := run_spec hcl is (inv_init p P) (by
    intro e; have := congrArg List.length e; simp [init] at this; omega)
  exact ⟨a, h⟩

theorem accepted (p : Params) (hcl : p.cl ≤ 8) (P : Nat) (hP : 1 ≤ P) (is : List In) (e1 e2 : List Ev)
    (h : (run p (init P) is).2 = e1 ++ e2) : ∃ a1 a2, runA p A.init e1 = some a1 ∧ runA p a1 e2 = some a2 := by
  obtain ⟨a, ha⟩ := C10_refines_atomic p hcl P hP is
  rw [h] at ha
  obtain ⟨a1, h1, h2⟩ := runA_split ha
  exact ⟨a1, a, h1, h2⟩

theorem runA_next_lt {p : Params} {es : List Ev} {a : A} (h : runA p A.init es = some a) (q : Nat) :
    next a q < 2 ^ 16 ∧ (a.qs q).prod < 2 ^ 16 := by
  have key : ∀ (es : List Ev) (a a' : A), (∀ o ∈ a.ops, o.ptr < 2 ^ 16) → (∀ q, (a.qs q).cons < 2 ^ 16 ∧ (a.qs q).prod < 2 ^ 16) →
      runA p a es = some a' → (∀ o ∈ a'.ops, o.ptr < 2 ^ 16) ∧ (∀ q, (a'.qs q).cons < 2 ^ 16 ∧ (a'.qs q).prod < 2 ^ 16) := by
    intro es
    induction es with
    | nil => intro a a' h1 h2 h; simp only [runA, Option.some.injEq] at h; subst h; exact ⟨h1, h2⟩
    | cons e es ih =>
      intro a a' h1 h2 h
      obtain ⟨b, hb, hr⟩ := runA_cons h
      apply ih b a' _ _ hr
      · cases e with
        | wr q' reg data strb db => rw [← (accept_wr hb).1]; exact h1
        | rd q' reg v => simp only [accept] at hb; split at hb <;> simp at hb; subst hb; exact h1
        | req q' t r =>
          simp only [accept] at hb
          split at hb
          · split at hb
            · simp at hb; subst hb; exact h1
            · split at hb
              · simp only [Option.some.injEq] at hb; subst hb
                intro o ho
                simp only [List.mem_append, List.mem_singleton] at ho
                rcases ho with ho | ho
                · exact h1 o ho
                · subst ho; simp only; omega
              · cases hb
          · cases hb
        | commit t =>
          simp only [accept, Option.some.injEq] at hb; subst hb
          intro o ho
          obtain ⟨o', ho', rfl⟩ := List.mem_map.mp ho
          have := h1 o' ho'
          split <;> exact this
        | retire q' =>
          simp only [accept] at hb
          split at hb
          · rename_i o rest ho
            split at hb
            · simp only [Option.some.injEq] at hb; subst hb
              intro x hx; exact h1 x (by rw [ho]; simp [hx])
            · cases hb
          · cases hb
      · intro q
        refine ⟨?_, ?_⟩
        · cases e with
          | wr q' reg data strb db =>
            rw [← (accept_wr hb).1]
            simp only [setQ]
            split
            · rename_i hq
              subst hq
              unfold write
              have := (h2 q).1
              repeat' split
              all_goals first | exact this | (simp only; omega)
            · exact (h2 q).1
          | rd q' reg v => simp only [accept] at hb; split at hb <;> simp at hb; subst hb; exact (h2 q).1
          | req q' t r =>
            simp only [accept] at hb
            split at hb
            · split at hb
              · simp at hb; subst hb; exact (h2 q).1
              · split at hb
                · simp only [Option.some.injEq] at hb; subst hb; exact (h2 q).1
                · cases hb
            · cases hb
          | commit t => simp only [accept, Option.some.injEq] at hb; subst hb; exact (h2 q).1
          | retire q' =>
            simp only [accept] at hb
            split at hb
            · rename_i o rest ho
              split at hb
              · simp only [Option.some.injEq] at hb; subst hb
                simp only [setQ]
                split
                · exact h1 o (by rw [ho]; simp)
                · exact (h2 q).1
              · cases hb
            · cases hb
        · rw [(accept_regs hb q).1]
          cases e with
          | wr q' reg data strb db => simp only [prodOf]; split; omega; exact (h2 q).2
          | _ => exact (h2 q).2
  have := key es A.init a (by simp [A.init]) (fun q => by simp [A.init]) h
  refine ⟨?_, (this.2 q).2⟩
  unfold next
  cases hl : (opsOf a q).getLast? with
  | none => exact (this.2 q).1
  | some o => exact this.1 o ((List.mem_filter.mp (List.mem_of_getLast? hl)).1)

/-- C10: over any stretch `e2` of any execution in which the host does not move the consumer pointer of `q` (or the
queue is enabled and stays so), the successful dequeues of `q` carry consecutive pointers, beginning with the pointer
following the newest operation outstanding at the start of the stretch (the consumer pointer if there is none). -/
theorem C10_consecutive (p : Params) (hcl : p.cl ≤ 8) (P : Nat) (hP : 1 ≤ P) (is : List In) (e1 e2 e3 : List Ev)
    (h : (run p (init P) is).2 = e1 ++ e2 ++ e3) (q : Nat)
    (hc : enOf q false e1 = true ∧ noEnWrite q e2 ∨ noConsWrite q e2) :
    ∃ a1, runA p A.init e1 = some a1 ∧
      okPtrs q e2 = (List.range (okPtrs q e2).length).map (fun k => (next a1 q + k) % 2 ^ 16) := by
  rw [List.append_assoc] at h
  obtain ⟨a1, a2, h1, h2⟩ := accepted p hcl P hP is e1 (e2 ++ e3) h
  obtain ⟨a3, h3, _⟩ := runA_split h2
  refine ⟨a1, h1, (run_ptrs q e2 h3 (runA_next_lt h1 q).1 ?_).1⟩
  rcases hc with ⟨hc, hn⟩ | hc
  · exact .inl ⟨by rw [(run_regs e1 h1 q).2]; exact hc, hn⟩
  · exact .inr hc

/-- C10: since power-up, if the host never writes the consumer pointer of `q`, the k-th successful dequeue carries
pointer k mod 2^16. -/
theorem C10_from_power_up (p : Params) (hcl : p.cl ≤ 8) (P : Nat) (hP : 1 ≤ P) (is : List In) (q : Nat)
    (hc : noConsWrite q (run p (init P) is).2) :
    okPtrs q (run p (init P) is).2 = (List.range (okPtrs q (run p (init P) is).2).length).map (fun k => k % 2 ^ 16) := by
  obtain ⟨a1, h1, h2⟩ := C10_consecutive p hcl P hP is [] (run p (init P) is).2 [] (by simp) q (.inr hc)
  simp only [runA, Option.some.injEq] at h1
  have : next a1 q = 0 := by rw [← h1]; rfl
  rw [this] at h2
  simpa using h2

/-- C10: the answer to every request is determined by the register writes that precede it: error exactly when the queue
is disabled; empty exactly when it is enabled and the pointer has reached the producer pointer last written; a
successful response carries a pointer different from the producer pointer.  Queue and tag are echoed. -/
theorem C10_answers (p : Params) (hcl : p.cl ≤ 8) (P : Nat) (hP : 1 ≤ P) (is : List In) (e1 e2 : List Ev) (q tag : Nat) (r : Resp)
    (h : (run p (init P) is).2 = e1 ++ .req q tag r :: e2) :
    r.q = q ∧ r.tag = tag ∧ r.err = !(enOf q false e1) ∧
    r.empty = (enOf q false e1 && r.ptr == prodOf q 0 e1) := by
  obtain ⟨a1, a2, h1, h2⟩ := accepted p hcl P hP is _ _ h
  obtain ⟨a3, h3, _⟩ := runA_cons h2
  have hr : r = resp p a1 q tag := by
    simp only [accept] at h3
    split at h3
    · assumption
    · cases h3
  obtain ⟨g1, g2⟩ := run_regs e1 h1 q
  subst hr
  refine ⟨rfl, rfl, ?_, ?_⟩
  · simp only [resp]; rw [g2]; rfl
  · simp only [resp]; rw [g1, g2]; rfl

/-- C10: over any stretch without producer-pointer writes to `q` (and no consumer-pointer move as before) no more
descriptors are handed out than lie between the current position and the producer pointer. -/
theorem C10_never_past_producer (p : Params) (hcl : p.cl ≤ 8) (P : Nat) (hP : 1 ≤ P) (is : List In) (e1 e2 e3 : List Ev)
    (h : (run p (init P) is).2 = e1 ++ e2 ++ e3) (q : Nat)
    (hc : enOf q false e1 = true ∧ noEnWrite q e2 ∨ noConsWrite q e2) (hw : noProdWrite q e2) :
    ∃ a1, runA p A.init e1 = some a1 ∧ (okPtrs q e2).length ≤ (prodOf q 0 e1 + 2 ^ 16 - next a1 q) % 2 ^ 16 := by
  rw [List.append_assoc] at h
  obtain ⟨a1, a2, h1, h2⟩ := accepted p hcl P hP is e1 (e2 ++ e3) h
  obtain ⟨a3, h3, _⟩ := runA_split h2
  obtain ⟨n1, n2⟩ := runA_next_lt h1 q
  refine ⟨a1, h1, ?_⟩
  have := run_bound q e2 h3 n1 n2 (by
    rcases hc with ⟨hc, hn⟩ | hc
    · exact .inl ⟨by rw [(run_regs e1 h1 q).2]; exact hc, hn⟩
    · exact .inr hc) hw
  rw [(run_regs e1 h1 q).1] at this
  exact this

/-- C10: a request that is answered with an error or `empty` changes nothing. -/
theorem C10_failed_request_no_effect (p : Params) (hcl : p.cl ≤ 8) (P : Nat) (hP : 1 ≤ P) (is : List In) (e1 e2 : List Ev)
    (q tag : Nat) (r : Resp) (h : (run p (init P) is).2 = e1 ++ .req q tag r :: e2) (hf : r.err = true ∨ r.empty = true) :
    runA p A.init (e1 ++ [.req q tag r]) = runA p A.init e1 := by
  obtain ⟨a1, a2, h1, h2⟩ := accepted p hcl P hP is _ _ h
  obtain ⟨a3, h3, _⟩ := runA_cons h2
  rw [runA_append, h1, Option.bind_some]
  simp only [runA, h3, Option.bind_some]
  simp only [accept] at h3
  split at h3
  · have : (r.err || r.empty) = true := by rcases hf with hf | hf <;> simp [hf]
    rw [if_pos this] at h3
    exact h3.symm
  · cases h3

/-- C10: no response is overwritten before it is accepted: the responses transferred on the response interface,
followed by the one still pending, are exactly the responses issued, in order. -/
theorem C10_no_response_lost (p : Params) (hcl : p.cl ≤ 8) (P : Nat) (hP : 1 ≤ P) (is : List In) :
    respsOf (run p (init P) is).2 = taken p (init P) is ++
      (if (run p (init P) is).1.respV then [(run p (init P) is).1.resp] else []) := by
  have := run_resps hcl is (inv_init p P) (by
    intro e; have := congrArg List.length e; simp [init] at this; omega) (fun _ => rfl)
  simpa [pend, init] using this

/-- C10: operations are executed in the order in which they were accepted at the input, each exactly `P` cycles after
acceptance, none lost or duplicated. -/
theorem C10_executed_in_order (p : Params) (P : Nat) (hP : 1 ≤ P) (is : List In) :
    (run p (init P) is).2.filterMap evKey = ((admits p (init P) is).take (is.length - P)).filterMap slotKey := by
  have hne : (init P).pipe ≠ [] := by
    intro e; have := congrArg List.length e; simp [init] at this; omega
  rw [run_keys is hne]
  have hz : ∀ n, ((List.replicate n Slot.none).filterMap slotKey) = [] := by
    intro n; rw [List.filterMap_eq_nil_iff]; intro x hx; rw [(List.mem_replicate.mp hx).2]; rfl
  show ((List.replicate P Slot.none).reverse ++ admits p (init P) is |>.take is.length).filterMap slotKey = _
  rw [List.reverse_replicate, List.take_append, List.filterMap_append, List.take_replicate, hz, List.nil_append,
    List.length_replicate]

/-- C10: acceptance is what the ready outputs report: `s_axis_dequeue_req_ready` is high after the edge exactly when
the presented request entered the pipeline, with the presented queue and tag. -/
theorem C10_ready_means_accepted (p : Params) (s : State) (hne : s.pipe ≠ []) (i : In) :
    ((step p s i).1.reqReady = true ↔ (stage0 p s i).op = .req) ∧
    ((stage0 p s i).op = .req → i.reqValid = true ∧ (stage0 p s i).q = i.reqQueue % 2 ^ p.qw ∧ (stage0 p s i).tag = i.reqTag) := by
  constructor
  · rw [step_eq (List.dropLast_concat_getLast hne).symm i]
    simp only
    rw [(record_same _ _ _).2.2.2.1, (admit_ready _ _ _).1]
    simp
  · intro h
    obtain ⟨_, _, h3, h4, h5⟩ := stage0_req h
    exact ⟨h5, h3, h4⟩

theorem split_unique : ∀ (x y x' y' : List Ev) (q q' t t' : Nat) (r r' : Resp), x ++ .req q t r :: y = x' ++ .req q' t' r' :: y' →
    okResp r = true → okResp r' = true → okCount x = okCount x' → r = r' ∧ y = y' := by
  have pos : ∀ (l : List Ev) (q t : Nat) (r : Resp), okResp r = true → okCount (.req q t r :: l) ≠ 0 := by
    intro l q t r h
    unfold okCount
    simp [h]
  have suc : ∀ (e : Ev) (l m : List Ev), okCount (e :: l) = okCount (e :: m) → okCount l = okCount m := by
    intro e l m h
    cases e <;> simp [okCount] at h ⊢ <;> first | exact h | (split at h <;> omega)
  intro x
  induction x with
  | nil =>
    intro y x' y' q q' t t' r r' he h1 h2 hc
    cases x' with
    | nil => simp at he; exact ⟨he.1.2.2, he.2⟩
    | cons e x' =>
      exfalso
      simp only [List.nil_append, List.cons_append, List.cons.injEq] at he
      rw [← he.1] at hc
      exact pos _ _ _ _ h1 hc.symm
  | cons e x ih =>
    intro y x' y' q q' t t' r r' he h1 h2 hc
    cases x' with
    | nil =>
      exfalso
      simp only [List.nil_append, List.cons_append, List.cons.injEq] at he
      rw [he.1] at hc
      exact pos _ _ _ _ h2 hc
    | cons e' x' =>
      simp only [List.cons_append, List.cons.injEq] at he
      rw [he.1] at hc
      exact ih y x' y' q q' t t' r r' he.2 h1 h2 (suc _ _ _ hc)

/-- C11: a retirement (advance of a consumer pointer) is always that of the oldest operation not yet retired — the
n-th retirement retires the n-th started operation — and this operation has been committed, with its own tag, after it
was started. -/
theorem C11_retire_in_order (p : Params) (hcl : p.cl ≤ 8) (P : Nat) (hP : 1 ≤ P) (is : List In) (e1 e2 : List Ev) (q : Nat)
    (h : (run p (init P) is).2 = e1 ++ .retire q :: e2) :
    ∃ f0 tag r f1, e1 = f0 ++ .req q tag r :: f1 ∧ okResp r = true ∧ okCount f0 = retCount e1 ∧ Ev.commit r.opTag ∈ f1 := by
  obtain ⟨a1, a2, h1, h2⟩ := accepted p hcl P hP is _ _ h
  obtain ⟨a3, h3, _⟩ := runA_cons h2
  have ht := tinv_run e1 [] tinv_init h1
  simp only [List.nil_append] at ht
  simp only [accept] at h3
  split at h3
  · rename_i o rest ho
    split at h3
    · rename_i hc
      have := ht.org 0 (by rw [ho]; simp)
      simp only [ho, List.getElem_cons_zero] at this
      obtain ⟨f0, tag, r, f1, g1, g2, g3, g4, g5, g6⟩ := this
      rw [← hc.1]
      exact ⟨f0, tag, r, f1, g1, g2, by simpa using g3, by rw [g4]; exact g6 hc.2⟩
    · cases h3
  · cases h3

/-- C11: the consumer pointer the host reads after a retirement (no later retirement or host write of it for this
queue) is the pointer behind the retired descriptor. -/
theorem C11_pointer_visible (p : Params) (hcl : p.cl ≤ 8) (P : Nat) (hP : 1 ≤ P) (is : List In) (f0 f1 e2 e3 : List Ev) (q tag v : Nat) (r : Resp)
    (h : (run p (init P) is).2 = f0 ++ .req q tag r :: f1 ++ .retire q :: e2 ++ .rd q 4 v :: e3)
    (hok : okResp r = true) (hn : okCount f0 = retCount (f0 ++ .req q tag r :: f1))
    (hr : ∀ e ∈ e2, e ≠ .retire q) (hc : noConsWrite q e2) :
    v / 2 ^ 16 = (r.ptr + 1) % 2 ^ 16 ∧ v % 2 ^ 16 = prodOf q 0 (f0 ++ .req q tag r :: f1 ++ .retire q :: e2) := by
  obtain ⟨a1, a2, h1, h2⟩ := accepted p hcl P hP is _ _ h
  obtain ⟨a3, h3, _⟩ := runA_cons h2
  have hprod := (runA_next_lt h1 q).2
  have hregs := (run_regs _ h1 q).1
  have hz : (a1.qs q).prod = prodOf q 0 (f0 ++ Ev.req q tag r :: f1 ++ Ev.retire q :: e2) := hregs
  have hv : v = (a1.qs q).prod + (a1.qs q).cons * 2 ^ 16 := by
    simp only [accept] at h3
    split at h3
    · rename_i e; rw [e]; simp [Spec.read]
    · cases h3
  -- the state before and after the retirement
  rw [show f0 ++ Ev.req q tag r :: f1 ++ Ev.retire q :: e2 = (f0 ++ Ev.req q tag r :: f1) ++ ([Ev.retire q] ++ e2) by simp] at h1
  obtain ⟨b1, k1, k2⟩ := runA_split h1
  obtain ⟨b2, k3, k4⟩ := runA_split k2
  obtain ⟨b2', k5, k6⟩ := runA_cons k3
  simp only [runA, Option.some.injEq] at k6
  subst k6
  have ht := tinv_run _ [] tinv_init k1
  simp only [List.nil_append] at ht
  have hcons : (b2'.qs q).cons = (r.ptr + 1) % 2 ^ 16 := by
    simp only [accept] at k5
    split at k5
    · rename_i o rest ho
      split at k5
      · injection k5 with k5
        rw [← k5]
        simp only [setQ, if_true]
        have := ht.org 0 (by rw [ho]; simp)
        simp only [ho, List.getElem_cons_zero] at this
        obtain ⟨g0, tag', r', g1, w1, w2, w3, w4, w5, w6⟩ := this
        -- both splits name the same request
        have : r = r' := (split_unique f0 f1 g0 g1 q o.q tag tag' r r' w1 hok w2 (by rw [hn, w3]; simp)).1
        rw [w5, ← this]
      · cases k5
    · cases k5
  have hstay : ∀ (es : List Ev) (a a' : A), runA p a es = some a' → (∀ e ∈ es, e ≠ .retire q) → noConsWrite q es →
      (a'.qs q).cons = (a.qs q).cons := by
    intro es
    induction es with
    | nil => intro a a' h _ _; simp only [runA, Option.some.injEq] at h; rw [h]
    | cons e es ih =>
      intro a a' h hne hnc
      obtain ⟨b, hb, hr⟩ := runA_cons h
      rw [ih b a' hr (fun x hx => hne x (by simp [hx])) (fun reg data strb db hm => hnc reg data strb db (by simp [hm]))]
      cases e with
      | wr q' reg data strb db =>
        rw [← (accept_wr hb).1]
        simp only [setQ]
        split
        · rename_i hq; subst hq
          exact write_cons _ _ _ _ (.inr (fun hr => hnc reg data strb db (by simp) hr))
        · rfl
      | rd q' reg v => simp only [accept] at hb; split at hb <;> simp at hb; rw [hb]
      | req q' t r =>
        simp only [accept] at hb
        split at hb
        · split at hb
          · simp at hb; rw [hb]
          · split at hb
            · simp only [Option.some.injEq] at hb; rw [← hb]
            · cases hb
        · cases hb
      | commit t => simp only [accept, Option.some.injEq] at hb; rw [← hb]
      | retire q' =>
        simp only [accept] at hb
        split at hb
        · split at hb
          · simp only [Option.some.injEq] at hb; rw [← hb]
            have : q ≠ q' := fun e => hne (.retire q') (by simp) (by rw [e])
            simp [setQ, this]
          · cases hb
        · cases hb
  have hc2 := hstay e2 b2' a1 k4 hr hc
  rw [hcons] at hc2
  rw [hv, hc2, ← hz]
  generalize (a1.qs q).prod = x at hprod
  omega

/-- C11: no operation tag is given out again while the operation holding it is outstanding and uncommitted (`hout` says
it has not been retired). -/
theorem C11_tag_not_reused (p : Params) (hcl : p.cl ≤ 8) (P : Nat) (hP : 1 ≤ P) (is : List In) (e1 e2 e3 : List Ev) (q tag q' tag' : Nat) (r r' : Resp)
    (h : (run p (init P) is).2 = e1 ++ .req q tag r :: e2 ++ .req q' tag' r' :: e3) (hr : okResp r = true) (hr' : okResp r' = true)
    (hout : retCount (e1 ++ .req q tag r :: e2) ≤ okCount e1) (hnc : Ev.commit r.opTag ∉ e2) : r'.opTag ≠ r.opTag := by
  obtain ⟨a1, a2, h1, h2⟩ := accepted p hcl P hP is _ _ h
  obtain ⟨a3, h3, _⟩ := runA_cons h2
  have ht := tinv_run _ [] tinv_init h1
  simp only [List.nil_append] at ht
  have hoc : okCount (e1 ++ Ev.req q tag r :: e2) = okCount e1 + 1 + okCount e2 := by
    rw [okCount_append]; simp [okCount, hr]; omega
  have hj : okCount e1 - retCount (e1 ++ Ev.req q tag r :: e2) < a1.ops.length := by
    have := ht.cnt; omega
  obtain ⟨f0, tg, rr, f1, w1, w2, w3, w4, w5, w6⟩ := ht.org _ hj
  obtain ⟨hrr, hff⟩ := split_unique e1 e2 f0 f1 q _ tag tg r rr w1 hr w2 (by rw [w3]; omega)
  simp only [accept] at h3
  split at h3
  · split at h3
    · rename_i he
      exfalso
      unfold okResp at hr'
      cases c1 : r'.err <;> cases c2 : r'.empty <;> rw [c1, c2] at he hr' <;> first | exact absurd he (by decide) | exact absurd hr' (by decide)
    · split at h3
      · rename_i hall
        rw [List.all_eq_true] at hall
        have := hall _ (List.getElem_mem hj)
        simp only [Bool.or_eq_true, bne_iff_ne, ne_eq] at this
        rcases this with hd | hd
        · exfalso
          apply hnc
          rw [hff, hrr, w4]
          exact w6 hd
        · intro e
          apply hd
          exact (e.trans (congrArg Resp.opTag hrr |>.trans w4)).symm
      · cases h3
  · cases h3

/-- C11 (progress): in any reachable state whose oldest table entry has been committed, if no AXI-lite access is
presented for `P + 2` cycles, its retirement enters the pipeline within those cycles (and is executed `P` cycles later,
`C10_executed_in_order`), whatever dequeue requests and commits arrive meanwhile. -/
theorem C11_progress (p : Params) (hcl : p.cl ≤ 8) (P : Nat) (hP : 1 ≤ P) (is js : List In) (s : State)
    (hs : s = (run p (init P) is).1) (hact : s.act s.fp = true) (hcmt : s.cmt s.fp = true)
    (hq : ∀ i ∈ js, noAxil i) (hlen : P + 2 ≤ js.length) : ∃ sl ∈ admits p s js, sl.op = .commit := by
  have hne0 : (init P).pipe ≠ [] := by
    intro e; have := congrArg List.length e; simp [init] at this; omega
  obtain ⟨a, R, T, _, h, hne⟩ := run_spec hcl is (inv_init p P) hne0
  have hplen : ∀ (is : List In) (s : State), s.pipe ≠ [] → (run p s is).1.pipe.length = s.pipe.length := by
    intro is
    induction is with
    | nil => intro s _; rfl
    | cons i is ih =>
      intro s hn
      have hp := step_pipe (p := p) hn i
      show (run p (step p s i).1 is).1.pipe.length = _
      rw [ih _ (by rw [hp]; simp), hp]
      have : 0 < s.pipe.length := List.length_pos_iff.mpr hn
      simp; omega
  have hl := hplen is (init P) hne0
  rw [← hs] at h hne hl
  have hl : s.pipe.length = P := by rw [hl]; simp [init]
  -- one cycle to get past a possible commit in stage 0
  cases js with
  | nil => simp at hlen
  | cons i js =>
    by_cases hc : (stage0 p s i).op = .commit
    · exact ⟨_, by simp [admits], hc⟩
    · obtain ⟨a1, R1, T1, hr, hinv, hl1⟩ := step_spec hcl h hne i
      obtain ⟨f1, f2, f3, f4⟩ := head_stable hcl h hne i hact hcmt hc
      have hp := step_pipe (p := p) hne i
      obtain ⟨sl, hm, hsc⟩ := progress_aux hcl P js (step p s i).1 a1 R1 T1 hinv (by rw [hp]; simp)
        (fun x hx => hq x (by simp [hx])) (by rw [f1]; exact f2) (by rw [f1]; exact f3)
        (by rw [hp]; simpa using hc) (by
          intro x hx
          rw [hl1, hl, Nat.sub_self] at hx
          simp at hx) (by simp at hlen; omega)
      exact ⟨sl, by simp [admits, hm], hsc⟩

/-- C12: the address in a response is base + (pointer mod ring size) · element size for the configuration of the queue
at that point; if the ring fits in the address space the element lies inside the ring, element-aligned relative to the
base; the phase bit is the inverse of the lap parity. -/
theorem C12_address_in_ring (p : Params) (hcl : p.cl ≤ 8) (P : Nat) (hP : 1 ≤ P) (is : List In) (e1 e2 : List Ev) (q tag : Nat) (r : Resp)
    (h : (run p (init P) is).2 = e1 ++ .req q tag r :: e2) :
    ∃ a1 c, runA p A.init e1 = some a1 ∧ c = a1.qs q ∧ r.blk = c.logBlock ∧ r.cpl = c.cplq % 2 ^ p.cplW ∧
      (r.phase = true ↔ r.ptr / 2 ^ c.logSize % 2 = 0) ∧
      ∀ base elem, base = c.baseLo + 2 ^ 32 * c.baseHi → elem = 2 ^ (p.descLog + c.logBlock) →
        base + 2 ^ c.logSize * elem ≤ 2 ^ p.addrW →
        r.addr = base + r.ptr % 2 ^ c.logSize * elem ∧ base ≤ r.addr ∧ r.addr + elem ≤ base + 2 ^ c.logSize * elem := by
  obtain ⟨a1, a2, h1, h2⟩ := accepted p hcl P hP is _ _ h
  obtain ⟨a3, h3, _⟩ := runA_cons h2
  have hr : r = resp p a1 q tag := by
    simp only [accept] at h3
    split at h3
    · assumption
    · cases h3
  refine ⟨a1, a1.qs q, h1, rfl, by rw [hr]; rfl, by rw [hr]; rfl, by rw [hr]; simp [resp], ?_⟩
  intro base elem hb he hfit
  have hlt : r.ptr % 2 ^ (a1.qs q).logSize < 2 ^ (a1.qs q).logSize := Nat.mod_lt _ (Nat.pow_pos (by omega))
  have hpos : 0 < elem := by rw [he]; exact Nat.pow_pos (by omega)
  have hmul : r.ptr % 2 ^ (a1.qs q).logSize * elem + elem ≤ 2 ^ (a1.qs q).logSize * elem := by
    have := Nat.mul_le_mul_right elem hlt
    rwa [Nat.succ_mul] at this
  have haddr : r.addr = base + r.ptr % 2 ^ (a1.qs q).logSize * elem := by
    have : r.addr = (base + r.ptr % 2 ^ (a1.qs q).logSize * elem) % 2 ^ p.addrW := by
      rw [hb, he, hr]; rfl
    rw [this, Nat.mod_eq_of_lt (by omega)]
  exact ⟨haddr, by omega, by omega⟩

/-- C12: two pointers less than a ring size apart get disjoint element ranges. -/
theorem C12_disjoint (base elem k x y : Nat) (hxy : x < y) (hd : y - x < 2 ^ k) :
    base + x % 2 ^ k * elem + elem ≤ base + y % 2 ^ k * elem ∨ base + y % 2 ^ k * elem + elem ≤ base + x % 2 ^ k * elem := by
  have hne : x % 2 ^ k ≠ y % 2 ^ k := by
    intro e
    have := mod_win (a := x) (b := 0) (c := y - x) (Nat.pow_pos (by omega)) hd (by rw [Nat.add_zero, show x + (y - x) = y by omega]; exact e)
    omega
  rcases Nat.lt_or_gt_of_ne hne with h | h
  · left
    have := Nat.mul_le_mul_right elem (Nat.succ_le_of_lt h)
    rw [Nat.succ_mul] at this; omega
  · right
    have := Nat.mul_le_mul_right elem (Nat.succ_le_of_lt h)
    rw [Nat.succ_mul] at this; omega

/-- C13: while queue `q` is enabled and no enable command is written, its base address, size, block size and completion
queue number do not change, whatever is written to it or to other queues: the values read back from registers 0, 1 and
3 anywhere in the stretch are the same. -/
theorem C13_config_stable (p : Params) (hcl : p.cl ≤ 8) (P : Nat) (hP : 1 ≤ P) (is : List In) (e1 e2 e3 : List Ev) (q reg v v' : Nat)
    (h : (run p (init P) is).2 = e1 ++ .rd q reg v :: e2 ++ .rd q reg v' :: e3) (hreg : reg = 0 ∨ reg = 1 ∨ reg = 3)
    (hen : enOf q false e1 = true) (hn : noEnWrite q e2) : v = v' := by
  rw [List.append_assoc] at h
  obtain ⟨a1, a2, h1, h2⟩ := accepted p hcl P hP is _ _ h
  rw [List.cons_append] at h2
  obtain ⟨b1, k1, k2⟩ := runA_cons h2
  obtain ⟨b2, k3, k4⟩ := runA_split k2
  obtain ⟨b3, k5, _⟩ := runA_cons k4
  have hab : b1 = a1 ∧ v = Spec.read p a1 q reg := by
    simp only [accept] at k1
    split at k1
    · rename_i e; injection k1 with k1; exact ⟨k1.symm, e⟩
    · cases k1
  have hv' : v' = Spec.read p b2 q reg := by
    simp only [accept] at k5
    split at k5
    · assumption
    · cases k5
  have hen1 : (a1.qs q).en = true := by rw [(run_regs e1 h1 q).2]; exact hen
  have hstay : ∀ (es : List Ev) (a a' : A), runA p a es = some a' → (a.qs q).en = true → noEnWrite q es →
      (a'.qs q).baseLo = (a.qs q).baseLo ∧ (a'.qs q).baseHi = (a.qs q).baseHi ∧ (a'.qs q).logSize = (a.qs q).logSize ∧
      (a'.qs q).logBlock = (a.qs q).logBlock ∧ (a'.qs q).cplq = (a.qs q).cplq := by
    intro es
    induction es with
    | nil => intro a a' h _ _; simp only [runA, Option.some.injEq] at h; rw [h]; exact ⟨rfl, rfl, rfl, rfl, rfl⟩
    | cons e es ih =>
      intro a a' h he hn
      obtain ⟨b, hb, hr⟩ := runA_cons h
      have heb : (b.qs q).en = true := by
        rw [(accept_regs hb q).2, noEn_en (fun reg data strb db hm => hn reg data strb db (by
          simp only [List.mem_singleton] at hm; simp [hm]))]; exact he
      have i := ih b a' hr heb (fun reg data strb db hm => hn reg data strb db (by simp [hm]))
      have j : (b.qs q).baseLo = (a.qs q).baseLo ∧ (b.qs q).baseHi = (a.qs q).baseHi ∧ (b.qs q).logSize = (a.qs q).logSize ∧
          (b.qs q).logBlock = (a.qs q).logBlock ∧ (b.qs q).cplq = (a.qs q).cplq := by
        cases e with
        | wr q' reg data strb db =>
          rw [← (accept_wr hb).1]
          simp only [setQ]
          split
          · rename_i hq; subst hq
            have := write_cfg (a.qs q) reg data strb he
            exact this.2
          · exact ⟨rfl, rfl, rfl, rfl, rfl⟩
        | rd q' reg v => simp only [accept] at hb; split at hb <;> simp at hb; rw [hb]; exact ⟨rfl, rfl, rfl, rfl, rfl⟩
        | req q' t r =>
          simp only [accept] at hb
          split at hb
          · split at hb
            · simp at hb; rw [hb]; exact ⟨rfl, rfl, rfl, rfl, rfl⟩
            · split at hb
              · simp only [Option.some.injEq] at hb; rw [← hb]; exact ⟨rfl, rfl, rfl, rfl, rfl⟩
              · cases hb
          · cases hb
        | commit t => simp only [accept, Option.some.injEq] at hb; rw [← hb]; exact ⟨rfl, rfl, rfl, rfl, rfl⟩
        | retire q' =>
          simp only [accept] at hb
          split at hb
          · split at hb
            · simp only [Option.some.injEq] at hb; rw [← hb]
              simp only [setQ]
              split
              · rename_i hq; subst hq; exact ⟨rfl, rfl, rfl, rfl, rfl⟩
              · exact ⟨rfl, rfl, rfl, rfl, rfl⟩
            · cases hb
          · cases hb
      rw [i.1, i.2.1, i.2.2.1, i.2.2.2.1, i.2.2.2.2]
      exact j
  rw [hab.1] at k3
  obtain ⟨s1, s2, s3, s4, s5⟩ := hstay e2 a1 b2 k3 hen1 hn
  rw [hab.2, hv']
  unfold Spec.read
  rcases hreg with rfl | rfl | rfl <;> simp [s1, s2, s3, s4, s5]

/-- C13: a register write executed on queue `q` rings the doorbell of `q`, and only of `q`, exactly when it is a
producer pointer update and the queue is enabled. -/
theorem C13_doorbell (p : Params) (hcl : p.cl ≤ 8) (P : Nat) (hP : 1 ≤ P) (is : List In) (e1 e2 : List Ev) (q reg data strb : Nat) (db : Option Nat)
    (h : (run p (init P) is).2 = e1 ++ .wr q reg data strb db :: e2) :
    db = if isProd reg data ∧ enOf q false e1 = true then some q else none := by
  obtain ⟨a1, a2, h1, h2⟩ := accepted p hcl P hP is _ _ h
  obtain ⟨a3, h3, _⟩ := runA_cons h2
  rw [(accept_wr h3).2, (run_regs e1 h1 q).2]
  rfl

/-- C13: a register write never changes another queue: the abstract state of every queue other than the addressed one
is the same before and after, and so are the outstanding operations. -/
theorem C13_other_queues (p : Params) (hcl : p.cl ≤ 8) (P : Nat) (hP : 1 ≤ P) (is : List In) (e1 e2 : List Ev) (q reg data strb : Nat) (db : Option Nat)
    (h : (run p (init P) is).2 = e1 ++ .wr q reg data strb db :: e2) :
    ∃ a1 a2, runA p A.init e1 = some a1 ∧ runA p A.init (e1 ++ [.wr q reg data strb db]) = some a2 ∧
      (∀ q', q' ≠ q → a2.qs q' = a1.qs q') ∧ a2.ops = a1.ops := by
  obtain ⟨a1, a2, h1, h2⟩ := accepted p hcl P hP is _ _ h
  obtain ⟨a3, h3, _⟩ := runA_cons h2
  refine ⟨a1, a3, h1, ?_, ?_, ?_⟩
  · rw [runA_append, h1, Option.bind_some]
    simp only [runA, h3, Option.bind_some]
  · intro q' hq
    rw [← (accept_wr h3).1]
    simp [setQ, hq]
  · rw [← (accept_wr h3).1]; rfl

/-- C13: the register interface loses nothing: the data beats transferred on the read channel, followed by the one still
waiting, are exactly the values of the register reads executed, in order. -/
theorem C13_read_data (p : Params) (P : Nat) (hP : 1 ≤ P) (is : List In) :
    readsOf (run p (init P) is).2 = rTaken p (init P) is ++
      (if (run p (init P) is).1.rvalid then [(run p (init P) is).1.rdata] else []) := by
  have := (run_bus (p := p) is (s := init P) (by intro e; have := congrArg List.length e; simp [init] at this; omega)
    (one_init P .rd (by decide) _) (one_init P .wr (by decide) _)).1
  simpa [rPend, init] using this

/-- C13: every register write is acknowledged exactly once: the responses transferred on the write response channel plus
the one still waiting are as many as the writes executed. -/
theorem C13_write_response (p : Params) (P : Nat) (hP : 1 ≤ P) (is : List In) :
    writesOf (run p (init P) is).2 = bTaken p (init P) is + (if (run p (init P) is).1.bvalid then 1 else 0) := by
  have := (run_bus (p := p) is (s := init P) (by intro e; have := congrArg List.length e; simp [init] at this; omega)
    (one_init P .rd (by decide) _) (one_init P .wr (by decide) _)).2.1
  simpa [bPend, init] using this

/-- C13: the doorbell pulses seen at the doorbell output are exactly the doorbells of the writes executed, in order. -/
theorem C13_doorbell_output (p : Params) (P : Nat) (hP : 1 ≤ P) (is : List In) :
    bells p (init P) is = bellsOf (run p (init P) is).2 :=
  (run_bus (p := p) is (s := init P) (by intro e; have := congrArg List.length e; simp [init] at this; omega)
    (one_init P .rd (by decide) _) (one_init P .wr (by decide) _)).2.2

/-! A concrete execution: queue 1 is configured (ring of 4, enabled, two descriptors produced); three requests get
pointers 0 and 1 and `empty`; the second operation is committed first, both retire in order. -/

def demoP : Params := ⟨2, 2, 4, 64, 8⟩
def idleIn : In := ⟨false, 0, false, 0, 0, true, false, 0, true, false, 0, 0, true, false, 0, true⟩
def wrIn (a d : Nat) : In := { idleIn with awvalid := true, wvalid := true, awaddr := a, wdata := d, wstrb := 15 }
def demoIs : List In :=
  [wrIn 32 0x12345000, idleIn, idleIn, wrIn 40 0x80020002, idleIn, idleIn, wrIn 40 0x40000101, idleIn, idleIn, wrIn 40 0x80800002, idleIn, idleIn,
   { idleIn with reqValid := true, reqQueue := 1, reqTag := 7 }, idleIn, idleIn,
   { idleIn with reqValid := true, reqQueue := 1, reqTag := 8 }, idleIn, idleIn,
   { idleIn with reqValid := true, reqQueue := 1, reqTag := 9 }, idleIn, idleIn,
   { idleIn with commitValid := true, commitTag := 1 }, idleIn, idleIn, idleIn, { idleIn with commitValid := true, commitTag := 0 },
   idleIn, idleIn, idleIn, idleIn, idleIn, idleIn, idleIn]

example : respsOf (run demoP (init 2) demoIs).2 =
    [⟨1, 0, true, 0x12345000, 0, 0, 7, 0, false, false⟩, ⟨1, 1, true, 0x12345010, 0, 0, 8, 1, false, false⟩,
     ⟨1, 2, true, 0x12345020, 0, 0, 9, 2, true, false⟩] := by decide
example : okPtrs 1 (run demoP (init 2) demoIs).2 = [0, 1] ∧ retCount (run demoP (init 2) demoIs).2 = 2 := by decide
example : ((run demoP (init 2) demoIs).1.ram 1).cons = 2 := by decide
/-- one doorbell was seen (queue 1), every write was acknowledged; a read of register 4 returns both pointers -/
example : bells demoP (init 2) demoIs = [1] ∧ bTaken demoP (init 2) demoIs = 4 ∧
    rTaken demoP (init 2) (demoIs ++ [{ idleIn with arvalid := true, araddr := 48 }, idleIn, idleIn, idleIn]) = [2 + 2 * 2 ^ 16] := by decide

end Corundum.QueueManager
