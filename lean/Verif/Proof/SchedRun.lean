import Verif.Proof.SchedDb
/-! Executions of the transmit scheduler: the doorbell invariant over whole runs. -/
namespace Corundum.Sched

theorem dinv_reset {p : Params} {P : Nat} {s : State} (h : IsReset P s) : DInv p s [] (fun _ => false) := by
  have hidle : ∀ sl ∈ s.pipe, sl = Slot.none := by
    intro sl hm; rw [h.pipe] at hm; exact (List.mem_replicate.mp hm).2
  have ho : outst s [] = [] := by
    unfold outst outE
    rw [h.finReg, h.fin, h.reqV]
    have : pipeC s.pipe = [] := by
      unfold pipeC
      rw [List.filter_eq_nil_iff.mpr]; · rfl
      intro x hx
      rw [hidle x (by simpa using hx)]; simp [Slot.none]
    simp [this]
  refine ⟨?_, ?_, ?_, ?_, ?_, ?_⟩
  · rw [ho]; exact ⟨by simp, by simp, by simp, by simp, by simp, by simp, by simp⟩
  · rw [ho]; simp
  · intro k hk; rw [h.tact k] at hk; cases hk
  · intro sl hm hop; rw [hidle sl hm] at hop; simp [Slot.none] at hop
  · rintro ⟨sl, hm, hop⟩; rw [hidle sl hm] at hop; simp [Slot.none] at hop
  · intro _ _ _; rfl

/-- requests in flight at the client after an execution -/
def envRun (p : Params) (s : State) (E : List Fl) : List In → List Fl
  | [] => E
  | i :: is => envRun p (step p s i).1 (envNext s E i) is

theorem issues_append (q : Nat) : ∀ (x y : List Ev), issues q (x ++ y) = issues q x + issues q y
  | [], y => by simp [issues]
  | e :: x, y => by cases e <;> simp [issues, issues_append q x y, Nat.add_assoc]

theorem dones_append (q : Nat) : ∀ (x y : List Ev), dones q (x ++ y) = dones q x + dones q y
  | [], y => by simp [dones]
  | e :: x, y => by cases e <;> simp [dones, dones_append q x y, Nat.add_assoc]

theorem dinv_run {p : Params} (hn : p.n ≤ 256) (hn2 : p.n ≤ 2 ^ p.cl) : ∀ (is : List In) {s : State} {E : List Fl} {pend : Nat → Bool}, Inv p s → s.pipe ≠ [] →
    DInv p s E pend → strbOK is → EnvOK p s E is →
    DInv p (run p s is).1 (envRun p s E is) ((run p s is).2.foldl pendEv pend) ∧
    (∀ q, ((outst (run p s is).1 (envRun p s E is)).map Ent.q).count q + dones q (run p s is).2 = ((outst s E).map Ent.q).count q + issues q (run p s is).2)
  | [], s, E, pend, h, hne, hd, _, _ => ⟨hd, fun q => by simp [run, envRun, dones, issues]⟩
  | i :: is, s, E, pend, h, hne, hd, hst, henv => by
    obtain ⟨h1, h2⟩ := inv_step h hne i (hst i (by simp))
    obtain ⟨d1, d2⟩ := dinv_step hd h hne hn hn2 i henv.1
    obtain ⟨r1, r2⟩ := dinv_run hn hn2 is h1 h2 d1 (fun j hj => hst j (by simp [hj])) henv.2
    refine ⟨?_, ?_⟩
    · show DInv p (run p (step p s i).1 is).1 _ (((step p s i).2 ++ (run p (step p s i).1 is).2).foldl pendEv pend)
      rw [List.foldl_append]; exact r1
    · intro q
      have a := d2 q
      have b := r2 q
      show ((outst (run p (step p s i).1 is).1 _).map Ent.q).count q + dones q ((step p s i).2 ++ (run p (step p s i).1 is).2) =
        _ + issues q ((step p s i).2 ++ (run p (step p s i).1 is).2)
      rw [dones_append, issues_append]
      simp only [envRun]
      omega

theorem envOK_prefix {p : Params} : ∀ (is1 is2 : List In) (s : State) (E : List Fl), EnvOK p s E (is1 ++ is2) → EnvOK p s E is1
  | [], _, _, _, _ => trivial
  | _ :: is1, is2, _, _, h => ⟨h.1, envOK_prefix is1 is2 _ _ h.2⟩

/-- pending after a doorbell not followed by a request -/
theorem pend_fold (q : Nat) : ∀ (es : List Ev) (pend : Nat → Bool), issues q es = 0 → pend q = true → es.foldl pendEv pend q = true
  | [], pend, _, h => h
  | e :: es, pend, hi, h => by
    have h1 : issues q es = 0 := by cases e <;> simp [issues] at hi <;> first | exact hi | exact hi.2
    refine pend_fold q es _ h1 ?_
    cases e <;> simp only [pendEv] <;> first | exact h | skip
    · unfold upd; split
      · rfl
      · exact h
    · rename_i q' k
      simp [issues] at hi
      unfold upd; rw [if_neg (fun e => hi.1 e.symm)]; exact h

/-! ### rescheduling -/

/-- an enabled and active queue is scheduled -/
def Resched (p : Params) (s : State) : Prop := ∀ q < 2 ^ p.qw, fresh s q = false → (s.ram q).en = true → (s.ram q).active = true →
  (p.ctrl = false ∨ (s.ram q).sen = true) → (s.ram q).sched = true

theorem wnext_resched (c : Bool) (sl : Slot) (hop : sl.op ≠ .init) (hstrb : sl.op = .wr → sl.strb = true) (hreq : sl.op = .req → sl.w.sched = true)
    (ih : sl.w.en = true → sl.w.active = true → (c = false ∨ sl.w.sen = true) → sl.w.sched = true)
    (h1 : (wnext c sl.w sl).en = true) (h2 : (wnext c sl.w sl).active = true) (h3 : c = false ∨ (wnext c sl.w sl).sen = true) :
    (wnext c sl.w sl).sched = true := by
  cases ho : sl.op with
  | init => exact absurd ho hop
  | idle => simp only [wnext, ho] at h1 h2 h3 ⊢; exact ih h1 h2 h3
  | rd => simp only [wnext, ho] at h1 h2 h3 ⊢; exact ih h1 h2 h3
  | req =>
    have hs := hreq ho
    simp only [wnext, ho] at h1 h2 h3 ⊢
    cases hp : push c sl with
    | true => simp
    | false =>
      exfalso
      simp only [hp] at h1 h2 h3
      simp only [push, ho, ok, hs, Bool.and_true] at hp
      simp at h1 h2 h3
      rw [h1, h2] at hp
      rcases h3 with e | e <;> rw [e] at hp <;> simp at hp
  | wr =>
    rw [(wnext_sched c sl (by rw [ho]; simp) hop hstrb).1]
    simp only [wnext, ho, hstrb ho] at h1 h2 h3
    cases hp : push c sl with
    | true => simp
    | false =>
      simp only [hp] at h1 h2 h3
      simp at h1 h2 h3
      simp only [push, ho, h1, h2] at hp
      cases hs : sl.w.sched with
      | true => rfl
      | false => rcases h3 with e | e <;> rw [e, hs] at hp <;> simp at hp
  | db =>
    rw [(wnext_sched c sl (by rw [ho]; simp) hop hstrb).1]
    simp only [wnext, ho] at h1 h2 h3
    cases hp : push c sl with
    | true => simp
    | false =>
      simp only [hp] at h1 h2 h3
      simp at h1 h2 h3
      simp only [push, ho, ok, h1] at hp
      cases hs : sl.w.sched with
      | true => rfl
      | false => rcases h3 with e | e <;> rw [e, hs] at hp <;> simp at hp
  | done =>
    rw [(wnext_sched c sl (by rw [ho]; simp) hop hstrb).1]
    simp only [wnext, ho] at h1 h2 h3
    cases hp : push c sl with
    | true => simp
    | false =>
      simp only [hp] at h1 h2 h3
      simp at h1 h2 h3
      simp only [push, ho, h2] at hp
      cases hs : sl.w.sched with
      | true => rfl
      | false => rcases h3 with e | e <;> rw [e, hs] at hp <;> simp at hp
  | ctrl =>
    rw [(wnext_sched c sl (by rw [ho]; simp) hop hstrb).1]
    simp only [wnext, ho] at h1 h2 h3
    cases hp : push c sl with
    | true => simp
    | false =>
      simp only [hp] at h1 h2 h3
      simp at h1 h2 h3
      simp only [push, ho, h1, h2] at hp
      cases hs : sl.w.sched with
      | true => rfl
      | false =>
        rw [hs] at hp; simp at hp
        rcases h3 with e | e
        · simp only [h1, h2, hs, e] at ih; simp at ih
        · rw [e] at hp; simp at hp

theorem resched_step {p : Params} {s : State} (h : Inv p s) (hne : s.pipe ≠ []) (hr : Resched p s) (i : In) : Resched p (step p s i).1 := by
  obtain ⟨pre, sl, hp⟩ : ∃ pre sl, s.pipe = pre ++ [sl] :=
    ⟨s.pipe.dropLast, s.pipe.getLast hne, (List.dropLast_concat_getLast hne).symm⟩
  have hm : sl ∈ s.pipe := by rw [hp]; simp
  intro q hq hf
  rw [fresh_step hp h i q hq] at hf
  by_cases hc : sl.op ≠ .idle ∧ sl.q = q
  · obtain ⟨hni, rfl⟩ := hc
    have hw : (step p s i).1.ram sl.q = wnext p.ctrl sl.w sl := by
      rw [step_ram hp]; simp only [upd, if_pos]; rw [h.snap sl hm hni]
    rw [hw]
    by_cases hin : sl.op = .init
    · intro h1; simp [wnext, hin] at h1
    · have hnf := not_fresh h hm hni hin
      have ih := hr sl.q hq hnf
      rw [← h.snap sl hm hni] at ih
      intro h1 h2 h3
      refine wnext_resched p.ctrl sl hin (fun e => h.strb sl hm e) ?_ ih h1 h2 h3
      intro ho
      rw [h.snap sl hm hni]
      exact (h.sched sl.q hq hnf).mpr (.inr ⟨sl, hm, ho, rfl⟩)
  · have hne2 : sl.op ≠ .idle → sl.q ≠ q := fun a b => hc ⟨a, b⟩
    rw [step_ram_other hp i q hne2]
    refine hr q hq ?_
    have : (sl.op == .init && sl.q == q) = false := by
      cases hx : (sl.op == .init && sl.q == q) with
      | false => rfl
      | true =>
        simp only [Bool.and_eq_true, beq_iff_eq] at hx
        exact absurd hx.2 (hne2 (by rw [hx.1]; simp))
    rw [this] at hf
    simpa using hf

theorem resched_run {p : Params} : ∀ (is : List In) {s : State}, Inv p s → s.pipe ≠ [] → strbOK is → Resched p s → Resched p (run p s is).1
  | [], _, _, _, _, hr => hr
  | i :: is, s, h, hne, hst, hr => by
    obtain ⟨h1, h2⟩ := inv_step h hne i (hst i (by simp))
    exact resched_run is h1 h2 (fun j hj => hst j (by simp [hj])) (resched_step h hne hr i)

theorem resched_reset {p : Params} {P : Nat} {s : State} (h : IsReset P s) : Resched p s := by
  intro q _ hf
  have : fresh s q = true := by unfold fresh; rw [h.initDone, h.initIdx]; simp
  rw [this] at hf; cases hf

/-! ### the enable bit follows the register writes -/

def EnInv (p : Params) (s : State) (v : Nat → Bool) : Prop := ∀ q < 2 ^ p.qw, fresh s q = false → (s.ram q).en = v q

theorem en_step {p : Params} {s : State} {v : Nat → Bool} (h : Inv p s) (hne : s.pipe ≠ []) (hr : EnInv p s v) (i : In) :
    EnInv p (step p s i).1 (fun q => enOf q (v q) (step p s i).2) := by
  obtain ⟨pre, sl, hp⟩ : ∃ pre sl, s.pipe = pre ++ [sl] :=
    ⟨s.pipe.dropLast, s.pipe.getLast hne, (List.dropLast_concat_getLast hne).symm⟩
  have hm : sl ∈ s.pipe := by rw [hp]; simp
  have hev : (step p s i).2 = evOf p.ctrl sl := by rw [step_eq hp]
  intro q hq hf
  rw [fresh_step hp h i q hq] at hf
  simp only [hev]
  by_cases hc : sl.op ≠ .idle ∧ sl.q = q
  · obtain ⟨hni, rfl⟩ := hc
    have hw : (step p s i).1.ram sl.q = wnext p.ctrl sl.w sl := by
      rw [step_ram hp]; simp only [upd, if_pos]; rw [h.snap sl hm hni]
    rw [hw]
    by_cases hin : sl.op = .init
    · simp [wnext, evOf, hin, enOf]
    · have hnf := not_fresh h hm hni hin
      have ih := hr sl.q hq hnf
      rw [← h.snap sl hm hni] at ih
      rw [← ih]
      cases ho : sl.op <;> simp only [wnext, evOf, ho] <;> first | exact absurd ho hin | skip
      · simp [enOf]
      · simp [enOf, h.strb sl hm ho]
      · simp [enOf]
      · simp only [enOf]; cases push p.ctrl sl <;> rfl
      · cases push p.ctrl sl <;> rfl
      · simp only [enOf]; cases push p.ctrl sl <;> rfl
      · simp only [enOf]; cases push p.ctrl sl <;> rfl
  · have hne2 : sl.op ≠ .idle → sl.q ≠ q := fun a b => hc ⟨a, b⟩
    rw [step_ram_other hp i q hne2]
    have hx : (sl.op == .init && sl.q == q) = false := by
      cases hx : (sl.op == .init && sl.q == q) with
      | false => rfl
      | true =>
        simp only [Bool.and_eq_true, beq_iff_eq] at hx
        exact absurd hx.2 (hne2 (by rw [hx.1]; simp))
    rw [hx] at hf
    rw [hr q hq (by simpa using hf)]
    unfold evOf
    cases ho : sl.op <;> simp only [enOf] <;> first | rfl | skip
    · rw [if_neg (hne2 (by rw [ho]; simp))]
    · rw [if_neg (hne2 (by rw [ho]; simp))]
    · split <;> rfl

theorem enOf_append (q : Nat) : ∀ (x y : List Ev) (v : Bool), enOf q v (x ++ y) = enOf q (enOf q v x) y
  | [], y, v => rfl
  | e :: x, y, v => by cases e <;> simp [enOf, enOf_append q x y]

theorem en_run {p : Params} : ∀ (is : List In) {s : State} {v : Nat → Bool}, Inv p s → s.pipe ≠ [] → strbOK is → EnInv p s v →
    EnInv p (run p s is).1 (fun q => enOf q (v q) (run p s is).2)
  | [], _, _, _, _, _, hr => hr
  | i :: is, s, v, h, hne, hst, hr => by
    obtain ⟨h1, h2⟩ := inv_step h hne i (hst i (by simp))
    have := en_run is h1 h2 (fun j hj => hst j (by simp [hj])) (en_step h hne hr i)
    intro q hq hf
    show _ = enOf q (v q) ((step p s i).2 ++ (run p (step p s i).1 is).2)
    rw [enOf_append]
    exact this q hq hf

/-- a queue that received any event other than initialisation is not fresh -/
theorem fresh_mono {p : Params} : ∀ (is : List In) {s : State}, Inv p s → s.pipe ≠ [] → strbOK is → ∀ q < 2 ^ p.qw, fresh s q = false →
    fresh (run p s is).1 q = false
  | [], _, _, _, _, _, _, hf => hf
  | i :: is, s, h, hne, hst, q, hq, hf => by
    obtain ⟨h1, h2⟩ := inv_step h hne i (hst i (by simp))
    obtain ⟨pre, sl, hp⟩ : ∃ pre sl, s.pipe = pre ++ [sl] :=
      ⟨s.pipe.dropLast, s.pipe.getLast hne, (List.dropLast_concat_getLast hne).symm⟩
    refine fresh_mono is h1 h2 (fun j hj => hst j (by simp [hj])) q hq ?_
    rw [fresh_step hp h i q hq, hf]; rfl

/-- the cycle in which an event happens -/
theorem run_cut {p : Params} : ∀ (is : List In) (s : State) (e1 e2 : List Ev) (e : Ev), (run p s is).2 = e1 ++ e :: e2 →
    ∃ is1 i is2, is = is1 ++ i :: is2 ∧ (run p s is1).2 = e1 ∧ (step p (run p s is1).1 i).2 = [e]
  | [], s, e1, e2, e, h => by simp [run] at h
  | i :: is, s, e1, e2, e, h => by
    have hrun : (run p s (i :: is)).2 = (step p s i).2 ++ (run p (step p s i).1 is).2 := rfl
    rw [hrun] at h
    have hle := step_ev_le p s i
    cases hev : (step p s i).2 with
    | nil =>
      rw [hev, List.nil_append] at h
      obtain ⟨is1, j, is2, g1, g2, g3⟩ := run_cut is _ e1 e2 e h
      refine ⟨i :: is1, j, is2, by rw [g1]; rfl, ?_, g3⟩
      show (step p s i).2 ++ (run p (step p s i).1 is1).2 = _
      rw [hev, g2]; rfl
    | cons x xs =>
      rw [hev] at hle h
      have : xs = [] := by
        cases xs with
        | nil => rfl
        | cons => simp at hle
      subst this
      cases e1 with
      | nil =>
        simp only [List.cons_append, List.nil_append, List.cons.injEq] at h
        exact ⟨[], i, is, rfl, rfl, by rw [show (run p s []).1 = s from rfl, hev, h.1]⟩
      | cons y e1 =>
        simp only [List.cons_append, List.nil_append, List.cons.injEq] at h
        obtain ⟨is1, j, is2, g1, g2, g3⟩ := run_cut is _ e1 e2 e h.2
        refine ⟨i :: is1, j, is2, by rw [g1]; rfl, ?_, g3⟩
        show (step p s i).2 ++ (run p (step p s i).1 is1).2 = _
        rw [hev, g2, h.1]; rfl

theorem ev_slot {p : Params} {s : State} (hne : s.pipe ≠ []) {i : In} {e : Ev} (h : (step p s i).2 = [e]) :
    ∃ pre sl, s.pipe = pre ++ [sl] ∧ evOf p.ctrl sl = [e] := by
  obtain ⟨pre, sl, hp⟩ : ∃ pre sl, s.pipe = pre ++ [sl] :=
    ⟨s.pipe.dropLast, s.pipe.getLast hne, (List.dropLast_concat_getLast hne).symm⟩
  exact ⟨pre, sl, hp, by rw [← h, step_eq hp]⟩

theorem evOf_db {c : Bool} {sl : Slot} {q : Nat} (h : evOf c sl = [.db q]) : sl.op = .db ∧ sl.q = q := by
  unfold evOf at h
  cases ho : sl.op <;> simp [ho] at h
  · exact ⟨rfl, h⟩
  · split at h <;> simp at h

theorem evOf_skip {c : Bool} {sl : Slot} {q k : Nat} (h : evOf c sl = [.skip q k]) : sl.op = .req ∧ sl.q = q ∧ push c sl = false := by
  unfold evOf at h
  cases ho : sl.op <;> simp [ho] at h
  split at h
  · simp at h
  · rename_i hp
    simp at h
    exact ⟨rfl, h.1, by simpa using hp⟩

theorem mem_line {s : State} {q : Nat} : q ∈ line s ↔ q ∈ s.rr ∨ ∃ sl ∈ s.pipe, sl.op = .req ∧ sl.q = q := by
  unfold line
  simp only [List.mem_append, List.mem_map, List.mem_filter, beq_iff_eq]
  constructor
  · rintro (⟨x, ⟨h1, h2⟩, h3⟩ | h)
    · exact .inr ⟨x, h1, h2, h3⟩
    · exact .inl h
  · rintro (h | ⟨x, h1, h2, h3⟩)
    · exact .inr h
    · exact .inl ⟨x, ⟨h1, h2⟩, h3⟩

/-- the state after a doorbell that no request has followed and with nothing outstanding -/
theorem doorbell_kept {p : Params} (hn : p.n ≤ 256) (hn2 : p.n ≤ 2 ^ p.cl) {P : Nat} (hP : 0 < P) {s : State} (hs : IsReset P s)
    (htq : ∀ k, s.tq k < 2 ^ p.qw) (is : List In) (hst : strbOK is) (henv : EnvOK p s [] is) {q : Nat} {e1 e2 : List Ev}
    (ht : (run p s is).2 = e1 ++ .db q :: e2) (hi : issues q e2 = 0) (hc : issues q (run p s is).2 = dones q (run p s is).2) :
    q < 2 ^ p.qw ∧ fresh (run p s is).1 q = false ∧ ((run p s is).1.ram q).active = true := by
  have hne : s.pipe ≠ [] := by rw [hs.pipe]; intro e; rw [List.replicate_eq_nil_iff] at e; omega
  have hI := inv_reset hs htq
  obtain ⟨d1, d2⟩ := dinv_run hn hn2 is hI hne (dinv_reset hs) hst henv
  obtain ⟨is1, i, is2, g1, g2, g3⟩ := run_cut is s e1 e2 _ ht
  have hst1 : strbOK is1 := fun j hj => hst j (by rw [g1]; simp [hj])
  have hst2 : strbOK (i :: is2) := fun j hj => hst j (by rw [g1]; exact List.mem_append_right _ hj)
  obtain ⟨hI1, hne1⟩ := inv_run is1 hI hne hst1
  obtain ⟨pre, sl, hp, hev⟩ := ev_slot hne1 g3
  obtain ⟨ho, hq⟩ := evOf_db hev
  have hm : sl ∈ (run p s is1).1.pipe := by rw [hp]; simp
  have hql : q < 2 ^ p.qw := by rw [← hq]; exact hI1.qlt sl hm
  have hf1 : fresh (run p s is1).1 q = false := by
    rw [← hq]; exact not_fresh hI1 hm (by rw [ho]; simp) (by rw [ho]; simp)
  have hf : fresh (run p s is).1 q = false := by
    rw [g1, run_append]; exact fresh_mono (i :: is2) hI1 hne1 hst2 q hql hf1
  refine ⟨hql, hf, ?_⟩
  have h0 := d2 q
  have hz : outst s [] = [] := by
    have := dinv_reset (p := p) hs
    unfold outst outE
    rw [hs.finReg, hs.fin, hs.reqV, hs.pipe]
    unfold pipeC
    rw [List.filter_eq_nil_iff.mpr]
    · simp
    · intro x hx
      have hx : x ∈ List.replicate P Slot.none := by simpa using hx
      rw [(List.mem_replicate.mp hx).2]; simp [Slot.none]
  rw [hz, hc] at h0
  simp only [List.map_nil, List.count_nil] at h0
  have hcz : ((outst (run p s is).1 (envRun p s [] is)).map Ent.q).count q = 0 := by omega
  have hno : ∀ e ∈ outst (run p s is).1 (envRun p s [] is), e.q ≠ q := by
    intro e he e'
    have := List.count_eq_zero.mp hcz
    exact this (List.mem_map.mpr ⟨e, he, e'⟩)
  refine d1.a.p2 q ?_ (fun e he e' => absurd e' (hno e he))
  rw [ht, List.foldl_append, List.foldl_cons]
  exact pend_fold q e2 _ hi (by simp [pendEv, upd])

end Corundum.Sched
