import Verif.Proof.TxCsumOut

namespace Corundum.TxCsum

/-- nothing arrives and everybody is ready -/
def idle : In := { mready := true, dready := true, cready := true, dshow := true, cshow := true }

theorem idle_cmd (s : S) : takeCmd s idle = none := by unfold takeCmd idle; split <;> rfl
theorem idle_beat (s : S) : takeBeat s idle = none := by unfold takeBeat idle; split <;> rfl
theorem idle_legal (g : G) : Legal g idle := ⟨(by intro b h; cases h), (by intro c h; cases h), fun _ => rfl⟩

theorem idle_done (P : Params) (s : S) (g : G) : (watch P s g idle).done = g.done := by
  show (match takeBeat s idle with | some b => if b.last then g.done ++ [(g.cur, g.part ++ [b])] else g.done | none => g.done) = _
  rw [idle_beat]

theorem idle_dq (P : Params) (s : S) : (next P s idle).dq = if (popD s idle).isSome then s.dq.tail else s.dq := by
  show (if (popD s idle).isSome then s.dq.tail else s.dq) ++ (takeBeat s idle).toList = _
  rw [idle_beat]; simp

theorem idle_fl (P : Params) (s : S) (g : G) (h : H) (l : Nat) : (hnext P s g h idle).fl l = if l = 0 then none else h.fl (l - 1) := by
  show (if l = 0 then (match takeBeat s idle with
      | some b => some (itemOf P g.cur g.part.length b)
      | none => if idle.cready then none else h.fl 0) else if idle.cready then h.fl (l - 1) else h.fl l) = _
  rw [idle_beat]; rfl

/-- stages before `k` are empty -/
def Emp (k : Nat) (h : H) : Prop := ∀ l, l < k → h.fl l = none

/-- what is still to be done -/
def todo (x : Sys) (h : H) : Nat := (x.g.done.length - h.opened) + x.s.dq.length

structure Phase (P : Params) (k : Nat) (x : Sys) (h : H) : Prop where
  i : InvI P x.s x.g h
  o : InvO P x.s x.g h
  e : Emp k h

theorem phase_step {P : Params} (hd : P.d ≤ 14) {k : Nat} {x : Sys} {h : H} (hp : Phase P k x h) :
    Phase P (k + 1) (step P x idle) (hnext P x.s x.g h idle) ∧ (step P x idle).g.done = x.g.done ∧
      todo (step P x idle) (hnext P x.s x.g h idle) ≤ todo x h ∧ (step P x idle).s.oready = true := by
  refine ⟨⟨inv_in hd hp.i (idle_legal _), inv_out hd hp.o hp.i (idle_legal _), fun l hl => ?_⟩, idle_done P x.s x.g, ?_, rfl⟩
  · rw [idle_fl]
    split
    · rfl
    · exact hp.e _ (by omega)
  · show ((watch P x.s x.g idle).done.length - (h.opened + (popC x.s idle).isSome.toNat)) + (next P x.s idle).dq.length ≤ _
    rw [idle_done, idle_dq]
    unfold todo
    split
    · rw [List.length_tail]; omega
    · omega

theorem phase_run {P : Params} (hd : P.d ≤ 14) (n : Nat) : ∀ {k : Nat} {x : Sys} {h : H}, Phase P k x h →
    ∃ h', Phase P (k + n) (run P x (List.replicate n idle)) h' ∧ (run P x (List.replicate n idle)).g.done = x.g.done ∧ todo (run P x (List.replicate n idle)) h' ≤ todo x h := by
  induction n with
  | zero => intro k x h hp; exact ⟨h, hp, rfl, Nat.le_refl _⟩
  | succ n ih =>
    intro k x h hp
    obtain ⟨h1, h2, h3, _⟩ := phase_step hd hp
    obtain ⟨h', g1, g2, g3⟩ := ih h1
    refine ⟨h', ?_, ?_, ?_⟩
    · rw [show k + (n + 1) = k + 1 + n by omega]; exact g1
    · exact g2.trans h2
    · exact Nat.le_trans g3 h3

theorem flight_emp (n : Nat) (f : Nat → Option AItem) (h : ∀ l, l < n → f l = none) : flight n f = [] := by
  induction n with
  | zero => rfl
  | succ n ih => rw [flight, ih (fun l hl => h l (by omega)), h n (by omega)]; rfl

theorem sums_all {P : Params} (hd : P.d ≤ 14) {k : Nat} {x : Sys} {h : H} (hp : Phase P k x h) (hk : P.d < k) : h.sums = x.g.done.map (entryOf P) := by
  obtain ⟨con, c1, c2⟩ := hp.i.acc
  rw [flight_emp _ _ (fun l hl => hp.e l (by omega)), List.append_nil] at c1
  rw [← c1, hp.i.items, accRun_append, acc_all P hd _ hp.i.whole, List.nil_append] at c2
  cases ht : x.s.transfer with
  | false =>
    rw [hp.i.idle ht] at c2
    exact (congrArg Prod.fst c2).symm
  | true =>
    obtain ⟨a, h1, _⟩ := acc_open P hd x.g.cur (hp.i.cinit ht) (x.g.done.map (entryOf P)) x.g.part hp.i.pbyte hp.i.plast
    rw [h1] at c2
    exact (congrArg Prod.fst c2).symm

theorem no_finish {P : Params} {k : Nat} {x : Sys} {h : H} (hp : Phase P k x h) (hk : P.d < k) : finish P x.s idle = none := by
  have h1 := hp.i.fits P.d (Nat.le_refl _)
  unfold Fits at h1
  rw [hp.e P.d hk] at h1
  have : x.s.pipe P.d = none := by
    cases hq : x.s.pipe P.d with
    | none => rfl
    | some it => rw [hq] at h1; exact h1.elim
  show (if true = true then x.s.pipe P.d else none).bind _ = none
  rw [this]; rfl

/-- the tree is empty and the output moves -/
structure Late (P : Params) (x : Sys) (h : H) : Prop where
  p : Phase P (P.d + 1) x h
  c : x.s.cin = none
  r : x.s.oready = true

theorem emp_mono {P : Params} {k k' : Nat} {x : Sys} {h : H} (hp : Phase P k x h) (hk : k' ≤ k) : Phase P k' x h := ⟨hp.i, hp.o, fun l hl => hp.e l (by omega)⟩

def Finished (x : Sys) : Prop := x.s.frame = false ∧ x.s.cq = []

theorem finished_out {P : Params} (hd : P.d ≤ 14) {x : Sys} {h : H} (hl : Late P x h) (hf : Finished x) :
    x.g.out ++ x.s.m.toList = x.g.done.flatMap (fix P) := by
  have h1 := (hl.p.o.shut hf.1).1
  have h2 := hl.p.o.sums
  rw [hf.2, hl.c] at h2
  have h3 : h.sums.length ≤ h.opened := List.drop_eq_nil_iff.1 h2.symm
  rw [hl.p.o.skid hl.r, List.take_of_length_le] at h1
  · simpa using h1
  · rw [sums_all hd hl.p (by omega), List.length_map] at h3; exact h3

theorem late_step {P : Params} (hd : P.d ≤ 14) {x : Sys} {h : H} (hl : Late P x h) :
    Late P (step P x idle) (hnext P x.s x.g h idle) ∧ (Finished x → Finished (step P x idle)) ∧
      (¬ Finished x → todo (step P x idle) (hnext P x.s x.g h idle) < todo x h) := by
  obtain ⟨h1, h2, h3, h4⟩ := phase_step hd hl.p
  have hcq : (next P x.s idle).cq = if (popC x.s idle).isSome then x.s.cq.tail else x.s.cq := by
    show (if (popC x.s idle).isSome then x.s.cq.tail else x.s.cq) ++ (if true = true then x.s.cin.toList else []) = _
    rw [hl.c]; simp
  refine ⟨⟨emp_mono h1 (by omega), no_finish hl.p (by omega), h4⟩, ?_, ?_⟩
  · rintro ⟨f1, f2⟩
    have hp : popC x.s idle = none := by unfold popC; rw [f2]; split <;> rfl
    refine ⟨?_, ?_⟩
    · show (if x.s.frame then _ else (popC x.s idle).isSome) = false
      rw [f1, hp]; rfl
    · show (next P x.s idle).cq = []
      rw [hcq, hp, f2]; rfl
  · intro hn
    show ((watch P x.s x.g idle).done.length - (h.opened + (popC x.s idle).isSome.toNat)) + (next P x.s idle).dq.length < _
    rw [idle_done, idle_dq]
    unfold todo
    cases hf : x.s.frame with
    | false =>
      have hp : (popC x.s idle).isSome = true := by
        have : x.s.cq ≠ [] := fun hc => hn ⟨hf, hc⟩
        unfold popC; rw [hf]
        cases hq : x.s.cq with
        | nil => exact absurd hq this
        | cons a l => rfl
      have hpd : popD x.s idle = none := by unfold popD; rw [hf]; simp
      rw [hp, hpd]
      have hol : h.opened < h.sums.length := by
        have h5 := hl.p.o.sums
        obtain ⟨e, he⟩ := Option.isSome_iff_exists.1 hp
        rw [(popC_some he).2, List.cons_append] at h5
        have h6 := (getElem?_drop_cons h5.symm).1
        rcases Nat.lt_or_ge h.opened h.sums.length with hx | hx
        · exact hx
        · rw [List.getElem?_eq_none hx] at h6; cases h6
      rw [sums_all hd hl.p (by omega), List.length_map] at hol
      simp only [Bool.toNat_true, Option.isSome_none, Bool.false_eq_true, if_false]
      omega
    | true =>
      obtain ⟨y, k, k1, k2, k3, _, _, k6⟩ := hl.p.o.opn hf
      have hne : x.s.dq ≠ [] := by
        intro hc
        have := congrArg List.length (k6.symm.trans hc)
        simp only [List.length_append, List.length_drop, List.length_nil] at this
        omega
      have hpd : (popD x.s idle).isSome = true := by
        unfold popD; rw [hf, hl.r]
        cases hq : x.s.dq with
        | nil => exact absurd hq hne
        | cons a l => rfl
      rw [hpd, if_pos rfl, List.length_tail]
      have := List.length_pos_iff.2 hne
      omega

theorem late_run {P : Params} (hd : P.d ≤ 14) (n : Nat) : ∀ {x : Sys} {h : H}, Late P x h → todo x h ≤ n →
    ∃ h', Late P (run P x (List.replicate n idle)) h' ∧ Finished (run P x (List.replicate n idle)) ∧ (run P x (List.replicate n idle)).g.done = x.g.done := by
  have hzero : ∀ {x : Sys} {h : H}, Late P x h → todo x h = 0 → Finished x := by
    intro x h hl ht
    rcases Classical.em (Finished x) with hf | hf
    · exact hf
    · have := (late_step hd hl).2.2 hf; omega
  have hfin : ∀ n {x : Sys} {h : H}, Late P x h → Finished x →
      ∃ h', Late P (run P x (List.replicate n idle)) h' ∧ Finished (run P x (List.replicate n idle)) ∧ (run P x (List.replicate n idle)).g.done = x.g.done := by
    intro n
    induction n with
    | zero => intro x h hl hf; exact ⟨h, hl, hf, rfl⟩
    | succ n ih =>
      intro x h hl hf
      obtain ⟨h1, h2, _⟩ := late_step hd hl
      obtain ⟨h', g1, g2, g3⟩ := ih h1 (h2 hf)
      exact ⟨h', g1, g2, g3.trans (idle_done P x.s x.g)⟩
  induction n with
  | zero => intro x h hl ht; exact ⟨h, hl, hzero hl (Nat.le_zero.1 ht), rfl⟩
  | succ n ih =>
    intro x h hl ht
    rcases Classical.em (Finished x) with hf | hf
    · exact hfin (n + 1) hl hf
    · obtain ⟨h1, _, h3⟩ := late_step hd hl
      obtain ⟨h', g1, g2, g3⟩ := ih h1 (by have := h3 hf; omega)
      exact ⟨h', g1, g2, g3.trans (idle_done P x.s x.g)⟩

theorem run_append (P : Params) (x : Sys) (a b : List In) : run P x (a ++ b) = run P (run P x a) b := List.foldl_append

theorem drain {P : Params} (hd : P.d ≤ 14) {x : Sys} {h : H} (hi : InvI P x.s x.g h) (ho : InvO P x.s x.g h) (n : Nat)
    (hn : P.d + 3 + x.g.done.length + x.s.dq.length ≤ n) :
    (run P x (List.replicate n idle)).g.out = x.g.done.flatMap (fix P) := by
  obtain ⟨h1, p1, d1, t1⟩ := phase_run hd (P.d + 1) (k := 0) ⟨hi, ho, fun l hl => by omega⟩
  obtain ⟨p2, d2, t2, r2⟩ := phase_step hd p1
  have hl : Late P (step P (run P x (List.replicate (P.d + 1) idle)) idle) (hnext P _ _ h1 idle) :=
    ⟨emp_mono p2 (by omega), no_finish p1 (by omega), r2⟩
  have ht : todo x h ≤ x.g.done.length + x.s.dq.length := by unfold todo; omega
  obtain ⟨m, hm⟩ : ∃ m, n = (P.d + 1) + (1 + (m + 1)) := ⟨n - (P.d + 3), by omega⟩
  obtain ⟨h3, l3, f3, d3⟩ := late_run hd m hl (by omega)
  have hfo := finished_out hd l3 f3
  obtain ⟨l4, _⟩ := late_step hd l3
  have e : List.replicate n idle = List.replicate (P.d + 1) idle ++ (List.replicate 1 idle ++ (List.replicate m idle ++ [idle])) := by
    rw [← List.replicate_succ', List.replicate_append_replicate, List.replicate_append_replicate, hm]
  rw [e, run_append, run_append, run_append]
  generalize hz : run P (run P (run P x (List.replicate (P.d + 1) idle)) (List.replicate 1 idle)) (List.replicate m idle) = z
  have hz' : run P (step P (run P x (List.replicate (P.d + 1) idle)) idle) (List.replicate m idle) = z := hz
  rw [hz'] at hfo d3
  rw [d3, d2, d1] at hfo
  rw [← hfo]
  rfl

end Corundum.TxCsum
