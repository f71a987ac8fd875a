import Verif.Spec.PcieLink

namespace Corundum.PcieLink

/-! ### lists -/

theorem split_at {α : Type} {l : List α} {i : Nat} {x : α} (h : l[i]? = some x) : ∃ a b, l = a ++ x :: b ∧ l.eraseIdx i = a ++ b := by
  induction l generalizing i with
  | nil => simp at h
  | cons y l ih =>
    cases i with
    | zero => simp at h; subst h; exact ⟨[], l, rfl, rfl⟩
    | succ i =>
      simp at h
      obtain ⟨a, b, e1, e2⟩ := ih h
      exact ⟨y :: a, b, by rw [e1]; rfl, by simp [e2]⟩

theorem sends_append (c : Cfg) (a b : List Ev) (s : St) : sends c (a ++ b) s = sends c a s ++ sends c b (a.foldl (St.step c) s) := by
  induction a generalizing s with
  | nil => rfl
  | cons e a ih => simp only [List.cons_append, sends, ih, List.append_assoc, List.foldl_cons]

theorem sent_snoc (c : Cfg) (es : List Ev) (e : Ev) :
    sent c (es ++ [e]) = sent c es ++ (match e with | .send p => [((run c es).now, p)] | _ => []) := by
  unfold sent
  rw [sends_append]
  simp only [sends, List.append_nil]
  rfl

theorem run_snoc (c : Cfg) (es : List Ev) (e : Ev) : run c (es ++ [e]) = (run c es).step c e := by
  unfold run
  rw [List.foldl_append]
  rfl

theorem free_snoc (ser : Pkt → Nat) (f : Nat) (l : List (Nat × Pkt)) (t : Nat) (p : Pkt) :
    free ser f (l ++ [(t, p)]) = max t (free ser f l) + ser p := by
  induction l generalizing f with
  | nil => rfl
  | cons x l ih => obtain ⟨u, q⟩ := x; simp only [List.cons_append, free]; exact ih _

theorem wire_snoc (ser : Pkt → Nat) (k f : Nat) (l : List (Nat × Pkt)) (t : Nat) (p : Pkt) :
    wire ser k f (l ++ [(t, p)]) = wire ser k f l ++ [(max t (free ser f l) + ser p + k, p)] := by
  induction l generalizing f with
  | nil => rfl
  | cons x l ih => obtain ⟨u, q⟩ := x; simp only [List.cons_append, wire, free, ih]

/-- time on the wire of what waits -/
def total (ser : Pkt → Nat) (q : List Pkt) : Nat := (q.map ser).sum

theorem total_snoc (ser : Pkt → Nat) (q : List Pkt) (p : Pkt) : total ser (q ++ [p]) = total ser q + ser p := by
  simp [total]

theorem total_cons (ser : Pkt → Nat) (q : List Pkt) (p : Pkt) : total ser (p :: q) = ser p + total ser q := by
  simp [total]

/-! ### what holds whatever calls of `send` overlap -/

/-- the packet a job carries -/
def pk : Nat × Job → Option Pkt
  | (_, .wire p) => some p
  | (_, .fly p) => some p
  | _ => none

/-- a transmitter is at work -/
def Busy (s : St) : Prop := (∃ t, (t, Job.tx) ∈ s.jobs) ∨ ∃ t p, (t, Job.wire p) ∈ s.jobs

structure Inv (c : Cfg) (S : List (Nat × Pkt)) (s : St) : Prop where
  due : ∀ x ∈ s.jobs, s.now ≤ x.1
  flag : ∀ t, (t, Job.flag) ∈ s.jobs → t = s.now
  tx : ∀ t, (t, Job.tx) ∈ s.jobs → t = s.now ∧ t + total c.ser s.queue ≤ free c.ser 0 S
  wire : ∀ t p, (t, Job.wire p) ∈ s.jobs → t + total c.ser s.queue ≤ free c.ser 0 S ∧ ∃ u, (u, p) ∈ S ∧ u + c.ser p ≤ t
  fly : ∀ t p, (t, Job.fly p) ∈ s.jobs → t ≤ free c.ser 0 S + c.link ∧ ∃ u, (u, p) ∈ S ∧ u + c.ser p + c.link ≤ t
  queue : ∀ p ∈ s.queue, ∃ u, (u, p) ∈ S ∧ u ≤ s.now
  live : s.queue ≠ [] → Busy s
  flagLive : ∀ t, (t, Job.flag) ∈ s.jobs → (∃ t p, (t, Job.wire p) ∈ s.jobs ∧ s.now < t) ∨ (s.queue ≠ [] ∧ ∃ t, (t, Job.tx) ∈ s.jobs)
  schedLive : s.sched = true → Busy s
  perm : (s.out.map Prod.snd ++ s.jobs.filterMap pk ++ s.queue).Perm (S.map Prod.snd)
  out : ∀ t p, (t, p) ∈ s.out → ∃ u, (u, p) ∈ S ∧ u + c.ser p + c.link ≤ t

theorem inv_send {c : Cfg} {S : List (Nat × Pkt)} {s : St} (h : Inv c S s) (p : Pkt) : Inv c (S ++ [(s.now, p)]) (s.send p) := by
  have hF := free_snoc c.ser 0 S s.now p
  have hle : ∀ q, total c.ser (q ++ [p]) = total c.ser q + c.ser p := fun q => total_snoc c.ser q p
  have hbusy : Busy s → s.now + total c.ser s.queue ≤ free c.ser 0 S := by
    rintro (⟨t, ht⟩ | ⟨t, q, ht⟩)
    · have := h.tx t ht; omega
    · have := (h.wire t q ht).1; have := h.due _ ht; simp only at this; omega
  have hmax : s.now + total c.ser s.queue ≤ max s.now (free c.ser 0 S) := by
    by_cases hq : s.queue = []
    · rw [hq]; simp only [total, List.map_nil, List.sum_nil]; omega
    · have := hbusy (h.live hq); omega
  have hw : ∀ t q, (t, Job.wire q) ∈ s.jobs → t + total c.ser (s.queue ++ [p]) ≤ free c.ser 0 (S ++ [(s.now, p)]) ∧
      ∃ u, (u, q) ∈ S ++ [(s.now, p)] ∧ u + c.ser q ≤ t := by
    intro t q ht
    obtain ⟨a, u, b1, b2⟩ := h.wire t q ht
    refine ⟨by rw [hF, hle]; omega, u, by simp [b1], b2⟩
  have hf : ∀ t q, (t, Job.fly q) ∈ s.jobs → t ≤ free c.ser 0 (S ++ [(s.now, p)]) + c.link ∧
      ∃ u, (u, q) ∈ S ++ [(s.now, p)] ∧ u + c.ser q + c.link ≤ t := by
    intro t q ht
    obtain ⟨a, u, b1, b2⟩ := h.fly t q ht
    refine ⟨by rw [hF]; omega, u, by simp [b1], b2⟩
  have hq : ∀ q ∈ s.queue ++ [p], ∃ u, (u, q) ∈ S ++ [(s.now, p)] ∧ u ≤ s.now := by
    intro q hq
    rcases List.mem_append.1 hq with hq | hq
    · obtain ⟨u, b1, b2⟩ := h.queue q hq
      exact ⟨u, by simp [b1], b2⟩
    · simp at hq; subst hq
      exact ⟨s.now, by simp, Nat.le_refl _⟩
  have ho : ∀ t q, (t, q) ∈ s.out → ∃ u, (u, q) ∈ S ++ [(s.now, p)] ∧ u + c.ser q + c.link ≤ t := by
    intro t q ht
    obtain ⟨u, b1, b2⟩ := h.out t q ht
    exact ⟨u, by simp [b1], b2⟩
  have htx : ∀ t, (t, Job.tx) ∈ s.jobs → t = s.now ∧ t + total c.ser (s.queue ++ [p]) ≤ free c.ser 0 (S ++ [(s.now, p)]) := by
    intro t ht
    have := h.tx t ht
    refine ⟨this.1, by rw [hF, hle]; omega⟩
  have hp := h.perm
  by_cases hs : s.sched = true
  · have e : s.send p = { s with queue := s.queue ++ [p] } := by simp [St.send, hs]
    rw [e]
    have hb := h.schedLive hs
    refine ⟨h.due, h.flag, htx, hw, hf, hq, fun _ => hb, ?_, fun _ => hb, ?_, ho⟩
    · intro t ht
      rcases h.flagLive t ht with a | ⟨a, b⟩
      · exact Or.inl a
      · exact Or.inr ⟨by simp, b⟩
    · simp only [List.map_append, List.map_cons, List.map_nil]
      rw [← List.append_assoc]
      exact hp.append_right _
  · have hs : s.sched = false := by simpa using hs
    have e : s.send p = { s with queue := s.queue ++ [p], jobs := s.jobs ++ [(s.now, .tx), (s.now, .flag)] } := by simp [St.send, hs]
    rw [e]
    have hb : Busy { s with queue := s.queue ++ [p], jobs := s.jobs ++ [(s.now, Job.tx), (s.now, Job.flag)] } := Or.inl ⟨s.now, by simp⟩
    refine ⟨?_, ?_, ?_, ?_, ?_, hq, fun _ => hb, ?_, fun _ => hb, ?_, ho⟩
    · intro x hx
      rcases List.mem_append.1 hx with hx | hx
      · exact h.due x hx
      · simp at hx; rcases hx with rfl | rfl <;> exact Nat.le_refl _
    · intro t ht
      rcases List.mem_append.1 ht with ht | ht
      · exact h.flag t ht
      · simpa using ht
    · intro t ht
      rcases List.mem_append.1 ht with ht | ht
      · exact htx t ht
      · have : t = s.now := by simpa using ht
        subst this
        exact ⟨rfl, by rw [hF]; simp only [hle]; omega⟩
    · intro t q ht
      exact hw t q (by simpa using ht)
    · intro t q ht
      exact hf t q (by simpa using ht)
    · intro t _
      exact Or.inr ⟨by simp, s.now, by simp⟩
    · simp only [List.map_append, List.map_cons, List.map_nil, List.filterMap_append, List.filterMap_cons, pk, List.filterMap_nil, List.append_nil]
      rw [← List.append_assoc]
      exact hp.append_right _

theorem inv_exec {c : Cfg} (hser : ∀ p, 1 ≤ c.ser p) {S : List (Nat × Pkt)} {s : St} (h : Inv c S s) {a b : List (Nat × Job)} {j : Job}
    (e : s.jobs = a ++ (s.now, j) :: b) : Inv c S ({ s with jobs := a ++ b }.exec c j) := by
  have up : ∀ x, x ∈ a ++ b → x ∈ s.jobs := by
    intro x hx
    rw [e]; simp at hx ⊢
    rcases hx with hx | hx
    · exact Or.inl hx
    · exact Or.inr (Or.inr hx)
  have down : ∀ x, x ∈ s.jobs → x ≠ (s.now, j) → x ∈ a ++ b := by
    intro x hx hn
    rw [e] at hx; simp at hx ⊢
    rcases hx with hx | hx | hx
    · exact Or.inl hx
    · exact absurd hx hn
    · exact Or.inr hx
  have hj : (s.now, j) ∈ s.jobs := by rw [e]; simp
  have hp := h.perm
  rw [e] at hp
  cases j with
  | flag =>
    have hb : Busy { s with jobs := a ++ b, sched := true } := by
      rcases h.flagLive _ hj with ⟨t, p, h1, h2⟩ | ⟨_, t, h1⟩
      · exact Or.inr ⟨t, p, down _ h1 (by simp)⟩
      · exact Or.inl ⟨t, down _ h1 (by simp)⟩
    refine ⟨fun x hx => h.due x (up x hx), fun t ht => h.flag t (up _ ht), fun t ht => h.tx t (up _ ht), fun t p ht => h.wire t p (up _ ht),
      fun t p ht => h.fly t p (up _ ht), h.queue, fun _ => hb, ?_, fun _ => hb, ?_, h.out⟩
    · intro t ht
      rcases h.flagLive t (up _ ht) with ⟨t, p, h1, h2⟩ | ⟨h0, t, h1⟩
      · exact Or.inl ⟨t, p, down _ h1 (by simp), h2⟩
      · exact Or.inr ⟨h0, t, down _ h1 (by simp)⟩
    · simpa only [St.exec, List.filterMap_append, List.filterMap_cons, pk] using hp
  | tx =>
    obtain ⟨q0, hq⟩ : ∃ q, s.queue = q := ⟨_, rfl⟩
    cases q0 with
    | nil =>
      have e' : { s with jobs := a ++ b }.exec c .tx = { s with jobs := a ++ b, sched := false } := by simp [St.exec, hq]
      rw [e']
      refine ⟨fun x hx => h.due x (up x hx), fun t ht => h.flag t (up _ ht), fun t ht => h.tx t (up _ ht), fun t p ht => h.wire t p (up _ ht),
        fun t p ht => h.fly t p (up _ ht), h.queue, fun hn => absurd hq hn, ?_, fun hn => by simp at hn, ?_, h.out⟩
      · intro t ht
        rcases h.flagLive t (up _ ht) with ⟨t, p, h1, h2⟩ | ⟨h0, _⟩
        · exact Or.inl ⟨t, p, down _ h1 (by simp), h2⟩
        · exact absurd hq h0
      · simpa only [List.filterMap_append, List.filterMap_cons, pk] using hp
    | cons p q =>
      have e' : { s with jobs := a ++ b }.exec c .tx = { s with queue := q, jobs := (a ++ b) ++ [(s.now + c.ser p, .wire p)] } := by simp [St.exec, hq]
      rw [e']
      have hm : (s.now + c.ser p, Job.wire p) ∈ (a ++ b) ++ [(s.now + c.ser p, Job.wire p)] := by simp
      have hs1 := hser p
      have hb : Busy { s with queue := q, jobs := (a ++ b) ++ [(s.now + c.ser p, Job.wire p)] } := Or.inr ⟨_, _, hm⟩
      have htot : total c.ser s.queue = c.ser p + total c.ser q := by rw [hq, total_cons]
      refine ⟨?_, ?_, ?_, ?_, ?_, ?_, fun _ => hb, ?_, fun _ => hb, ?_, h.out⟩
      · intro x hx
        rcases List.mem_append.1 hx with hx | hx
        · exact h.due x (up x hx)
        · simp at hx; subst hx; simp only; omega
      · intro t ht
        exact h.flag t (up _ (by simpa using ht))
      · intro t ht
        have := h.tx t (up _ (by simpa using ht))
        refine ⟨this.1, ?_⟩
        simp only; omega
      · intro t q' ht
        rcases List.mem_append.1 ht with ht | ht
        · obtain ⟨a1, a2⟩ := h.wire t q' (up _ ht)
          refine ⟨?_, a2⟩
          simp only; omega
        · simp at ht; obtain ⟨rfl, rfl⟩ := ht
          have := (h.tx _ hj).2
          obtain ⟨u, b1, b2⟩ := h.queue q' (by rw [hq]; simp)
          refine ⟨?_, u, b1, by omega⟩
          simp only; omega
      · intro t q' ht
        exact h.fly t q' (up _ (by simpa using ht))
      · intro q' hq'
        exact h.queue q' (by rw [hq]; simp [hq'])
      · intro t ht
        refine Or.inl ⟨_, _, hm, ?_⟩
        simp only; omega
      · refine List.Perm.trans ?_ hp
        rw [hq]
        simp only [List.filterMap_append, List.filterMap_cons, pk, List.filterMap_nil, List.append_assoc, List.cons_append, List.nil_append]
        exact List.Perm.refl _
  | wire p =>
    have hm : (s.now, Job.tx) ∈ (a ++ b) ++ [(s.now, Job.tx), (s.now + c.link, Job.fly p)] := by simp
    have hb : Busy { s with jobs := (a ++ b) ++ [(s.now, Job.tx), (s.now + c.link, Job.fly p)] } := Or.inl ⟨_, hm⟩
    have hw := h.wire _ _ hj
    refine ⟨?_, ?_, ?_, ?_, ?_, h.queue, fun _ => hb, ?_, fun _ => hb, ?_, h.out⟩
    · intro x hx
      rcases List.mem_append.1 hx with hx | hx
      · exact h.due x (up x hx)
      · simp at hx; rcases hx with rfl | rfl <;> simp [St.exec]
    · intro t ht
      exact h.flag t (up _ (by simpa [St.exec] using ht))
    · intro t ht
      rcases List.mem_append.1 ht with ht | ht
      · exact h.tx t (up _ ht)
      · have : t = s.now := by simpa using ht
        subst this
        exact ⟨rfl, hw.1⟩
    · intro t q ht
      exact h.wire t q (up _ (by simpa [St.exec] using ht))
    · intro t q ht
      rcases List.mem_append.1 ht with ht | ht
      · exact h.fly t q (up _ ht)
      · simp at ht; obtain ⟨rfl, rfl⟩ := ht
        obtain ⟨a1, u, b1, b2⟩ := hw
        exact ⟨by omega, u, b1, by omega⟩
    · intro t ht
      rcases h.flagLive t (up _ (by simpa [St.exec] using ht)) with ⟨t, q, h1, h2⟩ | ⟨h0, t, h1⟩
      · exact Or.inl ⟨t, q, List.mem_append_left _ (down _ h1 (by
          intro hh
          simp at hh
          omega)), h2⟩
      · exact Or.inr ⟨h0, _, hm⟩
    · refine List.Perm.trans ?_ hp
      simp only [St.exec, List.filterMap_append, List.filterMap_cons, pk, List.filterMap_nil]
      refine List.Perm.append_right _ (List.Perm.append_left _ ?_)
      rw [List.append_assoc]
      exact (List.perm_append_singleton p _).append_left _
  | fly p =>
    have hb : Busy s → Busy { s with jobs := a ++ b, out := s.out ++ [(s.now, p)] } := by
      rintro (⟨t, h1⟩ | ⟨t, q, h1⟩)
      · exact Or.inl ⟨t, down _ h1 (by simp)⟩
      · exact Or.inr ⟨t, q, down _ h1 (by simp)⟩
    have hf := h.fly _ _ hj
    refine ⟨fun x hx => h.due x (up x hx), fun t ht => h.flag t (up _ ht), fun t ht => h.tx t (up _ ht), fun t p ht => h.wire t p (up _ ht),
      fun t p ht => h.fly t p (up _ ht), h.queue, fun hn => hb (h.live hn), ?_, fun hn => hb (h.schedLive hn), ?_, ?_⟩
    · intro t ht
      rcases h.flagLive t (up _ ht) with ⟨t, p, h1, h2⟩ | ⟨h0, t, h1⟩
      · exact Or.inl ⟨t, p, down _ h1 (by simp), h2⟩
      · exact Or.inr ⟨h0, t, down _ h1 (by simp)⟩
    · refine List.Perm.trans ?_ hp
      simp only [St.exec, List.filterMap_append, List.filterMap_cons, pk, List.filterMap_nil, List.map_append, List.map_cons, List.map_nil]
      refine List.Perm.append_right _ ?_
      rw [List.append_assoc, List.singleton_append]
      exact (List.perm_middle.symm).append_left _
    · intro t q ht
      rcases List.mem_append.1 ht with ht | ht
      · exact h.out t q ht
      · simp at ht; obtain ⟨rfl, rfl⟩ := ht
        exact hf.2

theorem inv_tick {c : Cfg} {S : List (Nat × Pkt)} {s : St} (h : Inv c S s) (hn : ∀ x ∈ s.jobs, x.1 ≠ s.now) : Inv c S { s with now := s.now + 1 } := by
  refine ⟨?_, ?_, ?_, h.wire, h.fly, ?_, ?_, ?_, ?_, h.perm, h.out⟩
  · intro x hx
    have := h.due x hx
    have := hn x hx
    simp only; omega
  · intro t ht
    exact absurd (h.flag t ht) (hn _ ht)
  · intro t ht
    exact absurd (h.tx t ht).1 (hn _ ht)
  · intro p hp
    obtain ⟨u, b1, b2⟩ := h.queue p hp
    exact ⟨u, b1, by simp only; omega⟩
  · exact h.live
  · intro t ht
    exact absurd (h.flag t ht) (hn _ ht)
  · exact h.schedLive

theorem any_due (s : St) : s.jobs.any (fun x => x.1 == s.now) = true ↔ ∃ x ∈ s.jobs, x.1 = s.now := by
  simp [List.any_eq_true]

theorem inv_run {c : Cfg} (hser : ∀ p, 1 ≤ c.ser p) (es : List Ev) : Inv c (sent c es) (run c es) := by
  suffices ∀ n (es : List Ev), es.length = n → Inv c (sent c es) (run c es) from this _ es rfl
  intro n
  induction n with
  | zero =>
    intro es he
    rw [List.length_eq_zero_iff.1 he]
    constructor <;> simp [run, sent, sends, Busy]
  | succ n ih =>
    intro es he
    have hne : es ≠ [] := by intro h; simp [h] at he
    rw [← List.dropLast_concat_getLast hne]
    have h := ih es.dropLast (by simp [he])
    generalize es.getLast hne = e
    generalize es.dropLast = es' at h
    rw [run_snoc, sent_snoc]
    cases e with
    | send p => exact inv_send h p
    | run i =>
      simp only [List.append_nil, St.step]
      cases hi : (run c es').jobs[i]? with
      | none => exact h
      | some x =>
        obtain ⟨t, j⟩ := x
        by_cases ht : t = (run c es').now
        · simp only [ht, if_true]
          obtain ⟨a, b, e1, e2⟩ := split_at hi
          rw [e2]
          exact inv_exec hser h (by rw [e1, ht])
        · simp only [ht, if_false]
          exact h
    | tick =>
      simp only [List.append_nil, St.step]
      by_cases hd : ((run c es').jobs.any fun x => x.1 == (run c es').now) = true
      · rw [if_pos hd]; exact h
      · rw [if_neg hd]
        refine inv_tick h ?_
        intro x hx hh
        exact hd ((any_due _).2 ⟨x, hx, hh⟩)

/-- once the wire has been free for the delay of the link, all is delivered -/
theorem Inv.done {c : Cfg} {S : List (Nat × Pkt)} {s : St} (h : Inv c S s) (hn : free c.ser 0 S + c.link < s.now) :
    s.jobs = [] ∧ s.queue = [] ∧ (s.out.map Prod.snd).Perm (S.map Prod.snd) := by
  have nb : ¬ Busy s := by
    rintro (⟨t, ht⟩ | ⟨t, p, ht⟩)
    · have := h.tx t ht; have := h.due _ ht; simp only at this; omega
    · have := (h.wire t p ht).1; have := h.due _ ht; simp only at this; omega
  have hq : s.queue = [] := Classical.byContradiction fun hq => nb (h.live hq)
  have hj : s.jobs = [] := by
    rw [List.eq_nil_iff_forall_not_mem]
    rintro ⟨t, j⟩ hx
    cases j with
    | flag =>
      rcases h.flagLive t hx with ⟨t, p, h1, _⟩ | ⟨h0, _⟩
      · exact nb (Or.inr ⟨t, p, h1⟩)
      · exact h0 hq
    | tx => exact nb (Or.inl ⟨t, hx⟩)
    | wire p => exact nb (Or.inr ⟨t, p, hx⟩)
    | fly p => have := (h.fly t p hx).1; have := h.due _ hx; simp only at this; omega
  refine ⟨hj, hq, ?_⟩
  have := h.perm
  rw [hj, hq] at this
  simpa using this

theorem Inv.idle {c : Cfg} {S : List (Nat × Pkt)} {s : St} (h : Inv c S s) (hj : s.jobs = []) :
    s.queue = [] ∧ (s.out.map Prod.snd).Perm (S.map Prod.snd) := by
  have hq : s.queue = [] := Classical.byContradiction fun hq => by
    rcases h.live hq with ⟨t, ht⟩ | ⟨t, p, ht⟩ <;> simp [hj] at ht
  refine ⟨hq, ?_⟩
  have := h.perm
  rw [hj, hq] at this
  simpa using this

end Corundum.PcieLink
