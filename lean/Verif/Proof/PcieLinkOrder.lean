import Verif.Proof.PcieLink

namespace Corundum.PcieLink

/-! ### everything is delivered in the end -/

/-- steps left to a job -/
def jobW : Nat × Job → Nat
  | (_, .wire _) => 3
  | _ => 1

/-- steps left, without those of time -/
def St.weight (s : St) : Nat := 5 * s.queue.length + (s.jobs.map jobW).sum

theorem weight_exec (c : Cfg) (s : St) {a b : List (Nat × Job)} {t : Nat} {j : Job} (e : s.jobs = a ++ (t, j) :: b) :
    ({ s with jobs := a ++ b }.exec c j).weight < s.weight ∧ ({ s with jobs := a ++ b }.exec c j).now = s.now := by
  unfold St.weight
  rw [e]
  cases j with
  | flag => simp [St.exec, jobW]
  | tx =>
    obtain ⟨q0, hq⟩ : ∃ q, s.queue = q := ⟨_, rfl⟩
    cases q0 with
    | nil => simp [St.exec, jobW, hq]
    | cons p q => simp [St.exec, jobW, hq]; omega
  | wire p => simp [St.exec, jobW]; omega
  | fly p => simp [St.exec, jobW]

theorem takes_run {c : Cfg} (hser : ∀ p, 1 ≤ c.ser p) (es : List Ev) :
    ∀ pre, Takes c (run c pre) es → sent c (pre ++ es) = sent c pre ∧
      ((run c pre).weight + (free c.ser 0 (sent c pre) + c.link + 1 - (run c pre).now) ≤ es.length → (run c (pre ++ es)).jobs = []) := by
  induction es with
  | nil =>
    intro pre _
    refine ⟨by simp, ?_⟩
    intro h
    have := (inv_run (c := c) hser pre).done (by simp at h; omega)
    simpa using this.1
  | cons e es ih =>
    intro pre ht
    obtain ⟨h1, h2⟩ := ht
    have hs : sent c (pre ++ [e]) = sent c pre := by
      rw [sent_snoc]
      cases e with
      | send p => exact absurd h1 (by simp [St.Can])
      | run i => simp
      | tick => simp
    rw [← run_snoc] at h2
    obtain ⟨i1, i2⟩ := ih _ h2
    rw [hs, List.append_assoc] at i1 i2
    refine ⟨i1, fun hl => i2 ?_⟩
    have key : (run c (pre ++ [e])).weight + (free c.ser 0 (sent c pre) + c.link + 1 - (run c (pre ++ [e])).now) + 1 ≤
        max 1 ((run c pre).weight + (free c.ser 0 (sent c pre) + c.link + 1 - (run c pre).now)) := by
      rw [run_snoc]
      cases e with
      | send p => exact absurd h1 (by simp [St.Can])
      | run i =>
        obtain ⟨j, hj⟩ := h1
        obtain ⟨a, b, e1, e2⟩ := split_at hj
        have hw := weight_exec c (run c pre) e1
        have : (run c pre).step c (.run i) = { run c pre with jobs := a ++ b }.exec c j := by
          simp only [St.step, hj, if_true, e2]
        have hw1 := hw.1
        have hw2 := hw.2
        rw [this, hw2]
        generalize (St.exec c { run c pre with jobs := a ++ b } j).weight = x at hw1 ⊢
        omega
      | tick =>
        have : (run c pre).step c .tick = { run c pre with now := (run c pre).now + 1 } := by
          have hn : ¬ ((run c pre).jobs.any fun x => x.1 == (run c pre).now) = true := by
            rw [any_due]
            rintro ⟨x, hx, hh⟩
            exact h1 x hx hh
          simp only [St.step]
          rw [if_neg hn]
        rw [this]
        by_cases hn : free c.ser 0 (sent c pre) + c.link < (run c pre).now
        · obtain ⟨d1, d2, _⟩ := (inv_run (c := c) hser pre).done hn
          have : (run c pre).weight = 0 := by simp [St.weight, d1, d2]
          have hw : ({ run c pre with now := (run c pre).now + 1 } : St).weight = 0 := by simp [St.weight, d1, d2]
          rw [hw]
          simp only
          omega
        · have hw : ({ run c pre with now := (run c pre).now + 1 } : St).weight = (run c pre).weight := rfl
          rw [hw]
          simp only
          omega
    simp only [List.length_cons] at hl
    omega

theorem can_some (s : St) : ∃ e, s.Can e := by
  by_cases h : ∃ x ∈ s.jobs, x.1 = s.now
  · obtain ⟨⟨t, j⟩, hx, hh⟩ := h
    obtain ⟨i, hi⟩ := List.mem_iff_getElem?.1 hx
    refine ⟨.run i, j, ?_⟩
    simp only at hh
    rw [hi, hh]
  · exact ⟨.tick, fun x hx hh => h ⟨x, hx, hh⟩⟩

/-! ### order, when calls of `send` do not overlap -/

/-- packets in flight -/
def flyOf : Nat × Job → Option (Nat × Pkt)
  | (t, .fly p) => some (t, p)
  | _ => none

/-- the transmitter -/
def chainOf : Nat × Job → Option (Nat × Option Pkt)
  | (t, .tx) => some (t, none)
  | (t, .wire p) => some (t, some p)
  | _ => none

/-- calls of `send` in progress -/
def flagOf : Nat × Job → Option Unit
  | (_, .flag) => some ()
  | _ => none

/-- deliveries of what waits, when the wire is free at `t` -/
def plan (c : Cfg) : Nat → List Pkt → List (Nat × Pkt)
  | _, [] => []
  | t, p :: q => (t + c.ser p + c.link, p) :: plan c (t + c.ser p) q

theorem plan_snoc (c : Cfg) (t : Nat) (q : List Pkt) (p : Pkt) :
    plan c t (q ++ [p]) = plan c t q ++ [(t + total c.ser q + c.ser p + c.link, p)] := by
  induction q generalizing t with
  | nil => simp [plan, total]
  | cons x q ih => simp [plan, ih, total_cons, Nat.add_assoc]

theorem wire_incr (c : Cfg) (hser : ∀ p, 1 ≤ c.ser p) (S : List (Nat × Pkt)) :
    ∀ f, (wire c.ser c.link f S).Pairwise (fun x y => x.1 < y.1) ∧ ∀ x ∈ wire c.ser c.link f S, f + c.link < x.1 := by
  induction S with
  | nil => intro f; simp [wire]
  | cons x S ih =>
    intro f
    obtain ⟨t, p⟩ := x
    have hp := hser p
    obtain ⟨i1, i2⟩ := ih (max t f + c.ser p)
    simp only [wire]
    refine ⟨List.pairwise_cons.2 ⟨fun y hy => i2 y hy, i1⟩, ?_⟩
    intro y hy
    rcases List.mem_cons.1 hy with rfl | hy
    · simp only; omega
    · have := i2 y hy
      omega

inductive Phase (c : Cfg) (S : List (Nat × Pkt)) (s : St) : List (Nat × Pkt) → Prop where
  | idle : s.jobs.filterMap chainOf = [] → s.jobs.filterMap flagOf = [] → s.sched = false → s.queue = [] → free c.ser 0 S ≤ s.now → Phase c S s []
  | tx : s.jobs.filterMap chainOf = [(s.now, none)] → free c.ser 0 S = s.now + total c.ser s.queue →
      ((s.jobs.filterMap flagOf = [()] ∧ s.queue ≠ []) ∨ (s.jobs.filterMap flagOf = [] ∧ s.sched = true)) → Phase c S s (plan c s.now s.queue)
  | wire (t : Nat) (p : Pkt) : s.jobs.filterMap chainOf = [(t, some p)] → s.now ≤ t → free c.ser 0 S = t + total c.ser s.queue →
      ((s.jobs.filterMap flagOf = [()] ∧ s.now < t) ∨ (s.jobs.filterMap flagOf = [] ∧ s.sched = true)) →
      Phase c S s ((t + c.link, p) :: plan c t s.queue)

structure Ord (c : Cfg) (S : List (Nat × Pkt)) (s : St) : Prop where
  ex : ∃ tail, Phase c S s tail ∧ s.out ++ s.jobs.filterMap flyOf ++ tail = PcieLink.wire c.ser c.link 0 S

theorem not_sending {s : St} (h : ¬ s.Sending) : s.jobs.filterMap flagOf = [] := by
  rw [List.filterMap_eq_nil_iff]
  rintro ⟨t, j⟩ hx
  cases j with
  | flag => exact absurd ⟨t, hx⟩ h
  | _ => rfl

theorem flags_none {s : St} (h : s.jobs.filterMap flagOf = []) : ∀ t, (t, Job.flag) ∉ s.jobs := by
  intro t ht
  have := List.filterMap_eq_nil_iff.1 h _ ht
  simp [flagOf] at this

theorem ord_send {c : Cfg} {S : List (Nat × Pkt)} {s : St} (h : Ord c S s) (hn : ¬ s.Sending) (p : Pkt) : Ord c (S ++ [(s.now, p)]) (s.send p) := by
  have hfl := not_sending hn
  obtain ⟨tail, hp, he⟩ := h.ex
  have hF := free_snoc c.ser 0 S s.now p
  have hW := wire_snoc c.ser c.link 0 S s.now p
  cases hp with
  | idle h1 h2 h3 h4 h5 =>
    have e : s.send p = { s with queue := s.queue ++ [p], jobs := s.jobs ++ [(s.now, .tx), (s.now, .flag)] } := by simp [St.send, h3]
    have hm : max s.now (free c.ser 0 S) = s.now := by omega
    rw [e]
    refine ⟨⟨plan c s.now (s.queue ++ [p]), ?_, ?_⟩⟩
    · refine Phase.tx (s := { s with queue := s.queue ++ [p], jobs := s.jobs ++ [(s.now, Job.tx), (s.now, Job.flag)] }) ?_ ?_ (Or.inl ⟨?_, by simp⟩)
      · simp [List.filterMap_append, h1, chainOf]
      · rw [hF, hm, h4]; simp [total]
      · rw [List.filterMap_append, h2]; rfl
    · rw [hW, hm, ← he, h4]
      simp [plan, List.filterMap_append, flyOf]
  | tx h1 h2 h3 =>
    have hs : s.sched = true := by
      rcases h3 with h3 | h3
      · rw [hfl] at h3; simp at h3
      · exact h3.2
    have e : s.send p = { s with queue := s.queue ++ [p] } := by simp [St.send, hs]
    have hm : max s.now (free c.ser 0 S) = s.now + total c.ser s.queue := by omega
    rw [e]
    refine ⟨⟨plan c s.now (s.queue ++ [p]), ?_, ?_⟩⟩
    · refine Phase.tx (s := { s with queue := s.queue ++ [p] }) h1 ?_ (Or.inr ⟨hfl, hs⟩)
      rw [hF, hm]
      simp only [total_snoc]
      omega
    · rw [hW, hm, ← he, plan_snoc]
      simp
  | wire t q h1 h0 h2 h3 =>
    have hs : s.sched = true := by
      rcases h3 with h3 | h3
      · rw [hfl] at h3; simp at h3
      · exact h3.2
    have e : s.send p = { s with queue := s.queue ++ [p] } := by simp [St.send, hs]
    have hm : max s.now (free c.ser 0 S) = t + total c.ser s.queue := by omega
    rw [e]
    refine ⟨⟨(t + c.link, q) :: plan c t (s.queue ++ [p]), ?_, ?_⟩⟩
    · refine Phase.wire (s := { s with queue := s.queue ++ [p] }) t q h1 h0 ?_ (Or.inr ⟨hfl, hs⟩)
      rw [hF, hm]
      simp only [total_snoc]
      omega
    · rw [hW, hm, ← he, plan_snoc]
      simp

theorem nil_of_single {α : Type} {a b : List α} {x y : α} (h : a ++ x :: b = [y]) : a = [] ∧ b = [] ∧ x = y := by
  cases a with
  | nil => simp at h; exact ⟨rfl, h.2, h.1⟩
  | cons z a => simp at h

theorem ord_exec {c : Cfg} (hser : ∀ p, 1 ≤ c.ser p) {S : List (Nat × Pkt)} {s : St} (hi : Inv c S s) (h : Ord c S s) {a b : List (Nat × Job)} {j : Job}
    (e : s.jobs = a ++ (s.now, j) :: b) : Ord c S ({ s with jobs := a ++ b }.exec c j) := by
  obtain ⟨tail, hp, he⟩ := h.ex
  have hfl : s.jobs.filterMap flyOf = a.filterMap flyOf ++ ((s.now, j) :: b).filterMap flyOf := by rw [e, List.filterMap_append]
  have hch : s.jobs.filterMap chainOf = a.filterMap chainOf ++ ((s.now, j) :: b).filterMap chainOf := by rw [e, List.filterMap_append]
  have hfg : s.jobs.filterMap flagOf = a.filterMap flagOf ++ ((s.now, j) :: b).filterMap flagOf := by rw [e, List.filterMap_append]
  cases j with
  | flag =>
    have efl : (a ++ b).filterMap flyOf = s.jobs.filterMap flyOf := by rw [hfl, List.filterMap_append]; rfl
    have ech : (a ++ b).filterMap chainOf = s.jobs.filterMap chainOf := by rw [hch, List.filterMap_append]; rfl
    have efg : s.jobs.filterMap flagOf = a.filterMap flagOf ++ () :: b.filterMap flagOf := by rw [hfg]; rfl
    refine ⟨⟨tail, ?_, ?_⟩⟩
    · have z : s.jobs.filterMap flagOf = [()] → (a ++ b).filterMap flagOf = [] := by
        intro hh
        rw [efg] at hh
        obtain ⟨z1, z2, _⟩ := nil_of_single hh
        rw [List.filterMap_append, z1, z2]
        rfl
      cases hp with
      | idle h1 h2 h3 h4 h5 => rw [efg] at h2; simp at h2
      | tx h1 h2 h3 =>
        refine Phase.tx (s := { s with jobs := a ++ b, sched := true }) (by rw [← h1, ← ech]) h2 (Or.inr ⟨?_, rfl⟩)
        rcases h3 with h3 | h3
        · exact z h3.1
        · have := h3.1; rw [efg] at this; simp at this
      | wire t q h1 h0 h2 h3 =>
        refine Phase.wire (s := { s with jobs := a ++ b, sched := true }) t q (by rw [← h1, ← ech]) h0 h2 (Or.inr ⟨?_, rfl⟩)
        rcases h3 with h3 | h3
        · exact z h3.1
        · have := h3.1; rw [efg] at this; simp at this
    · show s.out ++ (a ++ b).filterMap flyOf ++ tail = _
      rw [efl]; exact he
  | tx =>
    have efl : (a ++ b).filterMap flyOf = s.jobs.filterMap flyOf := by rw [hfl, List.filterMap_append]; rfl
    have efg : (a ++ b).filterMap flagOf = s.jobs.filterMap flagOf := by rw [hfg, List.filterMap_append]; rfl
    have ech : s.jobs.filterMap chainOf = a.filterMap chainOf ++ (s.now, none) :: b.filterMap chainOf := by rw [hch]; rfl
    cases hp with
    | idle h1 h2 h3 h4 h5 => rw [ech] at h1; simp at h1
    | wire t q h1 h0 h2 h3 =>
      rw [ech] at h1
      obtain ⟨_, _, z⟩ := nil_of_single h1
      simp at z
    | tx h1 h2 h3 =>
      rw [ech] at h1
      obtain ⟨z1, z2, _⟩ := nil_of_single h1
      have zc : (a ++ b).filterMap chainOf = [] := by rw [List.filterMap_append, z1, z2]; rfl
      obtain ⟨q0, hq⟩ : ∃ q, s.queue = q := ⟨_, rfl⟩
      cases q0 with
      | nil =>
        have e' : { s with jobs := a ++ b }.exec c .tx = { s with jobs := a ++ b, sched := false } := by simp [St.exec, hq]
        rw [e']
        rw [hq] at he
        refine ⟨⟨[], Phase.idle (s := { s with jobs := a ++ b, sched := false }) zc ?_ rfl hq ?_, ?_⟩⟩
        · rcases h3 with h3 | h3
          · exact absurd hq h3.2
          · rw [← h3.1, ← efg]
        · rw [h2, hq]; simp [total]
        · show s.out ++ (a ++ b).filterMap flyOf ++ [] = _
          rw [efl]; exact he
      | cons p q =>
        have e' : { s with jobs := a ++ b }.exec c .tx = { s with queue := q, jobs := (a ++ b) ++ [(s.now + c.ser p, .wire p)] } := by simp [St.exec, hq]
        rw [e']
        have hs1 := hser p
        rw [hq] at he
        refine ⟨⟨(s.now + c.ser p + c.link, p) :: plan c (s.now + c.ser p) q,
          Phase.wire (s := { s with queue := q, jobs := (a ++ b) ++ [(s.now + c.ser p, Job.wire p)] }) _ _ ?_ ?_ ?_ ?_, ?_⟩⟩
        · rw [List.filterMap_append, zc]; rfl
        · simp only; omega
        · rw [h2, hq, total_cons]; simp only; omega
        · have : ((a ++ b) ++ [(s.now + c.ser p, Job.wire p)]).filterMap flagOf = s.jobs.filterMap flagOf := by
            rw [List.filterMap_append, efg]; simp [flagOf]
          show (List.filterMap flagOf ((a ++ b) ++ [(s.now + c.ser p, Job.wire p)]) = [()] ∧ _) ∨ (List.filterMap flagOf ((a ++ b) ++ [(s.now + c.ser p, Job.wire p)]) = [] ∧ _)
          rw [this]
          rcases h3 with h3 | h3
          · exact Or.inl ⟨h3.1, by simp only; omega⟩
          · exact Or.inr h3
        · show s.out ++ ((a ++ b) ++ [(s.now + c.ser p, Job.wire p)]).filterMap flyOf ++ _ = _
          rw [List.filterMap_append, efl, ← he]
          simp [flyOf, plan]
  | wire p =>
    have efg : (a ++ b).filterMap flagOf = s.jobs.filterMap flagOf := by rw [hfg, List.filterMap_append]; rfl
    have efl : (a ++ b).filterMap flyOf = s.jobs.filterMap flyOf := by rw [hfl, List.filterMap_append]; rfl
    have ech : s.jobs.filterMap chainOf = a.filterMap chainOf ++ (s.now, some p) :: b.filterMap chainOf := by rw [hch]; rfl
    cases hp with
    | idle h1 h2 h3 h4 h5 => rw [ech] at h1; simp at h1
    | tx h1 h2 h3 =>
      rw [ech] at h1
      obtain ⟨_, _, z⟩ := nil_of_single h1
      simp at z
    | wire t q h1 h0 h2 h3 =>
      rw [ech] at h1
      obtain ⟨z1, z2, z⟩ := nil_of_single h1
      simp at z
      obtain ⟨rfl, rfl⟩ := z
      have zc : (a ++ b).filterMap chainOf = [] := by rw [List.filterMap_append, z1, z2]; rfl
      refine ⟨⟨plan c s.now s.queue, Phase.tx (s := { s with jobs := (a ++ b) ++ [(s.now, Job.tx), (s.now + c.link, Job.fly p)] }) ?_ h2 ?_, ?_⟩⟩
      · rw [List.filterMap_append, zc]; rfl
      · right
        rcases h3 with h3 | h3
        · exact absurd h3.2 (Nat.lt_irrefl _)
        · refine ⟨?_, h3.2⟩
          rw [List.filterMap_append, efg, h3.1]; rfl
      · show s.out ++ ((a ++ b) ++ [(s.now, Job.tx), (s.now + c.link, Job.fly p)]).filterMap flyOf ++ _ = _
        rw [List.filterMap_append, efl, ← he]
        have : [(s.now, Job.tx), (s.now + c.link, Job.fly p)].filterMap flyOf = [(s.now + c.link, p)] := rfl
        rw [this]
        simp
  | fly p =>
    have efg : (a ++ b).filterMap flagOf = s.jobs.filterMap flagOf := by rw [hfg, List.filterMap_append]; rfl
    have ech : (a ++ b).filterMap chainOf = s.jobs.filterMap chainOf := by rw [hch, List.filterMap_append]; rfl
    have efl : s.jobs.filterMap flyOf = a.filterMap flyOf ++ (s.now, p) :: b.filterMap flyOf := by rw [hfl]; rfl
    have za : a.filterMap flyOf = [] := by
      rw [List.eq_nil_iff_forall_not_mem]
      intro x hx
      have hinc := (wire_incr c hser S 0).1
      rw [← he, efl] at hinc
      have hlt : x.1 < s.now := by
        have h1 := (List.pairwise_append.1 hinc).1
        have h2 := (List.pairwise_append.1 h1).2.1
        exact (List.pairwise_append.1 h2).2.2 x hx (s.now, p) (by simp)
      obtain ⟨⟨t, j⟩, hm, hj⟩ := List.mem_filterMap.1 hx
      cases j with
      | fly q =>
        simp [flyOf] at hj
        subst hj
        have := hi.due (t, Job.fly q) (by rw [e]; simp [hm])
        simp only at this hlt
        omega
      | _ => simp [flyOf] at hj
    refine ⟨⟨tail, ?_, ?_⟩⟩
    · cases hp with
      | idle h1 h2 h3 h4 h5 =>
        exact Phase.idle (s := { s with jobs := a ++ b, out := s.out ++ [(s.now, p)] }) (by rw [← h1, ← ech]) (by rw [← h2, ← efg]) h3 h4 h5
      | tx h1 h2 h3 =>
        refine Phase.tx (s := { s with jobs := a ++ b, out := s.out ++ [(s.now, p)] }) (by rw [← h1, ← ech]) h2 ?_
        rw [← efg] at h3
        exact h3
      | wire t q h1 h0 h2 h3 =>
        refine Phase.wire (s := { s with jobs := a ++ b, out := s.out ++ [(s.now, p)] }) t q (by rw [← h1, ← ech]) h0 h2 ?_
        rw [← efg] at h3
        exact h3
    · show s.out ++ [(s.now, p)] ++ (a ++ b).filterMap flyOf ++ tail = _
      rw [← he, efl, List.filterMap_append, za]
      simp

theorem ord_tick {c : Cfg} {S : List (Nat × Pkt)} {s : St} (hi : Inv c S s) (h : Ord c S s) (hn : ∀ x ∈ s.jobs, x.1 ≠ s.now) :
    Ord c S { s with now := s.now + 1 } := by
  obtain ⟨tail, hp, he⟩ := h.ex
  refine ⟨⟨tail, ?_, he⟩⟩
  cases hp with
  | idle h1 h2 h3 h4 h5 => exact Phase.idle (s := { s with now := s.now + 1 }) h1 h2 h3 h4 (by simp only; omega)
  | tx h1 h2 h3 =>
    have : (s.now, none) ∈ s.jobs.filterMap chainOf := by rw [h1]; simp
    obtain ⟨⟨t, j⟩, hm, hj⟩ := List.mem_filterMap.1 this
    cases j with
    | tx => simp [chainOf] at hj; exact absurd hj (hn _ hm)
    | _ => simp [chainOf] at hj
  | wire t q h1 h0 h2 h3 =>
    have : (t, some q) ∈ s.jobs.filterMap chainOf := by rw [h1]; simp
    obtain ⟨⟨t', j⟩, hm, hj⟩ := List.mem_filterMap.1 this
    have hne : s.now ≠ t := by
      cases j with
      | wire q' =>
        simp [chainOf] at hj
        have := hn _ hm
        simp only at this
        omega
      | _ => simp [chainOf] at hj
    refine Phase.wire (s := { s with now := s.now + 1 }) t q h1 (by simp only; omega) h2 ?_
    rcases h3 with h3 | h3
    · have : () ∈ s.jobs.filterMap flagOf := by rw [h3.1]; simp
      obtain ⟨⟨t', j⟩, hm, hj⟩ := List.mem_filterMap.1 this
      cases j with
      | flag => exact absurd (hi.flag _ hm) (hn _ hm)
      | _ => simp [flagOf] at hj
    · exact Or.inr h3

theorem ord_run {c : Cfg} (hser : ∀ p, 1 ≤ c.ser p) (es : List Ev) (ho : OneAtATime c es) : Ord c (sent c es) (run c es) := by
  suffices ∀ n (es : List Ev), es.length = n → OneAtATime c es → Ord c (sent c es) (run c es) from this _ es rfl ho
  intro n
  induction n with
  | zero =>
    intro es he _
    rw [List.length_eq_zero_iff.1 he]
    exact ⟨⟨[], Phase.idle rfl rfl rfl rfl (Nat.zero_le _), rfl⟩⟩
  | succ n ih =>
    intro es he ho
    have hne : es ≠ [] := by intro h; simp [h] at he
    have ho' : OneAtATime c es.dropLast := by
      intro pre p post h
      refine ho pre p (post ++ [es.getLast hne]) ?_
      rw [← List.cons_append, ← List.append_assoc, ← h]
      exact (List.dropLast_concat_getLast hne).symm
    have hlast : ∀ p, es.getLast hne = .send p → ¬ (run c es.dropLast).Sending := by
      intro p hp
      refine ho es.dropLast p [] ?_
      rw [← hp]
      exact (List.dropLast_concat_getLast hne).symm
    rw [← List.dropLast_concat_getLast hne]
    have h := ih es.dropLast (by simp [he]) ho'
    have hi := inv_run (c := c) hser es.dropLast
    generalize es.getLast hne = e at hlast
    generalize es.dropLast = es' at h hi hlast
    rw [run_snoc, sent_snoc]
    cases e with
    | send p => exact ord_send h (hlast p rfl) p
    | run i =>
      simp only [List.append_nil, St.step]
      cases hh : (run c es').jobs[i]? with
      | none => exact h
      | some x =>
        obtain ⟨t, j⟩ := x
        by_cases ht : t = (run c es').now
        · simp only [ht, if_true]
          obtain ⟨a, b, e1, e2⟩ := split_at hh
          rw [e2]
          exact ord_exec hser hi h (by rw [e1, ht])
        · simp only [ht, if_false]
          exact h
    | tick =>
      simp only [List.append_nil, St.step]
      by_cases hd : ((run c es').jobs.any fun x => x.1 == (run c es').now) = true
      · rw [if_pos hd]; exact h
      · rw [if_neg hd]
        refine ord_tick hi h ?_
        intro x hx hh
        exact hd ((any_due _).2 ⟨x, hx, hh⟩)

theorem ord_out {c : Cfg} {S : List (Nat × Pkt)} {s : St} (hi : Inv c S s) (h : Ord c S s) :
    s.out <+: wire c.ser c.link 0 S ∧ ∀ x ∈ wire c.ser c.link 0 S, x.1 < s.now → x ∈ s.out := by
  obtain ⟨tail, hp, he⟩ := h.ex
  have hplan : ∀ (q : List Pkt) t, ∀ x ∈ plan c t q, t ≤ x.1 := by
    intro q
    induction q with
    | nil => intro t x hx; simp [plan] at hx
    | cons p q ih =>
      intro t x hx
      simp only [plan] at hx
      rcases List.mem_cons.1 hx with rfl | hx
      · simp only; omega
      · have := ih _ x hx; omega
  refine ⟨⟨s.jobs.filterMap flyOf ++ tail, by rw [← he, List.append_assoc]⟩, ?_⟩
  intro x hx hlt
  rw [← he] at hx
  rcases List.mem_append.1 hx with hx | hx
  · rcases List.mem_append.1 hx with hx | hx
    · exact hx
    · obtain ⟨⟨t, j⟩, hm, hj⟩ := List.mem_filterMap.1 hx
      have := hi.due _ hm
      cases j with
      | fly q => simp [flyOf] at hj; subst hj; simp only at this hlt; omega
      | _ => simp [flyOf] at hj
  · exfalso
    cases hp with
    | idle => simp at hx
    | tx h1 h2 h3 => have := hplan _ _ x hx; omega
    | wire t q h1 h0 h2 h3 =>
      rcases List.mem_cons.1 hx with rfl | hx
      · simp only at hlt; omega
      · have := hplan _ _ x hx; omega

end Corundum.PcieLink
