import Verif.Proof.BuildImages

/-! C124: limits on the builds at a time.  C125: every build gets its turn.  C126: names of the output files. -/
namespace Corundum.BuildImages

/-! ### C124 -/

/-- C124: at no time do more than `parallel` tools run, counting those left behind by an exception. -/
theorem C124_parallel {n P Q : Nat} {s : St} (h : Reach n P Q s) : s.count Job.Alive ≤ P := by
  have hc := (inv_reach h).bCount
  have : s.jobs.countP Job.Alive ≤ s.jobs.countP Job.HoldB := by
    apply List.countP_mono_left
    intro j _ hj
    simp [Job.Alive] at hj
    simp [Job.HoldB]
    rcases hj with e | e
    · exact Or.inr (Or.inl e)
    · exact Or.inr (Or.inr e)
  unfold St.count
  omega

/-- C124: of those, no more than `synth_parallel` have not got past synthesis. -/
theorem C124_synth {n P Q : Nat} {s : St} (h : Reach n P Q s) : s.count Job.Synth ≤ Q := by
  have hc := (inv_reach h).sCount
  unfold St.count
  omega

/-- six jobs, four at a time, two of them in synthesis -/
def busy : List Ev := [.go 0, .go 1, .go 2, .go 3, .go 4, .go 5, .impl 0, .go 2, .impl 1, .go 3, .finish 0 true]

example : ∃ s, (St.init 6 4 2).run busy = some s ∧ s.count Job.Alive = 3 ∧ s.count Job.Synth = 2 ∧ (4, true) ∈ s.build.waiters ∧ (5, false) ∈ s.build.waiters :=
  ⟨_, rfl, by decide, by decide, by decide, by decide⟩

/-! ### C125 -/

/-- C125: whatever happens in whatever order, jobs get on at most five times each. -/
theorem C125_bounded {n P Q : Nat} {es : List Ev} {s : St} (h : (St.init n P Q).run es = some s) : es.countP (fun e => decide e.Proceeds) ≤ 5 * n := by
  have := rank_run es h
  have e : (St.init n P Q).rank = 5 * n := by
    simp [St.init, St.rank, Job.rank, Nat.mul_comm]
  omega

/-- C125: as long as fewer than `parallel` jobs have ended with an exception, and fewer than `synth_parallel` of them in synthesis, some job can get on
until all have ended. -/
theorem C125_never_stuck {n P Q : Nat} {s : St} (h : Reach n P Q s) (hP : s.count (fun j => decide (j.pc = .raised)) < P)
    (hQ : s.count (fun j => decide (j.pc = .raised ∧ j.synthSem = true)) < Q) :
    (∃ e, e.Proceeds ∧ ∃ t, s.step e = some t) ∨ ∀ j ∈ s.jobs, j.pc = .done ∨ j.pc = .raised := by
  by_cases hn : ∃ e, e.Proceeds ∧ ∃ t, s.step e = some t
  · exact Or.inl hn
  · refine Or.inr (stuck (inv_reach h) ?_ hP hQ)
    intro e he
    cases hs : s.step e with
    | none => rfl
    | some t => exact absurd ⟨e, he, t, hs⟩ hn

/-- C125: when all are done, all permits have been returned. -/
theorem C125_returned {n P Q : Nat} {s : St} (h : Reach n P Q s) (hd : ∀ j ∈ s.jobs, j.pc = .done) : s.build = ⟨P, []⟩ ∧ s.synth = ⟨Q, []⟩ := by
  have hi := inv_reach h
  have nil : ∀ m : Sem, ∀ pc : Pc, pc ≠ .done → (∀ k, k ∈ m.ids ↔ ∃ j, s.jobs[k]? = some j ∧ j.pc = pc) → m.waiters = [] := by
    intro m pc hpc hm
    rw [List.eq_nil_iff_forall_not_mem]
    rintro ⟨k, b⟩ hw
    obtain ⟨j, hj, hp⟩ := (hm k).1 (List.mem_map.2 ⟨_, hw, rfl⟩)
    have := hd j (List.mem_of_getElem? hj)
    rw [hp] at this
    exact hpc this
  have wb := nil s.build .waitBuild (by decide) hi.bIds
  have ws := nil s.synth .waitSynth (by decide) hi.sIds
  have zero : ∀ f : Job → Bool, (∀ j : Job, j.pc = .done → f j = false) → s.jobs.countP f = 0 := by
    intro f hf
    rw [List.countP_eq_zero]
    intro j hj
    rw [hf j (hd j hj)]
    simp
  have hb := hi.bCount
  have hs := hi.sCount
  rw [zero _ (by intro j hj; simp [Job.HoldB, hj])] at hb
  rw [zero _ (by intro j hj; simp [Job.Synth, Job.Alive, hj])] at hs
  unfold Sem.held at hb hs
  rw [wb] at hb
  rw [ws] at hs
  simp at hb hs
  constructor
  · cases hB : s.build with
    | mk v w => rw [hB] at hb wb; simp only at hb wb; rw [hb, wb]
  · cases hB : s.synth with
    | mk v w => rw [hB] at hs ws; simp only at hs ws; rw [hs, ws]

/-- two jobs one after the other -/
def both : List Ev := [.go 0, .go 1, .impl 0, .finish 0 true, .go 1, .copied 0, .finish 1 false]

example : ∃ s, (St.init 2 1 1).run both = some s ∧ (∀ j ∈ s.jobs, j.pc = .done) ∧ s.build = ⟨1, []⟩ := ⟨_, rfl, by decide, by decide⟩

/-- C125: permits to build are given in the order in which the jobs began: a job that has one has not overtaken any that began before it. -/
theorem C125_in_order {n P Q : Nat} {es : List Ev} {s : St} (h : (St.init n P Q).run es = some s) {a b c : List Nat} {i j : Nat}
    (ho : (St.init n P Q).firsts es = a ++ i :: b ++ j :: c) (hj : s.Got j) : s.Got i := by
  have h0 : Ord [] (St.init n P Q) := ⟨by simp, by simp, ⟨[], by simp [St.init, Sem.undone]⟩⟩
  have h1 := ord_run es (inv_init n P Q) h0 h
  rw [List.nil_append, ho] at h1
  refine ⟨h1.old i (by simp), ?_⟩
  intro hi
  have memU : ∀ k, (k, false) ∈ s.build.waiters → k ∈ s.build.undone := by
    intro k hk
    exact List.mem_map.2 ⟨_, List.mem_filter.2 ⟨hk, rfl⟩, rfl⟩
  have ofU : ∀ k, k ∈ s.build.undone → (k, false) ∈ s.build.waiters := by
    intro k hk
    obtain ⟨⟨k', d⟩, hw, rfl⟩ := List.mem_map.1 hk
    obtain ⟨hw, hd⟩ := List.mem_filter.1 hw
    cases d with
    | false => exact hw
    | true => simp at hd
  obtain ⟨G, hG⟩ := h1.split
  have hiU := memU i hi
  have hjU : j ∉ s.build.undone := fun hh => hj.2 (ofU j hh)
  have hjG : j ∈ G := by
    have : j ∈ G ++ s.build.undone := by rw [← hG]; simp
    rcases List.mem_append.1 this with h | h
    · exact h
    · exact absurd h hjU
  have hnd := h1.nodup
  have key : ∀ (G U a : List Nat), a ++ i :: b ++ j :: c = G ++ U → (G ++ U).Nodup → i ∈ U → j ∈ G → False := by
    intro G
    induction G with
    | nil => intro U a _ _ _ h; simp at h
    | cons g G ih =>
      intro U a he hn hi hj
      cases a with
      | nil =>
        simp only [List.nil_append, List.cons_append, List.cons.injEq] at he
        obtain ⟨rfl, _⟩ := he
        simp only [List.cons_append, List.nodup_cons] at hn
        exact hn.1 (List.mem_append_right _ hi)
      | cons x a =>
        simp only [List.cons_append, List.cons.injEq] at he
        obtain ⟨rfl, he⟩ := he
        simp only [List.cons_append, List.nodup_cons] at hn
        rcases List.mem_cons.1 hj with rfl | hj
        · refine hn.1 ?_
          rw [← he]
          simp
        · exact ih U a (by simpa using he) hn.2 hi hj
  exact key G s.build.undone a hG (by rw [← hG]; exact hnd) hiU hjG

/-- C125: an exception in the only build at a time, as from output that is not UTF-8 or a line beyond the limit of `readline`: the permit is never returned,
and the script waits for ever. -/
theorem C125_exception_counterexample :
    ∃ s, (St.init 2 1 1).run [.go 0, .fail 0, .go 1] = some s ∧ (∃ j ∈ s.jobs, j.pc = .waitBuild) ∧ ∀ e, s.step e = none := by
  refine ⟨_, rfl, by decide, ?_⟩
  intro e
  cases e with
  | go i => match i with
    | 0 => rfl
    | 1 => rfl
    | i + 2 => simp [St.step, St.start, St.toSynth, St.init, Sem.acquire]
  | impl i => match i with
    | 0 => rfl
    | 1 => rfl
    | i + 2 => simp [St.step, St.start, St.toSynth, St.init, Sem.acquire]
  | finish i ok => match i with
    | 0 => rfl
    | 1 => rfl
    | i + 2 => simp [St.step, St.start, St.toSynth, St.init, Sem.acquire]
  | copied i => match i with
    | 0 => rfl
    | 1 => rfl
    | i + 2 => simp [St.step, St.start, St.toSynth, St.init, Sem.acquire]
  | fail i => match i with
    | 0 => rfl
    | 1 => rfl
    | i + 2 => simp [St.step, St.start, St.toSynth, St.init, Sem.acquire]

/-! ### C126 -/

theorem cut {s t x y : List Char} (hs : '-' ∉ s) (ht : '-' ∉ t) (h : s ++ '-' :: x = t ++ '-' :: y) : s = t ∧ x = y := by
  induction s generalizing t with
  | nil =>
    cases t with
    | nil => simpa using h
    | cons d t => simp at h; exact absurd (by rw [← h.1]; simp) ht
  | cons c s ih =>
    cases t with
    | nil => simp at h; exact absurd (by rw [h.1]; simp) hs
    | cons d t =>
      simp at h hs ht
      obtain ⟨i1, i2⟩ := ih hs.2 ht.2 h.2
      exact ⟨by rw [h.1, i1], i2⟩

theorem join_inj : ∀ {d e : List (List Char)}, (∀ s ∈ d, '-' ∉ s ∧ s ≠ []) → (∀ s ∈ e, '-' ∉ s ∧ s ≠ []) → join d = join e → d = e := by
  intro d
  induction d with
  | nil =>
    intro e _ he h
    match e with
    | [] => rfl
    | [t] => simp [join] at h; exact absurd h (fun hh => (he t (by simp)).2 hh)
    | t :: u :: r => simp [join] at h
  | cons s d ih =>
    intro e hd he h
    have h1 := hd s (by simp)
    match d, e with
    | [], [] => simp [join] at h; exact absurd h h1.2
    | [], [t] => simp [join] at h; rw [h]
    | [], t :: u :: r =>
      simp only [join] at h
      exfalso
      apply h1.1
      rw [h]
      simp
    | v :: d, [] => simp [join] at h
    | v :: d, [t] =>
      simp only [join] at h
      exfalso
      apply (he t (by simp)).1
      rw [← h]
      simp
    | v :: d, t :: u :: r =>
      simp only [join] at h
      obtain ⟨e1, e2⟩ := cut h1.1 (he t (by simp)).1 h
      have := ih (e := u :: r) (fun x hx => hd x (by simp [hx])) (fun x hx => he x (by simp [hx])) e2
      rw [e1, this]

theorem mem_strip {c : Char} {s : List Char} (h : c ∈ strip s) : c ∈ s := by
  unfold strip at h
  rw [List.mem_reverse] at h
  have h1 := (List.dropWhile_sublist (fun x => x == '_') (l := (s.dropWhile (· == '_')).reverse)).mem h
  rw [List.mem_reverse] at h1
  exact (List.dropWhile_sublist (fun x => x == '_') (l := s)).mem h1

theorem design_parts {p : List (List Char)} (hp : ∀ s ∈ p, '-' ∉ s) : ∀ s ∈ design p, '-' ∉ s ∧ s ≠ [] := by
  intro s hs
  unfold design at hs
  obtain ⟨h1, h2⟩ := List.mem_filter.1 hs
  obtain ⟨t, ht, rfl⟩ := List.mem_map.1 h1
  refine ⟨?_, by simpa using h2⟩
  intro hc
  have := mem_strip hc
  unfold dropFpga at this
  split at this
  · exact hp t ht (List.mem_of_mem_drop this)
  · exact hp t ht this

/-- C126: if no directory has a hyphen in its name, designs that are shown with different names write different files. -/
theorem C126_distinct (pre : List Char) {p q : List (List Char)} (hp : ∀ s ∈ p, '-' ∉ s) (hq : ∀ s ∈ q, '-' ∉ s)
    (h : outname pre (design p) = outname pre (design q)) : design p = design q := by
  refine join_inj (design_parts hp) (design_parts hq) ?_
  unfold outname at h
  split at h
  · exact h
  · simpa using h

example : outname "corundum-v1".toList (design ["AU200".toList, "fpga_25g".toList, "fpga".toList]) = "corundum-v1-AU200-25g".toList := by decide

/-- C126: two directories with a Makefile each that get the same name, and with it the same output file. -/
theorem C126_same_name_counterexample :
    design ["AU200".toList, "fpga_25g".toList, "fpga".toList] = design ["AU200".toList, "25g".toList, "fpga".toList] ∧
    outname [] (design ["a-b".toList, "fpga".toList]) = outname [] (design ["a".toList, "b".toList, "fpga".toList]) ∧
    design ["a-b".toList, "fpga".toList] ≠ design ["a".toList, "b".toList, "fpga".toList] := by decide

end Corundum.BuildImages
