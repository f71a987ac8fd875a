import Verif.Spec.BuildImages

namespace Corundum.BuildImages

/-! ### semaphores -/

/-- permits not given out, or given to a job that has not gone on yet -/
def Sem.held (s : Sem) : Nat := s.value + s.waiters.countP (·.2)

/-- jobs that wait -/
def Sem.ids (s : Sem) : List Nat := s.waiters.map Prod.fst

structure Sem.Ok (s : Sem) : Prop where
  nodup : s.ids.Nodup
  busy : (∀ w ∈ s.waiters, w.2 = false) → s.waiters ≠ [] → s.value = 0

theorem wakeFirst_none {ws : List (Nat × Bool)} (h : wakeFirst ws = none) : ∀ w ∈ ws, w.2 = true := by
  induction ws with
  | nil => simp
  | cons w ws ih =>
    obtain ⟨i, b⟩ := w
    cases b with
    | false => simp [wakeFirst] at h
    | true =>
      simp [wakeFirst] at h
      intro w hw
      rcases List.mem_cons.1 hw with rfl | hw
      · rfl
      · exact ih h w hw

theorem wakeFirst_some {ws ws' : List (Nat × Bool)} (h : wakeFirst ws = some ws') :
    ws'.map Prod.fst = ws.map Prod.fst ∧ ws'.countP (·.2) = ws.countP (·.2) + 1 ∧ ∃ w ∈ ws', w.2 = true := by
  induction ws generalizing ws' with
  | nil => simp [wakeFirst] at h
  | cons w ws ih =>
    obtain ⟨i, b⟩ := w
    cases b with
    | false =>
      simp [wakeFirst] at h
      subst h
      simp
    | true =>
      simp [wakeFirst] at h
      obtain ⟨a, h1, rfl⟩ := h
      obtain ⟨i1, i2, i3⟩ := ih h1
      refine ⟨by simp [i1], by simp [i2], (i, true), by simp, rfl⟩

theorem Sem.wake_spec {s : Sem} (hn : s.ids.Nodup) (hv : 0 < s.value) : s.wake.Ok ∧ s.wake.held = s.held ∧ s.wake.ids = s.ids := by
  unfold Sem.wake
  cases h : wakeFirst s.waiters with
  | none =>
    have := wakeFirst_none h
    refine ⟨⟨hn, ?_⟩, rfl, rfl⟩
    intro h1 h2
    exfalso
    obtain ⟨w, hw⟩ := List.exists_mem_of_ne_nil _ h2
    have a := h1 w hw
    rw [this w hw] at a
    cases a
  | some ws =>
    obtain ⟨i1, i2, w, i3, i4⟩ := wakeFirst_some h
    refine ⟨⟨?_, ?_⟩, ?_, i1⟩
    · show (ws.map Prod.fst).Nodup
      rw [i1]; exact hn
    · intro h1
      have := h1 w i3
      rw [i4] at this
      cases this
    · unfold Sem.held
      simp only [i2]
      omega

theorem Sem.release_spec {s : Sem} (h : s.Ok) : s.release.Ok ∧ s.release.held = s.held + 1 ∧ s.release.ids = s.ids := by
  have := Sem.wake_spec (s := { s with value := s.value + 1 }) h.nodup (Nat.succ_pos _)
  refine ⟨this.1, ?_, this.2.2⟩
  show Sem.held (Sem.wake _) = _
  rw [this.2.1]
  unfold Sem.held
  simp only
  omega

theorem Sem.acquire_spec {s : Sem} (h : s.Ok) (i : Nat) (hi : i ∉ s.ids) :
    (s.acquire i).2.Ok ∧ (((s.acquire i).1 = true ∧ (s.acquire i).2.held + 1 = s.held ∧ (s.acquire i).2.ids = s.ids) ∨
      ((s.acquire i).1 = false ∧ (s.acquire i).2.held = s.held ∧ (s.acquire i).2.ids = s.ids ++ [i])) := by
  unfold Sem.acquire
  by_cases hc : s.value = 0 ∨ s.waiters ≠ []
  · simp only [hc, if_true]
    refine ⟨⟨?_, ?_⟩, Or.inr ⟨trivial, by simp [Sem.held], by simp [Sem.ids]⟩⟩
    · simp only [Sem.ids, List.map_append, List.map_cons, List.map_nil]
      rw [List.nodup_append]
      refine ⟨h.nodup, by simp, ?_⟩
      intro a ha b hb
      simp at hb
      subst hb
      intro hh
      subst hh
      exact hi ha
    · intro h1 _
      rcases hc with hc | hc
      · exact hc
      · exact h.busy (fun w hw => h1 w (by simp [hw])) hc
  · simp only [hc, if_false]
    have hv : s.value ≠ 0 := fun hh => hc (Or.inl hh)
    have hw : s.waiters = [] := Classical.byContradiction fun hh => hc (Or.inr hh)
    refine ⟨⟨h.nodup, ?_⟩, Or.inl ⟨trivial, ?_, rfl⟩⟩
    · intro _ h2
      exact absurd hw h2
    · simp only [Sem.held]
      omega

theorem erase_waiter {ws : List (Nat × Bool)} {i : Nat} (hn : (ws.map Prod.fst).Nodup) (hm : (i, true) ∈ ws) :
    (ws.eraseP (fun w => w.1 == i)).countP (·.2) + 1 = ws.countP (·.2) ∧ (ws.eraseP (fun w => w.1 == i)).map Prod.fst = (ws.map Prod.fst).erase i ∧
      (ws.eraseP (fun w => w.1 == i)).filter (fun w => !w.2) = ws.filter (fun w => !w.2) := by
  induction ws with
  | nil => simp at hm
  | cons w ws ih =>
    obtain ⟨k, b⟩ := w
    by_cases hk : k = i
    · subst hk
      have hb : b = true := by
        rcases List.mem_cons.1 hm with h | h
        · simp at h; exact h
        · simp only [List.map_cons, List.nodup_cons] at hn
          exact absurd (List.mem_map.2 ⟨_, h, rfl⟩) hn.1
      subst hb
      simp
    · have hm' : (i, true) ∈ ws := by
        rcases List.mem_cons.1 hm with h | h
        · simp at h; exact absurd h.1.symm hk
        · exact h
      simp only [List.map_cons, List.nodup_cons] at hn
      obtain ⟨i1, i2, i3⟩ := ih hn.2 hm'
      have hk' : ¬ ((k == i) = true) := by simp [hk]
      rw [List.eraseP_cons_of_neg (by simpa using hk)]
      refine ⟨?_, ?_, ?_⟩
      · cases b <;> simp <;> omega
      · simp only [List.map_cons]
        rw [List.erase_cons_tail (by simpa using hk), i2]
      · simp only [List.filter_cons, i3]

theorem Sem.resume_spec {s : Sem} (h : s.Ok) {i : Nat} (hm : (i, true) ∈ s.waiters) :
    (s.resume i).Ok ∧ (s.resume i).held + 1 = s.held ∧ (s.resume i).ids = s.ids.erase i := by
  obtain ⟨e1, e2, _⟩ := erase_waiter h.nodup hm
  have hn : ((s.waiters.eraseP (fun w => w.1 == i)).map Prod.fst).Nodup := by rw [e2]; exact h.nodup.erase _
  unfold Sem.resume
  simp only
  split
  · rename_i hv
    obtain ⟨w1, w2, w3⟩ := Sem.wake_spec (s := { s with waiters := s.waiters.eraseP (fun w => w.1 == i) }) hn hv
    refine ⟨w1, ?_, ?_⟩
    · rw [w2]
      unfold Sem.held
      simp only
      omega
    · rw [w3]; exact e2
  · rename_i hv
    refine ⟨⟨hn, fun _ _ => by simp only; omega⟩, ?_, e2⟩
    unfold Sem.held
    simp only
    omega

/-! ### jobs -/

theorem countP_set {α : Type} (f : α → Bool) {l : List α} {i : Nat} {x : α} (h : l[i]? = some x) (y : α) :
    (l.set i y).countP f + (f x).toNat = l.countP f + (f y).toNat := by
  induction l generalizing i with
  | nil => simp at h
  | cons z l ih =>
    cases i with
    | zero =>
      simp at h
      subst h
      simp only [List.set_cons_zero, List.countP_cons]
      cases f z <;> cases f y <;> simp
    | succ i =>
      simp at h
      have := ih h
      simp only [List.set_cons_succ, List.countP_cons]
      omega

/-- the job has a permit to build -/
def Job.HoldB (j : Job) : Bool := j.pc = .waitSynth ∨ j.pc = .running ∨ j.pc = .raised

structure Inv (P Q : Nat) (s : St) : Prop where
  bOk : s.build.Ok
  sOk : s.synth.Ok
  bIds : ∀ k, k ∈ s.build.ids ↔ ∃ j, s.jobs[k]? = some j ∧ j.pc = .waitBuild
  sIds : ∀ k, k ∈ s.synth.ids ↔ ∃ j, s.jobs[k]? = some j ∧ j.pc = .waitSynth
  bCount : s.build.held + s.jobs.countP Job.HoldB = P
  sCount : s.synth.held + s.jobs.countP Job.Synth = Q
  flags : ∀ j ∈ s.jobs, (j.pc = .waitBuild ∨ j.pc = .waitSynth → j.synthSem = true) ∧
    (j.pc = .waitBuild ∨ j.pc = .waitSynth ∨ j.pc = .running → j.buildSem = true)

theorem Inv.upd {P Q : Nat} {s : St} (h : Inv P Q s) {i : Nat} {j : Job} (hi : s.jobs[i]? = some j) (j' : Job) (b m : Sem)
    (hb : b.Ok) (hm : m.Ok) (hbi : ∀ k, k ∈ b.ids ↔ if k = i then j'.pc = .waitBuild else k ∈ s.build.ids)
    (hmi : ∀ k, k ∈ m.ids ↔ if k = i then j'.pc = .waitSynth else k ∈ s.synth.ids)
    (hbc : b.held + j'.HoldB.toNat = s.build.held + j.HoldB.toNat) (hmc : m.held + j'.Synth.toNat = s.synth.held + j.Synth.toNat)
    (hf : (j'.pc = .waitBuild ∨ j'.pc = .waitSynth → j'.synthSem = true) ∧ (j'.pc = .waitBuild ∨ j'.pc = .waitSynth ∨ j'.pc = .running → j'.buildSem = true)) :
    Inv P Q ⟨s.jobs.set i j', b, m⟩ := by
  have hlt : i < s.jobs.length := by
    rw [List.getElem?_eq_some_iff] at hi
    exact hi.1
  have get : ∀ k, (s.jobs.set i j')[k]? = if k = i then some j' else s.jobs[k]? := by
    intro k
    rw [List.getElem?_set]
    by_cases hk : i = k
    · subst hk; simp [hlt]
    · rw [if_neg hk, if_neg (fun hh => hk hh.symm)]
  refine ⟨hb, hm, ?_, ?_, ?_, ?_, ?_⟩
  · intro k
    rw [hbi k, get k]
    by_cases hk : k = i
    · simp [hk]
    · simp only [hk, if_false]; exact h.bIds k
  · intro k
    rw [hmi k, get k]
    by_cases hk : k = i
    · simp [hk]
    · simp only [hk, if_false]; exact h.sIds k
  · have := countP_set Job.HoldB hi j'
    have := h.bCount
    simp only
    omega
  · have := countP_set Job.Synth hi j'
    have := h.sCount
    simp only
    omega
  · intro x hx
    rcases List.mem_or_eq_of_mem_set hx with hx | rfl
    · exact h.flags x hx
    · exact hf

theorem mem_erase_iff {l : List Nat} (h : l.Nodup) (i k : Nat) : k ∈ l.erase i ↔ k ≠ i ∧ k ∈ l := h.mem_erase_iff

theorem inv_toSynth {P Q : Nat} {s : St} (h : Inv P Q s) {i : Nat} {j : Job} (hi : s.jobs[i]? = some j) (b : Sem) (j' : Job)
    (hb : b.Ok) (hpc : j.pc = .new ∨ j.pc = .waitBuild)
    (hbi : ∀ k, k ∈ b.ids ↔ k ≠ i ∧ k ∈ s.build.ids) (hbc : b.held + 1 = s.build.held) (hj : j'.synthSem = true ∧ j'.buildSem = true) :
    Inv P Q (St.toSynth { s with build := b } i j') := by
  have hnS : i ∉ s.synth.ids := by
    intro hh
    obtain ⟨x, hx, hp⟩ := (h.sIds i).1 hh
    rw [hi] at hx
    simp at hx
    subst hx
    rcases hpc with e | e <;> rw [e] at hp <;> cases hp
  obtain ⟨a1, a2⟩ := Sem.acquire_spec h.sOk i hnS
  have hB : j.HoldB = false := by
    rcases hpc with e | e <;> simp [Job.HoldB, e]
  have hS : j.Synth = false := by
    rcases hpc with e | e <;> simp [Job.Synth, Job.Alive, e]
  have hbi' : ∀ k, k ∈ b.ids ↔ if k = i then False else k ∈ s.build.ids := by
    intro k
    rw [hbi k]
    by_cases hk : k = i <;> simp [hk]
  unfold St.toSynth
  simp only
  generalize hacq : s.synth.acquire i = r at a1 a2
  obtain ⟨ok, m⟩ := r
  rcases a2 with ⟨z, a2, a3⟩ | ⟨z, a2, a3⟩
  · simp only at z a1 a2 a3
    subst z
    refine h.upd hi _ _ _ hb a1 ?_ ?_ ?_ ?_ ?_
    · intro k; rw [hbi' k]; by_cases hk : k = i <;> simp [hk]
    · intro k
      rw [a3]
      by_cases hk : k = i
      · subst hk; simp [hnS]
      · simp [hk]
    · rw [hB]; simp [Job.HoldB]; omega
    · rw [hS]; simp [Job.Synth, Job.Alive, hj.1]; omega
    · simp [hj.2]
  · simp only at z a1 a2 a3
    subst z
    refine h.upd hi _ _ _ hb a1 ?_ ?_ ?_ ?_ ?_
    · intro k; rw [hbi' k]; by_cases hk : k = i <;> simp [hk]
    · intro k
      rw [a3]
      by_cases hk : k = i
      · subst hk; simp
      · simp [hk]
    · rw [hB]; simp [Job.HoldB]; omega
    · rw [hS]; simp [Job.Synth, Job.Alive]; omega
    · simp [hj.1, hj.2]

theorem inv_step {P Q : Nat} {s s' : St} (h : Inv P Q s) {e : Ev} (hs : s.step e = some s') : Inv P Q s' := by
  cases e with
  | go i =>
    simp only [St.step] at hs
    cases hi : s.jobs[i]? with
    | none => simp [hi] at hs
    | some j =>
      simp only [hi] at hs
      cases hp : j.pc with
      | new =>
        simp only [hp, Option.some.injEq] at hs
        subst hs
        have hnB : i ∉ s.build.ids := by
          intro hh
          obtain ⟨x, hx, hq⟩ := (h.bIds i).1 hh
          rw [hi] at hx
          simp at hx
          subst hx
          rw [hp] at hq
          cases hq
        obtain ⟨a1, a2⟩ := Sem.acquire_spec h.bOk i hnB
        unfold St.start
        simp only
        generalize hacq : s.build.acquire i = r at a1 a2
        obtain ⟨ok, m⟩ := r
        rcases a2 with ⟨z, a2, a3⟩ | ⟨z, a2, a3⟩
        · simp only at z a1 a2 a3
          subst z
          refine inv_toSynth h hi m _ a1 (Or.inl hp) ?_ a2 ⟨rfl, rfl⟩
          intro k
          rw [a3]
          constructor
          · intro hk
            refine ⟨?_, hk⟩
            intro hh
            subst hh
            exact hnB hk
          · exact fun hk => hk.2
        · simp only at z a1 a2 a3
          subst z
          have hnS : i ∉ s.synth.ids := by
            intro hh
            obtain ⟨x, hx, hq⟩ := (h.sIds i).1 hh
            rw [hi] at hx
            simp at hx
            subst hx
            rw [hp] at hq
            cases hq
          refine h.upd hi _ _ _ a1 h.sOk ?_ ?_ ?_ ?_ ?_
          · intro k
            rw [a3]
            by_cases hk : k = i
            · subst hk; simp
            · simp [hk]
          · intro k
            by_cases hk : k = i
            · subst hk; simp [hnS]
            · simp [hk]
          · rw [a2]; simp [Job.HoldB, hp]
          · simp [Job.Synth, Job.Alive, hp]
          · simp
      | waitBuild =>
        simp only [hp] at hs
        split at hs
        · rename_i hm
          simp only [Option.some.injEq] at hs
          subst hs
          obtain ⟨a1, a2, a3⟩ := Sem.resume_spec h.bOk hm
          have hf := h.flags j (List.mem_of_getElem? hi)
          refine inv_toSynth h hi _ _ a1 (Or.inr hp) ?_ a2 ⟨hf.1 (Or.inl hp), hf.2 (Or.inl hp)⟩
          intro k
          rw [a3]
          exact mem_erase_iff h.bOk.nodup i k
        · cases hs
      | waitSynth =>
        simp only [hp] at hs
        split at hs
        · rename_i hm
          simp only [Option.some.injEq] at hs
          subst hs
          obtain ⟨a1, a2, a3⟩ := Sem.resume_spec h.sOk hm
          have hf := h.flags j (List.mem_of_getElem? hi)
          have f1 := hf.1 (Or.inr hp)
          have f2 := hf.2 (Or.inr (Or.inl hp))
          have hnB : i ∉ s.build.ids := by
            intro hh
            obtain ⟨x, hx, hq⟩ := (h.bIds i).1 hh
            rw [hi] at hx
            simp at hx
            subst hx
            rw [hp] at hq
            cases hq
          refine h.upd hi _ _ _ h.bOk a1 ?_ ?_ ?_ ?_ ?_
          · intro k
            by_cases hk : k = i
            · subst hk; simp [hnB]
            · simp [hk]
          · intro k
            rw [a3, mem_erase_iff h.sOk.nodup]
            by_cases hk : k = i
            · subst hk; simp
            · simp [hk]
          · simp [Job.HoldB, hp]
          · simp [Job.Synth, Job.Alive, hp, f1]; omega
          · simp [f2]
        · cases hs
      | running => simp [hp] at hs
      | post => simp [hp] at hs
      | done => simp [hp] at hs
      | raised => simp [hp] at hs
  | impl i =>
    simp only [St.step] at hs
    cases hi : s.jobs[i]? with
    | none => simp [hi] at hs
    | some j =>
      simp only [hi] at hs
      split at hs
      · rename_i hp
        simp only [Option.some.injEq] at hs
        subst hs
        unfold St.synthDone
        split
        · rename_i hq
          obtain ⟨a1, a2, a3⟩ := Sem.release_spec h.sOk
          have hf := h.flags j (List.mem_of_getElem? hi)
          refine h.upd hi _ _ _ h.bOk a1 ?_ ?_ ?_ ?_ ?_
          · intro k
            by_cases hk : k = i
            · subst hk; rw [h.bIds]; simp [hi, hp]
            · simp [hk]
          · intro k
            rw [a3]
            by_cases hk : k = i
            · subst hk; rw [h.sIds]; simp [hi, hp]
            · simp [hk]
          · simp [Job.HoldB, hp]
          · rw [a2]; simp [Job.Synth, Job.Alive, hp, hq]
          · simp [hp]; exact hf.2 (Or.inr (Or.inr hp))
        · exact h
      · cases hs
  | finish i ok =>
    simp only [St.step] at hs
    cases hi : s.jobs[i]? with
    | none => simp [hi] at hs
    | some j =>
      simp only [hi] at hs
      split at hs
      · rename_i hp
        simp only [Option.some.injEq] at hs
        have hf := (h.flags j (List.mem_of_getElem? hi)).2 (Or.inr (Or.inr hp))
        obtain ⟨b1, b2, b3⟩ := Sem.release_spec h.bOk
        have hpc : (if ok then Pc.post else Pc.done) = .post ∨ (if ok then Pc.post else Pc.done) = .done := by cases ok <;> simp
        generalize hpe : (if ok = true then Pc.post else Pc.done) = pc' at hs hpc
        have hbi : ∀ k, k ∈ s.build.release.ids ↔ if k = i then pc' = .waitBuild else k ∈ s.build.ids := by
          intro k
          rw [b3]
          by_cases hk : k = i
          · subst hk; rw [h.bIds]; rcases hpc with z | z <;> simp [hi, hp, z]
          · simp [hk]
        by_cases hq : j.synthSem = true
        · obtain ⟨a1, a2, a3⟩ := Sem.release_spec h.sOk
          have e : s' = ⟨s.jobs.set i ⟨pc', false, false⟩, s.build.release, s.synth.release⟩ := by
            rw [← hs]
            simp [St.synthDone, St.buildDone, hq, hf]
          rw [e]
          refine h.upd hi _ _ _ b1 a1 hbi ?_ ?_ ?_ ?_
          · intro k
            rw [a3]
            by_cases hk : k = i
            · subst hk; rw [h.sIds]; rcases hpc with z | z <;> simp [hi, hp, z]
            · simp [hk]
          · rw [b2]; rcases hpc with z | z <;> simp [Job.HoldB, hp, z]
          · rw [a2]; rcases hpc with z | z <;> simp [Job.Synth, Job.Alive, hp, hq]
          · rcases hpc with z | z <;> simp [z]
        · have hq : j.synthSem = false := by simpa using hq
          have e : s' = ⟨s.jobs.set i ⟨pc', false, false⟩, s.build.release, s.synth⟩ := by
            rw [← hs]
            simp [St.synthDone, St.buildDone, hq, hf]
          rw [e]
          refine h.upd hi _ _ _ b1 h.sOk hbi ?_ ?_ ?_ ?_
          · intro k
            by_cases hk : k = i
            · subst hk; rw [h.sIds]; rcases hpc with z | z <;> simp [hi, hp, z]
            · simp [hk]
          · rw [b2]; rcases hpc with z | z <;> simp [Job.HoldB, hp, z]
          · rcases hpc with z | z <;> simp [Job.Synth, Job.Alive, hp, hq]
          · rcases hpc with z | z <;> simp [z]
      · cases hs
  | copied i =>
    simp only [St.step] at hs
    cases hi : s.jobs[i]? with
    | none => simp [hi] at hs
    | some j =>
      simp only [hi] at hs
      split at hs
      · rename_i hp
        simp only [Option.some.injEq] at hs
        subst hs
        refine h.upd hi _ _ _ h.bOk h.sOk ?_ ?_ ?_ ?_ ?_
        · intro k
          by_cases hk : k = i
          · subst hk; rw [h.bIds]; simp [hi, hp]
          · simp [hk]
        · intro k
          by_cases hk : k = i
          · subst hk; rw [h.sIds]; simp [hi, hp]
          · simp [hk]
        · simp [Job.HoldB, hp]
        · simp [Job.Synth, Job.Alive, hp]
        · simp
      · cases hs
  | fail i =>
    simp only [St.step] at hs
    cases hi : s.jobs[i]? with
    | none => simp [hi] at hs
    | some j =>
      simp only [hi] at hs
      split at hs
      · rename_i hp
        simp only [Option.some.injEq] at hs
        subst hs
        refine h.upd hi _ _ _ h.bOk h.sOk ?_ ?_ ?_ ?_ ?_
        · intro k
          by_cases hk : k = i
          · subst hk; rw [h.bIds]; simp [hi, hp]
          · simp [hk]
        · intro k
          by_cases hk : k = i
          · subst hk; rw [h.sIds]; simp [hi, hp]
          · simp [hk]
        · simp [Job.HoldB, hp]
        · simp [Job.Synth, Job.Alive, hp]
        · simp
      · cases hs

theorem inv_init (n P Q : Nat) : Inv P Q (St.init n P Q) := by
  have hz : ∀ f : Job → Bool, f {} = false → (List.replicate n ({} : Job)).countP f = 0 := by
    intro f hf
    rw [List.countP_replicate]
    simp [hf]
  refine ⟨⟨by simp [St.init, Sem.ids], by simp [St.init]⟩, ⟨by simp [St.init, Sem.ids], by simp [St.init]⟩, ?_, ?_, ?_, ?_, ?_⟩
  · intro k
    simp [St.init, Sem.ids, List.getElem?_replicate]
  · intro k
    simp [St.init, Sem.ids, List.getElem?_replicate]
  · simp only [St.init, Sem.held]; rw [hz _ (by simp [Job.HoldB])]; simp
  · simp only [St.init, Sem.held]; rw [hz _ (by simp [Job.Synth, Job.Alive])]; simp
  · intro j hj
    have : j = {} := by
      simp [St.init] at hj
      exact hj.2
    subst this
    simp

theorem run_append (s : St) (a b : List Ev) : s.run (a ++ b) = (s.run a).bind fun s => s.run b := by
  induction a generalizing s with
  | nil => rfl
  | cons e a ih =>
    simp only [List.cons_append, St.run]
    cases s.step e with
    | none => rfl
    | some t => exact ih t

theorem inv_run {P Q : Nat} (es : List Ev) : ∀ {s s' : St}, Inv P Q s → s.run es = some s' → Inv P Q s' := by
  induction es with
  | nil => intro s s' h hr; simp [St.run] at hr; subst hr; exact h
  | cons e es ih =>
    intro s s' h hr
    simp only [St.run] at hr
    cases hs : s.step e with
    | none => simp [hs] at hr
    | some t =>
      simp [hs] at hr
      exact ih (inv_step h hs) hr

theorem inv_reach {n P Q : Nat} {s : St} (h : Reach n P Q s) : Inv P Q s := by
  obtain ⟨es, he⟩ := h
  exact inv_run es (inv_init n P Q) he

/-! ### no job is held up for ever -/

/-- steps left to a job -/
def Job.rank (j : Job) : Nat :=
  match j.pc with
  | .new => 5
  | .waitBuild => 4
  | .waitSynth => 3
  | .running => 2
  | .post => 1
  | _ => 0

def St.rank (s : St) : Nat := (s.jobs.map Job.rank).sum

theorem sum_set {l : List Job} {i : Nat} {x : Job} (h : l[i]? = some x) (y : Job) :
    ((l.set i y).map Job.rank).sum + x.rank = (l.map Job.rank).sum + y.rank := by
  induction l generalizing i with
  | nil => simp at h
  | cons z l ih =>
    cases i with
    | zero =>
      simp at h
      subst h
      simp
      omega
    | succ i =>
      simp at h
      have := ih h
      simp only [List.set_cons_succ, List.map_cons, List.sum_cons]
      omega

theorem toSynth_rank {s : St} {i : Nat} {x : Job} (h : s.jobs[i]? = some x) (hx : 4 ≤ x.rank) (j : Job) : (s.toSynth i j).rank < s.rank := by
  unfold St.toSynth St.rank
  cases s.synth.acquire i with
  | mk ok m =>
    cases ok with
    | true =>
      simp only
      have := sum_set h { j with pc := .running }
      have e : ({ j with pc := .running } : Job).rank = 2 := rfl
      omega
    | false =>
      simp only
      have := sum_set h { j with pc := .waitSynth }
      have e : ({ j with pc := .waitSynth } : Job).rank = 3 := rfl
      omega

theorem rank_step {s s' : St} {e : Ev} (hs : s.step e = some s') : s'.rank + (if e.Proceeds then 1 else 0) ≤ s.rank := by
  cases e with
  | go i =>
    have hp : (Ev.go i).Proceeds := trivial
    rw [if_pos hp]
    simp only [St.step] at hs
    cases hi : s.jobs[i]? with
    | none => simp [hi] at hs
    | some j =>
      simp only [hi] at hs
      cases hp : j.pc with
      | new =>
        simp only [hp, Option.some.injEq] at hs
        subst hs
        have hr : j.rank = 5 := by simp [Job.rank, hp]
        unfold St.start
        simp only
        cases s.build.acquire i with
        | mk ok m =>
          cases ok with
          | true =>
            have := toSynth_rank (s := { s with build := m }) hi (by omega) { j with buildSem := true, synthSem := true }
            exact this
          | false =>
            have := sum_set hi { j with pc := .waitBuild, buildSem := true, synthSem := true }
            have e : ({ j with pc := .waitBuild, buildSem := true, synthSem := true } : Job).rank = 4 := rfl
            simp only [St.rank]
            omega
      | waitBuild =>
        simp only [hp] at hs
        split at hs
        · simp only [Option.some.injEq] at hs
          subst hs
          have hr : j.rank = 4 := by simp [Job.rank, hp]
          exact toSynth_rank (s := { s with build := s.build.resume i }) hi (by omega) j
        · cases hs
      | waitSynth =>
        simp only [hp] at hs
        split at hs
        · simp only [Option.some.injEq] at hs
          subst hs
          have hr : j.rank = 3 := by simp [Job.rank, hp]
          have := sum_set hi { j with pc := .running }
          have e : ({ j with pc := .running } : Job).rank = 2 := rfl
          simp only [St.rank]
          omega
        · cases hs
      | running => simp [hp] at hs
      | post => simp [hp] at hs
      | done => simp [hp] at hs
      | raised => simp [hp] at hs
  | impl i =>
    have hp : ¬ (Ev.impl i).Proceeds := id
    rw [if_neg hp]
    simp only [St.step] at hs
    cases hi : s.jobs[i]? with
    | none => simp [hi] at hs
    | some j =>
      simp only [hi] at hs
      split at hs
      · simp only [Option.some.injEq] at hs
        subst hs
        unfold St.synthDone
        split
        · have := sum_set hi { j with synthSem := false }
          have e : ({ j with synthSem := false } : Job).rank = j.rank := rfl
          simp only [St.rank]
          omega
        · exact Nat.le_refl _
      · cases hs
  | finish i ok =>
    have hp : (Ev.finish i ok).Proceeds := trivial
    rw [if_pos hp]
    simp only [St.step] at hs
    cases hi : s.jobs[i]? with
    | none => simp [hi] at hs
    | some j =>
      simp only [hi] at hs
      split at hs
      · rename_i hq
        simp only [Option.some.injEq] at hs
        have e : ∀ pc', (({ s.synthDone i j with } : St).buildDone i { j with synthSem := false }).jobs.set i ⟨pc', false, false⟩ = s.jobs.set i ⟨pc', false, false⟩ := by
          intro pc'
          cases hb : j.buildSem <;> cases hsy : j.synthSem <;> simp [St.synthDone, St.buildDone, hb, hsy]
        subst hs
        have hr : j.rank = 2 := by simp [Job.rank, hq]
        have := sum_set hi ⟨if ok then Pc.post else Pc.done, false, false⟩
        have e2 : (⟨if ok then Pc.post else Pc.done, false, false⟩ : Job).rank ≤ 1 := by cases ok <;> simp [Job.rank]
        have e3 := e (if ok then Pc.post else Pc.done)
        simp only [St.rank] at *
        rw [e3]
        omega
      · cases hs
  | copied i =>
    have hp : (Ev.copied i).Proceeds := trivial
    rw [if_pos hp]
    simp only [St.step] at hs
    cases hi : s.jobs[i]? with
    | none => simp [hi] at hs
    | some j =>
      simp only [hi] at hs
      split at hs
      · rename_i hq
        simp only [Option.some.injEq] at hs
        subst hs
        have hr : j.rank = 1 := by simp [Job.rank, hq]
        have := sum_set hi { j with pc := .done }
        have e : ({ j with pc := .done } : Job).rank = 0 := rfl
        simp only [St.rank]
        omega
      · cases hs
  | fail i =>
    have hp : ¬ (Ev.fail i).Proceeds := id
    rw [if_neg hp]
    simp only [St.step] at hs
    cases hi : s.jobs[i]? with
    | none => simp [hi] at hs
    | some j =>
      simp only [hi] at hs
      split at hs
      · rename_i hq
        simp only [Option.some.injEq] at hs
        subst hs
        have := sum_set hi { j with pc := .raised }
        have e : ({ j with pc := .raised } : Job).rank = 0 := rfl
        simp only [St.rank]
        omega
      · cases hs

theorem rank_run (es : List Ev) : ∀ {s s' : St}, s.run es = some s' → s'.rank + es.countP (fun e => decide e.Proceeds) ≤ s.rank := by
  induction es with
  | nil => intro s s' h; simp [St.run] at h; subst h; simp
  | cons e es ih =>
    intro s s' hr
    simp only [St.run] at hr
    cases hs : s.step e with
    | none => simp [hs] at hr
    | some t =>
      simp [hs] at hr
      have h1 := ih hr
      have h2 := rank_step hs
      rw [List.countP_cons]
      by_cases hp : e.Proceeds
      · simp only [hp, if_true, decide_true] at *
        omega
      · simp only [hp, if_false, decide_false] at *
        simp
        omega

/-- if nothing goes on, all jobs are done, provided permits are left -/
theorem stuck {P Q : Nat} {s : St} (h : Inv P Q s) (hn : ∀ e, e.Proceeds → s.step e = none) :
    (s.count (fun j => decide (j.pc = .raised)) < P → s.count (fun j => decide (j.pc = .raised ∧ j.synthSem = true)) < Q →
      ∀ j ∈ s.jobs, j.pc = .done ∨ j.pc = .raised) := by
  intro hP hQ
  have hno : ∀ (i : Nat) (j : Job), s.jobs[i]? = some j → j.pc = .waitBuild ∨ j.pc = .waitSynth ∨ j.pc = .done ∨ j.pc = .raised := by
    intro i j hi
    cases hp : j.pc with
    | new => have := hn (.go i) trivial; simp [St.step, hi, hp] at this
    | waitBuild => exact Or.inl rfl
    | waitSynth => exact Or.inr (Or.inl rfl)
    | running => have := hn (.finish i true) trivial; simp [St.step, hi, hp] at this
    | post => have := hn (.copied i) trivial; simp [St.step, hi, hp] at this
    | done => exact Or.inr (Or.inr (Or.inl rfl))
    | raised => exact Or.inr (Or.inr (Or.inr rfl))
  have hall : ∀ j ∈ s.jobs, j.pc = .waitBuild ∨ j.pc = .waitSynth ∨ j.pc = .done ∨ j.pc = .raised := by
    intro j hj
    obtain ⟨i, hi⟩ := List.mem_iff_getElem?.1 hj
    exact hno i j hi
  have held0 : ∀ m : Sem, m.Ok → (∀ k, (k, true) ∉ m.waiters) → m.waiters ≠ [] → m.held = 0 := by
    intro m hm h1 h2
    have hf : ∀ w ∈ m.waiters, w.2 = false := by
      rintro ⟨k, b⟩ hw
      cases b with
      | false => rfl
      | true => exact absurd hw (h1 k)
    have hc : m.waiters.countP (·.2) = 0 := by
      rw [List.countP_eq_zero]
      intro w hw
      rw [hf w hw]
      simp
    unfold Sem.held
    rw [hm.busy hf h2, hc]
  have noS : ∀ j ∈ s.jobs, j.pc ≠ .waitSynth := by
    intro j hj hp
    obtain ⟨i, hi⟩ := List.mem_iff_getElem?.1 hj
    have hm : i ∈ s.synth.ids := (h.sIds i).2 ⟨j, hi, hp⟩
    have hz := held0 s.synth h.sOk (by
      intro k hk
      obtain ⟨x, hx, hq⟩ := (h.sIds k).1 (List.mem_map.2 ⟨_, hk, rfl⟩)
      have := hn (.go k) trivial
      simp [St.step, hx, hq, hk] at this) (by
      intro hh
      simp [Sem.ids, hh] at hm)
    have hc := h.sCount
    rw [hz] at hc
    have : s.jobs.countP Job.Synth = s.jobs.countP (fun j => decide (j.pc = .raised ∧ j.synthSem = true)) := by
      apply List.countP_congr
      intro x hx
      rcases hall x hx with e | e | e | e <;> simp [Job.Synth, Job.Alive, e]
    unfold St.count at hQ
    omega
  have noB : ∀ j ∈ s.jobs, j.pc ≠ .waitBuild := by
    intro j hj hp
    obtain ⟨i, hi⟩ := List.mem_iff_getElem?.1 hj
    have hm : i ∈ s.build.ids := (h.bIds i).2 ⟨j, hi, hp⟩
    have hz := held0 s.build h.bOk (by
      intro k hk
      obtain ⟨x, hx, hq⟩ := (h.bIds k).1 (List.mem_map.2 ⟨_, hk, rfl⟩)
      have := hn (.go k) trivial
      simp [St.step, hx, hq, hk] at this) (by
      intro hh
      simp [Sem.ids, hh] at hm)
    have hc := h.bCount
    rw [hz] at hc
    have : s.jobs.countP Job.HoldB = s.jobs.countP (fun j => decide (j.pc = .raised)) := by
      apply List.countP_congr
      intro x hx
      have := noS x hx
      rcases hall x hx with e | e | e | e <;> simp [Job.HoldB, e]
      exact this e
    unfold St.count at hP
    omega
  intro j hj
  rcases hall j hj with e | e | e | e
  · exact absurd e (noB j hj)
  · exact absurd e (noS j hj)
  · exact Or.inl e
  · exact Or.inr e

/-! ### order -/

/-- jobs that wait for a permit -/
def Sem.undone (s : Sem) : List Nat := (s.waiters.filter (fun w => !w.2)).map Prod.fst

theorem undone_wake (s : Sem) : s.wake.undone = s.undone ∨ ∃ u, s.undone = u :: s.wake.undone := by
  unfold Sem.wake
  cases h : wakeFirst s.waiters with
  | none => exact Or.inl rfl
  | some ws =>
    right
    unfold Sem.undone
    simp only
    generalize s.waiters = l at h
    induction l generalizing ws with
    | nil => simp [wakeFirst] at h
    | cons w l ih =>
      obtain ⟨i, b⟩ := w
      cases b with
      | false =>
        simp [wakeFirst] at h
        subst h
        exact ⟨i, by simp⟩
      | true =>
        simp [wakeFirst] at h
        obtain ⟨a, h1, rfl⟩ := h
        obtain ⟨u, hu⟩ := ih _ h1
        exact ⟨u, by simpa using hu⟩

structure Ord (F : List Nat) (s : St) : Prop where
  nodup : F.Nodup
  old : ∀ f ∈ F, ∃ j, s.jobs[f]? = some j ∧ j.pc ≠ .new
  split : ∃ G, F = G ++ s.build.undone

theorem set_old {s : St} {i : Nat} {j j' : Job} (hi : s.jobs[i]? = some j) (hj : j'.pc ≠ .new) {f : Nat}
    (h : f = i ∨ ∃ x, s.jobs[f]? = some x ∧ x.pc ≠ .new) : ∃ x, (s.jobs.set i j')[f]? = some x ∧ x.pc ≠ .new := by
  have hlt : i < s.jobs.length := by
    rw [List.getElem?_eq_some_iff] at hi
    exact hi.1
  rw [List.getElem?_set]
  by_cases hk : i = f
  · subst hk
    simp [hlt]
    exact hj
  · rw [if_neg hk]
    rcases h with h | h
    · exact absurd h.symm hk
    · exact h

theorem split_wake {F : List Nat} {b : Sem} (h : ∃ G, F = G ++ b.undone) (b' : Sem) (h' : b'.undone = b.undone ∨ ∃ u, b.undone = u :: b'.undone) :
    ∃ G, F = G ++ b'.undone := by
  obtain ⟨G, hG⟩ := h
  rcases h' with h' | ⟨u, hu⟩
  · exact ⟨G, by rw [h', hG]⟩
  · exact ⟨G ++ [u], by rw [hG, hu]; simp⟩

theorem toSynth_build (s : St) (i : Nat) (j : Job) : (s.toSynth i j).build = s.build ∧ ∃ j', (s.toSynth i j).jobs = s.jobs.set i j' ∧ j'.pc ≠ .new := by
  unfold St.toSynth
  cases s.synth.acquire i with
  | mk ok m => cases ok <;> exact ⟨rfl, _, rfl, by simp⟩

theorem resume_undone {s : Sem} (hn : s.ids.Nodup) {i : Nat} (hm : (i, true) ∈ s.waiters) :
    (s.resume i).undone = s.undone ∨ ∃ u, s.undone = u :: (s.resume i).undone := by
  obtain ⟨_, _, e3⟩ := erase_waiter hn hm
  have e : Sem.undone { s with waiters := s.waiters.eraseP (fun w => w.1 == i) } = s.undone := by
    unfold Sem.undone
    simp only [e3]
  unfold Sem.resume
  simp only
  split
  · have := undone_wake { s with waiters := s.waiters.eraseP (fun w => w.1 == i) }
    rw [e] at this
    exact this
  · exact Or.inl e

theorem release_undone (s : Sem) : s.release.undone = s.undone ∨ ∃ u, s.undone = u :: s.release.undone :=
  undone_wake { s with value := s.value + 1 }

theorem ord_step {P Q : Nat} {F : List Nat} {s s' : St} (hi : Inv P Q s) (h : Ord F s) {e : Ev} (hs : s.step e = some s') :
    Ord (F ++ s.begins e) s' := by
  cases e with
  | go i =>
    simp only [St.step] at hs
    cases hj : s.jobs[i]? with
    | none => simp [hj] at hs
    | some j =>
      simp only [hj] at hs
      cases hp : j.pc with
      | new =>
        simp only [hp, Option.some.injEq] at hs
        subst hs
        have hb : s.begins (.go i) = [i] := by simp [St.begins, hj, hp]
        rw [hb]
        have hnF : i ∉ F := by
          intro hh
          obtain ⟨x, hx, hq⟩ := h.old i hh
          rw [hj] at hx
          simp at hx
          subst hx
          exact hq hp
        have hnd : (F ++ [i]).Nodup := by
          rw [List.nodup_append]
          refine ⟨h.nodup, by simp, ?_⟩
          intro a ha b hb hh
          simp at hb
          subst hb
          subst hh
          exact hnF ha
        unfold St.start
        simp only
        by_cases hc : s.build.value = 0 ∨ s.build.waiters ≠ []
        · have : s.build.acquire i = (false, { s.build with waiters := s.build.waiters ++ [(i, false)] }) := by simp only [Sem.acquire, hc, if_true]
          rw [this]
          refine ⟨hnd, ?_, ?_⟩
          · intro f hf
            refine set_old hj (by simp) ?_
            rcases List.mem_append.1 hf with hf | hf
            · exact Or.inr (h.old f hf)
            · simp at hf; exact Or.inl hf
          · obtain ⟨G, hG⟩ := h.split
            refine ⟨G, ?_⟩
            rw [hG]
            simp [Sem.undone]
        · have hw : s.build.waiters = [] := Classical.byContradiction fun hh => hc (Or.inr hh)
          have : s.build.acquire i = (true, { s.build with value := s.build.value - 1 }) := by simp only [Sem.acquire, hc, if_false]
          rw [this]
          obtain ⟨t1, j', t2, t3⟩ := toSynth_build { s with build := { s.build with value := s.build.value - 1 } } i { j with buildSem := true, synthSem := true }
          refine ⟨hnd, ?_, ?_⟩
          · intro f hf
            rw [t2]
            refine set_old hj t3 ?_
            rcases List.mem_append.1 hf with hf | hf
            · exact Or.inr (h.old f hf)
            · simp at hf; exact Or.inl hf
          · rw [t1]
            exact ⟨F ++ [i], by simp [Sem.undone, hw]⟩
      | waitBuild =>
        have hb : s.begins (.go i) = [] := by simp [St.begins, hj, hp]
        rw [hb, List.append_nil]
        simp only [hp] at hs
        split at hs
        · rename_i hm
          simp only [Option.some.injEq] at hs
          subst hs
          obtain ⟨t1, j', t2, t3⟩ := toSynth_build { s with build := s.build.resume i } i j
          refine ⟨h.nodup, ?_, ?_⟩
          · intro f hf
            rw [t2]
            exact set_old hj t3 (Or.inr (h.old f hf))
          · rw [t1]
            exact split_wake h.split _ (resume_undone hi.bOk.nodup hm)
        · cases hs
      | waitSynth =>
        have hb : s.begins (.go i) = [] := by simp [St.begins, hj, hp]
        rw [hb, List.append_nil]
        simp only [hp] at hs
        split at hs
        · rename_i hm
          simp only [Option.some.injEq] at hs
          subst hs
          refine ⟨h.nodup, ?_, h.split⟩
          intro f hf
          exact set_old hj (by simp) (Or.inr (h.old f hf))
        · cases hs
      | running => simp [hp] at hs
      | post => simp [hp] at hs
      | done => simp [hp] at hs
      | raised => simp [hp] at hs
  | impl i =>
    have hb : s.begins (.impl i) = [] := rfl
    rw [hb, List.append_nil]
    simp only [St.step] at hs
    cases hj : s.jobs[i]? with
    | none => simp [hj] at hs
    | some j =>
      simp only [hj] at hs
      split at hs
      · rename_i hp
        simp only [Option.some.injEq] at hs
        subst hs
        unfold St.synthDone
        split
        · refine ⟨h.nodup, ?_, h.split⟩
          intro f hf
          exact set_old hj (by simp [hp]) (Or.inr (h.old f hf))
        · exact h
      · cases hs
  | finish i ok =>
    have hb : s.begins (.finish i ok) = [] := rfl
    rw [hb, List.append_nil]
    simp only [St.step] at hs
    cases hj : s.jobs[i]? with
    | none => simp [hj] at hs
    | some j =>
      simp only [hj] at hs
      split at hs
      · rename_i hp
        simp only [Option.some.injEq] at hs
        have hf := (hi.flags j (List.mem_of_getElem? hj)).2 (Or.inr (Or.inr hp))
        have e : s'.jobs = s.jobs.set i ⟨if ok then Pc.post else Pc.done, false, false⟩ ∧ s'.build = s.build.release := by
          rw [← hs]
          cases hsy : j.synthSem <;> simp [St.synthDone, St.buildDone, hf, hsy]
        refine ⟨h.nodup, ?_, ?_⟩
        · intro f hf
          rw [e.1]
          exact set_old hj (by cases ok <;> simp) (Or.inr (h.old f hf))
        · rw [e.2]
          exact split_wake h.split _ (release_undone _)
      · cases hs
  | copied i =>
    have hb : s.begins (.copied i) = [] := rfl
    rw [hb, List.append_nil]
    simp only [St.step] at hs
    cases hj : s.jobs[i]? with
    | none => simp [hj] at hs
    | some j =>
      simp only [hj] at hs
      split at hs
      · simp only [Option.some.injEq] at hs
        subst hs
        refine ⟨h.nodup, ?_, h.split⟩
        intro f hf
        exact set_old hj (by simp) (Or.inr (h.old f hf))
      · cases hs
  | fail i =>
    have hb : s.begins (.fail i) = [] := rfl
    rw [hb, List.append_nil]
    simp only [St.step] at hs
    cases hj : s.jobs[i]? with
    | none => simp [hj] at hs
    | some j =>
      simp only [hj] at hs
      split at hs
      · simp only [Option.some.injEq] at hs
        subst hs
        refine ⟨h.nodup, ?_, h.split⟩
        intro f hf
        exact set_old hj (by simp) (Or.inr (h.old f hf))
      · cases hs

theorem ord_run {P Q : Nat} (es : List Ev) : ∀ {F : List Nat} {s s' : St}, Inv P Q s → Ord F s → s.run es = some s' → Ord (F ++ s.firsts es) s' := by
  induction es with
  | nil => intro F s s' _ h hr; simp [St.run] at hr; subst hr; simpa [St.firsts] using h
  | cons e es ih =>
    intro F s s' hi h hr
    simp only [St.run] at hr
    cases hs : s.step e with
    | none => simp [hs] at hr
    | some t =>
      simp [hs] at hr
      have := ih (inv_step hi hs) (ord_step hi h hs) hr
      simp only [St.firsts, hs]
      rw [← List.append_assoc]
      exact this

end Corundum.BuildImages
