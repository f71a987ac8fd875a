import Verif.Proof.DmaWrSeq

/-! The TLPs sent and the status, from the invariants. -/
namespace Corundum.DmaWr

section
variable {Byte : Type} {c : Par} {M : Nat}

theorem cut_skip : ∀ (xs ys acc : List (Beat Byte)), (∀ b ∈ xs, b.eop = false) → cut acc (xs ++ ys) = cut (acc ++ xs) ys
  | [], ys, acc, _ => by simp
  | x :: xs, ys, acc, h => by
    rw [List.cons_append, cut, h x (by simp)]
    simp only [Bool.false_eq_true, if_false]
    rw [cut_skip xs ys (acc ++ [x]) fun b hb => h b (by simp [hb]), List.append_assoc]
    rfl

theorem beats_eop (cc : Cfg) (e : Ent Byte) (seq : Nat) (D : Nat → Nat → Byte) {k : Nat} (hk : k ≤ e.cyc) : (beatAt cc e seq D k).eop = decide (k = e.cyc) := tx_last cc e hk

theorem cut_beats (cc : Cfg) (e : Ent Byte) (seq : Nat) (D : Nat → Nat → Byte) (ys : List (Beat Byte)) : cut [] (beatsOf cc e seq D ++ ys) = beatsOf cc e seq D :: cut [] ys := by
  unfold beatsOf
  rw [List.range_succ, List.map_append, List.map_singleton, List.append_assoc, cut_skip]
  · rw [List.singleton_append, cut, beats_eop _ _ _ _ (Nat.le_refl _)]
    simp
  · intro b hb
    obtain ⟨k, hk, rfl⟩ := List.mem_map.1 hb
    rw [List.mem_range] at hk
    rw [beats_eop _ _ _ _ (by omega)]
    simp; omega

theorem cut_flatten (cc : Cfg) (part : List (Beat Byte)) (hp : ∀ b ∈ part, b.eop = false) : ∀ fs : List (List (Beat Byte)), (∀ f ∈ fs, ∃ e seq D, f = beatsOf cc e seq D) → cut [] (fs.flatten ++ part) = fs
  | [], _ => by
    have := cut_skip part [] [] hp
    rw [List.append_nil] at this
    rw [List.flatten_nil, List.nil_append, this]; rfl
  | f :: fs, h => by
    obtain ⟨e, seq, D, rfl⟩ := h f (by simp)
    rw [List.flatten_cons, List.append_assoc, cut_beats, cut_flatten cc part hp fs fun g hg => h g (by simp [hg])]

theorem tlps_eq (hD : Dims c.toCfg M) {s : St Byte} {fs part} (I : Inv c s) (O : Out c s fs part) : tlps s.out = fs := by
  unfold tlps
  rw [O.out]
  apply cut_flatten c.toCfg
  · intro b hb
    have hp := O.part
    have ht := I.tx
    unfold TxAt at ht
    cases hx : s.tx with
    | none => rw [hx] at hp; rw [hp] at hb; exact absurd hb (by simp)
    | some p =>
      obtain ⟨j, t⟩ := p
      rw [hx] at hp ht
      obtain ⟨D, hp1, _⟩ := hp
      obtain ⟨_, _, k, hk, rfl⟩ := ht
      rw [tx_left _ _ hk] at hp1
      rw [hp1] at hb
      obtain ⟨i, hi, rfl⟩ := List.mem_map.1 hb
      rw [List.mem_range] at hi
      rw [beats_eop _ _ _ _ (by omega)]
      simp; omega
  · intro f hf
    obtain ⟨i, hi, rfl⟩ := List.getElem_of_mem hf
    obtain ⟨j, D, _, h2, _⟩ := O.full i (by rw [← O.len]; exact hi)
    rw [List.getElem?_eq_getElem hi] at h2
    simp only [Option.some.injEq] at h2
    exact ⟨_, _, _, h2⟩

/-- what the TLP of an entry writes -/
theorem job_written (hD : Dims c.toCfg M) {s : St Byte} (I : Inv c s) {j : Job Byte} (hj : j ∈ s.made) (seq : Nat) (D : Nat → Nat → Byte) (hg : ∀ k, k ≤ j.e.cyc → GoodBeat c.toCfg s j k (D k)) :
    written c.toCfg (beatsOf c.toCfg j.e seq D) = jobBytes c.toCfg (look s) j := by
  obtain ⟨d, snap, lo, T, hl, hgv, he⟩ := inv_job hD I hj
  have hadd : j.e.addr - d.addr = lo := by have := he.addr; omega
  unfold jobBytes
  rw [hl]
  dsimp only
  rw [hadd, he.len]
  by_cases h0 : d.len = 0
  · have hT : T = 1 := by
      have := he.pos
      have := he.le
      unfold Desc.total at this
      rw [if_pos h0] at this
      omega
    rw [written_eq hD he seq D (fun _ => (match j.e.imm with | some f => f | none => D ((0 + j.e.addr % 4) / c.ram.bus)) ((j.e.ram + 0) % c.ram.lanes)) (by
      intro q hq
      have : q = 0 := by omega
      subst this; rfl)]
    rw [if_pos h0, if_pos h0]
  · have hle : lo + T ≤ d.len := by
      have := he.le
      unfold Desc.total at this
      rw [if_neg h0] at this
      exact this
    refine written_eq hD he seq D (src c.toCfg (d, snap)) ?_
    intro q hq
    have hcov := (rd_covers hD he hq).1
    cases himm : d.imm with
    | none =>
      have := hg _ hcov (d, snap) hl himm q (by rw [he.len]; exact hq) (by dsimp only; omega) rfl
      rw [he.imm, himm]
      dsimp only at this ⊢
      rw [this, hadd]
    | some f =>
      rw [he.imm, himm]
      dsimp only
      unfold src
      dsimp only
      rw [himm]
      dsimp only
      have hbase : d.base = 0 := by unfold Desc.base; rw [himm]; rfl
      have hdvd : c.ram.lanes ∣ 2 ^ c.ram.aw := ⟨M, by rw [hD.z.words, Nat.mul_comm]⟩
      have hlan := hgv.imm (by rw [himm]; rfl)
      congr 1
      rw [he.ram, hbase, Nat.zero_add, ← Nat.mod_add_mod, Nat.mod_mod_of_dvd _ hdvd, Nat.mod_add_mod, Nat.mod_eq_of_lt (by omega)]

theorem tlps_written (hD : Dims c.toCfg M) {s : St Byte} {fs part} (I : Inv c s) (O : Out c s fs part) (n : Nat) (hn : n ≤ s.gtf) :
    ((tlps s.out).take n).flatMap (written c.toCfg) = (s.made.take n).flatMap (jobBytes c.toCfg (look s)) := by
  rw [tlps_eq hD I O, List.flatMap_def, List.flatMap_def]
  congr 1
  have o2 := I.o2
  have o3 := I.o3
  apply List.ext_getElem?
  intro i
  rw [List.getElem?_map, List.getElem?_map]
  rcases Nat.lt_or_ge i n with hi | hi
  · obtain ⟨j, D, h1, h2, h3⟩ := O.full i (by omega)
    rw [List.getElem?_take_of_lt hi, List.getElem?_take_of_lt hi, h1, h2, Option.map_some, Option.map_some, job_written hD I (List.mem_of_getElem? h1) _ D h3]
  · rw [List.getElem?_take_eq_none hi, List.getElem?_take_eq_none hi]; rfl

theorem hist_bytes (hD : Dims c.toCfg M) {s : St Byte} (I : Inv c s) (m : Nat) : (planFrom c.toCfg 0 (s.hist.take m)).flatMap (jobBytes c.toCfg (look s)) = (s.hist.take m).flatMap fun x => x.1.wanted c.toCfg x.2 := by
  apply plan_bytes hD
  · intro x hx; exact I.given x (List.mem_of_mem_take hx)
  · intro t x hx
    rw [Nat.zero_add]
    unfold look
    rcases Nat.lt_or_ge t m with h | h
    · rw [List.getElem?_take_of_lt h] at hx; exact hx
    · rw [List.getElem?_take_eq_none h] at hx; exact absurd hx (by simp)

theorem plan_prefix {s : St Byte} (I : Inv c s) (m : Nat) : planFrom c.toCfg 0 (s.hist.take m) <+: s.made ++ s.cur := by
  rw [← I.plan]
  have : planFrom c.toCfg 0 s.hist = planFrom c.toCfg 0 (s.hist.take m) ++ planFrom c.toCfg (0 + (s.hist.take m).length) (s.hist.drop m) := by
    rw [← planFrom_append, List.take_append_drop]
  rw [this]
  exact List.prefix_append _ _

theorem flatMap_prefix {α β : Type} (f : α → List β) {a b : List α} (h : a <+: b) : a.flatMap f <+: b.flatMap f := by
  obtain ⟨t, rfl⟩ := h
  rw [List.flatMap_append]
  exact List.prefix_append _ _

/-- the entries of the finished descriptors are among the finished ones -/
theorem done_prefix (hD : Dims c.toCfg M) {s : St Byte} (I : Inv c s) : planFrom c.toCfg 0 (s.hist.take s.stat.length) <+: s.made.take s.gf := by
  have o1 := I.o1
  have o2 := I.o2
  have o3 := I.o3
  have h1 : s.made.take s.gf = (planFrom c.toCfg 0 s.hist).take s.gf := by rw [I.plan, List.take_append_of_le_length (by omega)]
  have h2 := plan_cover hD s.hist I.given s.gf s.stat.length (by rw [← h1, ← stat_len I])
  have h3 := plan_prefix I s.stat.length
  rw [← I.plan] at h3
  rw [h1]
  exact List.prefix_of_prefix_length_le h3 (List.take_prefix _ _) (by rw [List.length_take]; have := List.IsPrefix.length_le h3; omega)

/-! ### the order of the status -/

def statOf (j : Job Byte) : Option Nat := if j.e.last then some j.e.tag else none

theorem cov_stat {cc : Cfg} {d : Desc Byte} {lo : Nat} {es : List (Ent Byte)} (h : Cov cc d lo es) (i : Nat) : (es.map (Job.mk i)).filterMap statOf = [d.tag] := by
  induction h with
  | last lo T e he ht =>
    have : e.last = true := by rw [he.last]; simp [ht]
    simp [statOf, this, he.tag]
  | cons lo T e es he ht hc ih =>
    have : e.last = false := by rw [he.last]; simp; omega
    rw [List.map_cons, List.filterMap_cons]
    simp only [statOf, this, Bool.false_eq_true, if_false]
    exact ih

theorem stat_none (l : List (Job Byte)) (h : l.countP isLast = 0) : l.filterMap statOf = [] := by
  rw [List.filterMap_eq_nil_iff]
  intro j hj
  have := List.countP_eq_zero.1 h j hj
  unfold statOf isLast at *
  rw [if_neg this]

theorem plan_stat {cc : Cfg} (hD : Dims cc M) : ∀ (xs : List (Desc Byte × (Nat → Nat → Byte))) (i k : Nat), (∀ x ∈ xs, x.1.Given cc) →
    ((planFrom cc i xs).take k).filterMap statOf = (xs.take (((planFrom cc i xs).take k).countP isLast)).map fun x => x.1.tag
  | [], _, _, _ => by simp [planFrom]
  | x :: xs, i, k, h => by
    obtain ⟨es, h1, h2⟩ := jobs_cov hD x.1 (h x (by simp)) i
    have hc := cov_count h2 i
    simp only [planFrom]
    rw [h1]
    rcases Nat.lt_or_ge k es.length with hl | hl
    · rw [List.take_append_of_le_length (by simpa using Nat.le_of_lt hl), hc.2.1 k hl, stat_none _ (hc.2.1 k hl)]; rfl
    · rw [List.take_append, List.take_of_length_le (l := es.map (Job.mk i)) (by simpa using hl), List.filterMap_append, List.countP_append, hc.1, cov_stat h2,
        plan_stat hD xs (i + 1) _ fun y hy => h y (by simp [hy])]
      rw [Nat.add_comm 1, List.take_succ_cons]; rfl

theorem stat_order (hD : Dims c.toCfg M) {s : St Byte} (I : Inv c s) : s.stat = (s.hist.take s.stat.length).map fun x => x.1.tag := by
  have o1 := I.o1
  have o2 := I.o2
  have o3 := I.o3
  have h1 : s.made.take s.gf = (planFrom c.toCfg 0 s.hist).take s.gf := by rw [I.plan, List.take_append_of_le_length (by omega)]
  have h2 := plan_stat hD s.hist 0 s.gf I.given
  rw [← h1, ← stat_len I] at h2
  rw [← h2]
  exact I.stat

theorem run_inner (hD : Dims c.toCfg M) : ∀ (es : List (Ev Byte)) (s t : St Byte), Inv c s → Seq c s → (∀ n, c.ram.segs ≤ n → s.seg n = []) → (∀ e ∈ es, Inner e) → run c s es = some t → es.length + work c t ≤ work c s
  | [], s, t, _, _, _, _, h => by simp only [run, Option.some.injEq] at h; subst h; simp
  | e :: es, s, t, I, S, hseg, he, h => by
    simp only [run] at h
    cases hs : step c s e with
    | none => rw [hs] at h; exact absurd h (by simp)
    | some u =>
      rw [hs] at h
      have hi := he e (by simp)
      have hl : Legal c s e := by
        cases e <;> trivial
      have hw := work_dec hD I S hi hseg hs
      have := run_inner hD es u t (inv_step hD I hl hs) (seq_step hD I S hs) hw.2 (fun x hx => he x (by simp [hx])) h
      rw [List.length_cons]; omega

/-- a run without changes of the RAMs from outside -/
theorem reach_run {mem : Nat → Nat → Byte} : ∀ (es : List (Ev Byte)) (s t : St Byte), Reach c mem s → (∀ e ∈ es, match e with | .accept d => d.Given c.toCfg | .poke _ => False | _ => True) → run c s es = some t → Reach c mem t
  | [], s, t, h, _, hr => by simp only [run, Option.some.injEq] at hr; subst hr; exact h
  | e :: es, s, t, h, he, hr => by
    simp only [run] at hr
    cases hs : step c s e with
    | none => rw [hs] at hr; exact absurd hr (by simp)
    | some u =>
      rw [hs] at hr
      have hi := he e (by simp)
      have hl : Legal c s e := by
        cases e <;> trivial
      exact reach_run es u t (.step h hl hs) (fun x hx => he x (by simp [hx])) hr

end

end Corundum.DmaWr
