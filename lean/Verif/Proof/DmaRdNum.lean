import Verif.Proof.DmaRdOp

namespace Corundum.DmaRd

section
variable {Byte : Type} {w ow : Nat} {c : Cfg} {p : Ram} {host : Nat → Byte} {s s' : St Byte}

/-- in use -/
def Active (s : St Byte) (o : Nat) : Prop := o ∈ s.busy ∨ (s.cur.isSome = true ∧ s.opReg = some o)

theorem Live.active {o : Nat} (h : Live s o) : Active s o := by
  rcases h with h | h
  · exact Or.inl h
  · exact Or.inr ⟨h.1, h.2.1⟩

structure NumInv (c : Cfg) (p : Ram) (s : St Byte) : Prop where
  num : ∀ o, Active s o → s.hist[s.num o]? = some (s.desc o) ∧ s.utag o = (s.desc o).tag ∧ ∀ x ∈ s.out, x.1 ≠ s.num o
  inj : ∀ o o', Active s o → Active s o' → s.num o = s.num o' → o = o'
  all : ∀ i, i < s.hist.length → (∃ x ∈ s.out, x.1 = i) ∨ ∃ o, Active s o ∧ s.num o = i
  outOk : ∀ x ∈ s.out, ∃ d, s.hist[x.1]? = some d ∧ x.2.1 = d.tag
  nodup : (s.out.map fun x => x.1).Nodup
  fine : ∀ d ∈ s.hist, Fine c p d
  apart : ∀ o o', Active s o → Active s o' → o ≠ o' → Apart p (s.desc o) (s.desc o')
  last : s.cur.isSome = true → ∀ o, s.opReg = some o → s.num o + 1 = s.hist.length
  own : ∀ t ∈ s.outs, s.own t = s.num (s.ent t).op
  failLt : ∀ i ∈ s.failed, i < s.hist.length
  bad : ∀ o, Active s o → (s.num o ∈ s.failed ↔ s.errF o = true ∨ ∃ e ∈ s.stat, e.op = o ∧ e.err ≠ 0)
  code : ∀ o, s.errF o = true → s.errC o ≠ 0
  outErr : ∀ x ∈ s.out, (x.2.2 ≠ 0 ↔ x.1 ∈ s.failed)
  ent : ∀ t ∈ s.outs, (s.ent t).sel = (s.desc (s.ent t).op).sel ∧ (s.ent t).r ∈ reqs c (s.desc (s.ent t).op)

theorem Apart.symm {d d' : Desc} (h : Apart p d d') : Apart p d' d := fun s y h1 h2 => h s y h2 h1

theorem getElem?_append_of {A : Type} {l m : List A} {i : Nat} {a : A} (h : l[i]? = some a) : (l ++ m)[i]? = some a := by
  obtain ⟨hi, _⟩ := List.getElem?_eq_some_iff.1 h
  rw [List.getElem?_append_left hi]; exact h

theorem num_inv_init (mem : Nat → Nat → Byte) : NumInv c p (init w ow mem) := by
  have na : ∀ o, ¬ Active (init w ow mem) o := by intro o h; simp [Active, init] at h
  refine ⟨fun o h => absurd h (na o), fun o o' h => absurd h (na o), ?_, ?_, ?_, ?_, fun o o' h => absurd h (na o), ?_, ?_, ?_, fun o h => absurd h (na o), ?_, ?_, ?_⟩
  all_goals simp [init]

theorem num_inv_step (hw : 5 ≤ w) (e : Ev Byte) (ti : TagInv w s) (oi : OpInv w ow c s) (i : NumInv c p s) (hl : Legal c p host s e) (h : step w c p s e = some s') : NumInv c p s' := by
  have ii := i
  obtain ⟨i1, i2, i3, i4, i5, i6, i7, i8, i9, i10, i11, i12, i13, i14⟩ := i
  cases e with
  | accept d =>
    obtain ⟨o, h1, h2, rfl⟩ := accept_inv h
    have hnb := busy_not_reg oi h2
    have hna : ∀ o', Active s o' ↔ o' ∈ s.busy := by
      intro o'; simp [Active, h1]
    have hac : ∀ o', (o' ∈ s.busy ∨ ((some (d.sel, reqs c d)).isSome = true ∧ s.opReg = some o')) ↔ Active s o' ∨ o' = o := by
      intro o'
      rw [hna, h2]
      simp only [Option.isSome_some, true_and, Option.some.injEq]
      constructor
      · rintro (q | q); exact Or.inl q; exact Or.inr q.symm
      · rintro (q | q); exact Or.inl q; exact Or.inr q.symm
    have hne : ∀ o', Active s o' → o' ≠ o := by
      rintro o' q rfl; exact hnb ((hna _).1 q)
    have hlt : ∀ o', Active s o' → s.num o' < s.hist.length := by
      intro o' q
      exact (List.getElem?_eq_some_iff.1 (i1 o' q).1).1
    refine ⟨?_, ?_, ?_, ?_, i5, ?_, ?_, ?_, ?_, ?_, ?_, ?_, i13, ?_⟩
    · intro o' ha
      rcases (hac o').1 ha with q | rfl
      · have := hne o' q
        simp only [upd, if_neg this]
        exact ⟨getElem?_append_of (i1 o' q).1, (i1 o' q).2.1, (i1 o' q).2.2⟩
      · simp only [upd, if_true]
        refine ⟨by simp, by simp, ?_⟩
        intro x hx
        obtain ⟨d', q, _⟩ := i4 x hx
        have := (List.getElem?_eq_some_iff.1 q).1
        omega
    · intro o1 o2 ha1 ha2 hq
      simp only [upd] at hq
      rcases (hac o1).1 ha1 with q1 | rfl <;> rcases (hac o2).1 ha2 with q2 | rfl
      · rw [if_neg (hne _ q1), if_neg (hne _ q2)] at hq; exact i2 _ _ q1 q2 hq
      · rw [if_neg (hne _ q1), if_pos rfl] at hq; have := hlt _ q1; omega
      · rw [if_neg (hne _ q2), if_pos rfl] at hq; have := hlt _ q2; omega
      · rfl
    · intro j hj
      simp only [List.length_append, List.length_singleton] at hj
      by_cases hq : j = s.hist.length
      · right; exact ⟨o, (hac o).2 (Or.inr rfl), by simp [upd, hq]⟩
      · rcases i3 j (by omega) with q | ⟨o', q, q2⟩
        · exact Or.inl q
        · right; exact ⟨o', (hac o').2 (Or.inl q), by simp [upd, hne o' q, q2]⟩
    · intro x hx
      obtain ⟨d', q, q2⟩ := i4 x hx
      exact ⟨d', getElem?_append_of q, q2⟩
    · intro d' hd
      simp only [List.mem_append, List.mem_singleton] at hd
      rcases hd with q | rfl
      · exact i6 d' q
      · exact hl.1
    · intro o1 o2 ha1 ha2 hq
      simp only [upd]
      rcases (hac o1).1 ha1 with q1 | rfl <;> rcases (hac o2).1 ha2 with q2 | rfl
      · rw [if_neg (hne _ q1), if_neg (hne _ q2)]; exact i7 _ _ q1 q2 hq
      · rw [if_neg hq, if_pos rfl]; exact hl.2 o1 ((hna _).1 q1)
      · rw [if_pos rfl, if_neg (fun z => hq z.symm)]; exact (hl.2 o2 ((hna _).1 q2)).symm
      · exact absurd rfl hq
    · intro _ o' ho
      rw [h2] at ho
      have : o = o' := Option.some.inj ho
      subst this
      simp [upd]
    · intro t ht
      have := hne _ (oi.liveOut t ht).active
      simp only [upd, if_neg this]
      exact i9 t ht
    · intro j hj
      have := i10 j hj
      simp only [List.length_append, List.length_singleton]; omega
    · intro o' ha
      rcases (hac o').1 ha with q | rfl
      · have := hne o' q
        simp only [upd, if_neg this]
        exact i11 o' q
      · simp only [upd, if_true]
        constructor
        · intro q; have := i10 _ q; omega
        · rintro (q | ⟨e, he, q, _⟩)
          · exact absurd q (by simp)
          · exact absurd q (hne _ (oi.liveStat e he).active)
    · intro o' q
      simp only [upd] at q
      split at q
      · exact absurd q (by simp)
      · exact i12 o' q
    · intro t ht
      have := hne _ (oi.liveOut t ht).active
      simp only [upd, if_neg this]
      exact i14 t ht
  | issue =>
    obtain ⟨sel, r, rs, o, t, h1, h2, h3, rfl⟩ := issue_inv h
    have hno := tag_not_out ti h3
    have hao : Active s o := Or.inr ⟨by rw [h1]; rfl, h2⟩
    have hac : ∀ o', (o' ∈ (if rs.isEmpty then o :: s.busy else s.busy) ∨
        ((if rs.isEmpty then none else some (sel, rs)).isSome = true ∧ (if rs.isEmpty then none else some o) = some o')) ↔ Active s o' := by
      intro o'
      simp only [Active, h1, h2]
      by_cases hr : rs.isEmpty = true
      · simp only [hr, if_true]
        simp only [List.mem_cons, Option.isSome_none, Bool.false_eq_true, false_and, or_false, Option.isSome_some, true_and, Option.some.injEq]
        constructor
        · rintro (q | q); exact Or.inr q.symm; exact Or.inl q
        · rintro (q | q); exact Or.inr q; exact Or.inl q.symm
      · simp only [hr]
        simp
    have hcond : ∀ (P : Nat → Prop), (∀ o', Active s o' → P o') → ∀ o', (o' ∈ (if rs.isEmpty then o :: s.busy else s.busy) ∨
        ((if rs.isEmpty then none else some (sel, rs)).isSome = true ∧ (if rs.isEmpty then none else some o) = some o')) → P o' := fun P hP o' q => hP o' ((hac o').1 q)
    have hold : ∀ u ∈ s.outs, u ≠ t := by
      rintro u hu rfl; exact hno hu
    refine ⟨hcond _ i1, ?_, ?_, i4, i5, i6, ?_, ?_, ?_, i10, hcond _ i11, i12, i13, ?_⟩
    · intro o1 o2 q1 q2; exact i2 o1 o2 ((hac o1).1 q1) ((hac o2).1 q2)
    · intro j hj
      rcases i3 j hj with q | ⟨o', q, q2⟩
      · exact Or.inl q
      · exact Or.inr ⟨o', (hac o').2 q, q2⟩
    · intro o1 o2 q1 q2; exact i7 o1 o2 ((hac o1).1 q1) ((hac o2).1 q2)
    · intro hc o' ho
      apply i8 (by rw [h1]; rfl) o'
      dsimp only at ho
      split at ho
      · exact absurd ho (by simp)
      · rw [h2]; exact ho
    · intro u hu
      simp only [List.mem_cons] at hu
      by_cases hq : u = t
      · subst hq
        simp only [upd, if_true]
        have := i8 (by rw [h1]; rfl) o h2
        omega
      · simp only [upd, if_neg hq]
        exact i9 u (hu.resolve_left hq)
    · intro u hu
      simp only [List.mem_cons] at hu
      by_cases hq : u = t
      · subst hq
        simp only [upd, if_true]
        obtain ⟨_, o2, q1, q2, ds, q3, _⟩ := oi.cur _ _ h1
        rw [h2] at q1
        have : o = o2 := Option.some.inj q1
        subst this
        exact ⟨q2, by rw [q3]; simp⟩
      · simp only [upd, if_neg hq]
        exact i14 u (hu.resolve_left hq)
  | opTag =>
    obtain ⟨o, os, h1, h2, rfl⟩ := opTag_inv h
    have hcn : s.cur = none := by
      rcases hc : s.cur with _ | ⟨sel, rs⟩
      · rfl
      · obtain ⟨_, o2, q, _⟩ := oi.cur _ _ hc
        rw [h1] at q; exact absurd q (by simp)
    have hac : ∀ o', Active { s with opReg := some o, opFree := os } o' ↔ Active s o' := by
      intro o'
      simp only [Active, hcn]; simp
    refine ⟨fun o' q => i1 o' ((hac _).1 q), fun o1 o2 q1 q2 => i2 o1 o2 ((hac _).1 q1) ((hac _).1 q2), ?_, i4, i5, i6, fun o1 o2 q1 q2 => i7 o1 o2 ((hac _).1 q1) ((hac _).1 q2), ?_, i9, i10,
      fun o' q => i11 o' ((hac _).1 q), i12, i13, i14⟩
    · intro j hj
      rcases i3 j hj with q | ⟨o', q, q2⟩
      · exact Or.inl q
      · exact Or.inr ⟨o', (hac o').2 q, q2⟩
    · intro q; rw [hcn] at q; exact absurd q (by simp)
  | tag t =>
    obtain ⟨h1, h2, rfl⟩ := tag_inv h
    exact ⟨i1, i2, i3, i4, i5, i6, i7, i8, i9, i10, i11, i12, i13, i14⟩
  | cpl t hd d =>
    obtain ⟨h1, h2, rfl⟩ := cpl_inv h
    exact ⟨i1, i2, i3, i4, i5, i6, i7, i8, i9, i10, i11, i12, i13, i14⟩
  | beat =>
    obtain ⟨t, o, x, ws, fin, h1, h2, rfl⟩ := beat_inv h
    have hsub : ∀ u, u ∈ (if fin && ws.isEmpty then s.outs.erase t else s.outs) → u ∈ s.outs := by
      intro u hu
      split at hu
      · exact List.mem_of_mem_erase hu
      · exact hu
    refine ⟨i1, i2, i3, i4, i5, i6, i7, i8, fun u hu => i9 u (hsub u hu), i10, ?_, i12, i13, fun u hu => i14 u (hsub u hu)⟩
    intro o' ha
    rw [show ({ s with rx := if ws.isEmpty then none else some ⟨t, o, ws, fin⟩, stat := s.stat ++ [⟨o, (List.range p.segs).filter x.mask, fin && ws.isEmpty, 0⟩], pend := fun n => if n < p.segs ∧ x.mask n = true then s.pend n ++ [(o, x)] else s.pend n, rel := if fin && ws.isEmpty then s.rel ++ [t] else s.rel, outs := if fin && ws.isEmpty then s.outs.erase t else s.outs } : St Byte).num o' = s.num o' from rfl]
    refine (i11 o' ha).trans ?_
    simp
  | err t code =>
    obtain ⟨h1, h2, h3, h4, rfl⟩ := err_inv h
    have a2 : t ∈ s.outs := hl
    have hat := (oi.liveOut t a2).active
    have hsub : ∀ u, u ∈ s.outs.erase t → u ∈ s.outs := fun u hu => List.mem_of_mem_erase hu
    refine ⟨i1, i2, i3, i4, i5, i6, i7, i8, fun u hu => i9 u (hsub u hu), ?_, ?_, i12, ?_, fun u hu => i14 u (hsub u hu)⟩
    · intro j hj
      simp only [List.mem_append, List.mem_singleton] at hj
      rcases hj with q | q
      · exact i10 j q
      · rw [q, i9 t a2]; exact (List.getElem?_eq_some_iff.1 (i1 _ hat).1).1
    · intro o' ha
      have := i11 o' ha
      simp only [List.mem_append, List.mem_singleton, i9 t a2]
      rw [this]
      constructor
      · rintro ((q | ⟨e, he, q⟩) | q)
        · exact Or.inl q
        · exact Or.inr ⟨e, Or.inl he, q⟩
        · exact Or.inr ⟨_, Or.inr rfl, i2 _ _ hat ha q.symm, h3⟩
      · rintro (q | ⟨e, he | rfl, q⟩)
        · exact Or.inl (Or.inl q)
        · exact Or.inl (Or.inr ⟨e, he, q⟩)
        · right; exact congrArg s.num q.1.symm
    · intro x hx
      have := i13 x hx
      simp only [List.mem_append, List.mem_singleton, i9 t a2]
      rw [this]
      constructor
      · exact Or.inl
      · rintro (q | q)
        · exact q
        · exact absurd q ((i1 _ hat).2.2 x hx)
  | release =>
    obtain ⟨t, ts, h1, rfl⟩ := release_inv h
    exact ⟨i1, i2, i3, i4, i5, i6, i7, i8, i9, i10, i11, i12, i13, i14⟩
  | done n =>
    obtain ⟨o, x, ws, h1, rfl⟩ := done_inv h
    exact ⟨i1, i2, i3, i4, i5, i6, i7, i8, i9, i10, i11, i12, i13, i14⟩
  | pop =>
    obtain ⟨e, es, h1, h2, hc⟩ := pop_inv h
    have hbad : ∀ o, Active s o → (s.num o ∈ s.failed ↔ (popBase w s e es).errF o = true ∨ ∃ f ∈ es, f.op = o ∧ f.err ≠ 0) := by
      intro o ha
      rw [i11 o ha, h1]
      simp only [popBase, List.mem_cons]
      by_cases hq : e.err ≠ 0
      · rw [if_pos hq]
        simp only [upd]
        by_cases ho : o = e.op
        · rw [if_pos ho]
          simp only [true_or, iff_true]
          exact Or.inr ⟨e, Or.inl rfl, ho.symm, hq⟩
        · rw [if_neg ho]
          constructor
          · rintro (q | ⟨f, rfl | hf, q⟩)
            · exact Or.inl q
            · exact absurd q.1.symm ho
            · exact Or.inr ⟨f, hf, q⟩
          · rintro (q | ⟨f, hf, q⟩)
            · exact Or.inl q
            · exact Or.inr ⟨f, Or.inr hf, q⟩
      · rw [if_neg hq]
        constructor
        · rintro (q | ⟨f, rfl | hf, q⟩)
          · exact Or.inl q
          · exact absurd q.2 hq
          · exact Or.inr ⟨f, hf, q⟩
        · rintro (q | ⟨f, hf, q⟩)
          · exact Or.inl q
          · exact Or.inr ⟨f, Or.inr hf, q⟩
    have hcode : ∀ o, (popBase w s e es).errF o = true → (popBase w s e es).errC o ≠ 0 := by
      intro o
      simp only [popBase]
      by_cases hq : e.err ≠ 0
      · rw [if_pos hq, if_pos hq]
        simp only [upd]
        by_cases ho : o = e.op
        · rw [if_pos ho, if_pos ho]; exact fun _ => hq
        · rw [if_neg ho, if_neg ho]; exact i12 o
      · rw [if_neg hq, if_neg hq]; exact i12 o
    rcases hc with ⟨he, rfl⟩ | ⟨he, rfl⟩
    · obtain ⟨hf, hb, hno, hns⟩ := emit_last hw ti oi h1 he
      have hae : Active s e.op := Or.inl hb
      have hnr : s.opReg ≠ some e.op := fun z => busy_not_reg oi z hb
      have hcount : s.busy.count e.op = 1 := by
        have h5 := le1 (oi.one e.op)
        have h6 := count_mem.1 hb
        simp only [opN] at h5
        omega
      have hmem : ∀ o, o ∈ s.busy.erase e.op ↔ o ∈ s.busy ∧ o ≠ e.op := by
        intro o
        rw [count_mem, count_mem, count_erase']
        by_cases hq : o = e.op
        · subst hq; rw [if_pos rfl, hcount]; simp
        · rw [if_neg hq]; simp [hq]
      have hac : ∀ o, (o ∈ s.busy.erase e.op ∨ (s.cur.isSome = true ∧ s.opReg = some o)) ↔ Active s o ∧ o ≠ e.op := by
        intro o
        rw [hmem]
        unfold Active
        constructor
        · rintro (⟨q1, q2⟩ | q)
          · exact ⟨Or.inl q1, q2⟩
          · exact ⟨Or.inr q, by rintro rfl; exact hnr q.2⟩
        · rintro ⟨q | q, q2⟩
          · exact Or.inl ⟨q, q2⟩
          · exact Or.inr q
      refine ⟨?_, ?_, ?_, ?_, ?_, i6, ?_, i8, i9, i10, ?_, hcode, ?_, i14⟩
      · intro o ha
        obtain ⟨q1, q2⟩ := (hac o).1 ha
        obtain ⟨b1, b2, b3⟩ := i1 o q1
        refine ⟨b1, b2, ?_⟩
        intro x hx
        simp only [List.mem_append, List.mem_singleton] at hx
        rcases hx with hx | rfl
        · exact b3 x hx
        · intro hq; exact q2 (i2 _ _ q1 hae hq.symm)
      · intro o1 o2 q1 q2; exact i2 o1 o2 ((hac _).1 q1).1 ((hac _).1 q2).1
      · intro j hj
        rcases i3 j hj with ⟨x, hx, hq⟩ | ⟨o, q1, q2⟩
        · left; exact ⟨x, by simp [hx], hq⟩
        · by_cases hq : o = e.op
          · left; exact ⟨_, by simp only [List.mem_append, List.mem_singleton]; right; rfl, by rw [← q2, hq]⟩
          · right; exact ⟨o, (hac o).2 ⟨q1, hq⟩, q2⟩
      · intro x hx
        simp only [List.mem_append, List.mem_singleton] at hx
        rcases hx with hx | rfl
        · exact i4 x hx
        · exact ⟨_, (i1 _ hae).1, (i1 _ hae).2.1⟩
      · simp only [List.map_append, List.map_cons, List.map_nil]
        rw [List.nodup_append]
        refine ⟨i5, by simp, ?_⟩
        intro a ha b hb2
        simp only [List.mem_singleton] at hb2
        obtain ⟨x, hx, rfl⟩ := List.mem_map.1 ha
        rw [hb2]
        exact (i1 _ hae).2.2 x hx
      · intro o1 o2 q1 q2; exact i7 o1 o2 ((hac _).1 q1).1 ((hac _).1 q2).1
      · intro o q; exact hbad o ((hac o).1 q).1
      · intro x hx
        simp only [List.mem_append, List.mem_singleton] at hx
        rcases hx with hx | rfl
        · exact i13 x hx
        · show errorOf s e ≠ 0 ↔ s.num e.op ∈ s.failed
          rw [i11 _ hae, h1]
          unfold errorOf
          by_cases hq : e.err ≠ 0
          · rw [if_pos hq]
            exact ⟨fun _ => Or.inr ⟨e, by simp, rfl, hq⟩, fun _ => hq⟩
          · rw [if_neg hq]
            by_cases hq2 : s.errF e.op = true
            · rw [if_pos hq2]
              exact ⟨fun _ => Or.inl hq2, fun _ => i12 _ hq2⟩
            · rw [if_neg hq2]
              constructor
              · intro z; exact absurd rfl z
              · rintro (z | ⟨f, hf2, z1, z2⟩)
                · exact absurd z hq2
                · simp only [List.mem_cons] at hf2
                  rcases hf2 with rfl | hf2
                  · exact absurd z2 hq
                  · exact absurd z1 (hns f hf2)
    · exact ⟨i1, i2, i3, i4, i5, i6, i7, i8, i9, i10, hbad, hcode, i13, i14⟩

/-- status entries wait for the writes of their segments, in order -/
structure WrInv (s : St Byte) : Prop where
  le : ∀ n, s.dn n ≤ (s.stat.filter fun e => decide (n ∈ e.segs)).length
  pend : ∀ n, ((s.stat.filter fun e => decide (n ∈ e.segs)).drop (s.dn n)).map Stat.op = (s.pend n).map Prod.fst

theorem wr_inv_init (mem : Nat → Nat → Byte) : WrInv (init w ow mem) := by
  constructor <;> simp [init]

theorem wr_inv_step (e : Ev Byte) (oi : OpInv w ow c s) (i : WrInv s) (h : step w c p s e = some s') : WrInv s' := by
  obtain ⟨i1, i2⟩ := i
  have app : ∀ (x : Stat) (n : Nat), (x.segs = [] → True) → s.dn n ≤ ((s.stat ++ [x]).filter fun e => decide (n ∈ e.segs)).length ∧
      (((s.stat ++ [x]).filter fun e => decide (n ∈ e.segs)).drop (s.dn n)).map Stat.op = (s.pend n).map Prod.fst ++ if n ∈ x.segs then [x.op] else [] := by
    intro x n _
    have h1 := i1 n
    rw [List.filter_append, List.drop_append_of_le_length h1, List.map_append, i2 n, List.length_append]
    refine ⟨by omega, ?_⟩
    congr 1
    by_cases hq : n ∈ x.segs
    · simp [hq]
    · simp [hq]
  cases e with
  | accept d => obtain ⟨o, h1, h2, rfl⟩ := accept_inv h; exact ⟨i1, i2⟩
  | issue => obtain ⟨sel, r, rs, o, t, h1, h2, h3, rfl⟩ := issue_inv h; exact ⟨i1, i2⟩
  | opTag => obtain ⟨o, os, h1, h2, rfl⟩ := opTag_inv h; exact ⟨i1, i2⟩
  | tag t => obtain ⟨h1, h2, rfl⟩ := tag_inv h; exact ⟨i1, i2⟩
  | cpl t hd d => obtain ⟨h1, h2, rfl⟩ := cpl_inv h; exact ⟨i1, i2⟩
  | beat =>
    obtain ⟨t, o, x, ws, fin, h1, h2, rfl⟩ := beat_inv h
    refine ⟨fun n => (app _ n (fun _ => trivial)).1, fun n => ?_⟩
    dsimp only
    rw [(app _ n (fun _ => trivial)).2]
    simp only [List.mem_filter, List.mem_range]
    split
    · simp
    · simp
  | err t code =>
    obtain ⟨h1, h2, h3, h4, rfl⟩ := err_inv h
    refine ⟨fun n => (app _ n (fun _ => trivial)).1, fun n => ?_⟩
    dsimp only
    rw [(app _ n (fun _ => trivial)).2]
    simp
  | release => obtain ⟨t, ts, h1, rfl⟩ := release_inv h; exact ⟨i1, i2⟩
  | done m =>
    obtain ⟨o, x, ws, h1, rfl⟩ := done_inv h
    have hp := i2 m
    rw [h1] at hp
    have hlt : s.dn m < (s.stat.filter fun e => decide (m ∈ e.segs)).length := by
      have := congrArg List.length hp
      simp only [List.length_map, List.length_drop, List.length_cons] at this
      omega
    have hd : s.dn m < depth := Nat.lt_of_lt_of_le hlt (Nat.le_trans (List.length_filter_le _ _) oi.len)
    have hdrop : ((s.stat.filter fun e => decide (m ∈ e.segs)).drop (s.dn m + 1)).map Stat.op = ws.map Prod.fst := by
      rw [List.drop_eq_getElem_cons hlt] at hp
      simp only [List.map_cons, List.cons.injEq] at hp
      exact hp.2
    refine ⟨fun n => ?_, fun n => ?_⟩
    · simp only [upd]
      by_cases hn : n = m
      · subst hn; rw [if_pos rfl, if_pos hd]; exact hlt
      · rw [if_neg hn]; exact i1 n
    · simp only [upd]
      by_cases hn : n = m
      · subst hn; rw [if_pos rfl, if_pos rfl, if_pos hd]; exact hdrop
      · rw [if_neg hn, if_neg hn]; exact i2 n
  | pop =>
    obtain ⟨e, es, h1, h2, hc⟩ := pop_inv h
    have key : ∀ n, (if n ∈ e.segs then s.dn n - 1 else s.dn n) ≤ (es.filter fun e => decide (n ∈ e.segs)).length ∧
        ((es.filter fun e => decide (n ∈ e.segs)).drop (if n ∈ e.segs then s.dn n - 1 else s.dn n)).map Stat.op = (s.pend n).map Prod.fst := by
      intro n
      have a1 := i1 n
      have a2 := i2 n
      rw [h1, List.filter_cons] at a1 a2
      by_cases hn : n ∈ e.segs
      · have a3 := h2 n hn
        rw [if_pos (by simpa using hn)] at a1 a2
        rw [if_pos hn]
        obtain ⟨k, hk⟩ : ∃ k, s.dn n = k + 1 := ⟨s.dn n - 1, by omega⟩
        rw [hk] at a1 a2 ⊢
        rw [List.drop_succ_cons] at a2
        simp only [List.length_cons] at a1
        exact ⟨by omega, a2⟩
      · rw [if_neg (by simpa using hn)] at a1 a2
        rw [if_neg hn]
        exact ⟨a1, a2⟩
    rcases hc with ⟨he, rfl⟩ | ⟨he, rfl⟩
    · exact ⟨fun n => (key n).1, fun n => (key n).2⟩
    · exact ⟨fun n => (key n).1, fun n => (key n).2⟩

/-- when a status entry is taken and no other entry of its operation is left, no write of that operation is on its way -/
theorem no_pending (i : WrInv s) {e : Stat} {es : List Stat} (h1 : s.stat = e :: es) (h2 : ∀ n ∈ e.segs, 0 < s.dn n) (h3 : ∀ f ∈ es, f.op ≠ e.op) (n : Nat) :
    ∀ x ∈ s.pend n, x.1 ≠ e.op := by
  intro x hx
  have a1 : x.1 ∈ (s.pend n).map Prod.fst := List.mem_map.2 ⟨x, hx, rfl⟩
  rw [← i.pend n, h1, List.filter_cons] at a1
  by_cases hn : n ∈ e.segs
  · have a3 := h2 n hn
    rw [if_pos (by simpa using hn)] at a1
    obtain ⟨k, hk⟩ : ∃ k, s.dn n = k + 1 := ⟨s.dn n - 1, by omega⟩
    rw [hk, List.drop_succ_cons] at a1
    obtain ⟨f, hf, hq⟩ := List.mem_map.1 a1
    rw [← hq]
    exact h3 f (List.mem_filter.1 (List.mem_of_mem_drop hf)).1
  · rw [if_neg (by simpa using hn)] at a1
    obtain ⟨f, hf, hq⟩ := List.mem_map.1 a1
    rw [← hq]
    exact h3 f (List.mem_filter.1 (List.mem_of_mem_drop hf)).1

end

end Corundum.DmaRd
