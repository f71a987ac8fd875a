import Verif.Spec.Wake
import Verif.Proof.Sched

namespace Corundum.Wake

theorem upd_same {α : Type} (f : Nat → α) (k : Nat) (v : α) : upd f k v k = v := by simp [upd]
theorem upd_ne {α : Type} (f : Nat → α) (k : Nat) (v : α) {j : Nat} (h : j ≠ k) : upd f k v j = f j := by simp [upd, h]

/-- the tokens of a completion queue: it is armed, or its event is in the FIFO, in the event queue, or its arm command is
on its way, or its event was lost -/
def tok (P : Params) (s : S) (q : Nat) : Nat :=
  (s.cq q).armed.toNat + s.fifo.count q + ((s.eq (P.eqOf q)).log.drop (pos s (P.eqOf q))).count q +
    s.wq.count (.cqArm q) + s.lost.count q

/-- the handler will still arm event queue `e` -/
def willArm (pc : Pc) (e : Nat) : Prop :=
  match pc with
  | .idle => False
  | .start e' | .loop e' _ | .cons e' _ _ _ | .wrCons e' _ _ | .arm e' _ _ | .wrEq e' | .armEq e' => e' ≤ e

def pcOk (P : Params) (s : S) : Prop :=
  match s.pc with
  | .idle | .start _ => True
  | .wrEq e | .armEq e => e < P.nEq
  | .loop e p => e < P.nEq ∧ (s.eq e).drv ≤ p ∧ p ≤ (s.eq e).log.length
  | .cons e p q c => e < P.nEq ∧ (s.eq e).drv ≤ p ∧ (s.eq e).log[p]? = some q ∧ (s.cq q).drv ≤ c ∧ c ≤ (s.cq q).vis
  | .wrCons e p q | .arm e p q => e < P.nEq ∧ (s.eq e).drv ≤ p ∧ (s.eq e).log[p]? = some q

structure Inv (P : Params) (s : S) : Prop where
  cle : ∀ q, (s.cq q).prod ≤ (s.cq q).vis ∧ (s.cq q).drv ≤ (s.cq q).vis ∧ (s.cq q).cons ≤ (s.cq q).drv
  cwv : ∀ q v, .cqCons q v ∈ s.wq → v ≤ (s.cq q).drv
  carm : ∀ q, (s.cq q).armed = true → (s.cq q).prod ≤ (s.cq q).drv
  ele : ∀ e, (s.eq e).prod ≤ (s.eq e).log.length ∧ (s.eq e).drv ≤ (s.eq e).log.length ∧ (s.eq e).cons ≤ (s.eq e).drv
  ewv : ∀ e v, .eqCons e v ∈ s.wq → v ≤ (s.eq e).drv
  earm : ∀ e, (s.eq e).armed = true → (s.eq e).prod ≤ (s.eq e).drv
  tok : ∀ q, tok P s q = (s.cq q).opn.toNat
  home : ∀ e q, q ∈ (s.eq e).log → P.eqOf q = e
  pc : pcOk P s
  etok : ∀ e, e < P.nEq → (s.eq e).armed = true ∨ 0 < s.irq ∨ .eqArm e ∈ s.wq ∨ willArm s.pc e

theorem inv_init (P : Params) : Inv P init := by
  constructor <;> simp [init, tok, pcOk]

/-- field-wise congruence for the fields that only change in one completion queue -/
theorem count_drop_append (l : List Nat) (n q x : Nat) (h : n ≤ l.length) :
    ((l ++ [x]).drop n).count q = (l.drop n).count q + (if x = q then 1 else 0) := by
  rw [List.drop_append_of_le_length h, List.count_append]
  congr 1
  by_cases hx : x = q <;> simp [hx]

theorem count_drop_succ {l : List Nat} {n x : Nat} (q : Nat) (h : l[n]? = some x) :
    (l.drop n).count q = (l.drop (n + 1)).count q + (if x = q then 1 else 0) := by
  obtain ⟨hn, hx⟩ := List.getElem?_eq_some_iff.mp h
  rw [List.drop_eq_getElem_cons hn, List.count_cons, hx]
  congr 1
  by_cases hx' : x = q <;> simp [hx']

theorem pos_le {P : Params} {s : S} (hi : Inv P s) (e : Nat) : pos s e ≤ (s.eq e).log.length := by
  have hp := hi.pc
  have hd := (hi.ele e).2.1
  unfold pos; unfold pcOk at hp
  cases h : s.pc <;> rw [h] at hp <;> dsimp only at hp ⊢ <;> first | exact hd | skip
  all_goals
    split
    · rename_i he; subst he
      first
      | exact hp.2.2
      | exact Nat.le_of_lt (List.getElem?_eq_some_iff.mp hp.2.2.1).1
      | exact Nat.le_of_lt (List.getElem?_eq_some_iff.mp hp.2.2).1
    · exact hd

theorem drv_le_pos {P : Params} {s : S} (hi : Inv P s) (e : Nat) : (s.eq e).drv ≤ pos s e := by
  have hp := hi.pc
  unfold pos; unfold pcOk at hp
  cases h : s.pc <;> rw [h] at hp <;> dsimp only at hp ⊢ <;> first | exact Nat.le_refl _ | skip
  all_goals
    split
    · rename_i he; subst he; exact hp.2.1
    · exact Nat.le_refl _

/-- the position does not depend on anything but the handler and its consumer pointers -/
theorem pos_congr {s t : S} (hpc : t.pc = s.pc) (hd : ∀ e, (t.eq e).drv = (s.eq e).drv) (e : Nat) : pos t e = pos s e := by
  unfold pos; rw [hpc]; simp only [hd]

/-- a step that does not move the handler, given the fields it may change -/
theorem pcOk_congr {P : Params} {s t : S} (hpc : t.pc = s.pc) (hd : ∀ e, (t.eq e).drv = (s.eq e).drv)
    (hl : ∀ e, ∃ x, (t.eq e).log = (s.eq e).log ++ x) (hcd : ∀ q, (t.cq q).drv = (s.cq q).drv)
    (hv : ∀ q, (s.cq q).vis ≤ (t.cq q).vis) (h : pcOk P s) : pcOk P t := by
  have hg : ∀ e p q : Nat, (s.eq e).log[p]? = some q → (t.eq e).log[p]? = some q := by
    intro e p q hq
    obtain ⟨x, hx⟩ := hl e
    rw [hx, List.getElem?_append_left (List.getElem?_eq_some_iff.mp hq).1]; exact hq
  have hlen : ∀ e, (s.eq e).log.length ≤ (t.eq e).log.length := by
    intro e; obtain ⟨x, hx⟩ := hl e; rw [hx]; simp
  unfold pcOk at h ⊢
  rw [hpc]
  cases hh : s.pc <;> rw [hh] at h <;> dsimp only at h ⊢
  · exact ⟨h.1, by rw [hd]; exact h.2.1, Nat.le_trans h.2.2 (hlen _)⟩
  · exact ⟨h.1, by rw [hd]; exact h.2.1, hg _ _ _ h.2.2.1, by rw [hcd]; exact h.2.2.2.1, Nat.le_trans h.2.2.2.2 (hv _)⟩
  · exact ⟨h.1, by rw [hd]; exact h.2.1, hg _ _ _ h.2.2⟩
  · exact ⟨h.1, by rw [hd]; exact h.2.1, hg _ _ _ h.2.2⟩
  · exact h
  · exact h

/-- a step that changes one completion queue only (and possibly the FIFO and the register writes) -/
theorem inv_cq {P : Params} {s : S} (hi : Inv P s) (q0 : Nat) (c : Cq) (f : List Nat) (w : List Wr)
    (hle : c.prod ≤ c.vis ∧ c.drv ≤ c.vis ∧ c.cons ≤ c.drv) (hdrv : c.drv = (s.cq q0).drv)
    (hvis : (s.cq q0).vis ≤ c.vis)
    (hwc : ∀ q v, .cqCons q v ∈ w → v ≤ (s.cq q).drv) (hwe : ∀ e v, .eqCons e v ∈ w → v ≤ (s.eq e).drv)
    (hwa : ∀ e, .eqArm e ∈ s.wq → .eqArm e ∈ w)
    (harm : c.armed = true → c.prod ≤ c.drv)
    (htok : c.armed.toNat + f.count q0 + w.count (.cqArm q0) + (s.cq q0).opn.toNat =
      (s.cq q0).armed.toNat + s.fifo.count q0 + s.wq.count (.cqArm q0) + c.opn.toNat)
    (hoth : ∀ q, q ≠ q0 → f.count q + w.count (.cqArm q) = s.fifo.count q + s.wq.count (.cqArm q)) :
    Inv P { s with cq := upd s.cq q0 c, fifo := f, wq := w } := by
  have hd : ∀ q, (upd s.cq q0 c q).drv = (s.cq q).drv := by
    intro q; by_cases h : q = q0
    · subst h; rw [upd_same]; exact hdrv
    · rw [upd_ne _ _ _ h]
  refine ⟨?_, ?_, ?_, hi.ele, hwe, hi.earm, ?_, hi.home, ?_, ?_⟩
  · intro q; dsimp only; by_cases h : q = q0
    · subst h; rw [upd_same]; exact hle
    · rw [upd_ne _ _ _ h]; exact hi.cle q
  · intro q v hv; dsimp only; rw [hd]; exact hwc q v hv
  · intro q; dsimp only; by_cases h : q = q0
    · subst h; rw [upd_same]; exact harm
    · rw [upd_ne _ _ _ h]; exact hi.carm q
  · intro q
    have hq := hi.tok q
    have hp : pos { s with cq := upd s.cq q0 c, fifo := f, wq := w } (P.eqOf q) = pos s (P.eqOf q) :=
      pos_congr (s := s) rfl (fun _ => rfl) _
    unfold tok at hq ⊢
    rw [hp]; dsimp only
    by_cases h : q = q0
    · subst h; rw [upd_same]; omega
    · rw [upd_ne _ _ _ h]; have := hoth q h; omega
  · refine pcOk_congr (s := s) rfl (fun _ => rfl) (fun _ => ⟨[], by simp⟩) hd ?_ hi.pc
    intro q; dsimp only; by_cases h : q = q0
    · subst h; rw [upd_same]; exact hvis
    · rw [upd_ne _ _ _ h]; exact Nat.le_refl _
  · intro e he
    rcases hi.etok e he with h | h | h | h
    · exact .inl h
    · exact .inr (.inl h)
    · exact .inr (.inr (.inl (hwa e h)))
    · exact .inr (.inr (.inr h))

/-- a step that changes one event queue only, not the driver's pointer -/
theorem inv_eq {P : Params} {s : S} (hi : Inv P s) (e0 : Nat) (c : Eq) (f l : List Nat) (w : List Wr) (n : Nat) (x : List Nat)
    (hlog : c.log = (s.eq e0).log ++ x) (hx : ∀ q ∈ x, P.eqOf q = e0)
    (hle : c.prod ≤ c.log.length ∧ c.drv ≤ c.log.length ∧ c.cons ≤ c.drv) (hdrv : c.drv = (s.eq e0).drv)
    (hwc : ∀ q v, .cqCons q v ∈ w → v ≤ (s.cq q).drv) (hwe : ∀ e v, .eqCons e v ∈ w → v ≤ (s.eq e).drv)
    (hwa : ∀ e, e ≠ e0 → .eqArm e ∈ s.wq → .eqArm e ∈ w)
    (harm : c.armed = true → c.prod ≤ c.drv) (hirq : s.irq ≤ n)
    (htok : ∀ q, f.count q + (if P.eqOf q = e0 then x.count q else 0) + w.count (.cqArm q) + l.count q =
      s.fifo.count q + s.wq.count (.cqArm q) + s.lost.count q)
    (hself : (s.eq e0).armed = true ∨ 0 < s.irq ∨ .eqArm e0 ∈ s.wq → c.armed = true ∨ 0 < n ∨ .eqArm e0 ∈ w) :
    Inv P { s with eq := upd s.eq e0 c, fifo := f, wq := w, irq := n, lost := l } := by
  have hd : ∀ e, (upd s.eq e0 c e).drv = (s.eq e).drv := by
    intro e; by_cases h : e = e0
    · subst h; rw [upd_same]; exact hdrv
    · rw [upd_ne _ _ _ h]
  refine ⟨hi.cle, hwc, hi.carm, ?_, ?_, ?_, ?_, ?_, ?_, ?_⟩
  · intro e; dsimp only; by_cases h : e = e0
    · subst h; rw [upd_same]; exact hle
    · rw [upd_ne _ _ _ h]; exact hi.ele e
  · intro e v hv; dsimp only; rw [hd]; exact hwe e v hv
  · intro e; dsimp only; by_cases h : e = e0
    · subst h; rw [upd_same]; exact harm
    · rw [upd_ne _ _ _ h]; exact hi.earm e
  · intro q
    have hq := hi.tok q
    have ht := htok q
    have hp : pos { s with eq := upd s.eq e0 c, fifo := f, wq := w, irq := n, lost := l } (P.eqOf q) = pos s (P.eqOf q) :=
      pos_congr (s := s) (t := { s with eq := upd s.eq e0 c, fifo := f, wq := w, irq := n, lost := l }) rfl hd _
    unfold tok at hq ⊢
    rw [hp]; dsimp only
    by_cases h : P.eqOf q = e0
    · have hpl := pos_le hi (P.eqOf q)
      rw [h] at hpl hq ⊢
      rw [upd_same, hlog, List.drop_append_of_le_length hpl, List.count_append]
      rw [if_pos h] at ht
      omega
    · rw [upd_ne _ _ _ h]
      rw [if_neg h] at ht
      omega
  · intro e q; dsimp only; by_cases h : e = e0
    · subst h; rw [upd_same, hlog, List.mem_append]
      rintro (h | h)
      · exact hi.home e q h
      · exact hx q h
    · rw [upd_ne _ _ _ h]; exact hi.home e q
  · refine pcOk_congr (s := s) rfl hd ?_ (fun _ => rfl) (fun _ => Nat.le_refl _) hi.pc
    intro e; dsimp only; by_cases h : e = e0
    · subst h; rw [upd_same]; exact ⟨x, hlog⟩
    · rw [upd_ne _ _ _ h]; exact ⟨[], by simp⟩
  · intro e he
    dsimp only
    by_cases h : e = e0
    · subst h; rw [upd_same]
      rcases hi.etok e he with h | h | h | h
      · rcases hself (.inl h) with g | g | g
        · exact .inl g
        · exact .inr (.inl g)
        · exact .inr (.inr (.inl g))
      · rcases hself (.inr (.inl h)) with g | g | g
        · exact .inl g
        · exact .inr (.inl g)
        · exact .inr (.inr (.inl g))
      · rcases hself (.inr (.inr h)) with g | g | g
        · exact .inl g
        · exact .inr (.inl g)
        · exact .inr (.inr (.inl g))
      · exact .inr (.inr (.inr h))
    · rw [upd_ne _ _ _ h]
      rcases hi.etok e he with g | g | g | g
      · exact .inl g
      · exact .inr (.inl (by omega))
      · exact .inr (.inr (.inl (hwa e h g)))
      · exact .inr (.inr (.inr g))

theorem tok_opn {P : Params} {s : S} (hi : Inv P s) {q : Nat} (h : (s.cq q).opn = false) :
    (s.cq q).armed = false ∧ s.fifo.count q = 0 ∧ s.wq.count (.cqArm q) = 0 ∧ s.lost.count q = 0 := by
  have ht := hi.tok q
  rw [h] at ht; unfold tok at ht
  cases ha : (s.cq q).armed <;> rw [ha] at ht <;> simp only [Bool.toNat_true, Bool.toNat_false] at ht
  · refine ⟨rfl, ?_, ?_, ?_⟩ <;> omega
  · omega

theorem count_snoc (l : List Nat) (x q : Nat) : (l ++ [x]).count q = l.count q + (if q = x then 1 else 0) := by
  rw [List.count_append]; congr 1
  by_cases h : q = x
  · subst h; simp
  · have : x ≠ q := fun g => h g.symm
    simp [h, this]

theorem count_snocW (l : List Wr) (x q : Wr) : (l ++ [x]).count q = l.count q + (if q = x then 1 else 0) := by
  rw [List.count_append]; congr 1
  by_cases h : q = x
  · subst h; simp
  · have : x ≠ q := fun g => h g.symm
    simp [h, this]

theorem inv_apply {P : Params} {s : S} (hi : Inv P s) {w : Wr} {ws : List Wr} (hw : s.wq = w :: ws) :
    Inv P (apply { s with wq := ws } w) := by
  have hc1 : ∀ q v, .cqCons q v ∈ ws → v ≤ (s.cq q).drv := fun q v h => hi.cwv q v (by rw [hw]; exact List.mem_cons_of_mem _ h)
  have he1 : ∀ e v, .eqCons e v ∈ ws → v ≤ (s.eq e).drv := fun q v h => hi.ewv q v (by rw [hw]; exact List.mem_cons_of_mem _ h)
  cases w with
  | cqCons q v =>
    have hv := hi.cwv q v (by rw [hw]; exact List.mem_cons_self ..)
    have hc := hi.cle q
    refine inv_cq hi q { s.cq q with cons := v } s.fifo ws ⟨hc.1, hc.2.1, hv⟩ rfl (Nat.le_refl _) hc1 he1 ?_ (hi.carm q) ?_ ?_
    · intro e h; rw [hw] at h; simpa using h
    · rw [hw]; simp
    · intro q' _; rw [hw]; simp
  | cqArm q =>
    have hc := hi.cle q
    have ht := hi.tok q
    have hna : (s.cq q).armed = false := by
      cases ha : (s.cq q).armed with
      | false => rfl
      | true =>
        exfalso
        unfold tok at ht
        rw [ha, hw] at ht; simp only [List.count_cons_self, Bool.toNat_true] at ht
        have := Bool.toNat_le (s.cq q).opn
        omega
    have hwa : ∀ e, Wr.eqArm e ∈ s.wq → Wr.eqArm e ∈ ws := by
      intro e h; rw [hw] at h; simpa using h
    have hoth : ∀ q', q' ≠ q → s.wq.count (.cqArm q') = ws.count (.cqArm q') := by
      intro q' h; rw [hw, List.count_cons]; simp; exact fun g => h g.symm
    simp only [apply]
    split
    · rename_i hpc
      refine inv_cq hi q { s.cq q with armed := true } s.fifo ws hc rfl (Nat.le_refl _) hc1 he1 hwa ?_ ?_ ?_
      · intro _; dsimp only at hpc ⊢; omega
      · rw [hw, hna]; simp; omega
      · intro q' h; rw [hoth q' h]
    · refine inv_cq hi q { s.cq q with armed := false } (s.fifo ++ [q]) ws hc rfl (Nat.le_refl _) hc1 he1 hwa ?_ ?_ ?_
      · intro h; cases h
      · rw [hw, hna, count_snoc]; simp; omega
      · intro q' h; rw [hoth q' h, count_snoc, if_neg h]; rfl
  | eqCons e v =>
    have hv := hi.ewv e v (by rw [hw]; exact List.mem_cons_self ..)
    have hc := hi.ele e
    refine inv_eq hi e { s.eq e with cons := v } s.fifo s.lost ws s.irq [] (by simp) (by simp) ⟨hc.1, hc.2.1, hv⟩ rfl hc1 he1
      ?_ (hi.earm e) (Nat.le_refl _) ?_ ?_
    · intro e' _ h; rw [hw] at h; simpa using h
    · intro q; rw [hw]; simp
    · rw [hw]; simp
  | eqArm e =>
    have hc := hi.ele e
    have hwa : ∀ e', e' ≠ e → Wr.eqArm e' ∈ s.wq → Wr.eqArm e' ∈ ws := by
      intro e' hn h; rw [hw] at h; simpa [hn] using h
    simp only [apply]
    split
    · rename_i hpc
      refine inv_eq hi e { s.eq e with armed := true } s.fifo s.lost ws s.irq [] (by simp) (by simp) hc rfl hc1 he1
        hwa ?_ (Nat.le_refl _) ?_ ?_
      · intro _; dsimp only at hpc ⊢; omega
      · intro q; rw [hw]; simp
      · simp
    · refine inv_eq hi e { s.eq e with armed := false } s.fifo s.lost ws (s.irq + 1) [] (by simp) (by simp) hc rfl hc1 he1
        hwa ?_ (Nat.le_succ _) ?_ ?_
      · intro h; cases h
      · intro q; rw [hw]; simp
      · simp

/-- a step of the handler that changes nothing but the handler's place (and interrupts) -/
theorem inv_pc {P : Params} {s : S} (hi : Inv P s) (pc : Pc) (n : Nat) (hok : pcOk P { s with pc := pc, irq := n })
    (hpos : ∀ e, pos { s with pc := pc, irq := n } e = pos s e)
    (hwill : ∀ e, e < P.nEq → (0 < s.irq ∨ willArm s.pc e) → (0 < n ∨ willArm pc e)) :
    Inv P { s with pc := pc, irq := n } := by
  refine ⟨hi.cle, hi.cwv, hi.carm, hi.ele, hi.ewv, hi.earm, ?_, hi.home, hok, ?_⟩
  · intro q
    have hq := hi.tok q
    unfold tok at hq ⊢
    rw [hpos]; exact hq
  · intro e he
    rcases hi.etok e he with g | g | g | g
    · exact .inl g
    · rcases hwill e he (.inl g) with k | k
      · exact .inr (.inl k)
      · exact .inr (.inr (.inr k))
    · exact .inr (.inr (.inl g))
    · rcases hwill e he (.inr g) with k | k
      · exact .inr (.inl k)
      · exact .inr (.inr (.inr k))

theorem inv_drv {P : Params} {s t : S} (hi : Inv P s) (h : drv P s = some t) : Inv P t := by
  have hok := hi.pc
  unfold drv at h; unfold pcOk at hok
  cases hpc : s.pc with
  | idle =>
    rw [hpc] at h; dsimp only at h
    split at h
    · cases h
      refine inv_pc hi (.start 0) _ trivial ?_ ?_
      · intro e; unfold pos; rw [hpc]
      · intro e he _; exact .inr (Nat.zero_le _)
    · cases h
  | start e =>
    rw [hpc] at h; dsimp only at h
    split at h
    · rename_i he
      split at h
      · cases h
        refine inv_pc hi (.loop e (s.eq e).drv) s.irq ⟨he, Nat.le_refl _, (hi.ele e).2.1⟩ ?_ ?_
        · intro e'; unfold pos; rw [hpc]; dsimp only; split
          · rename_i g; rw [g]
          · rfl
        · intro e' _ g; rw [hpc] at g; exact g
      · cases h
        refine inv_pc hi (.armEq e) s.irq he ?_ ?_
        · intro e'; unfold pos; rw [hpc]
        · intro e' _ g; rw [hpc] at g; exact g
    · rename_i he
      cases h
      refine inv_pc hi .idle s.irq trivial ?_ ?_
      · intro e'; unfold pos; rw [hpc]
      · intro e' he' g
        rw [hpc] at g
        rcases g with g | g
        · exact .inl g
        · have : e ≤ e' := g
          omega
  | loop e p =>
    rw [hpc] at h hok; dsimp only at h hok
    split at h
    · rename_i q hq
      split at h
      · cases h
        refine inv_pc hi (.cons e p q (s.cq q).drv) s.irq ⟨hok.1, hok.2.1, hq, Nat.le_refl _, (hi.cle q).2.1⟩ ?_ ?_
        · intro e'; unfold pos; rw [hpc]
        · intro e' _ g; rw [hpc] at g; exact g
      · cases h
        refine inv_pc hi (.arm e p q) s.irq ⟨hok.1, hok.2.1, hq⟩ ?_ ?_
        · intro e'; unfold pos; rw [hpc]
        · intro e' _ g; rw [hpc] at g; exact g
    · rename_i hq
      cases h
      have hd : ∀ e', (s.eq e').drv ≤ (upd s.eq e { s.eq e with drv := p } e').drv := by
        intro e'; by_cases g : e' = e
        · subst g; rw [upd_same]; exact hok.2.1
        · rw [upd_ne _ _ _ g]; exact Nat.le_refl _
      refine ⟨hi.cle, hi.cwv, hi.carm, ?_, ?_, ?_, ?_, ?_, hok.1, ?_⟩
      · intro e'; dsimp only; by_cases g : e' = e
        · subst g; rw [upd_same]
          exact ⟨(hi.ele e').1, hok.2.2, Nat.le_trans (hi.ele e').2.2 hok.2.1⟩
        · rw [upd_ne _ _ _ g]; exact hi.ele e'
      · intro e' v hv; exact Nat.le_trans (hi.ewv e' v hv) (hd e')
      · intro e'; dsimp only; by_cases g : e' = e
        · subst g; rw [upd_same]; intro ha; exact Nat.le_trans (hi.earm e' ha) hok.2.1
        · rw [upd_ne _ _ _ g]; exact hi.earm e'
      · intro q
        have hq := hi.tok q
        unfold tok pos at hq ⊢
        rw [hpc] at hq; dsimp only at hq ⊢
        by_cases g : P.eqOf q = e
        · rw [g] at hq ⊢; rw [if_pos rfl] at hq; rw [upd_same]; exact hq
        · rw [if_neg (fun k => g k.symm)] at hq; rw [upd_ne _ _ _ g]; exact hq
      · intro e' q; dsimp only; by_cases g : e' = e
        · subst g; rw [upd_same]; exact hi.home e' q
        · rw [upd_ne _ _ _ g]; exact hi.home e' q
      · intro e' he
        have := hi.etok e' he
        rw [hpc] at this
        have harm : (upd s.eq e { s.eq e with drv := p } e').armed = (s.eq e').armed := by
          by_cases g : e' = e
          · subst g; rw [upd_same]
          · rw [upd_ne _ _ _ g]
        dsimp only; rw [harm]; exact this
  | cons e p q c =>
    rw [hpc] at h hok; dsimp only at h hok
    split at h
    · rename_i hc
      cases h
      refine inv_pc hi (.cons e p q (c + 1)) s.irq ⟨hok.1, hok.2.1, hok.2.2.1, Nat.le_succ_of_le hok.2.2.2.1, hc⟩ ?_ ?_
      · intro e'; unfold pos; rw [hpc]
      · intro e' _ g; rw [hpc] at g; exact g
    · rename_i hc
      cases h
      have hd : ∀ q', (s.cq q').drv ≤ (upd s.cq q { s.cq q with drv := c } q').drv := by
        intro q'; by_cases g : q' = q
        · subst g; rw [upd_same]; exact hok.2.2.2.1
        · rw [upd_ne _ _ _ g]; exact Nat.le_refl _
      refine ⟨?_, ?_, ?_, hi.ele, hi.ewv, hi.earm, ?_, hi.home, ⟨hok.1, hok.2.1, hok.2.2.1⟩, ?_⟩
      · intro q'; dsimp only; by_cases g : q' = q
        · subst g; rw [upd_same]
          exact ⟨(hi.cle q').1, hok.2.2.2.2, Nat.le_trans (hi.cle q').2.2 hok.2.2.2.1⟩
        · rw [upd_ne _ _ _ g]; exact hi.cle q'
      · intro q' v hv; exact Nat.le_trans (hi.cwv q' v hv) (hd q')
      · intro q'; dsimp only; by_cases g : q' = q
        · subst g; rw [upd_same]; intro ha; exact Nat.le_trans (hi.carm q' ha) hok.2.2.2.1
        · rw [upd_ne _ _ _ g]; exact hi.carm q'
      · intro q'
        have hq := hi.tok q'
        unfold tok pos at hq ⊢
        rw [hpc] at hq; dsimp only at hq ⊢
        by_cases g : q' = q
        · subst g; rw [upd_same]; exact hq
        · rw [upd_ne _ _ _ g]; exact hq
      · intro e' he
        have := hi.etok e' he
        rw [hpc] at this; exact this
  | wrCons e p q =>
    rw [hpc] at h hok; dsimp only at h hok
    cases h
    refine ⟨hi.cle, ?_, hi.carm, hi.ele, ?_, hi.earm, ?_, hi.home, hok, ?_⟩
    · intro q' v hv
      rcases List.mem_append.mp hv with g | g
      · exact hi.cwv q' v g
      · cases List.mem_singleton.mp g; exact Nat.le_refl _
    · intro e' v hv
      rcases List.mem_append.mp hv with g | g
      · exact hi.ewv e' v g
      · cases List.mem_singleton.mp g
    · intro q'
      have hq := hi.tok q'
      unfold tok pos at hq ⊢
      rw [hpc] at hq; dsimp only at hq ⊢
      rw [count_snocW, if_neg (c := Wr.cqArm q' = _) (by intro g; cases g)]; exact hq
    · intro e' he
      have := hi.etok e' he
      rw [hpc] at this
      rcases this with g | g | g | g
      · exact .inl g
      · exact .inr (.inl g)
      · exact .inr (.inr (.inl (List.mem_append_left _ g)))
      · exact .inr (.inr (.inr g))
  | arm e p q =>
    rw [hpc] at h hok; dsimp only at h hok
    cases h
    have hlt := (List.getElem?_eq_some_iff.mp hok.2.2).1
    refine ⟨hi.cle, ?_, hi.carm, hi.ele, ?_, hi.earm, ?_, hi.home, ⟨hok.1, Nat.le_succ_of_le hok.2.1, hlt⟩, ?_⟩
    · intro q' v hv
      rcases List.mem_append.mp hv with g | g
      · exact hi.cwv q' v g
      · cases List.mem_singleton.mp g
    · intro e' v hv
      rcases List.mem_append.mp hv with g | g
      · exact hi.ewv e' v g
      · cases List.mem_singleton.mp g
    · intro q'
      have hq := hi.tok q'
      have hhome := hi.home e q (List.mem_of_getElem? hok.2.2)
      unfold tok pos at hq ⊢
      rw [hpc] at hq; dsimp only at hq ⊢
      rw [count_snocW]
      by_cases g : P.eqOf q' = e
      · rw [g] at hq ⊢; rw [if_pos rfl] at hq ⊢
        rw [count_drop_succ q' hok.2.2] at hq
        by_cases k : q = q'
        · subst k; rw [if_pos rfl] at hq ⊢; omega
        · rw [if_neg k] at hq; rw [if_neg (by simp; exact fun w => k w.symm)]; omega
      · rw [if_neg (fun k => g k.symm)] at hq ⊢
        rw [if_neg (by simp; intro w; exact g (w ▸ hhome))]; exact hq
    · intro e' he
      have := hi.etok e' he
      rw [hpc] at this
      rcases this with g | g | g | g
      · exact .inl g
      · exact .inr (.inl g)
      · exact .inr (.inr (.inl (List.mem_append_left _ g)))
      · exact .inr (.inr (.inr g))
  | wrEq e =>
    rw [hpc] at h hok; dsimp only at h hok
    cases h
    refine ⟨hi.cle, ?_, hi.carm, hi.ele, ?_, hi.earm, ?_, hi.home, hok, ?_⟩
    · intro q' v hv
      rcases List.mem_append.mp hv with g | g
      · exact hi.cwv q' v g
      · cases List.mem_singleton.mp g
    · intro e' v hv
      rcases List.mem_append.mp hv with g | g
      · exact hi.ewv e' v g
      · cases List.mem_singleton.mp g; exact Nat.le_refl _
    · intro q'
      have hq := hi.tok q'
      unfold tok pos at hq ⊢
      rw [hpc] at hq; dsimp only at hq ⊢
      rw [count_snocW, if_neg (c := Wr.cqArm q' = _) (by intro g; cases g)]; exact hq
    · intro e' he
      have := hi.etok e' he
      rw [hpc] at this
      rcases this with g | g | g | g
      · exact .inl g
      · exact .inr (.inl g)
      · exact .inr (.inr (.inl (List.mem_append_left _ g)))
      · exact .inr (.inr (.inr g))
  | armEq e =>
    rw [hpc] at h hok; dsimp only at h hok
    cases h
    refine ⟨hi.cle, ?_, hi.carm, hi.ele, ?_, hi.earm, ?_, hi.home, trivial, ?_⟩
    · intro q' v hv
      rcases List.mem_append.mp hv with g | g
      · exact hi.cwv q' v g
      · cases List.mem_singleton.mp g
    · intro e' v hv
      rcases List.mem_append.mp hv with g | g
      · exact hi.ewv e' v g
      · cases List.mem_singleton.mp g
    · intro q'
      have hq := hi.tok q'
      unfold tok pos at hq ⊢
      rw [hpc] at hq; dsimp only at hq ⊢
      rw [count_snocW, if_neg (c := Wr.cqArm q' = _) (by intro g; cases g)]; exact hq
    · intro e' he
      have := hi.etok e' he
      rw [hpc] at this
      rcases this with g | g | g | g
      · exact .inl g
      · exact .inr (.inl g)
      · exact .inr (.inr (.inl (List.mem_append_left _ g)))
      · by_cases k : e' = e
        · subst k; exact .inr (.inr (.inl (by simp)))
        · have g' : e ≤ e' := g
          exact .inr (.inr (.inr (show e + 1 ≤ e' by omega)))

theorem inv_step {P : Params} {s t : S} (hi : Inv P s) (a : Act) (h : step P s a = some t) : Inv P t := by
  cases a with
  | openCq q =>
    simp only [step] at h
    split at h
    · cases h
    · rename_i ho
      have ho : (s.cq q).opn = false := by simpa using ho
      cases h
      refine inv_cq hi q { s.cq q with opn := true } s.fifo (s.wq ++ [.cqArm q]) (hi.cle q) rfl (Nat.le_refl _) ?_ ?_ ?_ (hi.carm q) ?_ ?_
      · intro q' v hv
        rcases List.mem_append.mp hv with g | g
        · exact hi.cwv q' v g
        · cases List.mem_singleton.mp g
      · intro e' v hv
        rcases List.mem_append.mp hv with g | g
        · exact hi.ewv e' v g
        · cases List.mem_singleton.mp g
      · intro e g; exact List.mem_append_left _ g
      · rw [count_snocW, if_pos rfl, ho]; dsimp only [Bool.toNat_true, Bool.toNat_false]; simp; omega
      · intro q' hq; rw [count_snocW, if_neg (by simpa using hq)]
        rfl
  | setUp =>
    simp only [step] at h
    cases h
    refine ⟨hi.cle, hi.cwv, hi.carm, hi.ele, hi.ewv, hi.earm, ?_, hi.home, ?_, hi.etok⟩
    · intro q
      have hq := hi.tok q
      unfold tok at hq ⊢
      rw [pos_congr (s := s) (t := { s with up := true }) rfl (fun _ => rfl)]; exact hq
    · exact pcOk_congr (s := s) rfl (fun _ => rfl) (fun _ => ⟨[], by simp⟩) (fun _ => rfl) (fun _ => Nat.le_refl _) hi.pc
  | write q =>
    simp only [step] at h
    split at h
    · cases h
      have := hi.cle q
      exact inv_cq hi q { s.cq q with vis := (s.cq q).vis + 1 } s.fifo s.wq ⟨by dsimp only; omega, by dsimp only; omega, this.2.2⟩ rfl
        (Nat.le_succ _) hi.cwv hi.ewv (fun _ g => g) (hi.carm q) rfl (fun _ _ => rfl)
    · cases h
  | commit q =>
    simp only [step] at h
    split at h
    · rename_i hp
      have hc := hi.cle q
      split at h
      · rename_i ha
        cases h
        refine inv_cq hi q { s.cq q with prod := (s.cq q).prod + 1, armed := false } (s.fifo ++ [q]) s.wq ⟨hp, hc.2.1, hc.2.2⟩ rfl
          (Nat.le_refl _) hi.cwv hi.ewv (fun _ g => g) (by intro g; cases g) ?_ ?_
        · rw [count_snoc, if_pos rfl, ha]; simp; omega
        · intro q' hq; rw [count_snoc, if_neg hq]; rfl
      · rename_i ha
        cases h
        refine inv_cq hi q { s.cq q with prod := (s.cq q).prod + 1 } s.fifo s.wq ⟨hp, hc.2.1, hc.2.2⟩ rfl
          (Nat.le_refl _) hi.cwv hi.ewv (fun _ g => g) (fun g => absurd g ha) rfl (fun _ _ => rfl)
    · cases h
  | evWrite =>
    simp only [step] at h
    split at h
    · cases h
    · rename_i q f hf
      have hc := hi.ele (P.eqOf q)
      have hcnt : ∀ q', s.fifo.count q' = f.count q' + (if q = q' then 1 else 0) := by
        intro q'; rw [hf, List.count_cons]; simp
      split at h
      · cases h
        refine inv_eq hi (P.eqOf q) { s.eq (P.eqOf q) with log := (s.eq (P.eqOf q)).log ++ [q] } f s.lost s.wq s.irq [q] rfl (by simp)
          ⟨?_, ?_, hc.2.2⟩ rfl hi.cwv hi.ewv (fun _ _ g => g) (hi.earm _) (Nat.le_refl _) ?_ (fun g => g)
        · simp; omega
        · simp; omega
        · intro q'; rw [hcnt]
          by_cases g : q = q'
          · subst g; simp
          · have : (if P.eqOf q' = P.eqOf q then [q].count q' else 0) = 0 := by
              split
              · simp [g]
              · rfl
            rw [this, if_neg g]
      · cases h
        have : ({ s with fifo := f, lost := s.lost ++ [q] } : S) =
            { s with eq := upd s.eq (P.eqOf q) (s.eq (P.eqOf q)), fifo := f, lost := s.lost ++ [q] } := by
          have : upd s.eq (P.eqOf q) (s.eq (P.eqOf q)) = s.eq := by
            funext j; unfold upd; split
            · rename_i g; rw [g]
            · rfl
          rw [this]
        rw [this]
        refine inv_eq hi (P.eqOf q) (s.eq (P.eqOf q)) f (s.lost ++ [q]) s.wq s.irq [] (by simp) (by simp)
          hc rfl hi.cwv hi.ewv (fun _ _ g => g) (hi.earm _) (Nat.le_refl _) ?_ (fun g => g)
        intro q'; rw [hcnt, count_snoc]
        by_cases g : q = q'
        · subst g; simp; omega
        · rw [if_neg g, if_neg (c := q' = q) (fun k => g k.symm)]; simp
  | evCommit e =>
    simp only [step] at h
    split at h
    · rename_i hp
      have hc := hi.ele e
      split at h
      · rename_i ha
        cases h
        exact inv_eq hi e { s.eq e with prod := (s.eq e).prod + 1, armed := false } s.fifo s.lost s.wq (s.irq + 1) [] (by simp) (by simp)
          ⟨hp, hc.2.1, hc.2.2⟩ rfl hi.cwv hi.ewv (fun _ _ g => g) (by intro g; cases g) (Nat.le_succ _) (by simp) (by simp)
      · rename_i ha
        cases h
        exact inv_eq hi e { s.eq e with prod := (s.eq e).prod + 1 } s.fifo s.lost s.wq s.irq [] (by simp) (by simp)
          ⟨hp, hc.2.1, hc.2.2⟩ rfl hi.cwv hi.ewv (fun _ _ g => g) (fun g => absurd g ha) (Nat.le_refl _) (by simp) (fun g => g)
    · cases h
  | reg =>
    simp only [step] at h
    split at h
    · cases h
    · rename_i w ws hw
      cases h
      exact inv_apply hi hw
  | drv => exact inv_drv hi h

theorem lost_mem {P : Params} {s : S} (hi : Inv P s) {q : Nat} (hl : q ∈ s.lost) :
    q ∉ (s.eq (P.eqOf q)).log.drop (pos s (P.eqOf q)) := by
  have ht := hi.tok q
  have := List.count_pos_iff.mpr hl
  have := Bool.toNat_le (s.cq q).opn
  unfold tok at ht
  intro hm
  have := List.count_pos_iff.mpr hm
  omega

/-- the driver pointer of a queue whose event was lost does not move -/
theorem lost_step {P : Params} {s t : S} (hi : Inv P s) {q : Nat} (hl : q ∈ s.lost) (a : Act) (h : step P s a = some t) :
    (t.cq q).drv = (s.cq q).drv ∧ q ∈ t.lost := by
  have hu : ∀ q0 c, c.drv = (s.cq q0).drv → (upd s.cq q0 c q).drv = (s.cq q).drv := by
    intro q0 c hc; by_cases g : q = q0
    · subst g; rw [upd_same]; exact hc
    · rw [upd_ne _ _ _ g]
  cases a with
  | openCq q0 => simp only [step] at h; split at h <;> cases h; exact ⟨hu _ _ rfl, hl⟩
  | setUp => simp only [step] at h; cases h; exact ⟨rfl, hl⟩
  | write q0 => simp only [step] at h; split at h <;> cases h; exact ⟨hu _ _ rfl, hl⟩
  | commit q0 =>
    simp only [step] at h
    split at h
    · split at h <;> cases h <;> exact ⟨hu _ _ rfl, hl⟩
    · cases h
  | evWrite =>
    simp only [step] at h
    split at h
    · cases h
    · split at h <;> cases h
      · exact ⟨rfl, hl⟩
      · exact ⟨rfl, List.mem_append_left _ hl⟩
  | evCommit e =>
    simp only [step] at h
    split at h
    · split at h <;> cases h <;> exact ⟨rfl, hl⟩
    · cases h
  | reg =>
    simp only [step] at h
    split at h
    · cases h
    · rename_i w ws hw
      cases h
      cases w with
      | cqCons q0 v => exact ⟨hu _ _ rfl, hl⟩
      | cqArm q0 => simp only [apply]; split <;> exact ⟨hu _ _ rfl, hl⟩
      | eqCons e v => exact ⟨rfl, hl⟩
      | eqArm e => simp only [apply]; split <;> exact ⟨rfl, hl⟩
  | drv =>
    have hlm := lost_mem hi hl
    have hok := hi.pc
    simp only [step] at h
    unfold drv at h; unfold pcOk at hok; unfold pos at hlm
    cases hpc : s.pc <;> rw [hpc] at h hok hlm <;> dsimp only at h hok hlm
    · split at h <;> cases h; exact ⟨rfl, hl⟩
    · split at h
      · split at h <;> cases h <;> exact ⟨rfl, hl⟩
      · cases h; exact ⟨rfl, hl⟩
    · split at h
      · split at h <;> cases h <;> exact ⟨rfl, hl⟩
      · cases h; exact ⟨rfl, hl⟩
    · rename_i e p q0 c
      split at h
      · cases h; exact ⟨rfl, hl⟩
      · cases h
        by_cases g : q = q0
        · exfalso
          subst g
          have hh := hi.home e q (List.mem_of_getElem? hok.2.2.1)
          rw [hh, if_pos rfl] at hlm
          obtain ⟨hn, hx⟩ := List.getElem?_eq_some_iff.mp hok.2.2.1
          rw [List.drop_eq_getElem_cons hn, hx] at hlm
          exact hlm (List.mem_cons_self ..)
        · dsimp only; rw [upd_ne _ _ _ g]; exact ⟨rfl, hl⟩
    all_goals (cases h; exact ⟨rfl, hl⟩)

theorem opn_step {P : Params} {s t : S} (a : Act) (h : step P s a = some t) {q : Nat} (ho : (s.cq q).opn = true) :
    (t.cq q).opn = true := by
  have hu : ∀ q0 c, ((s.cq q0).opn = true → c.opn = true) → (upd s.cq q0 c q).opn = true := by
    intro q0 c hc; by_cases g : q = q0
    · subst g; rw [upd_same]; exact hc ho
    · rw [upd_ne _ _ _ g]; exact ho
  cases a with
  | openCq q0 => simp only [step] at h; split at h <;> cases h; exact hu _ _ (fun _ => rfl)
  | setUp => simp only [step] at h; cases h; exact ho
  | write q0 => simp only [step] at h; split at h <;> cases h; exact hu _ _ (fun g => g)
  | commit q0 =>
    simp only [step] at h
    split at h
    · split at h <;> cases h <;> exact hu _ _ (fun g => g)
    · cases h
  | evWrite =>
    simp only [step] at h
    split at h
    · cases h
    · split at h <;> cases h <;> exact ho
  | evCommit e =>
    simp only [step] at h
    split at h
    · split at h <;> cases h <;> exact ho
    · cases h
  | reg =>
    simp only [step] at h
    split at h
    · cases h
    · rename_i w ws hw
      cases h
      cases w with
      | cqCons q0 v => exact hu _ _ (fun g => g)
      | cqArm q0 => simp only [apply]; split <;> exact hu _ _ (fun g => g)
      | eqCons e v => exact ho
      | eqArm e => simp only [apply]; split <;> exact ho
  | drv =>
    simp only [step] at h
    unfold drv at h
    cases hpc : s.pc <;> rw [hpc] at h <;> dsimp only at h
    · split at h <;> cases h; exact ho
    · split at h
      · split at h <;> cases h <;> exact ho
      · cases h; exact ho
    · split at h
      · split at h <;> cases h <;> exact ho
      · cases h; exact ho
    · split at h
      · cases h; exact ho
      · cases h; exact hu _ _ (fun g => g)
    all_goals (cases h; exact ho)

theorem opn_run {P : Params} {q : Nat} : ∀ (as : List Act) {s t : S}, run P s as = some t → (s.cq q).opn = true → (t.cq q).opn = true
  | [], s, t, h, ho => by cases h; exact ho
  | a :: as, s, t, h, ho => by
    rw [run, Option.bind_eq_some_iff] at h
    obtain ⟨s', h1, h2⟩ := h
    exact opn_run as h2 (opn_step a h1 ho)

/-- only a full event queue loses an event -/
theorem lost_of_step {P : Params} {s t : S} (a : Act) (h : step P s a = some t) (hl : s.lost = []) :
    t.lost = [] ∨ ∃ q f, s.fifo = q :: f ∧ P.eqSize ≤ (s.eq (P.eqOf q)).log.length - (s.eq (P.eqOf q)).cons := by
  cases a with
  | openCq q0 => simp only [step] at h; split at h <;> cases h; exact .inl hl
  | setUp => simp only [step] at h; cases h; exact .inl hl
  | write q0 => simp only [step] at h; split at h <;> cases h; exact .inl hl
  | commit q0 =>
    simp only [step] at h
    split at h
    · split at h <;> cases h <;> exact .inl hl
    · cases h
  | evWrite =>
    simp only [step] at h
    split at h
    · cases h
    · rename_i q f hf
      split at h
      · cases h; exact .inl hl
      · rename_i hn; exact .inr ⟨q, f, hf, by omega⟩
  | evCommit e =>
    simp only [step] at h
    split at h
    · split at h <;> cases h <;> exact .inl hl
    · cases h
  | reg =>
    simp only [step] at h
    split at h
    · cases h
    · rename_i w ws hw
      cases h
      cases w with
      | cqCons q0 v => exact .inl hl
      | cqArm q0 => simp only [apply]; split <;> exact .inl hl
      | eqCons e v => exact .inl hl
      | eqArm e => simp only [apply]; split <;> exact .inl hl
  | drv =>
    simp only [step] at h
    unfold drv at h
    cases hpc : s.pc <;> rw [hpc] at h <;> dsimp only at h
    · split at h <;> cases h; exact .inl hl
    · split at h
      · split at h <;> cases h <;> exact .inl hl
      · cases h; exact .inl hl
    · split at h
      · split at h <;> cases h <;> exact .inl hl
      · cases h; exact .inl hl
    · split at h <;> cases h <;> exact .inl hl
    all_goals (cases h; exact .inl hl)

/-- with at most `m` queues open, at most `m` events are outstanding -/
theorem outstanding {P : Params} {s : S} (hi : Inv P s) {m : Nat} (hm : ∀ q, (s.cq q).opn = true → q < m) {q : Nat} {f : List Nat}
    (hf : s.fifo = q :: f) : (s.eq (P.eqOf q)).log.length - pos s (P.eqOf q) < m := by
  have hc : ∀ x, (q :: (s.eq (P.eqOf q)).log.drop (pos s (P.eqOf q))).count x ≤ (s.cq x).opn.toNat := by
    intro x
    have ht := hi.tok x
    unfold tok at ht
    rw [hf] at ht
    by_cases hx : P.eqOf x = P.eqOf q
    · rw [hx] at ht
      rw [List.count_cons] at ht ⊢
      omega
    · have h1 : x ∉ (s.eq (P.eqOf q)).log.drop (pos s (P.eqOf q)) := fun g => hx (hi.home _ _ (List.mem_of_mem_drop g))
      have h2 : q ≠ x := fun g => hx (by rw [g])
      rw [List.count_cons, List.count_eq_zero_of_not_mem h1]
      simp [h2]
  have hnd : (q :: (s.eq (P.eqOf q)).log.drop (pos s (P.eqOf q))).Nodup := by
    rw [List.nodup_iff_count]
    intro x; exact Nat.le_trans (hc x) (Bool.toNat_le _)
  have hlt : ∀ x ∈ (q :: (s.eq (P.eqOf q)).log.drop (pos s (P.eqOf q))), x < m := by
    intro x hx
    apply hm
    have := Nat.le_trans (List.count_pos_iff.mpr hx) (hc x)
    cases ho : (s.cq x).opn with
    | true => rfl
    | false => rw [ho] at this; cases this
  have := Sched.nodup_length_le m hnd hlt
  simp at this
  omega

theorem no_drop {P : Params} {m : Nat} : ∀ (as : List Act) {s t : S}, Inv P s → s.lost = [] → run P s as = some t →
    (∀ q, (t.cq q).opn = true → q < m) →
    (∀ bs u, bs <+: as → run P s bs = some u → ∀ e, pos u e - (u.eq e).cons + m ≤ P.eqSize) → t.lost = []
  | [], s, t, _, hl, h, _, _ => by cases h; exact hl
  | a :: as, s, t, hi, hl, h, hm, hb => by
    have hs := hb [] s (List.nil_prefix) rfl
    have hrun := h
    rw [run, Option.bind_eq_some_iff] at h
    obtain ⟨s', h1, h2⟩ := h
    refine no_drop as (inv_step hi a h1) ?_ h2 hm ?_
    · rcases lost_of_step a h1 hl with g | ⟨q, f, hf, g⟩
      · exact g
      · exfalso
        have k1 := outstanding hi (m := m) (fun q ho => hm q (opn_run _ hrun ho)) hf
        have k2 := hs (P.eqOf q)
        have k3 := drv_le_pos hi (P.eqOf q)
        have k4 := (hi.ele (P.eqOf q)).2.2
        omega
    · intro bs u hp hu e
      refine hb (a :: bs) u ?_ ?_ e
      · obtain ⟨x, hx⟩ := hp; exact ⟨x, by rw [← hx]; rfl⟩
      · rw [run, h1]; exact hu

theorem inv_run {P : Params} : ∀ (as : List Act) {s t : S}, Inv P s → run P s as = some t → Inv P t
  | [], s, t, hi, h => by cases h; exact hi
  | a :: as, s, t, hi, h => by
    rw [run, Option.bind_eq_some_iff] at h
    obtain ⟨s', h1, h2⟩ := h
    exact inv_run as (inv_step hi a h1) h2

end Corundum.Wake
