import Verif.Spec.DmaRd
import Verif.Proof.Sched

namespace Corundum.DmaRd

section
variable {Byte : Type} {w ow : Nat} {c : Cfg} {p : Ram} {host : Nat → Byte} {s s' : St Byte}

theorem accept_inv {d : Desc} (h : accept c s d = some s') : ∃ o, s.cur = none ∧ s.opReg = some o ∧
    s' = { s with cur := some (d.sel, reqs c d), utag := upd s.utag o d.tag, fresh := upd s.fresh o true, errF := upd s.errF o false,
                  hist := s.hist ++ [d], desc := upd s.desc o d, num := upd s.num o s.hist.length } := by
  unfold accept at h
  split at h
  · rename_i o h1 h2
    exact ⟨o, h1, h2, (Option.some.inj h).symm⟩
  · exact absurd h (by simp)

theorem issue_inv (h : issue w s = some s') : ∃ sel r rs o t, s.cur = some (sel, r :: rs) ∧ s.opReg = some o ∧ s.tagReg = some t ∧
    s' = { s with cur := if rs.isEmpty then none else some (sel, rs), opReg := if rs.isEmpty then none else some o, tagReg := none,
                  act := upd s.act t true, ent := upd s.ent t ⟨o, sel, r⟩, commit := upd s.commit o rs.isEmpty, fresh := upd s.fresh o false,
                  cStart := upd s.cStart o (if s.fresh o then s.cFin o else (s.cStart o + 1) % 2 ^ (w + 1)),
                  busy := if rs.isEmpty then o :: s.busy else s.busy, outs := t :: s.outs, prog := upd s.prog t 0,
                  own := upd s.own t (s.hist.length - 1) } := by
  unfold issue at h
  split at h
  · rename_i sel r rs o t h1 h2 h3
    exact ⟨sel, r, rs, o, t, h1, h2, h3, (Option.some.inj h).symm⟩
  · exact absurd h (by simp)

theorem opTag_inv (h : opTag s = some s') : ∃ o os, s.opReg = none ∧ s.opFree = o :: os ∧ s' = { s with opReg := some o, opFree := os } := by
  unfold opTag at h
  split at h
  · rename_i o os h1 h2
    exact ⟨o, os, h1, h2, (Option.some.inj h).symm⟩
  · exact absurd h (by simp)

theorem tag_inv {t : Nat} (h : tag s t = some s') : s.tagReg = none ∧ t ∈ s.free ∧ s' = { s with tagReg := some t, free := s.free.erase t } := by
  unfold tag at h
  split at h
  · rename_i h1
    exact ⟨h1.1, h1.2, (Option.some.inj h).symm⟩
  · exact absurd h (by simp)

/-- the writes of a completion as received -/
def rxWrites (p : Ram) (e : TagEnt) (h : Hdr) (d : Nat → Byte) : List (Write Byte) :=
  if e.r.zero then ((writes p e.r.ramEnd e.sel h d).take 1).map Write.blank ++ (writes p e.r.ramEnd e.sel h d).drop 1 else writes p e.r.ramEnd e.sel h d

theorem cpl_inv {t : Nat} {hd : Hdr} {d : Nat → Byte} (h : cpl p s t hd d = some s') : s.rx = none ∧ s.act t = true ∧
    s' = { s with rx := some ⟨t, (s.ent t).op, rxWrites p (s.ent t) hd d, finalCpl hd⟩, prog := upd s.prog t (s.prog t + opCount hd) } := by
  unfold cpl at h
  split at h
  · rename_i h1
    exact ⟨Option.isNone_iff_eq_none.1 h1.1, h1.2, (Option.some.inj h).symm⟩
  · exact absurd h (by simp)

theorem beat_inv (h : beat p s = some s') : ∃ t o x ws fin, s.rx = some ⟨t, o, x :: ws, fin⟩ ∧ s.stat.length < depth ∧
    s' = { s with rx := if ws.isEmpty then none else some ⟨t, o, ws, fin⟩,
                  stat := s.stat ++ [⟨o, (List.range p.segs).filter x.mask, fin && ws.isEmpty, 0⟩],
                  pend := fun n => if n < p.segs ∧ x.mask n = true then s.pend n ++ [(o, x)] else s.pend n,
                  rel := if fin && ws.isEmpty then s.rel ++ [t] else s.rel,
                  outs := if fin && ws.isEmpty then s.outs.erase t else s.outs } := by
  unfold beat at h
  split at h
  · rename_i t o x ws fin h1
    split at h
    · rename_i h2
      exact ⟨t, o, x, ws, fin, h1, h2, (Option.some.inj h).symm⟩
    · exact absurd h (by simp)
  · exact absurd h (by simp)

theorem err_inv {t code : Nat} (h : err s t code = some s') : s.rx = none ∧ s.act t = true ∧ code ≠ 0 ∧ s.stat.length < depth ∧
    s' = { s with stat := s.stat ++ [⟨(s.ent t).op, [], true, code⟩], rel := s.rel ++ [t], outs := s.outs.erase t, failed := s.failed ++ [s.own t] } := by
  unfold err at h
  split at h
  · rename_i h1
    exact ⟨Option.isNone_iff_eq_none.1 h1.1, h1.2.1, h1.2.2.1, h1.2.2.2, (Option.some.inj h).symm⟩
  · exact absurd h (by simp)

theorem release_inv (h : release s = some s') : ∃ t ts, s.rel = t :: ts ∧ s' = { s with rel := ts, act := upd s.act t false, free := s.free ++ [t] } := by
  unfold release at h
  split at h
  · rename_i t ts h1
    exact ⟨t, ts, h1, (Option.some.inj h).symm⟩
  · exact absurd h (by simp)

theorem done_inv {n : Nat} (h : done p s n = some s') : ∃ o x ws, s.pend n = (o, x) :: ws ∧
    s' = { s with mem := x.applySeg p n s.mem, pend := upd s.pend n ws, dn := upd s.dn n (if s.dn n < depth then s.dn n + 1 else s.dn n) } := by
  unfold done at h
  split at h
  · rename_i o x ws h1
    exact ⟨o, x, ws, h1, (Option.some.inj h).symm⟩
  · exact absurd h (by simp)

/-- `pop` without the status output -/
def popBase (w : Nat) (s : St Byte) (e : Stat) (es : List Stat) : St Byte :=
  { s with stat := es, dn := fun n => if n ∈ e.segs then s.dn n - 1 else s.dn n,
           errF := if e.err ≠ 0 then upd s.errF e.op true else s.errF, errC := if e.err ≠ 0 then upd s.errC e.op e.err else s.errC,
           cFin := if e.fin then upd s.cFin e.op ((s.cFin e.op + 1) % 2 ^ (w + 1)) else s.cFin }

def emits (s : St Byte) (e : Stat) : Bool := e.fin && s.commit e.op && s.cStart e.op == s.cFin e.op

def errorOf (s : St Byte) (e : Stat) : Nat := if e.err ≠ 0 then e.err else if s.errF e.op then s.errC e.op else 0

theorem pop_inv (h : pop w s = some s') : ∃ e es, s.stat = e :: es ∧ (∀ n ∈ e.segs, 0 < s.dn n) ∧
    (emits s e = true ∧ s' = { popBase w s e es with opFree := s.opFree ++ [e.op], busy := s.busy.erase e.op, out := s.out ++ [(s.num e.op, s.utag e.op, errorOf s e)] } ∨
     emits s e = false ∧ s' = popBase w s e es) := by
  unfold pop at h
  split at h
  · rename_i e es h1
    split at h
    · rename_i h2
      refine ⟨e, es, h1, ?_, ?_⟩
      · intro n hn
        have := List.all_eq_true.1 h2 n hn
        simpa using this
      · dsimp only at h
        split at h
        · rename_i h3
          left; exact ⟨h3, (Option.some.inj h).symm⟩
        · rename_i h3
          right; exact ⟨by simpa [emits] using h3, (Option.some.inj h).symm⟩
    · exact absurd h (by simp)
  · exact absurd h (by simp)

/-- where a tag is -/
def tagN (s : St Byte) (t : Nat) : Nat := (if s.tagReg = some t then 1 else 0) + s.free.count t + s.rel.count t + s.outs.count t

structure TagInv (w : Nat) (s : St Byte) : Prop where
  one : ∀ t, tagN s t = if t < 2 ^ w then 1 else 0
  act : ∀ t, s.act t = true ↔ t ∈ s.rel ∨ t ∈ s.outs
  rx : ∀ r, s.rx = some r → r.ws ≠ [] ∧ r.tag ∈ s.outs ∧ r.op = (s.ent r.tag).op

theorem le1 {n : Nat} {q : Prop} [Decidable q] (h : n = if q then 1 else 0) : n ≤ 1 := by
  split at h <;> omega

theorem count_mem {t : Nat} {l : List Nat} : t ∈ l ↔ 0 < l.count t := List.count_pos_iff.symm

theorem range_count (n t : Nat) : (List.range n).count t = if t < n then 1 else 0 := by
  by_cases h : t < n
  · rw [if_pos h]
    have h1 := List.nodup_iff_count.1 (List.nodup_range (n := n)) t
    have h2 := List.count_pos_iff.2 (List.mem_range.2 h)
    omega
  · rw [if_neg h]
    exact List.count_eq_zero_of_not_mem (fun hm => h (List.mem_range.1 hm))

theorem count_erase' (l : List Nat) (a b : Nat) : (l.erase b).count a = l.count a - if a = b then 1 else 0 := by
  by_cases h : a = b
  · subst h; rw [List.count_erase_self, if_pos rfl]
  · rw [List.count_erase_of_ne h, if_neg h]; rfl

theorem count_single (a b : Nat) : [b].count a = if a = b then 1 else 0 := by
  by_cases h : a = b
  · subst h; simp
  · simp [h, List.count_singleton]; omega

theorem count_cons' (l : List Nat) (a b : Nat) : (b :: l).count a = l.count a + if a = b then 1 else 0 := by
  rw [List.count_cons]
  by_cases h : a = b
  · subst h; simp
  · have : (b == a) = false := by rw [beq_eq_false_iff_ne]; omega
    rw [this]; simp [h]

theorem writes_ne (e : TagEnt) (h : Hdr) (d : Nat → Byte) : rxWrites p e h d ≠ [] := by
  unfold rxWrites writes beats
  dsimp only
  split <;> simp

theorem tag_inv_init (mem : Nat → Nat → Byte) : TagInv w (init w ow mem) := by
  refine ⟨?_, ?_, ?_⟩
  · intro t
    simp only [tagN, init, range_count]
    simp
  · intro t; simp [init]
  · intro r h; exact absurd h (by simp [init])

theorem tag_inv_step (e : Ev Byte) (i : TagInv w s) (hl : Legal c p host s e) (h : step w c p s e = some s') : TagInv w s' := by
  obtain ⟨i1, i2, i3⟩ := i
  cases e with
  | accept d =>
    obtain ⟨o, h1, h2, rfl⟩ := accept_inv h
    exact ⟨i1, i2, i3⟩
  | issue =>
    obtain ⟨sel, r, rs, o, t, h1, h2, h3, rfl⟩ := issue_inv h
    refine ⟨?_, ?_, ?_⟩
    · intro u
      have := i1 u
      simp only [tagN, h3, Option.some.injEq] at this
      simp only [tagN, count_cons']
      rw [if_neg (by simp)]
      by_cases hu : u = t
      · subst hu; simp only [if_true] at this ⊢; omega
      · rw [if_neg (by omega)] at this ⊢; omega
    · intro u
      simp only [upd]
      by_cases hu : u = t
      · subst hu; simp
      · simp only [if_neg hu, List.mem_cons, hu, false_or]; exact i2 u
    · intro x hx
      obtain ⟨a1, a2, a3⟩ := i3 x hx
      have : x.tag ≠ t := by
        intro ht
        have h5 := le1 (i1 t)
        simp only [tagN, h3, if_true] at h5
        have := count_mem.1 a2
        rw [ht] at this
        omega
      refine ⟨a1, by simp [a2], ?_⟩
      simp only [upd, if_neg this]; exact a3
  | opTag =>
    obtain ⟨o, os, h1, h2, rfl⟩ := opTag_inv h
    exact ⟨i1, i2, i3⟩
  | tag t =>
    obtain ⟨h1, h2, rfl⟩ := tag_inv h
    refine ⟨?_, i2, i3⟩
    intro u
    have := i1 u
    have hc := count_mem.1 h2
    simp only [tagN, h1] at this
    simp only [tagN, count_erase', Option.some.injEq]
    rw [if_neg (by simp)] at this
    by_cases hu : u = t
    · subst hu; simp only [if_true]; omega
    · rw [if_neg (by omega), if_neg hu]; omega
  | cpl t hd d =>
    obtain ⟨h1, h2, rfl⟩ := cpl_inv h
    refine ⟨i1, i2, ?_⟩
    intro x hx
    simp only [Option.some.injEq] at hx
    subst hx
    exact ⟨writes_ne _ _ _, hl.1, rfl⟩
  | beat =>
    obtain ⟨t, o, x, ws, fin, h1, h2, rfl⟩ := beat_inv h
    obtain ⟨a1, a2, a3⟩ := i3 _ h1
    dsimp only at a2 a3
    have hc := count_mem.1 a2
    refine ⟨?_, ?_, ?_⟩
    · intro u
      have := i1 u
      simp only [tagN] at this ⊢
      by_cases hf : (fin && ws.isEmpty) = true
      · rw [if_pos hf, if_pos hf, List.count_append, count_erase', count_single]
        by_cases hu : u = t
        · subst hu; simp only [if_true]; omega
        · simp only [if_neg hu]; omega
      · rw [if_neg hf, if_neg hf]; exact this
    · intro u
      dsimp only
      split
      · rw [i2 u]
        by_cases hu : u = t
        · subst hu; simp [a2]
        · simp [List.mem_erase_of_ne hu, hu]
      · exact i2 u
    · intro y hy
      dsimp only at hy ⊢
      split at hy
      · exact absurd hy (by simp)
      · rename_i hw
        simp only [Option.some.injEq] at hy
        subst hy
        rw [if_neg (by simp only [Bool.and_eq_true]; rintro ⟨_, h⟩; exact hw h)]
        exact ⟨by simpa using hw, a2, a3⟩
  | err t code =>
    obtain ⟨h1, h2, h3, h4, rfl⟩ := err_inv h
    have a2 : t ∈ s.outs := hl
    have hc := count_mem.1 a2
    refine ⟨?_, ?_, ?_⟩
    · intro u
      have := i1 u
      simp only [tagN] at this ⊢
      rw [List.count_append, count_erase', count_single]
      by_cases hu : u = t
      · subst hu; simp only [if_true]; omega
      · simp only [if_neg hu]; omega
    · intro u
      dsimp only
      rw [i2 u]
      by_cases hu : u = t
      · subst hu; simp [a2]
      · simp [List.mem_erase_of_ne hu, hu]
    · intro y hy; rw [h1] at hy; exact absurd hy (by simp)
  | release =>
    obtain ⟨t, ts, h1, rfl⟩ := release_inv h
    have key : ∀ u, u = t → u ∉ ts ∧ u ∉ s.outs := by
      rintro u rfl
      have := le1 (i1 u)
      simp only [tagN, h1, count_cons', if_true] at this
      rw [count_mem, count_mem]
      omega
    refine ⟨?_, ?_, ?_⟩
    · intro u
      have := i1 u
      simp only [tagN, h1, count_cons'] at this
      simp only [tagN, List.count_append, count_single]
      omega
    · intro u
      simp only [upd]
      by_cases hu : u = t
      · have := key u hu
        rw [if_pos hu]; simp [this]
      · rw [if_neg hu, i2 u, h1]; simp [hu]
    · exact i3
  | done n =>
    obtain ⟨o, x, ws, h1, rfl⟩ := done_inv h
    exact ⟨i1, i2, i3⟩
  | pop =>
    obtain ⟨e, es, h1, h2, ⟨_, rfl⟩ | ⟨_, rfl⟩⟩ := pop_inv h
    · exact ⟨i1, i2, i3⟩
    · exact ⟨i1, i2, i3⟩

theorem outs_nodup (i : TagInv w s) : s.outs.Nodup := by
  rw [List.nodup_iff_count]
  intro t
  have := le1 (i.one t)
  unfold tagN at this
  omega

theorem outs_length (i : TagInv w s) : s.outs.length ≤ 2 ^ w := by
  apply Sched.nodup_length_le _ (outs_nodup i)
  intro t ht
  have := i.one t
  have hc := count_mem.1 ht
  unfold tagN at this
  by_cases h : t < 2 ^ w
  · exact h
  · rw [if_neg h] at this; omega

end

end Corundum.DmaRd
