import Verif.Proof.DmaRdTag
import Verif.Props.DmaRdReq

namespace Corundum.DmaRd

section
variable {Byte : Type} {w ow : Nat} {c : Cfg} {p : Ram} {host : Nat → Byte} {s s' : St Byte}

/-- in use, with requests or status entries around -/
def Live (s : St Byte) (o : Nat) : Prop := o ∈ s.busy ∨ (s.cur.isSome = true ∧ s.opReg = some o ∧ s.fresh o = false)

def outN (s : St Byte) (o : Nat) : Nat := s.outs.countP fun t => (s.ent t).op == o

def finN (s : St Byte) (o : Nat) : Nat := s.stat.countP fun e => e.fin && e.op == o

def opN (s : St Byte) (o : Nat) : Nat := (if s.opReg = some o then 1 else 0) + s.opFree.count o + s.busy.count o

/-- something of this operation is still to be counted -/
def Cover (s : St Byte) (l : List Stat) (o : Nat) : Prop := (∃ t ∈ s.outs, (s.ent t).op = o) ∨ ∃ f ∈ l, f.fin = true ∧ f.op = o

structure OpInv (w ow : Nat) (c : Cfg) (s : St Byte) : Prop where
  one : ∀ o, opN s o = if o < 2 ^ ow then 1 else 0
  cur : ∀ sel rs, s.cur = some (sel, rs) → rs ≠ [] ∧ ∃ o, s.opReg = some o ∧ sel = (s.desc o).sel ∧ ∃ ds, reqs c (s.desc o) = ds ++ rs ∧ (s.fresh o = true → ds = [])
  liveOut : ∀ t ∈ s.outs, Live s (s.ent t).op
  liveStat : ∀ e ∈ s.stat, Live s e.op
  lt : ∀ o, s.cStart o < 2 ^ (w + 1) ∧ s.cFin o < 2 ^ (w + 1)
  cnt : ∀ o, Live s o → (s.cStart o + 1) % 2 ^ (w + 1) = (s.cFin o + (outN s o + finN s o)) % 2 ^ (w + 1)
  com : ∀ o, Live s o → (s.commit o = true ↔ o ∈ s.busy)
  pos : ∀ o ∈ s.busy, 0 < outN s o + finN s o
  cover : ∀ a e b, s.stat = a ++ e :: b → Cover s (e :: b) e.op
  len : s.stat.length ≤ depth

theorem countP_erase' {A : Type} [BEq A] [LawfulBEq A] (f : A → Bool) (l : List A) (a : A) (h : a ∈ l) : (l.erase a).countP f + (if f a then 1 else 0) = l.countP f := by
  have := (List.perm_cons_erase h).countP_eq f
  rw [this, List.countP_cons]

theorem outN_zero {o : Nat} (h : ∀ t ∈ s.outs, (s.ent t).op ≠ o) : outN s o = 0 := by
  unfold outN
  rw [List.countP_eq_zero]
  intro t ht
  simpa using h t ht

theorem finN_zero {o : Nat} (h : ∀ e ∈ s.stat, e.op ≠ o) : finN s o = 0 := by
  unfold finN
  rw [List.countP_eq_zero]
  intro t ht
  simpa using fun _ => h t ht

theorem busy_not_reg (i : OpInv w ow c s) {o : Nat} (h : s.opReg = some o) : o ∉ s.busy := by
  have := le1 (i.one o)
  simp only [opN, h, if_true] at this
  rw [count_mem]; omega

theorem fresh_zero (i : OpInv w ow c s) {o : Nat} (h : s.opReg = some o) (hf : s.fresh o = true ∨ s.cur = none) :
    ¬ Live s o := by
  rintro (h1 | ⟨h1, h2, h3⟩)
  · exact busy_not_reg i h h1
  · rcases hf with hf | hf
    · rw [hf] at h3; exact absurd h3 (by simp)
    · rw [hf] at h1; exact absurd h1 (by simp)

theorem tag_not_out (i : TagInv w s) {t : Nat} (h : s.tagReg = some t) : t ∉ s.outs := by
  have := le1 (i.one t)
  simp only [tagN, h, if_true] at this
  rw [count_mem]; omega

theorem reqs_ne {d : Desc} (h : Fine c p d) : reqs c d ≠ [] := by
  unfold reqs
  by_cases hl : d.len = 0
  · obtain ⟨t, h1, _⟩ := C72_zero_len c d.addr d.ram d.len (by have := h.given; rwa [hl] at this) h.lw
    rw [hl] at h1 ⊢
    rw [h1]; simp
  · obtain ⟨ts, h1, h2, _⟩ := C72_cover c d.addr d.ram d.len (d.len + 1) h.given h.nowrap h.page (by omega) (by omega)
    rw [h1]
    simp only [Option.getD_some]
    intro h3
    rw [h3] at h2
    have := congrArg List.length h2
    simp at this; omega

theorem op_inv_init (mem : Nat → Nat → Byte) : OpInv w ow c (init w ow mem) := by
  refine ⟨?_, ?_, ?_, ?_, ?_, ?_, ?_, ?_, ?_, ?_⟩
  · intro o
    simp only [opN, init, range_count]
    simp
  · intro sel rs h; exact absurd h (by simp [init])
  · intro t h; exact absurd h (by simp [init])
  · intro t h; exact absurd h (by simp [init])
  · intro o; simp only [init]; exact ⟨Nat.two_pow_pos _, Nat.two_pow_pos _⟩
  · intro o h; exact absurd h (by simp [Live, init])
  · intro o h; exact absurd h (by simp [Live, init])
  · intro o h; exact absurd h (by simp [init])
  · intro a e b h; exact absurd h (by simp [init])
  · simp [init]

/-- the counters say that an operation is done exactly if one request is left to be counted -/
theorem emit_iff (hw : 5 ≤ w) (ti : TagInv w s) (i : OpInv w ow c s) {e : Stat} {es : List Stat} (h : s.stat = e :: es) :
    emits s e = true ↔ e.fin = true ∧ e.op ∈ s.busy ∧ outN s e.op + finN s e.op = 1 := by
  have hl := i.liveStat e (by rw [h]; simp)
  have hc := i.com _ hl
  have hn := i.cnt _ hl
  obtain ⟨l1, l2⟩ := i.lt e.op
  simp only [emits, Bool.and_eq_true, beq_iff_eq, hc]
  have h1 : outN s e.op ≤ 2 ^ w := Nat.le_trans List.countP_le_length (outs_length ti)
  have h2 : finN s e.op ≤ 32 := Nat.le_trans List.countP_le_length i.len
  have h3 : 32 ≤ 2 ^ w := Nat.pow_le_pow_right (n := 2) (by omega) hw
  have h4 : 2 ^ (w + 1) = 2 * 2 ^ w := by rw [Nat.pow_succ, Nat.mul_comm]
  rw [h4] at hn l1 l2
  generalize 2 ^ w = N at hn l1 l2 h1 h3
  have hpos := i.pos e.op
  generalize outN s e.op = a at *
  generalize finN s e.op = b at *
  constructor
  · rintro ⟨⟨hf, hb⟩, he⟩
    refine ⟨hf, hb, ?_⟩
    rw [he] at hn
    have hp : 0 < a + b := hpos hb
    have e1 : (s.cFin e.op + (a + b)) % (2 * N) = ((s.cFin e.op + 1) + (a + b - 1)) % (2 * N) := by rw [show s.cFin e.op + (a + b) = s.cFin e.op + 1 + (a + b - 1) by omega]
    rcases Nat.lt_or_ge (s.cFin e.op + 1) (2 * N) with q | q
    · rw [Nat.mod_eq_of_lt q] at hn
      rcases Nat.lt_or_ge (s.cFin e.op + (a + b)) (2 * N) with q2 | q2
      · rw [Nat.mod_eq_of_lt q2] at hn; omega
      · rw [Nat.mod_eq_sub_mod q2, Nat.mod_eq_of_lt (by omega)] at hn; omega
    · have q' : s.cFin e.op + 1 = 2 * N := by omega
      rw [q', Nat.mod_self] at hn
      rw [Nat.mod_eq_sub_mod (by omega)] at hn
      rw [Nat.mod_eq_of_lt (by omega)] at hn
      omega
  · rintro ⟨hf, hb, he⟩
    refine ⟨⟨hf, hb⟩, ?_⟩
    rw [he] at hn
    rcases Nat.lt_or_ge (s.cFin e.op + 1) (2 * N) with q | q <;> rcases Nat.lt_or_ge (s.cStart e.op + 1) (2 * N) with q2 | q2
    · rw [Nat.mod_eq_of_lt q, Nat.mod_eq_of_lt q2] at hn; omega
    · have q' : s.cStart e.op + 1 = 2 * N := by omega
      rw [q', Nat.mod_self, Nat.mod_eq_of_lt q] at hn; omega
    · have q' : s.cFin e.op + 1 = 2 * N := by omega
      rw [q', Nat.mod_self, Nat.mod_eq_of_lt q2] at hn; omega
    · omega

theorem finN_cons {e : Stat} {es : List Stat} (h : s.stat = e :: es) (o : Nat) :
    finN s o = (es.countP fun e => e.fin && e.op == o) + if e.fin = true ∧ e.op = o then 1 else 0 := by
  unfold finN
  rw [h, List.countP_cons]
  simp

/-- when the status is put out, nothing of the operation is left -/
theorem emit_last (hw : 5 ≤ w) (ti : TagInv w s) (i : OpInv w ow c s) {e : Stat} {es : List Stat} (h : s.stat = e :: es) (he : emits s e = true) :
    e.fin = true ∧ e.op ∈ s.busy ∧ (∀ t ∈ s.outs, (s.ent t).op ≠ e.op) ∧ ∀ f ∈ es, f.op ≠ e.op := by
  obtain ⟨h1, h2, h3⟩ := (emit_iff hw ti i h).1 he
  have h4 := finN_cons h e.op
  rw [if_pos ⟨h1, rfl⟩] at h4
  have h5 : outN s e.op = 0 := by omega
  have h6 : (es.countP fun f => f.fin && f.op == e.op) = 0 := by omega
  unfold outN at h5
  rw [List.countP_eq_zero] at h5 h6
  refine ⟨h1, h2, ?_, ?_⟩
  · intro t ht hc
    exact h5 t ht (by simp [hc])
  · intro f hf hc
    obtain ⟨a, b, rfl⟩ := List.append_of_mem hf
    rcases i.cover (e :: a) f b (by rw [h]; rfl) with ⟨t, ht, hq⟩ | ⟨g, hg, hgf, hgo⟩
    · exact h5 t ht (by simp [hq, hc])
    · exact h6 g (by simp only [List.mem_append]; right; exact hg) (by simp [hgf, hgo, hc])

theorem cover_append {t : Nat} {e : Stat} {st' : St Byte} (ht : t ∈ s.outs) (ho : e.op = (s.ent t).op) (i : ∀ a e b, s.stat = a ++ e :: b → Cover s (e :: b) e.op)
    (hs : e.fin = true → st'.outs = s.outs.erase t) (hk : e.fin = false → st'.outs = s.outs) (hst : st'.stat = s.stat ++ [e] ∧ st'.ent = s.ent) :
    ∀ a f b, st'.stat = a ++ f :: b → Cover st' (f :: b) f.op := by
  intro a f b hab
  rw [hst.1] at hab
  have key : ∀ o l, Cover s l o → Cover st' (l ++ [e]) o := by
    rintro o l (⟨u, hu, hq⟩ | ⟨g, hg, hq⟩)
    · cases hf : e.fin with
      | false => left; exact ⟨u, by rw [hk hf]; exact hu, by rw [hst.2]; exact hq⟩
      | true =>
        by_cases hut : u = t
        · subst hut
          right; exact ⟨e, by simp, hf, by rw [ho, hq]⟩
        · left; exact ⟨u, by rw [hs hf]; exact (List.mem_erase_of_ne hut).2 hu, by rw [hst.2]; exact hq⟩
    · right; exact ⟨g, by simp [hg], hq⟩
  rcases List.append_eq_append_iff.1 hab with ⟨a', h1, h2⟩ | ⟨c', h1, h2⟩
  · have hn : a' = [] := by
      cases a' with
      | nil => rfl
      | cons x xs => simp at h2
    subst hn
    simp only [List.nil_append, List.cons.injEq] at h2
    obtain ⟨rfl, rfl⟩ := h2
    exact key _ [] (Or.inl ⟨t, ht, ho.symm⟩)
  · cases c' with
    | nil =>
      simp only [List.nil_append, List.cons.injEq] at h2
      obtain ⟨rfl, rfl⟩ := h2
      exact key _ [] (Or.inl ⟨t, ht, ho.symm⟩)
    | cons x xs =>
      simp only [List.cons_append, List.cons.injEq] at h2
      obtain ⟨rfl, rfl⟩ := h2
      exact key _ (f :: xs) (i a f xs h1)

theorem op_inv_step (hw : 5 ≤ w) (e : Ev Byte) (ti : TagInv w s) (i : OpInv w ow c s) (hl : Legal c p host s e) (h : step w c p s e = some s') : OpInv w ow c s' := by
  have ii := i
  obtain ⟨i1, i2, i3, i4, i5, i6, i7, i8, i9, i10⟩ := i
  cases e with
  | accept d =>
    obtain ⟨o, h1, h2, rfl⟩ := accept_inv h
    have hnb := busy_not_reg ii h2
    have hlive : ∀ o', Live { s with cur := some (d.sel, reqs c d), utag := upd s.utag o d.tag, fresh := upd s.fresh o true, errF := upd s.errF o false, hist := s.hist ++ [d], desc := upd s.desc o d, num := upd s.num o s.hist.length } o' ↔ Live s o' := by
      intro o'
      simp only [Live, h1, h2]
      constructor
      · rintro (q | ⟨_, q, q2⟩)
        · exact Or.inl q
        · have : o = o' := Option.some.inj q
          subst this
          simp [upd] at q2
      · rintro (q | ⟨q, _⟩)
        · exact Or.inl q
        · exact absurd q (by simp)
    refine ⟨i1, ?_, ?_, ?_, i5, ?_, ?_, i8, i9, i10⟩
    · intro sel rs hc
      simp only [Option.some.injEq, Prod.mk.injEq] at hc
      obtain ⟨rfl, rfl⟩ := hc
      exact ⟨reqs_ne hl.1, o, h2, by simp [upd], [], by simp [upd], fun _ => rfl⟩
    · intro t ht; exact (hlive _).2 (i3 t ht)
    · intro e he; exact (hlive _).2 (i4 e he)
    · intro o' ho; exact i6 o' ((hlive _).1 ho)
    · intro o' ho; exact i7 o' ((hlive _).1 ho)
  | issue =>
    obtain ⟨sel, r, rs, o, t, h1, h2, h3, rfl⟩ := issue_inv h
    have hno := tag_not_out ti h3
    have hnb := busy_not_reg ii h2
    have hold : ∀ u ∈ s.outs, (upd s.ent t ⟨o, sel, r⟩ u) = s.ent u := by
      intro u hu
      have : u ≠ t := by rintro rfl; exact hno hu
      simp [upd, this]
    have hlo : ∀ o', o' ≠ o → (o' ∈ (if rs.isEmpty then o :: s.busy else s.busy) ∨
        ((if rs.isEmpty then none else some (sel, rs)).isSome = true ∧ (if rs.isEmpty then none else some o) = some o' ∧ upd s.fresh o false o' = false) ↔ Live s o') := by
      intro o' hne
      have e1 : (o' ∈ (if rs.isEmpty then o :: s.busy else s.busy)) ↔ o' ∈ s.busy := by
        split
        · simp [hne]
        · exact Iff.rfl
      rw [e1]
      constructor
      · rintro (q | ⟨_, q, _⟩)
        · exact Or.inl q
        · split at q
          · exact absurd q (by simp)
          · exact absurd (Option.some.inj q).symm hne
      · rintro (q | ⟨_, q, _⟩)
        · exact Or.inl q
        · rw [h2] at q; exact absurd (Option.some.inj q).symm hne
    have hloo : (o ∈ (if rs.isEmpty then o :: s.busy else s.busy) ∨
        ((if rs.isEmpty then none else some (sel, rs)).isSome = true ∧ (if rs.isEmpty then none else some o) = some o ∧ upd s.fresh o false o = false)) := by
      by_cases hr : rs.isEmpty = true
      · left; rw [if_pos hr]; simp
      · right; rw [if_neg hr, if_neg hr]; simp [upd]
    have hout : ∀ o', (t :: s.outs).countP (fun u => (upd s.ent t ⟨o, sel, r⟩ u).op == o') = outN s o' + if o' = o then 1 else 0 := by
      intro o'
      rw [List.countP_cons]
      unfold outN
      congr 1
      · apply List.countP_congr
        intro u hu
        rw [hold u hu]
      · simp only [upd, if_true, beq_iff_eq]
        by_cases hq : o' = o
        · rw [if_pos hq, if_pos hq.symm]
        · rw [if_neg hq, if_neg (fun z => hq z.symm)]
    refine ⟨?_, ?_, ?_, ?_, ?_, ?_, ?_, ?_, ?_, i10⟩
    · intro o'
      have := i1 o'
      simp only [opN, h2] at this ⊢
      by_cases hr : rs.isEmpty = true
      · simp only [hr, if_true, count_cons']
        rw [if_neg (show ¬ (none : Option Nat) = some o' by simp)]
        by_cases hq : o' = o
        · subst hq; simp only [if_true] at this ⊢; omega
        · rw [if_neg hq]
          rw [if_neg (by intro z; exact hq (Option.some.inj z).symm)] at this
          omega
      · simp only [if_neg hr]; exact this
    · intro sel' rs' hc
      dsimp only at hc ⊢
      by_cases hr : rs.isEmpty = true
      · rw [if_pos hr] at hc; exact absurd hc (by simp)
      · rw [if_neg hr] at hc ⊢
        simp only [Option.some.injEq, Prod.mk.injEq] at hc
        obtain ⟨rfl, rfl⟩ := hc
        obtain ⟨_, o2, q1, q2, ds, q3, q4⟩ := i2 _ _ h1
        rw [h2] at q1
        have : o = o2 := Option.some.inj q1
        subst this
        refine ⟨by simpa using hr, o, rfl, q2, ds ++ [r], by rw [q3]; simp, ?_⟩
        intro z; simp [upd] at z
    · intro u hu
      simp only [List.mem_cons] at hu
      rcases hu with rfl | hu
      · simp only [upd, if_true]
        exact hloo
      · simp only [hold u hu]
        by_cases hq : (s.ent u).op = o
        · rw [hq]; exact hloo
        · exact (hlo _ hq).2 (i3 u hu)
    · intro e he
      by_cases hq : e.op = o
      · rw [hq]; exact hloo
      · exact (hlo _ hq).2 (i4 e he)
    · intro o'
      refine ⟨?_, (i5 o').2⟩
      simp only [upd]
      split
      · split
        · exact (i5 o).2
        · exact Nat.mod_lt _ (Nat.two_pow_pos _)
      · exact (i5 o').1
    · intro o' ho
      simp only [outN, finN]
      rw [hout]
      by_cases hq : o' = o
      · subst hq
        simp only [upd, if_true]
        by_cases hf : s.fresh o' = true
        · have hnl := fresh_zero ii h2 (Or.inl hf)
          have z1 : outN s o' = 0 := outN_zero fun u hu hh => hnl (hh ▸ i3 u hu)
          have z2 : finN s o' = 0 := finN_zero fun u hu hh => hnl (hh ▸ i4 u hu)
          unfold finN at z2
          rw [if_pos hf, z1, z2]
        · have hlive : Live s o' := Or.inr ⟨by rw [h1]; rfl, h2, by simpa using hf⟩
          have := i6 o' hlive
          unfold finN at this
          rw [if_neg hf]
          rw [show s.cFin o' + (outN s o' + 1 + s.stat.countP fun e => e.fin && e.op == o') = (s.cFin o' + (outN s o' + s.stat.countP fun e => e.fin && e.op == o')) + 1 by omega]
          rw [Nat.add_mod ((s.cStart o' + 1) % 2 ^ (w + 1)), Nat.mod_mod, this, ← Nat.add_mod]
      · simp only [upd, if_neg hq, Nat.add_zero]
        exact i6 o' ((hlo _ hq).1 ho)
    · intro o' ho
      by_cases hq : o' = o
      · subst hq
        simp only [upd, if_true]
        by_cases hr : rs.isEmpty = true
        · simp [hr]
        · simp [hr, hnb]
      · have := i7 o' ((hlo _ hq).1 ho)
        simp only [upd, if_neg hq]
        rw [this]
        split
        · simp [hq]
        · exact Iff.rfl
    · intro o' ho
      simp only [outN, finN]
      rw [hout]
      by_cases hq : o' = o
      · rw [if_pos hq]; omega
      · rw [if_neg hq]
        have : o' ∈ s.busy := by
          dsimp only at ho
          split at ho
          · simpa [hq] using ho
          · exact ho
        have := i8 o' this
        unfold finN at this
        omega
    · intro a e b he
      rcases i9 a e b he with ⟨u, hu, hq⟩ | hq
      · left; exact ⟨u, by simp [hu], by show (upd s.ent t ⟨o, sel, r⟩ u).op = _; rw [hold u hu, hq]⟩
      · right; exact hq
  | opTag =>
    obtain ⟨o, os, h1, h2, rfl⟩ := opTag_inv h
    have hcn : s.cur = none := by
      rcases hc : s.cur with _ | ⟨sel, rs⟩
      · rfl
      · obtain ⟨_, o2, q, _⟩ := i2 _ _ hc
        rw [h1] at q; exact absurd q (by simp)
    have hlive : ∀ o', Live { s with opReg := some o, opFree := os } o' ↔ Live s o' := by
      intro o'
      simp only [Live, hcn]; simp
    refine ⟨?_, ?_, ?_, ?_, i5, ?_, ?_, i8, i9, i10⟩
    · intro o'
      have := i1 o'
      simp only [opN, h1, h2, count_cons', Option.some.injEq] at this ⊢
      rw [if_neg (by simp)] at this
      by_cases hq : o' = o
      · subst hq; simp only [if_true] at this ⊢; omega
      · rw [if_neg (fun z => hq z.symm)]; rw [if_neg hq] at this; omega
    · intro sel rs hc
      rw [hcn] at hc; exact absurd hc (by simp)
    · intro t ht; exact (hlive _).2 (i3 t ht)
    · intro e he; exact (hlive _).2 (i4 e he)
    · intro o' ho; exact i6 o' ((hlive _).1 ho)
    · intro o' ho; exact i7 o' ((hlive _).1 ho)
  | tag t =>
    obtain ⟨h1, h2, rfl⟩ := tag_inv h
    exact ⟨i1, i2, i3, i4, i5, i6, i7, i8, i9, i10⟩
  | cpl t hd d =>
    obtain ⟨h1, h2, rfl⟩ := cpl_inv h
    exact ⟨i1, i2, i3, i4, i5, i6, i7, i8, i9, i10⟩
  | beat =>
    obtain ⟨t, o, x, ws, fin, h1, h2, rfl⟩ := beat_inv h
    obtain ⟨_, a2, a3⟩ := ti.rx _ h1
    dsimp only at a2 a3
    have hsum : ∀ o', (if fin && ws.isEmpty then s.outs.erase t else s.outs).countP (fun t => (s.ent t).op == o') +
        (s.stat ++ [(⟨o, (List.range p.segs).filter x.mask, fin && ws.isEmpty, 0⟩ : Stat)]).countP (fun e => e.fin && e.op == o') = outN s o' + finN s o' := by
      intro o'
      rw [List.countP_append]
      by_cases hf : (fin && ws.isEmpty) = true
      · rw [if_pos hf, hf]
        have := countP_erase' (fun t => (s.ent t).op == o') s.outs t a2
        simp only [outN, finN, List.countP_singleton, Bool.true_and, a3] at this ⊢
        omega
      · rw [if_neg hf]
        have : (fin && ws.isEmpty) = false := by simpa using hf
        rw [this]
        simp [outN, finN]
    refine ⟨i1, i2, ?_, ?_, i5, ?_, i7, ?_, ?_, ?_⟩
    · intro u hu
      apply i3 u
      dsimp only at hu
      split at hu
      · exact List.mem_of_mem_erase hu
      · exact hu
    · intro e he
      simp only [List.mem_append, List.mem_singleton] at he
      rcases he with he | rfl
      · exact i4 e he
      · show Live s o
        rw [a3]; exact i3 t a2
    · intro o' ho
      simp only [outN, finN]
      rw [hsum]; exact i6 o' ho
    · intro o' ho
      simp only [outN, finN]
      rw [hsum]; exact i8 o' ho
    · refine cover_append (s := s) (t := t) a2 (e := ⟨o, (List.range p.segs).filter x.mask, fin && ws.isEmpty, 0⟩) a3 i9 ?_ ?_ ⟨rfl, rfl⟩
      · intro hf; exact if_pos hf
      · intro hf; exact if_neg (by simpa using hf)
    · simp only [List.length_append, List.length_singleton]; omega
  | err t code =>
    obtain ⟨h1, h2, h3, h4, rfl⟩ := err_inv h
    have a2 : t ∈ s.outs := hl
    have hsum : ∀ o', (s.outs.erase t).countP (fun t => (s.ent t).op == o') +
        (s.stat ++ [(⟨(s.ent t).op, [], true, code⟩ : Stat)]).countP (fun e => e.fin && e.op == o') = outN s o' + finN s o' := by
      intro o'
      rw [List.countP_append]
      have := countP_erase' (fun t => (s.ent t).op == o') s.outs t a2
      simp only [outN, finN, List.countP_singleton, Bool.true_and] at this ⊢
      omega
    refine ⟨i1, i2, ?_, ?_, i5, ?_, i7, ?_, ?_, ?_⟩
    · intro u hu
      exact i3 u (List.mem_of_mem_erase hu)
    · intro e he
      simp only [List.mem_append, List.mem_singleton] at he
      rcases he with he | rfl
      · exact i4 e he
      · exact i3 t a2
    · intro o' ho
      simp only [outN, finN]
      rw [hsum]; exact i6 o' ho
    · intro o' ho
      simp only [outN, finN]
      rw [hsum]; exact i8 o' ho
    · exact cover_append (s := s) (t := t) a2 (e := ⟨(s.ent t).op, [], true, code⟩) rfl i9 (fun _ => rfl) (fun hf => absurd hf (by simp)) ⟨rfl, rfl⟩
    · simp only [List.length_append, List.length_singleton]; omega
  | release =>
    obtain ⟨t, ts, h1, rfl⟩ := release_inv h
    exact ⟨i1, i2, i3, i4, i5, i6, i7, i8, i9, i10⟩
  | done n =>
    obtain ⟨o, x, ws, h1, rfl⟩ := done_inv h
    exact ⟨i1, i2, i3, i4, i5, i6, i7, i8, i9, i10⟩
  | pop =>
    obtain ⟨e, es, h1, h2, hc⟩ := pop_inv h
    have hlt : ∀ o, s.cStart o < 2 ^ (w + 1) ∧ (popBase w s e es).cFin o < 2 ^ (w + 1) := by
      intro o
      refine ⟨(i5 o).1, ?_⟩
      simp only [popBase]
      split
      · simp only [upd]
        split
        · exact Nat.mod_lt _ (Nat.two_pow_pos _)
        · exact (i5 o).2
      · exact (i5 o).2
    have hfin : ∀ o, (s.cFin o + (outN s o + finN s o)) % 2 ^ (w + 1) = ((popBase w s e es).cFin o + (outN s o + es.countP fun e => e.fin && e.op == o)) % 2 ^ (w + 1) := by
      intro o
      rw [finN_cons h1 o]
      simp only [popBase]
      by_cases hq : e.fin = true ∧ e.op = o
      · obtain ⟨q1, rfl⟩ := hq
        rw [if_pos ⟨q1, rfl⟩, if_pos q1]
        simp only [upd, if_true, Nat.mod_add_mod]
        congr 1; omega
      · rw [if_neg hq, Nat.add_zero]
        by_cases q1 : e.fin = true
        · rw [if_pos q1]
          simp only [upd]
          rw [if_neg (fun z => hq ⟨q1, z.symm⟩)]
        · rw [if_neg q1]
    have hcov : ∀ a f b, es = a ++ f :: b → Cover s (f :: b) f.op := fun a f b hes => i9 (e :: a) f b (by rw [h1, hes]; rfl)
    have hlen : es.length ≤ depth := by rw [h1] at i10; simp only [List.length_cons] at i10; omega
    rcases hc with ⟨he, rfl⟩ | ⟨he, rfl⟩
    · obtain ⟨hf, hb, hno, hns⟩ := emit_last hw ti ii h1 he
      have hnr : s.opReg ≠ some e.op := fun z => busy_not_reg ii z hb
      have hcount : s.busy.count e.op = 1 := by
        have h5 := le1 (i1 e.op)
        have h6 := count_mem.1 hb
        simp only [opN] at h5
        omega
      have hmem : ∀ o, o ∈ s.busy.erase e.op ↔ o ∈ s.busy ∧ o ≠ e.op := by
        intro o
        rw [count_mem, count_mem, count_erase']
        by_cases hq : o = e.op
        · subst hq; rw [if_pos rfl, hcount]; simp
        · rw [if_neg hq]; simp [hq]
      have hlive : ∀ o, (o ∈ s.busy.erase e.op ∨ (s.cur.isSome = true ∧ s.opReg = some o ∧ s.fresh o = false)) ↔ Live s o ∧ o ≠ e.op := by
        intro o
        rw [hmem]
        unfold Live
        constructor
        · rintro (⟨q1, q2⟩ | q)
          · exact ⟨Or.inl q1, q2⟩
          · exact ⟨Or.inr q, by rintro rfl; exact hnr q.2.1⟩
        · rintro ⟨q | q, q2⟩
          · exact Or.inl ⟨q, q2⟩
          · exact Or.inr q
      refine ⟨?_, i2, ?_, ?_, hlt, ?_, ?_, ?_, hcov, hlen⟩
      · intro o
        have := i1 o
        have h6 := count_mem.1 hb
        simp only [opN] at this
        show (if s.opReg = some o then 1 else 0) + (s.opFree ++ [e.op]).count o + (s.busy.erase e.op).count o = _
        rw [List.count_append, count_erase', count_single]
        by_cases hq : o = e.op
        · rw [if_pos hq]; rw [hq] at this ⊢; omega
        · rw [if_neg hq]; omega
      · intro t ht; exact (hlive _).2 ⟨i3 t ht, hno t ht⟩
      · intro f hf; exact (hlive _).2 ⟨i4 f (by rw [h1]; exact List.mem_cons_of_mem _ hf), hns f hf⟩
      · intro o ho
        have := i6 o ((hlive o).1 ho).1
        rw [hfin] at this
        exact this
      · intro o ho
        have := (hlive o).1 ho
        have h8 := i7 o this.1
        show s.commit o = true ↔ o ∈ s.busy.erase e.op
        rw [h8, hmem]; simp [this.2]
      · intro o ho
        obtain ⟨q1, q2⟩ := (hmem o).1 ho
        have := i8 o q1
        rw [finN_cons h1 o, if_neg (fun z => q2 z.2.symm)] at this
        exact this
    · refine ⟨i1, i2, i3, ?_, hlt, ?_, i7, ?_, hcov, hlen⟩
      · intro f hf; exact i4 f (by rw [h1]; exact List.mem_cons_of_mem _ hf)
      · intro o ho
        have := i6 o ho
        rw [hfin] at this
        exact this
      · intro o ho
        have h7 := i8 o ho
        have h8 := finN_cons h1 o
        by_cases hq : e.fin = true ∧ e.op = o
        · obtain ⟨q1, rfl⟩ := hq
          have h9 : ¬ (outN s e.op + finN s e.op = 1) := by
            intro h9
            have := (emit_iff hw ti ii h1).2 ⟨q1, ho, h9⟩
            rw [he] at this; exact absurd this (by simp)
          rw [if_pos ⟨q1, rfl⟩] at h8
          show 0 < outN s e.op + es.countP fun f => f.fin && f.op == e.op
          omega
        · rw [if_neg hq] at h8
          show 0 < outN s o + es.countP fun f => f.fin && f.op == o
          omega

end

end Corundum.DmaRd
