import Verif.Proof.DmaRdNum
import Verif.Props.DmaRdCpl

namespace Corundum.DmaRd

section
variable {Byte : Type} {w ow : Nat} {c : Cfg} {p : Ram} {host : Nat → Byte} {s s' : St Byte}

def Ram.seg (p : Ram) (y : Nat) : Nat := y % p.lanes / p.segBytes

/-- the write sets byte `y` of RAM `s` -/
def Hits (p : Ram) (x : Write Byte) (s y : Nat) : Prop :=
  x.sel = s ∧ x.mask (p.seg y) = true ∧ x.be (y % p.lanes) = true ∧ x.addr (p.seg y) = y / p.lanes

instance (x : Write Byte) (s y : Nat) : Decidable (Hits p x s y) := inferInstanceAs (Decidable (_ ∧ _))

def val (p : Ram) : List (Write Byte) → Nat → Nat → Byte → Byte
  | [], _, _, v => v
  | x :: ws, s, y, v => val p ws s y (if Hits p x s y then x.data (y % p.lanes) else v)

theorem val_append (ws vs : List (Write Byte)) (s y : Nat) (v : Byte) : val p (ws ++ vs) s y v = val p vs s y (val p ws s y v) := by
  induction ws generalizing v with
  | nil => rfl
  | cons x ws ih => exact ih _

theorem apply_eq (x : Write Byte) (mem : Nat → Nat → Byte) (s y : Nat) : x.apply p mem s y = if Hits p x s y then x.data (y % p.lanes) else mem s y := rfl

theorem applyAll_eq (ws : List (Write Byte)) (mem : Nat → Nat → Byte) (s y : Nat) : applyAll p ws mem s y = val p ws s y (mem s y) := by
  induction ws generalizing mem with
  | nil => rfl
  | cons x ws ih =>
    show applyAll p ws (x.apply p mem) s y = _
    rw [ih, apply_eq]; rfl

theorem val_miss (ws : List (Write Byte)) (s y : Nat) (v : Byte) (h : ∀ x ∈ ws, ¬ Hits p x s y) : val p ws s y v = v := by
  induction ws generalizing v with
  | nil => rfl
  | cons x ws ih =>
    show val p ws s y _ = v
    rw [if_neg (h x (by simp))]
    exact ih v fun z hz => h z (List.mem_cons_of_mem _ hz)

theorem val_hit (ws : List (Write Byte)) (s y : Nat) (v v' : Byte) (h : ∃ x ∈ ws, Hits p x s y) : val p ws s y v = val p ws s y v' := by
  induction ws generalizing v v' with
  | nil => obtain ⟨x, hx, _⟩ := h; exact absurd hx (by simp)
  | cons x ws ih =>
    show val p ws s y _ = val p ws s y _
    by_cases hx : Hits p x s y
    · rw [if_pos hx, if_pos hx]
    · rw [if_neg hx, if_neg hx]
      apply ih
      obtain ⟨z, hz, hq⟩ := h
      simp only [List.mem_cons] at hz
      rcases hz with rfl | hz
      · exact absurd hq hx
      · exact ⟨z, hz, hq⟩

/-- writes known to set a range only -/
theorem sets_hits {ws : List (Write Byte)} {sel a cnt : Nat} {D : Nat → Byte} (hb : ∃ u v : Byte, u ≠ v) (h : Sets p ws sel a cnt D) (x : Write Byte) (hx : x ∈ ws) (s y : Nat) (hy : y < 2 ^ p.aw)
    (hh : Hits p x s y) : s = sel ∧ ∃ k, k < cnt ∧ y = (a + k) % 2 ^ p.aw := by
  obtain ⟨u, v, huv⟩ := hb
  rcases h (fun _ _ => u) s y hy with ⟨h1, k, h2, h3, _⟩ | ⟨_, h2⟩
  · exact ⟨h1, k, h2, h3⟩
  rcases h (fun _ _ => v) s y hy with ⟨h1, k, h4, h3, _⟩ | ⟨_, h3⟩
  · exact ⟨h1, k, h4, h3⟩
  rw [applyAll_eq] at h2 h3
  exact absurd (h2.symm.trans ((val_hit ws s y u v ⟨x, hx, hh⟩).trans h3)) huv

def rxw (s : St Byte) : List (Write Byte) :=
  match s.rx with
  | some r => r.ws
  | none => []

/-- the RAM once all writes on the way are done -/
def view (p : Ram) (st : St Byte) (s y : Nat) : Byte := val p ((st.pend (p.seg y)).map Prod.snd ++ rxw st) s y (st.mem s y)

/-- the byte of host address `b` is in its place -/
def Right (p : Ram) (host : Nat → Byte) (s : St Byte) (d : Desc) (b : Nat) : Prop := view p s d.sel ((d.ram + (b - d.addr)) % 2 ^ p.aw) = host b

structure DataInv (c : Cfg) (p : Ram) (host : Nat → Byte) (s : St Byte) : Prop where
  pend : ∀ n, ∀ x ∈ s.pend n, ∀ z y, y < 2 ^ p.aw → Hits p x.2 z y → InBuf p (s.desc x.1) z y
  rx : ∀ r, s.rx = some r → ∀ x ∈ r.ws, ∀ z y, y < 2 ^ p.aw → Hits p x z y → InBuf p (s.desc r.op) z y
  data : ∀ t ∈ s.outs, ∀ b ∈ (s.ent t).r.bytes.take (s.prog t), Right p host s (s.desc (s.ent t).op) b
  all : ∀ o, Active s o → s.num o ∉ s.failed → ∀ r ∈ reqs c (s.desc o),
    (∃ sel rs, s.cur = some (sel, rs) ∧ s.opReg = some o ∧ r ∈ rs) ∨ (∃ t ∈ s.outs, (s.ent t).op = o ∧ (s.ent t).r = r) ∨ ∀ b ∈ r.bytes, Right p host s (s.desc o) b
  fin : ∀ r, s.rx = some r → r.fin = true → (s.ent r.tag).r.bytes.length ≤ s.prog r.tag

/-- the requests of a descriptor that fits -/
theorem req_info {d : Desc} (h : Fine c p d) {r : Req} (hr : r ∈ reqs c d) :
    r.zero = true ∧ r.bytes = [] ∨ r.zero = false ∧ ∃ off, off + r.bytes.length ≤ d.len ∧ r.bytes ≠ [] ∧ r.bytes = List.range' (d.addr + off) r.bytes.length ∧
      r.ramEnd = (d.ram + off + r.bytes.length) % 2 ^ p.aw := by
  unfold reqs at hr
  by_cases hl : d.len = 0
  · obtain ⟨t, h1, h2, _, _, h3, _⟩ := C72_zero_len c d.addr d.ram d.len (by have := h.given; rwa [hl] at this) h.lw
    rw [hl] at hr h1
    rw [h1] at hr
    simp only [Option.getD_some, List.mem_singleton] at hr
    subst hr
    exact Or.inl ⟨h3, h2⟩
  · obtain ⟨ts, h1, h2, h3, h4⟩ := C72_cover c d.addr d.ram d.len (d.len + 1) h.given h.nowrap h.page (by omega) (by omega)
    rw [h1] at hr
    simp only [Option.getD_some] at hr
    right
    refine ⟨(h3 r hr).2.2, ?_⟩
    obtain ⟨k, hk⟩ := List.getElem?_of_mem hr
    obtain ⟨q1, q2, q3⟩ := split_bytes h2 k r hk
    refine ⟨((ts.take k).flatMap Req.bytes).length, q2, (h3 r hr).1, q1, ?_⟩
    rw [h4 k r hk, q3, h.raw, Nat.add_assoc]

theorem req_cover {d : Desc} (h : Fine c p d) {k : Nat} (hk : k < d.len) : ∃ r ∈ reqs c d, d.addr + k ∈ r.bytes := by
  unfold reqs
  obtain ⟨ts, h1, h2, _⟩ := C72_cover c d.addr d.ram d.len (d.len + 1) h.given h.nowrap h.page (by omega) (by omega)
  rw [h1]
  have : d.addr + k ∈ ts.flatMap Req.bytes := by
    rw [h2, List.mem_range'_1]; omega
  obtain ⟨r, hr, hb⟩ := List.mem_flatMap.1 this
  exact ⟨r, hr, hb⟩

/-- a byte of a request is in the buffer -/
theorem req_byte {d : Desc} (h : Fine c p d) {r : Req} (hr : r ∈ reqs c d) {b : Nat} (hb : b ∈ r.bytes) : d.addr ≤ b ∧ b < d.addr + d.len := by
  rcases req_info h hr with ⟨_, h1⟩ | ⟨_, off, h1, _, h2, _⟩
  · rw [h1] at hb; exact absurd hb (by simp)
  · rw [h2, List.mem_range'_1] at hb; omega

theorem mod_lt_inj {a i j N : Nat} (hi : i < N) (hj : j < N) (h : (a + i) % N = (a + j) % N) : i = j := by
  have h1 : a + i ≡ a + j [MOD N] := h
  have h2 := Nat.ModEq.add_left_cancel' a h1
  have h3 : i % N = j % N := h2
  rwa [Nat.mod_eq_of_lt hi, Nat.mod_eq_of_lt hj] at h3

/-- what a completion does once all its writes are done -/
theorem cpl_sets (hp : p.Ok) {t : Nat} {hd : Hdr} {d : Nat → Byte} (ni : NumInv c p s) (ht : t ∈ s.outs) (hf : Fine c p (s.desc (s.ent t).op)) (hl : Legal c p host s (.cpl t hd d)) :
    (s.ent t).r.bytes = [] ∧ (∀ x ∈ rxWrites p (s.ent t) hd d, ∀ z y, ¬ Hits p x z y) ∨
    ∃ off lo hi, off + hi ≤ (s.desc (s.ent t).op).len ∧ lo = s.prog t ∧ lo < hi ∧ hi ≤ (s.ent t).r.bytes.length ∧ opCount hd = hi - lo ∧ finalCpl hd = decide (hi = (s.ent t).r.bytes.length) ∧
      (s.ent t).r.bytes = List.range' ((s.desc (s.ent t).op).addr + off) (s.ent t).r.bytes.length ∧
      Sets p (rxWrites p (s.ent t) hd d) (s.desc (s.ent t).op).sel ((s.desc (s.ent t).op).ram + off + lo) (hi - lo) (fun k => host ((s.desc (s.ent t).op).addr + off + lo + k)) := by
  obtain ⟨M, z⟩ := sizes p hp
  obtain ⟨_, hl2⟩ := hl
  obtain ⟨e1, e2⟩ := ni.ent t ht
  rcases req_info hf e2 with ⟨h1, h2⟩ | ⟨h1, off, h2, h3, h4, h5⟩
  · left
    refine ⟨h2, ?_⟩
    rw [if_pos h1] at hl2
    have hbus : 4 ≤ p.bus := by obtain ⟨q, h, hq⟩ := z.four; omega
    have hla : hd.la % 4 < 4 := Nat.mod_lt _ (by omega)
    have hfc : finalCpl hd = true := by unfold finalCpl; rw [hl2.1, hl2.2]; simp; omega
    have hlf : lastFirst p hd = true := by
      unfold lastFirst opCount; rw [hfc, hl2.2]; simp; omega
    intro x hx
    unfold rxWrites writes beats at hx
    rw [if_pos h1, hlf] at hx
    simp only [if_true, List.map_cons, List.map_nil, List.take_succ_cons, List.take_zero, List.drop_succ_cons, List.drop_zero, List.append_nil, List.mem_singleton] at hx
    intro z y hh
    subst hx
    exact absurd hh.2.1 (by simp [Write.blank])
  · right
    rw [if_neg (by simp [h1])] at hl2
    obtain ⟨hi, hpart, rfl, rfl⟩ := hl2
    have hhead : (s.ent t).r.bytes.headD 0 = (s.desc (s.ent t).op).addr + off := by
      rw [h4]
      cases hn : (s.ent t).r.bytes.length with
      | zero => exact absurd (List.length_eq_zero_iff.1 hn) h3
      | succ m => rfl
    rw [hhead] at hpart ⊢
    obtain ⟨q1, q2⟩ := answer_final hpart
    refine ⟨off, s.prog t, hi, ?_, rfl, hpart.lt, hpart.le, q2, q1, h4, ?_⟩
    · have := hpart.le; omega
    · have := answer_sets z host ((s.desc (s.ent t).op).addr + off) (s.ent t).r.bytes.length (s.prog t) hi (s.ent t).r.ramEnd (s.ent t).sel hpart
      rw [h5, start_mod (Nat.two_pow_pos _) (by have := hpart.lt; have := hpart.le; omega)] at this
      have hw : rxWrites p (s.ent t) (answer ((s.desc (s.ent t).op).addr + off) (s.ent t).r.bytes.length (s.prog t) hi) (answerData host ((s.desc (s.ent t).op).addr + off) (s.prog t)) =
          writes p (s.ent t).r.ramEnd (s.ent t).sel (answer ((s.desc (s.ent t).op).addr + off) (s.ent t).r.bytes.length (s.prog t) hi) (answerData host ((s.desc (s.ent t).op).addr + off) (s.prog t)) := by
        unfold rxWrites; rw [if_neg (by simp [h1])]
      rw [hw, h5, ← e1]
      exact sets_mod this

theorem data_inv_init (mem : Nat → Nat → Byte) : DataInv c p host (init w ow mem) := by
  refine ⟨?_, ?_, ?_, ?_, ?_⟩
  · intro n x hx; exact absurd hx (by simp [init])
  · intro r hr; exact absurd hr (by simp [init])
  · intro t ht; exact absurd ht (by simp [init])
  · intro o h; exact absurd h (by simp [Active, init])
  · intro r hr; exact absurd hr (by simp [init])

theorem fine_of (ni : NumInv c p s) {o : Nat} (h : Active s o) : Fine c p (s.desc o) :=
  ni.fine _ (List.mem_of_getElem? (ni.num o h).1)

theorem right_congr {d : Desc} {b : Nat} (h : ∀ y, view p s' d.sel y = view p s d.sel y) : Right p host s' d b ↔ Right p host s d b := by
  unfold Right; rw [h]

theorem pend_active (oi : OpInv w ow c s) (wi : WrInv s) {n : Nat} {x : Nat × Write Byte} (h : x ∈ s.pend n) : Active s x.1 := by
  have a1 : x.1 ∈ (s.pend n).map Prod.fst := List.mem_map.2 ⟨x, h, rfl⟩
  rw [← wi.pend n] at a1
  obtain ⟨f, hf, hq⟩ := List.mem_map.1 a1
  rw [← hq]
  exact (oi.liveStat f (List.mem_filter.1 (List.mem_of_mem_drop hf)).1).active

theorem seg_lt (hp : p.Ok) (y : Nat) : p.seg y < p.segs := by
  obtain ⟨M, z⟩ := sizes p hp
  unfold Ram.seg
  rw [Nat.div_lt_iff_lt_mul z.seg]
  apply Nat.mod_lt
  have h1 := z.lanes
  obtain ⟨q, h2, hq⟩ := z.four
  show 0 < p.lanes
  omega

theorem data_inv_step (hw : 5 ≤ w) (hp : p.Ok) (hb : ∃ u v : Byte, u ≠ v) (e : Ev Byte) (ti : TagInv w s) (oi : OpInv w ow c s) (ni : NumInv c p s) (wi : WrInv s) (i : DataInv c p host s)
    (hl : Legal c p host s e) (h : step w c p s e = some s') : DataInv c p host s' := by
  obtain ⟨i1, i2, i3, i4, i5⟩ := i
  cases e with
  | accept d =>
    obtain ⟨o, h1, h2, rfl⟩ := accept_inv h
    have hnb := busy_not_reg oi h2
    have hna : ∀ o', Active s o' ↔ o' ∈ s.busy := by
      intro o'; simp [Active, h1]
    have hne : ∀ o', Active s o' → o' ≠ o := by
      rintro o' q rfl; exact hnb ((hna _).1 q)
    refine ⟨?_, ?_, ?_, ?_, i5⟩
    · intro n x hx
      simp only [upd, if_neg (hne _ (pend_active oi wi hx))]
      exact i1 n x hx
    · intro r hr
      obtain ⟨_, q1, q2⟩ := ti.rx r hr
      have := hne _ (oi.liveOut _ q1).active
      rw [← q2] at this
      simp only [upd, if_neg this]
      exact i2 r hr
    · intro t ht
      simp only [upd, if_neg (hne _ (oi.liveOut t ht).active)]
      exact i3 t ht
    · intro o' ha hf r hr
      by_cases hq : o' = o
      · subst hq
        left
        refine ⟨_, _, rfl, h2, ?_⟩
        simpa [upd] using hr
      · have ha' : Active s o' := by
          rcases ha with q | ⟨_, q⟩
          · exact Or.inl q
          · have : o = o' := Option.some.inj (h2.symm.trans q)
            exact absurd this.symm hq
        simp only [upd, if_neg hq] at hf hr ⊢
        rcases i4 o' ha' hf r hr with ⟨_, _, q, _⟩ | q | q
        · rw [h1] at q; exact absurd q (by simp)
        · exact Or.inr (Or.inl q)
        · exact Or.inr (Or.inr q)
  | issue =>
    obtain ⟨sel, r, rs, o, t, h1, h2, h3, rfl⟩ := issue_inv h
    have hno := tag_not_out ti h3
    have hold : ∀ u ∈ s.outs, u ≠ t := by
      rintro u hu rfl; exact hno hu
    refine ⟨i1, i2, ?_, ?_, ?_⟩
    · intro u hu
      simp only [List.mem_cons] at hu
      by_cases hq : u = t
      · subst hq; simp [upd]
      · simp only [upd, if_neg hq]
        exact i3 u (hu.resolve_left hq)
    · intro o' ha hf r' hr
      have ha' : Active s o' := by
        dsimp only [Active] at ha
        by_cases hr : rs.isEmpty = true
        · simp only [hr, if_true, List.mem_cons] at ha
          rcases ha with (q | q) | ⟨q, _⟩
          · right; rw [q]; exact ⟨by rw [h1]; rfl, h2⟩
          · left; exact q
          · exact absurd q (by simp)
        · simp only [if_neg hr] at ha
          rcases ha with q | ⟨_, q⟩
          · left; exact q
          · right; exact ⟨by rw [h1]; rfl, by rw [h2]; exact q⟩
      rcases i4 o' ha' hf r' hr with ⟨sel', rs', q1, q2, q3⟩ | ⟨u, hu, q⟩ | q
      · rw [h1] at q1
        simp only [Option.some.injEq, Prod.mk.injEq] at q1
        obtain ⟨rfl, rfl⟩ := q1
        have hoo : o = o' := Option.some.inj (h2.symm.trans q2)
        subst hoo
        simp only [List.mem_cons] at q3
        rcases q3 with q3 | q3
        · right; left; exact ⟨t, by simp, by simp [upd], by simp [upd, q3]⟩
        · left
          have hr : ¬ rs.isEmpty = true := by
            intro z
            rw [List.isEmpty_iff] at z
            rw [z] at q3; exact absurd q3 (by simp)
          refine ⟨sel, rs, ?_, ?_, q3⟩
          · exact if_neg hr
          · exact if_neg hr
      · right; left
        refine ⟨u, by simp [hu], ?_⟩
        simp only [upd, if_neg (hold u hu)]; exact q
      · exact Or.inr (Or.inr q)
    · intro x hx hfin
      have q1 := (ti.rx x hx).2.1
      simp only [upd, if_neg (hold _ q1)]
      exact i5 x hx hfin
  | opTag =>
    obtain ⟨o, os, h1, h2, rfl⟩ := opTag_inv h
    have hcn : s.cur = none := by
      rcases hc : s.cur with _ | ⟨sel, rs⟩
      · rfl
      · obtain ⟨_, o2, q, _⟩ := oi.cur _ _ hc
        rw [h1] at q; exact absurd q (by simp)
    have hac : ∀ o', Active { s with opReg := some o, opFree := os } o' → Active s o' := by
      intro o'
      simp only [Active, hcn]; simp
    refine ⟨i1, i2, i3, ?_, i5⟩
    intro o' ha hf r hr
    rcases i4 o' (hac o' ha) hf r hr with ⟨_, _, q, _⟩ | q | q
    · rw [hcn] at q; exact absurd q (by simp)
    · exact Or.inr (Or.inl q)
    · exact Or.inr (Or.inr q)
  | tag t =>
    obtain ⟨h1, h2, rfl⟩ := tag_inv h
    exact ⟨i1, i2, i3, i4, i5⟩
  | cpl t hd d =>
    obtain ⟨h1, h2, rfl⟩ := cpl_inv h
    have ht : t ∈ s.outs := hl.1
    have hat := (oi.liveOut t ht).active
    have hf := fine_of ni hat
    have hview : ∀ z y, view p { s with rx := some ⟨t, (s.ent t).op, rxWrites p (s.ent t) hd d, finalCpl hd⟩, prog := upd s.prog t (s.prog t + opCount hd) } z y =
        val p (rxWrites p (s.ent t) hd d) z y (view p s z y) := by
      intro z y
      simp only [view, rxw, h1, List.append_nil]
      rw [val_append]
    rcases cpl_sets hp ni ht hf hl with ⟨k1, k2⟩ | ⟨off, lo, hi, k1, k2, k3, k4, k5, k6, k7, k8⟩
    · have hv2 : ∀ (z y : Nat), view p { s with rx := some ⟨t, (s.ent t).op, rxWrites p (s.ent t) hd d, finalCpl hd⟩, prog := upd s.prog t (s.prog t + opCount hd) } z y = view p s z y := by
        intro z y
        rw [hview, val_miss _ _ _ _ (fun x hx => k2 x hx z y)]
      refine ⟨i1, ?_, ?_, ?_, ?_⟩
      · intro r hr x hx z y hy hh
        simp only [Option.some.injEq] at hr
        subst hr
        exact absurd hh (k2 x hx z y)
      · intro u hu b hb
        rw [right_congr (hv2 _)]
        by_cases hq : u = t
        · subst hq
          dsimp only at hb
          rw [k1] at hb; exact absurd hb (by simp)
        · simp only [upd, if_neg hq] at hb
          exact i3 u hu b hb
      · intro o ha hfl r hr
        rcases i4 o ha hfl r hr with q | q | q
        · exact Or.inl q
        · exact Or.inr (Or.inl q)
        · exact Or.inr (Or.inr fun b hb => (right_congr (hv2 _)).2 (q b hb))
      · intro r hr hfin
        simp only [Option.some.injEq] at hr
        subst hr
        simp [k1]
    · have hsz := hf.size
      have keep : ∀ o b, Active s o → (s.desc o).addr ≤ b → b < (s.desc o).addr + (s.desc o).len → Right p host s (s.desc o) b →
          Right p host { s with rx := some ⟨t, (s.ent t).op, rxWrites p (s.ent t) hd d, finalCpl hd⟩, prog := upd s.prog t (s.prog t + opCount hd) } (s.desc o) b := by
        intro o b ha hb1 hb2 hr
        unfold Right at hr ⊢
        rw [hview]
        have hy : ((s.desc o).ram + (b - (s.desc o).addr)) % 2 ^ p.aw < 2 ^ p.aw := Nat.mod_lt _ (Nat.two_pow_pos _)
        have := k8 (view p s) (s.desc o).sel _ hy
        rw [applyAll_eq] at this
        rcases this with ⟨m1, k, m2, m3, m4⟩ | ⟨_, m2⟩
        · by_cases hq : o = (s.ent t).op
          · rw [m4]
            subst hq
            show host ((s.desc (s.ent t).op).addr + off + lo + k) = host b
            congr 1
            have hlen := (fine_of ni ha).size
            have : (s.desc (s.ent t).op).ram + off + lo + k = (s.desc (s.ent t).op).ram + (off + lo + k) := by omega
            rw [this] at m3
            have := mod_lt_inj (by omega) (by omega) m3
            omega
          · exfalso
            apply ni.apart o _ ha hat hq (s.desc o).sel _ ⟨rfl, b - (s.desc o).addr, by omega, rfl⟩
            refine ⟨m1, off + lo + k, by omega, ?_⟩
            rw [m3]
            congr 1; omega
        · rw [m2]; exact hr
      refine ⟨i1, ?_, ?_, ?_, ?_⟩
      · intro r hr x hx z y hy hh
        simp only [Option.some.injEq] at hr
        subst hr
        obtain ⟨m1, k, m2, m3⟩ := sets_hits hb k8 x hx z y hy hh
        refine ⟨m1, off + lo + k, (by show off + lo + k < (s.desc (s.ent t).op).len; omega), ?_⟩
        rw [m3]
        show ((s.desc (s.ent t).op).ram + off + lo + k) % _ = ((s.desc (s.ent t).op).ram + (off + lo + k)) % _
        congr 1; omega
      · intro u hu b hb
        by_cases hq : u = t
        · subst hq
          simp only [upd, if_true] at hb
          rw [k5, ← k2, show lo + (hi - lo) = hi by omega] at hb
          rw [k7] at hb
          have hbt : b ∈ List.range' ((s.desc (s.ent u).op).addr + off) hi := by
            have hle : hi ≤ (s.ent u).r.bytes.length := k4
            rw [show (s.ent u).r.bytes.length = hi + ((s.ent u).r.bytes.length - hi) by omega, ← List.range'_append_1, List.take_append_of_le_length (by simp),
              List.take_of_length_le (by simp)] at hb
            exact hb
          rw [List.mem_range'_1] at hbt
          by_cases hlo : b < (s.desc (s.ent u).op).addr + off + lo
          · apply keep _ b hat (by omega) (by omega)
            apply i3 u hu
            rw [← k2, k7, show (s.ent u).r.bytes.length = lo + ((s.ent u).r.bytes.length - lo) by omega, ← List.range'_append_1, List.take_append_of_le_length (by simp),
              List.take_of_length_le (by simp), List.mem_range'_1]
            omega
          · unfold Right
            rw [hview]
            have hy : ((s.desc (s.ent u).op).ram + (b - (s.desc (s.ent u).op).addr)) % 2 ^ p.aw < 2 ^ p.aw := Nat.mod_lt _ (Nat.two_pow_pos _)
            have := k8 (view p s) (s.desc (s.ent u).op).sel _ hy
            rw [applyAll_eq] at this
            rcases this with ⟨m1, k, m2, m3, m4⟩ | ⟨m1, _⟩
            · rw [m4]
              show host ((s.desc (s.ent u).op).addr + off + lo + k) = host b
              congr 1
              have : (s.desc (s.ent u).op).ram + off + lo + k = (s.desc (s.ent u).op).ram + (off + lo + k) := by omega
              rw [this] at m3
              have := mod_lt_inj (by omega) (by omega) m3
              omega
            · exfalso
              apply m1 rfl (b - ((s.desc (s.ent u).op).addr + off + lo)) (by omega)
              congr 1; omega
        · simp only [upd, if_neg hq] at hb
          have hau := (oi.liveOut u hu).active
          have hbb := req_byte (fine_of ni hau) (ni.ent u hu).2 (List.mem_of_mem_take hb)
          exact keep _ b hau hbb.1 hbb.2 (i3 u hu b hb)
      · intro o ha hfl r hr
        rcases i4 o ha hfl r hr with q | q | q
        · exact Or.inl q
        · exact Or.inr (Or.inl q)
        · refine Or.inr (Or.inr fun b hb => ?_)
          have hbb := req_byte (fine_of ni ha) hr hb
          exact keep o b ha hbb.1 hbb.2 (q b hb)
      · intro r hr hfin
        simp only [Option.some.injEq] at hr
        subst hr
        dsimp only at hfin ⊢
        rw [k6] at hfin
        have : hi = (s.ent t).r.bytes.length := by simpa using hfin
        simp only [upd, if_true]
        rw [k5, ← k2]
        omega
  | beat =>
    obtain ⟨t, o, x, ws, fin, h1, h2, rfl⟩ := beat_inv h
    obtain ⟨_, a2, a3⟩ := ti.rx _ h1
    dsimp only at a2 a3
    have hat := (oi.liveOut t a2).active
    have hsub : ∀ u, u ∈ (if fin && ws.isEmpty then s.outs.erase t else s.outs) → u ∈ s.outs := by
      intro u hu
      split at hu
      · exact List.mem_of_mem_erase hu
      · exact hu
    have hview : ∀ z y, view p { s with rx := if ws.isEmpty then none else some ⟨t, o, ws, fin⟩, stat := s.stat ++ [⟨o, (List.range p.segs).filter x.mask, fin && ws.isEmpty, 0⟩], pend := fun n => if n < p.segs ∧ x.mask n = true then s.pend n ++ [(o, x)] else s.pend n, rel := if fin && ws.isEmpty then s.rel ++ [t] else s.rel, outs := if fin && ws.isEmpty then s.outs.erase t else s.outs } z y = view p s z y := by
      intro z y
      have hrx : rxw ({ s with rx := if ws.isEmpty then none else some ⟨t, o, ws, fin⟩, stat := s.stat ++ [⟨o, (List.range p.segs).filter x.mask, fin && ws.isEmpty, 0⟩], pend := fun n => if n < p.segs ∧ x.mask n = true then s.pend n ++ [(o, x)] else s.pend n, rel := if fin && ws.isEmpty then s.rel ++ [t] else s.rel, outs := if fin && ws.isEmpty then s.outs.erase t else s.outs } : St Byte) = ws := by
        simp only [rxw]
        cases ws with
        | nil => rfl
        | cons a b => rfl
      unfold view
      rw [hrx]
      have hrx2 : rxw s = x :: ws := by simp only [rxw, h1]
      rw [hrx2]
      dsimp only
      have hsl := seg_lt hp y
      by_cases hm : x.mask (p.seg y) = true
      · rw [if_pos ⟨hsl, hm⟩]
        simp
      · rw [if_neg (fun q => hm q.2), val_append, val_append]
        show _ = val p ws z y (if Hits p x z y then _ else _)
        rw [if_neg (fun q => hm q.2.1)]
    refine ⟨?_, ?_, ?_, ?_, ?_⟩
    · intro n v hv z y hy hh
      dsimp only at hv
      split at hv
      · simp only [List.mem_append, List.mem_singleton] at hv
        rcases hv with hv | rfl
        · exact i1 n v hv z y hy hh
        · exact i2 _ h1 x (by simp) z y hy hh
      · exact i1 n v hv z y hy hh
    · intro r hr v hv z y hy hh
      dsimp only at hr
      split at hr
      · exact absurd hr (by simp)
      · simp only [Option.some.injEq] at hr
        subst hr
        exact i2 _ h1 v (by simp only [List.mem_cons]; right; exact hv) z y hy hh
    · intro u hu b hb
      exact (right_congr (hview _)).2 (i3 u (hsub u hu) b hb)
    · intro o' ha hfl r hr
      rcases i4 o' ha hfl r hr with q | ⟨u, hu, q1, q2⟩ | q
      · exact Or.inl q
      · by_cases hgone : (fin && ws.isEmpty) = true ∧ u = t
        · obtain ⟨hfw, rfl⟩ := hgone
          right; right
          intro b hb
          rw [right_congr (hview _)]
          subst q1 q2
          apply i3 u hu
          have := i5 _ h1 (by simp only [Bool.and_eq_true] at hfw; exact hfw.1)
          dsimp only at this
          rw [List.take_of_length_le this]
          exact hb
        · right; left
          refine ⟨u, ?_, q1, q2⟩
          dsimp only
          split
          · rename_i hfw
            exact (List.mem_erase_of_ne (fun z => hgone ⟨hfw, z⟩)).2 hu
          · exact hu
      · exact Or.inr (Or.inr fun b hb => (right_congr (hview _)).2 (q b hb))
    · intro r hr hfin
      dsimp only at hr
      split at hr
      · exact absurd hr (by simp)
      · simp only [Option.some.injEq] at hr
        subst hr
        exact i5 ⟨t, o, x :: ws, fin⟩ h1 hfin
  | err t code =>
    obtain ⟨h1, h2, h3, h4, rfl⟩ := err_inv h
    have a2 : t ∈ s.outs := hl
    refine ⟨i1, i2, fun u hu => i3 u (List.mem_of_mem_erase hu), ?_, i5⟩
    intro o ha hfl r hr
    simp only [List.mem_append, List.mem_singleton, not_or, ni.own t a2] at hfl
    rcases i4 o ha hfl.1 r hr with q | ⟨u, hu, q1, q2⟩ | q
    · exact Or.inl q
    · right; left
      refine ⟨u, ?_, q1, q2⟩
      apply (List.mem_erase_of_ne _).2 hu
      rintro rfl
      exact hfl.2 (by rw [q1])
    · exact Or.inr (Or.inr q)
  | release =>
    obtain ⟨t, ts, h1, rfl⟩ := release_inv h
    exact ⟨i1, i2, i3, i4, i5⟩
  | done n =>
    obtain ⟨o, x, ws, h1, rfl⟩ := done_inv h
    have hview : ∀ z y, view p { s with mem := x.applySeg p n s.mem, pend := upd s.pend n ws, dn := upd s.dn n (if s.dn n < depth then s.dn n + 1 else s.dn n) } z y = view p s z y := by
      intro z y
      have hrx : rxw ({ s with mem := x.applySeg p n s.mem, pend := upd s.pend n ws, dn := upd s.dn n (if s.dn n < depth then s.dn n + 1 else s.dn n) } : St Byte) = rxw s := rfl
      unfold view
      rw [hrx]
      simp only [upd]
      by_cases hn : p.seg y = n
      · rw [if_pos hn]
        have : x.applySeg p n s.mem z y = if Hits p x z y then x.data (y % p.lanes) else s.mem z y := by
          unfold Write.applySeg
          rw [if_pos (show y % p.lanes / p.segBytes = n from hn), apply_eq]
        rw [this, hn, h1]
        rfl
      · rw [if_neg hn]
        have : x.applySeg p n s.mem z y = s.mem z y := by
          unfold Write.applySeg
          rw [if_neg (show ¬ y % p.lanes / p.segBytes = n from hn)]
        rw [this]
    refine ⟨?_, i2, ?_, ?_, i5⟩
    · intro m v hv
      simp only [upd] at hv
      split at hv
      · rename_i hm
        exact i1 n v (by rw [h1]; exact List.mem_cons_of_mem _ hv)
      · exact i1 m v hv
    · intro u hu b hb; exact (right_congr (hview _)).2 (i3 u hu b hb)
    · intro o' ha hfl r hr
      rcases i4 o' ha hfl r hr with q | q | q
      · exact Or.inl q
      · exact Or.inr (Or.inl q)
      · exact Or.inr (Or.inr fun b hb => (right_congr (hview _)).2 (q b hb))
  | pop =>
    obtain ⟨e, es, h1, h2, ⟨he, rfl⟩ | ⟨he, rfl⟩⟩ := pop_inv h
    · refine ⟨i1, i2, i3, ?_, i5⟩
      intro o ha
      apply i4 o
      rcases ha with q | q
      · exact Or.inl (List.mem_of_mem_erase q)
      · exact Or.inr q
    · exact ⟨i1, i2, i3, i4, i5⟩

/-- what is in the RAM when the status of an operation is put out -/
theorem emit_data (hw : 5 ≤ w) (hp : p.Ok) (ti : TagInv w s) (oi : OpInv w ow c s) (ni : NumInv c p s) (wi : WrInv s) (i : DataInv c p host s)
    {e : Stat} {es : List Stat} (h1 : s.stat = e :: es) (h2 : ∀ n ∈ e.segs, 0 < s.dn n) (he : emits s e = true) (hfl : s.num e.op ∉ s.failed) (k : Nat) (hk : k < (s.desc e.op).len) :
    s.mem (s.desc e.op).sel (((s.desc e.op).ram + k) % 2 ^ p.aw) = host ((s.desc e.op).addr + k) := by
  obtain ⟨hf, hb, hno, hns⟩ := emit_last hw ti oi h1 he
  have ha : Active s e.op := Or.inl hb
  have hfine := fine_of ni ha
  obtain ⟨r, hr, hbr⟩ := req_cover hfine hk
  have hright : Right p host s (s.desc e.op) ((s.desc e.op).addr + k) := by
    rcases i.all e.op ha hfl r hr with ⟨_, _, _, q, _⟩ | ⟨t, ht, q, _⟩ | q
    · exact absurd hb (busy_not_reg oi q)
    · exact absurd q (hno t ht)
    · exact q _ hbr
  unfold Right at hright
  rw [Nat.add_sub_cancel_left] at hright
  rw [← hright]
  have hy : ((s.desc e.op).ram + k) % 2 ^ p.aw < 2 ^ p.aw := Nat.mod_lt _ (Nat.two_pow_pos _)
  have hin : InBuf p (s.desc e.op) (s.desc e.op).sel (((s.desc e.op).ram + k) % 2 ^ p.aw) := ⟨rfl, k, hk, rfl⟩
  unfold view
  rw [val_miss]
  intro x hx hh
  simp only [List.mem_append, List.mem_map] at hx
  rcases hx with ⟨v, hv, rfl⟩ | hx
  · have hne := no_pending wi h1 h2 hns _ v hv
    exact ni.apart _ _ ha (pend_active oi wi hv) (fun z => hne z.symm) _ _ hin (i.pend _ v hv _ _ hy hh)
  · unfold rxw at hx
    split at hx
    · rename_i r hr
      obtain ⟨_, q1, q2⟩ := ti.rx r hr
      have hne := hno _ q1
      rw [← q2] at hne
      have har := (oi.liveOut _ q1).active
      rw [← q2] at har
      exact ni.apart _ _ ha har (fun z => hne z.symm) _ _ hin (i.rx r hr x hx _ _ hy hh)
    · exact absurd hx (by simp)

end

end Corundum.DmaRd
