import Verif.Proof.DmaWrInv

/-! Invariants of the DMA write engine: the data. -/
namespace Corundum.DmaWr

section
variable {Byte : Type} {c : Par} {M : Nat}

/-- an answer of segment `n` -/
def GoodResp (c : Cfg) (s : St Byte) (n : Nat) (p : (Job Byte × Rd) × (Nat → Byte)) : Prop :=
  ∀ x, look s p.1.1.own = some x → x.1.imm = none → p.1.2.sel = x.1.sel → ∀ i, i < x.1.len → (x.1.ram + i) % 2 ^ c.ram.aw / c.ram.lanes = p.1.2.row c n →
    (x.1.ram + i) % 2 ^ c.ram.aw % c.ram.lanes / c.ram.segBytes = n → p.2 ((x.1.ram + i) % 2 ^ c.ram.aw % c.ram.lanes % c.ram.segBytes) = x.2 x.1.sel ((x.1.ram + i) % 2 ^ c.ram.aw)

/-- the data of beat `k` of an entry -/
def GoodBeat (c : Cfg) (s : St Byte) (j : Job Byte) (k : Nat) (f : Nat → Byte) : Prop :=
  ∀ x, look s j.own = some x → x.1.imm = none → ∀ q, q < j.e.len → j.e.addr - x.1.addr + q < x.1.len → (q + j.e.addr % 4) / c.ram.bus = k →
    f ((j.e.ram + q) % c.ram.lanes) = src c x (j.e.addr - x.1.addr + q)

structure Dat (c : Par) (s : St Byte) : Prop where
  mem : ∀ i x, s.stat.length ≤ i → look s i = some x → Same c x.1 s.mem x.2
  resp : ∀ n, n < c.ram.segs → ∀ p ∈ s.resp n, GoodResp c.toCfg s n p

theorem dat_init (c : Par) (mem : Nat → Nat → Byte) : Dat c (init mem) := by
  constructor
  · intro i x _ hx; simp [look, init] at hx
  · intro n _ p hp; simp [init] at hp

theorem mask_mem {s : St Byte} (I : Inv c s) {m : Job Byte × Rd} (hm : m ∈ s.masks) : ∃ k, s.gtf ≤ k ∧ s.made[k]? = some m.1 := by
  have h1 : m ∈ restTx c.toCfg s ++ (s.made.drop s.gts).flatMap (rds c.toCfg) := by rw [← I.queue]; simp [hm]
  have hr : ∀ j : Job Byte, m ∈ rds c.toCfg j → m.1 = j := by
    intro j hj
    unfold rds at hj
    obtain ⟨k, _, rfl⟩ := List.mem_map.1 hj
    rfl
  rcases List.mem_append.1 h1 with h | h
  · have ht := I.tx
    unfold restTx at h
    unfold TxAt at ht
    split at h
    · rename_i j t hx
      rw [hx] at ht
      refine ⟨s.gtf, Nat.le_refl _, ?_⟩
      rw [hr j (List.mem_of_mem_drop h)]; exact ht.2.1
    · simp at h
  · obtain ⟨j, hj, hm⟩ := List.mem_flatMap.1 h
    obtain ⟨i, hi, he⟩ := List.getElem_of_mem hj
    have o2 := I.o2
    refine ⟨s.gts + i, by omega, ?_⟩
    rw [hr j hm, ← List.getElem?_drop, List.getElem?_eq_getElem hi, he]

theorem stat_len {s : St Byte} (I : Inv c s) : s.stat.length = (s.made.take s.gf).countP isLast := by
  rw [I.stat]
  generalize s.made.take s.gf = l
  induction l with
  | nil => rfl
  | cons a l ih =>
    rw [List.filterMap_cons, List.countP_cons]
    cases h : a.e.last <;> simp [isLast, h, ih]

theorem own_of (hD : Dims c.toCfg M) {s : St Byte} (I : Inv c s) {k : Nat} {j : Job Byte} (h : s.made[k]? = some j) : j.own = (s.made.take k).countP isLast := by
  have hk : k < s.made.length := by
    rcases Nat.lt_or_ge k s.made.length with h1 | h1
    · exact h1
    · rw [List.getElem?_eq_none h1] at h; exact absurd h (by simp)
  have := own_plan hD s.hist 0 I.given k j (by rw [I.plan, List.getElem?_append_left hk]; exact h)
  rw [this, I.plan, List.take_append_of_le_length (Nat.le_of_lt hk), Nat.zero_add]

theorem own_ge (hD : Dims c.toCfg M) {s : St Byte} (I : Inv c s) {k : Nat} {j : Job Byte} (h : s.made[k]? = some j) (hk : s.gf ≤ k) : s.stat.length ≤ j.own := by
  rw [own_of hD I h, stat_len I]
  have : s.made.take s.gf = (s.made.take k).take s.gf := by rw [List.take_take, Nat.min_eq_left hk]
  rw [this]
  exact List.Sublist.countP_le (List.take_sublist _ _)

theorem same_congr {s t : St Byte} (h : t.hist = s.hist) : look t = look s := by unfold look; rw [h]

theorem dat_of_eq {s t : St Byte} (D : Dat c s) (hh : t.hist = s.hist) (hm : t.mem = s.mem) (hs : s.stat.length ≤ t.stat.length) (hr : ∀ n, n < c.ram.segs → ∀ p ∈ t.resp n, p ∈ s.resp n) : Dat c t := by
  constructor
  · intro i x hi hx
    rw [same_congr hh] at hx
    rw [hm]
    exact D.mem i x (by omega) hx
  · intro n hn p hp
    unfold GoodResp
    rw [same_congr hh]
    exact D.resp n hn p (hr n hn p hp)

theorem look_ext {s t : St Byte} (ys : List (Desc Byte × (Nat → Nat → Byte))) (h : t.hist = s.hist ++ ys) {i : Nat} {x y : Desc Byte × (Nat → Nat → Byte)} (hx : look s i = some x) (hy : look t i = some y) : y = x := by
  unfold look at *
  rw [h, List.getElem?_append_left] at hy
  · rw [hx] at hy; simpa using hy.symm
  · rcases Nat.lt_or_ge i s.hist.length with h | h
    · exact h
    · rw [List.getElem?_eq_none h] at hx; exact absurd hx (by simp)

theorem good_ext {s t : St Byte} (ys : List (Desc Byte × (Nat → Nat → Byte))) (h : t.hist = s.hist ++ ys) {j : Job Byte} (hj : JobOk c.toCfg (look s) j) {k : Nat} {f : Nat → Byte}
    (hg : GoodBeat c.toCfg s j k f) : GoodBeat c.toCfg t j k f := by
  intro x hx
  obtain ⟨d, snap, _, _, hl, _⟩ := hj
  have := look_ext ys h hl hx
  subst this
  exact hg _ hl

theorem dat_step (hD : Dims c.toCfg M) {s t : St Byte} {e : Ev Byte} (I : Inv c s) (D : Dat c s) (hl : Legal c s e) (h : step c s e = some t) : Dat c t := by
  have segm : ∀ n, n < c.ram.segs → ∀ m, (m ∈ s.seg n ∨ m ∈ (s.resp n).map (·.1)) → m ∈ s.masks := by
    intro n hn m hm
    have : m ∈ s.masks.filter fun m => m.2.need c.toCfg n := by
      rw [← I.segs n hn]
      rcases hm with hm | hm
      · exact List.mem_append_right _ hm
      · exact List.mem_append_left _ hm
    exact (List.mem_filter.1 this).1
  cases e with
  | accept d =>
    simp only [step] at h
    unfold accept at h
    split at h
    · simp only [Option.some.injEq] at h
      subst h
      constructor
      · intro i x hi hx
        rcases Nat.lt_or_ge i s.hist.length with h | h
        · refine D.mem i x hi ?_
          unfold look at hx ⊢
          rw [← hx]
          exact (List.getElem?_append_left h).symm
        · unfold look at hx
          change (s.hist ++ [(d, s.mem)])[i]? = some x at hx
          rw [List.getElem?_append_right h] at hx
          have : x = (d, s.mem) := by
            cases hi : i - s.hist.length with
            | zero => rw [hi] at hx; simp at hx; exact hx.symm
            | succ n => rw [hi] at hx; simp at hx
          subst this
          intro _ i _; rfl
      · intro n hn p hp x hx
        change p ∈ s.resp n at hp
        obtain ⟨k, hk, hm⟩ := mask_mem I (segm n hn p.1 (Or.inr (List.mem_map.2 ⟨p, hp, rfl⟩)))
        obtain ⟨d', snap, _, _, hl', _⟩ := inv_job hD I (List.mem_of_getElem? hm)
        have := look_ext [(d, s.mem)] rfl hl' hx
        subst this
        exact D.resp n hn p hp _ hl'
    · exact absurd h (by simp)
  | issue =>
    simp only [step] at h
    unfold issue at h
    split at h
    · split at h
      · simp only [Option.some.injEq] at h
        subst h
        exact dat_of_eq D rfl rfl (Nat.le_refl _) fun _ _ p hp => hp
      · exact absurd h (by simp)
    · exact absurd h (by simp)
  | fetch =>
    simp only [step] at h
    unfold fetch at h
    split at h
    · simp only [Option.some.injEq] at h
      subst h
      exact dat_of_eq D rfl rfl (Nat.le_refl _) fun _ _ p hp => hp
    · exact absurd h (by simp)
  | read =>
    simp only [step] at h
    unfold read at h
    split at h
    · split at h
      · simp only [Option.some.injEq] at h
        subst h
        exact dat_of_eq D rfl rfl (Nat.le_refl _) fun _ _ p hp => hp
      · exact absurd h (by simp)
    · exact absurd h (by simp)
  | serve n =>
    simp only [step] at h
    unfold serve at h
    split at h
    · rename_i x xs hx
      simp only [Option.some.injEq] at h
      subst h
      refine ⟨D.mem, ?_⟩
      intro m hm p hp
      change p ∈ upd s.resp n _ m at hp
      unfold DmaRd.upd at hp
      by_cases hmn : m = n
      · subst hmn
        rw [if_pos rfl] at hp
        rcases List.mem_append.1 hp with hp | hp
        · exact D.resp m hm p hp
        · rw [List.mem_singleton] at hp
          subst hp
          obtain ⟨k, hk, hk2⟩ := mask_mem I (segm m hm x (Or.inl (by rw [hx]; simp)))
          have ho := own_ge hD I hk2 (by have := I.o1; omega)
          intro y hy hi hsel i hil hr hseg
          change x.2.sel = y.1.sel at hsel
          have h1 := D.mem x.1.own y ho hy hi i hil
          show s.mem x.2.sel (x.2.row c.toCfg m * c.ram.lanes + m * c.ram.segBytes + _) = _
          change _ = x.2.row c.toCfg m at hr
          rw [← h1, hsel, ← hr, ← hseg]
          congr 1
          generalize (y.1.ram + i) % 2 ^ c.ram.aw = a
          have e1 := Nat.div_add_mod a c.ram.lanes
          have e2 := Nat.div_add_mod (a % c.ram.lanes) c.ram.segBytes
          rw [Nat.mul_comm] at e1 e2
          omega
      · rw [if_neg hmn] at hp
        exact D.resp m hm p hp
    · exact absurd h (by simp)
  | begin =>
    simp only [step] at h
    unfold begin' at h
    split at h
    · split at h
      · simp only [Option.some.injEq] at h
        subst h
        exact dat_of_eq D rfl rfl (Nat.le_refl _) fun _ _ p hp => hp
      · exact absurd h (by simp)
    · exact absurd h (by simp)
  | beat junk =>
    simp only [step] at h
    unfold beat at h
    split at h
    · split at h
      · simp only [Option.some.injEq] at h
        subst h
        refine dat_of_eq D rfl rfl (Nat.le_refl _) fun n _ p hp => ?_
        dsimp only at hp
        split at hp
        · exact List.mem_of_mem_tail hp
        · exact hp
      · exact absurd h (by simp)
    · exact absurd h (by simp)
  | ack k =>
    simp only [step] at h
    unfold ack at h
    split at h
    · simp only [Option.some.injEq] at h
      subst h
      exact dat_of_eq D rfl rfl (Nat.le_refl _) fun _ _ p hp => hp
    · exact absurd h (by simp)
  | finish =>
    simp only [step] at h
    unfold finish at h
    split at h
    · split at h
      · simp only [Option.some.injEq] at h
        subst h
        refine dat_of_eq D rfl rfl ?_ fun _ _ p hp => hp
        dsimp only
        split
        · rw [List.length_append]; omega
        · exact Nat.le_refl _
      · exact absurd h (by simp)
    · exact absurd h (by simp)
  | poke f =>
    simp only [step, Option.some.injEq] at h
    subst h
    constructor
    · intro i x hi hx hn q hq
      have h1 : x ∈ s.hist.drop s.stat.length := by
        apply List.mem_of_getElem? (i := i - s.stat.length)
        rw [List.getElem?_drop, Nat.add_sub_cancel' hi]; exact hx
      exact (hl x h1 hn q hq).trans (D.mem i x hi hx hn q hq)
    · exact D.resp

theorem reach_dat (hD : Dims c.toCfg M) {mem : Nat → Nat → Byte} {s : St Byte} (h : Reach c mem s) : Dat c s := by
  induction h with
  | init => exact dat_init c mem
  | step hr hl hs ih => exact dat_step hD (reach_inv hD hr) ih hl hs

/-! ### beats -/

/-- the data of a beat that is sent -/
theorem beat_good (hD : Dims c.toCfg M) {s : St Byte} {junk : Nat → Byte} (I : Inv c s) (D : Dat c s) {j : Job Byte} {k : Nat} {ms : List (Job Byte × Rd)} (hj : j ∈ s.made)
    (hm : s.masks = (j, rdAt c.toCfg j.e k) :: ms) (hg : (List.range c.ram.segs).all (fun n => !(rdAt c.toCfg j.e k).need c.toCfg n || !(s.resp n).isEmpty) = true) :
    GoodBeat c.toCfg s j k fun x => if (rdAt c.toCfg j.e k).need c.toCfg (x / c.ram.segBytes) then (match s.resp (x / c.ram.segBytes) with | y :: _ => y.2 (x % c.ram.segBytes) | [] => junk x) else junk x := by
  intro x hx himm q hq hlen hqk
  obtain ⟨d, snap, lo, T, hl, hgv, he⟩ := inv_job hD I hj
  rw [hl] at hx
  simp only [Option.some.injEq] at hx
  subst hx
  dsimp only at himm hlen
  have hadd : j.e.addr - d.addr = lo := by have := he.addr; omega
  rw [hadd] at hlen ⊢
  have hcov := rd_covers hD he (q := q) (by have := he.len; omega)
  dsimp only at hcov
  rw [hqk] at hcov
  obtain ⟨hk, hlo, hhi, hbus⟩ := hcov
  have hpos : 0 < 2 ^ c.ram.aw := Nat.two_pow_pos _
  have haddr : (rdAt c.toCfg j.e k).addr = (j.e.ram + lowAt c.toCfg j.e k) % 2 ^ c.ram.aw := rfl
  have hhit := rd_hit hD.z (rdAt c.toCfg j.e k) (by rw [haddr]; exact Nat.mod_lt _ hpos) hbus (q - lowAt c.toCfg j.e k) (by omega)
  have hbase : d.base = d.ram := by unfold Desc.base; rw [himm]; rfl
  have hy : ((rdAt c.toCfg j.e k).addr + (q - lowAt c.toCfg j.e k)) % 2 ^ c.ram.aw = (d.ram + (lo + q)) % 2 ^ c.ram.aw := by
    rw [haddr, Nat.mod_add_mod, show j.e.ram + lowAt c.toCfg j.e k + (q - lowAt c.toCfg j.e k) = j.e.ram + q by omega, he.ram, Nat.mod_add_mod, hbase, Nat.add_assoc]
  have hdvd : c.ram.lanes ∣ 2 ^ c.ram.aw := ⟨M, by rw [hD.z.words, Nat.mul_comm]⟩
  have hx1 : ((rdAt c.toCfg j.e k).addr + (q - lowAt c.toCfg j.e k)) % c.ram.lanes = (d.ram + (lo + q)) % 2 ^ c.ram.aw % c.ram.lanes := by
    rw [← hy, Nat.mod_mod_of_dvd _ hdvd]
  have hx2 : (j.e.ram + q) % c.ram.lanes = (d.ram + (lo + q)) % 2 ^ c.ram.aw % c.ram.lanes := by
    rw [he.ram, hbase, Nat.mod_mod_of_dvd _ hdvd, ← Nat.mod_add_mod, Nat.mod_mod_of_dvd _ hdvd, Nat.mod_add_mod, Nat.add_assoc]
  rw [hx1, hy] at hhit
  dsimp only
  rw [hx2]
  have hseg : (d.ram + (lo + q)) % 2 ^ c.ram.aw % c.ram.lanes / c.ram.segBytes < c.ram.segs := by
    have h1 := hD.z.lanes
    have h2 : 0 < c.ram.lanes := by have := hD.z.bus; have := bus_pos hD; omega
    have h3 := Nat.mod_lt ((d.ram + (lo + q)) % 2 ^ c.ram.aw) h2
    apply Nat.div_lt_of_lt_mul
    rw [Nat.mul_comm, ← DmaRd.Ram.lanes]; exact h3
  have hneed : (rdAt c.toCfg j.e k).need c.toCfg ((d.ram + (lo + q)) % 2 ^ c.ram.aw % c.ram.lanes / c.ram.segBytes) = true := by
    unfold Rd.need
    rw [hhit.1]
    have : (rdAt c.toCfg j.e k).imm = false := by
      show j.e.imm.isSome = false
      rw [he.imm, himm]; rfl
    rw [this]; rfl
  simp only [hneed, if_true]
  have hr := List.all_eq_true.1 hg _ (List.mem_range.2 hseg)
  rw [hneed] at hr
  have hs := I.segs _ hseg
  rw [hm, List.filter_cons] at hs
  simp only [hneed, if_true] at hs
  cases hrr : s.resp ((d.ram + (lo + q)) % 2 ^ c.ram.aw % c.ram.lanes / c.ram.segBytes) with
  | nil => rw [hrr] at hr; simp at hr
  | cons y ys =>
    rw [hrr] at hs
    simp only [List.map_cons, List.cons_append, List.cons.injEq] at hs
    dsimp only
    have hgood := D.resp _ hseg y (by rw [hrr]; simp)
    unfold GoodResp at hgood
    rw [hs.1] at hgood
    have hsel : (rdAt c.toCfg j.e k).sel = d.sel := by
      show j.e.sel = d.sel
      rw [he.sel, himm]; rfl
    rw [hgood (d, snap) hl himm hsel (lo + q) hlen hhit.2.symm rfl]
    unfold src
    dsimp only
    rw [himm]

/-- the beats sent -/
structure Out (c : Par) (s : St Byte) (fs : List (List (Beat Byte))) (part : List (Beat Byte)) : Prop where
  out : s.out = fs.flatten ++ part
  len : fs.length = s.gtf
  full : ∀ i, i < s.gtf → ∃ j D, s.made[i]? = some j ∧ fs[i]? = some (beatsOf c.toCfg j.e (i % 2 ^ c.ow) D) ∧ ∀ k, k ≤ j.e.cyc → GoodBeat c.toCfg s j k (D k)
  part : match s.tx with
    | none => part = []
    | some (j, t) => ∃ D, part = (List.range (j.e.cyc - t.left)).map (beatAt c.toCfg j.e (s.gtf % 2 ^ c.ow) D) ∧ ∀ k, k < j.e.cyc - t.left → GoodBeat c.toCfg s j k (D k)

theorem goodBeat_congr {s t : St Byte} (h : t.hist = s.hist) (j : Job Byte) (k : Nat) (f : Nat → Byte) : GoodBeat c.toCfg t j k f ↔ GoodBeat c.toCfg s j k f := by
  unfold GoodBeat; rw [same_congr h]

theorem out_ext (hD : Dims c.toCfg M) {s t : St Byte} {fs part} (I : Inv c s) (O : Out c s fs part) (ys zs) (hh : t.hist = s.hist ++ ys) (hm : t.made = s.made ++ zs) (ho : t.out = s.out) (hg : t.gtf = s.gtf)
    (hx : t.tx = s.tx) : Out c t fs part := by
  have hle : s.gtf ≤ s.made.length := by have := I.o2; have := I.o3; omega
  constructor
  · rw [ho, O.out]
  · rw [hg, O.len]
  · intro i hi
    rw [hg] at hi
    obtain ⟨j, D, h1, h2, h3⟩ := O.full i hi
    have hj := inv_job hD I (List.mem_of_getElem? h1)
    exact ⟨j, D, by rw [hm, List.getElem?_append_left (by omega)]; exact h1, h2, fun k hk => good_ext ys hh hj (h3 k hk)⟩
  · have := O.part
    have ht := I.tx
    unfold TxAt at ht
    rw [hx, hg]
    revert this ht
    cases s.tx with
    | none => exact fun h _ => h
    | some p =>
      dsimp only
      rintro ⟨D, h1, h2⟩ ⟨h3, h4, _⟩
      exact ⟨D, h1, fun k hk => good_ext ys hh (inv_job hD I (List.mem_of_getElem? h4)) (h2 k hk)⟩

theorem range_map_set {α : Type} (g : (Nat → Nat → Byte) → Nat → α) (hg : ∀ D D' k, D k = D' k → g D k = g D' k) (D : Nat → Nat → Byte) (f : Nat → Byte) (n : Nat) :
    (List.range (n + 1)).map (g fun k => if k = n then f else D k) = (List.range n).map (g D) ++ [g (fun k => if k = n then f else D k) n] := by
  rw [List.range_succ, List.map_append, List.map_singleton]
  congr 1
  apply List.map_congr_left
  intro k hk
  rw [List.mem_range] at hk
  apply hg
  simp only [Nat.ne_of_lt hk, if_false]

theorem out_beat (hD : Dims c.toCfg M) {s t : St Byte} {junk : Nat → Byte} {fs part} (I : Inv c s) (V : Dat c s) (O : Out c s fs part) (h : beat c s junk = some t) : ∃ fs part, Out c t fs part := by
  unfold beat at h
  split at h
  · rename_i j tt m ms hx hm
    split at h
    · rename_i hg
      simp only [Option.some.injEq] at h
      have ht := I.tx
      unfold TxAt at ht
      rw [hx] at ht
      dsimp only at ht
      obtain ⟨h1, h2, k, hk, rfl⟩ := ht
      obtain ⟨rfl, hq⟩ := head_mask hD I hx hk hm
      have hgood := beat_good hD (junk := junk) I V (List.mem_of_getElem? h2) hm hg
      obtain ⟨d, snap, lo, T, _, _, he⟩ := inv_job hD I (List.mem_of_getElem? h2)
      have hp := O.part
      rw [hx] at hp
      dsimp only at hp
      rw [tx_left _ _ hk] at hp
      obtain ⟨D, hp1, hp2⟩ := hp
      rw [show c.slot s.tfp = s.gtf % 2 ^ c.ow by rw [I.tfp, slot_eq]] at h
      dsimp only at h
      generalize hd : (fun x => if (rdAt c.toCfg j.e k).need c.toCfg (x / c.ram.segBytes) = true then (match s.resp (x / c.ram.segBytes) with | y :: _ => y.2 (x % c.ram.segBytes) | [] => junk x) else junk x) = dd at h hgood
      have hnew : part ++ [(txAt c.toCfg j.e k).beat c.toCfg (s.gtf % 2 ^ c.ow) dd] = (List.range (k + 1)).map (beatAt c.toCfg j.e (s.gtf % 2 ^ c.ow) fun i => if i = k then dd else D i) := by
        rw [range_map_set (beatAt c.toCfg j.e (s.gtf % 2 ^ c.ow)), hp1]
        · congr 2
          unfold beatAt; simp
        · intro D D' k hk
          unfold beatAt; rw [hk]
      have hall : ∀ i, i < k + 1 → GoodBeat c.toCfg s j i ((fun i => if i = k then dd else D i) i) := by
        intro i hi
        dsimp only
        by_cases hik : i = k
        · subst hik; rw [if_pos rfl]; exact hgood
        · rw [if_neg hik]; exact hp2 i (by omega)
      rw [tx_last _ _ hk] at h
      by_cases hkc : k = j.e.cyc
      · simp only [hkc, decide_true, if_true] at h
        rw [hkc] at hnew hall
        refine ⟨fs ++ [(List.range (j.e.cyc + 1)).map (beatAt c.toCfg j.e (s.gtf % 2 ^ c.ow) fun i => if i = j.e.cyc then dd else D i)], [], ?_⟩
        subst h
        refine ⟨?_, ?_, ?_, rfl⟩
        · show s.out ++ _ = _
          rw [← hnew, O.out]; simp
        · show _ = s.gtf + 1
          rw [List.length_append, O.len]; rfl
        · intro i hi
          change i < s.gtf + 1 at hi
          rcases Nat.lt_or_ge i s.gtf with hl | hl
          · obtain ⟨j', D', e1, e2, e3⟩ := O.full i hl
            exact ⟨j', D', e1, by rw [List.getElem?_append_left (by rw [O.len]; exact hl)]; exact e2, e3⟩
          · have : i = s.gtf := by omega
            subst this
            refine ⟨j, fun i => if i = j.e.cyc then dd else D i, h2, ?_, fun k hk => hall k (by omega)⟩
            rw [List.getElem?_append_right (by rw [O.len]), O.len, Nat.sub_self]
            rfl
      · simp only [hkc, decide_false, Bool.false_eq_true, if_false] at h
        refine ⟨fs, part ++ [(txAt c.toCfg j.e k).beat c.toCfg (s.gtf % 2 ^ c.ow) dd], ?_⟩
        subst h
        refine ⟨?_, O.len, O.full, ?_⟩
        · show s.out ++ _ = _
          rw [O.out, List.append_assoc]
        · dsimp only
          rw [← tx_succ hD he (by omega), tx_left _ _ (by omega)]
          exact ⟨_, hnew, hall⟩
    · exact absurd h (by simp)
  · exact absurd h (by simp)

theorem out_step (hD : Dims c.toCfg M) {s t : St Byte} {e : Ev Byte} {fs part} (I : Inv c s) (V : Dat c s) (O : Out c s fs part) (h : step c s e = some t) : ∃ fs part, Out c t fs part := by
  cases e with
  | accept d =>
    simp only [step] at h
    unfold accept at h
    split at h
    · simp only [Option.some.injEq] at h
      subst h
      exact ⟨_, _, out_ext hD I O [(d, s.mem)] [] rfl (List.append_nil _).symm rfl rfl rfl⟩
    · exact absurd h (by simp)
  | issue =>
    simp only [step] at h
    unfold issue at h
    split at h
    · split at h
      · simp only [Option.some.injEq] at h
        subst h
        exact ⟨_, _, out_ext hD I O [] _ (List.append_nil _).symm rfl rfl rfl rfl⟩
      · exact absurd h (by simp)
    · exact absurd h (by simp)
  | fetch =>
    simp only [step] at h
    unfold fetch at h
    split at h
    · simp only [Option.some.injEq] at h
      subst h
      exact ⟨_, _, out_ext hD I O [] [] (List.append_nil _).symm (List.append_nil _).symm rfl rfl rfl⟩
    · exact absurd h (by simp)
  | read =>
    simp only [step] at h
    unfold read at h
    split at h
    · split at h
      · simp only [Option.some.injEq] at h
        subst h
        exact ⟨_, _, out_ext hD I O [] [] (List.append_nil _).symm (List.append_nil _).symm rfl rfl rfl⟩
      · exact absurd h (by simp)
    · exact absurd h (by simp)
  | serve n =>
    simp only [step] at h
    unfold serve at h
    split at h
    · simp only [Option.some.injEq] at h
      subst h
      exact ⟨_, _, out_ext hD I O [] [] (List.append_nil _).symm (List.append_nil _).symm rfl rfl rfl⟩
    · exact absurd h (by simp)
  | begin =>
    have hi := inv_begin hD I h
    simp only [step] at h
    unfold begin' at h
    split at h
    · rename_i j hx hj
      split at h
      · simp only [Option.some.injEq] at h
        have hp := O.part
        rw [hx] at hp
        subst h
        refine ⟨fs, part, O.out, O.len, O.full, ?_⟩
        dsimp only
        have e0 : j.e.cyc - (Tx.start j.e).left = 0 := Nat.sub_self _
        rw [e0]
        exact ⟨fun _ _ => s.mem 0 0, hp, fun k hk => absurd hk (Nat.not_lt_zero _)⟩
      · exact absurd h (by simp)
    · exact absurd h (by simp)
  | beat junk => exact out_beat hD I V O h
  | ack k =>
    simp only [step] at h
    unfold ack at h
    split at h
    · simp only [Option.some.injEq] at h
      subst h
      exact ⟨_, _, out_ext hD I O [] [] (List.append_nil _).symm (List.append_nil _).symm rfl rfl rfl⟩
    · exact absurd h (by simp)
  | finish =>
    simp only [step] at h
    unfold finish at h
    split at h
    · split at h
      · simp only [Option.some.injEq] at h
        subst h
        exact ⟨_, _, out_ext hD I O [] [] (List.append_nil _).symm (List.append_nil _).symm rfl rfl rfl⟩
      · exact absurd h (by simp)
    · exact absurd h (by simp)
  | poke f =>
    simp only [step, Option.some.injEq] at h
    subst h
    exact ⟨_, _, out_ext hD I O [] [] (List.append_nil _).symm (List.append_nil _).symm rfl rfl rfl⟩

theorem out_init (c : Par) (mem : Nat → Nat → Byte) : Out c (init mem) [] [] := by
  refine ⟨rfl, rfl, ?_, rfl⟩
  intro i hi; exact absurd hi (Nat.not_lt_zero _)

theorem reach_out (hD : Dims c.toCfg M) {mem : Nat → Nat → Byte} {s : St Byte} (h : Reach c mem s) : ∃ fs part, Out c s fs part := by
  induction h with
  | init => exact ⟨_, _, out_init c mem⟩
  | step hr hl hs ih =>
    obtain ⟨fs, part, O⟩ := ih
    exact out_step hD (reach_inv hD hr) (reach_dat hD hr) O hs

end

end Corundum.DmaWr
