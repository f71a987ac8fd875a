import Verif.Proof.PcieEnumMatch
import Verif.Proof.PcieEnumWin

/-! Enumeration of a tree and routing in it. -/
namespace Corundum.PcieEnum
open Corundum

/-- any functions and bridges as constructed and configured, before or after an enumeration -/
def SegOk : Seg → Prop
  | .nil => True
  | .ep f rest => RegsOk f.slots f.regs ∧ SegOk rest
  | .br f b child rest => RegsOk f.slots f.regs ∧ BrOk b ∧ SegOk child ∧ SegOk rest

/-! ### shape of the loop -/

theorem enumLoop_ep {bus : Nat} {f : Fn} {rest : Seg} {l : Lim} {sec sub : Nat} {o : Seg} {l' : Lim} {s' : Nat}
    (h : enumLoop bus (.ep f rest) l sec sub = some (o, l', s')) :
    ∃ regs l1 o1, enumBars f.regs l = some (regs, l1) ∧ enumLoop bus rest l1 sec sub = some (o1, l', s') ∧
      o = .ep { f with regs := regs } o1 := by
  rw [enumLoop] at h
  cases h1 : enumBars f.regs l with
  | none => rw [h1] at h; cases h
  | some x =>
    obtain ⟨regs, l1⟩ := x
    rw [h1] at h
    change (enumLoop bus rest l1 sec sub >>= fun x => some (Seg.ep { f with regs := regs } x.1, x.2.1, x.2.2)) = _ at h
    cases h2 : enumLoop bus rest l1 sec sub with
    | none => rw [h2] at h; cases h
    | some y =>
      obtain ⟨o1, l2, s⟩ := y
      rw [h2] at h
      cases h
      exact ⟨regs, l1, o1, rfl, h2, rfl⟩

theorem enumLoop_br {bus : Nat} {f : Fn} {b : Br} {child rest : Seg} {l : Lim} {sec sub : Nat} {o : Seg} {l' : Lim} {s' : Nat}
    (h : enumLoop bus (.br f b child rest) l sec sub = some (o, l', s')) :
    ∃ regs l1 c l2 s o1, enumBars f.regs l = some (regs, l1) ∧ enumLoop sec child l1.align (sec + 1) sec = some (c, l2, s) ∧
      fits l1.align l2.align sec s = true ∧ enumLoop bus rest l2.align (s + 1) s = some (o1, l', s') ∧
      o = .br { f with regs := regs } (((b.setBus bus sec 255).setBus bus sec s).setWindows l1.align l2.align.pred) c o1 := by
  rw [enumLoop] at h
  cases h1 : enumBars f.regs l with
  | none => rw [h1] at h; cases h
  | some x =>
    obtain ⟨regs, l1⟩ := x
    rw [h1] at h
    change (enumLoop sec child l1.align (sec + 1) sec >>= fun y => if fits l1.align y.2.1.align sec y.2.2 = true then
      (enumLoop bus rest y.2.1.align (y.2.2 + 1) y.2.2 >>= fun z => some (Seg.br { f with regs := regs }
        (((b.setBus bus sec 255).setBus bus sec y.2.2).setWindows l1.align y.2.1.align.pred) y.1 z.1, z.2.1, z.2.2)) else none) = _ at h
    cases h2 : enumLoop sec child l1.align (sec + 1) sec with
    | none => rw [h2] at h; cases h
    | some y =>
      obtain ⟨c, l2, s⟩ := y
      rw [h2] at h
      change (if fits l1.align l2.align sec s = true then _ else none) = _ at h
      by_cases hf : fits l1.align l2.align sec s = true
      · rw [if_pos hf] at h
        cases h3 : enumLoop bus rest l2.align (s + 1) s with
        | none => rw [h3] at h; cases h
        | some z =>
          obtain ⟨o1, l3, s3⟩ := z
          rw [h3] at h
          cases h
          exact ⟨regs, l1, c, l2, s, o1, rfl, h2, hf, h3, rfl⟩
      · rw [if_neg hf] at h; cases h

theorem enumLoop_le : ∀ (t : Seg) (bus : Nat) (l : Lim) (sec sub : Nat) (o : Seg) (l' : Lim) (s' : Nat),
    enumLoop bus t l sec sub = some (o, l', s') → l.le l' := by
  intro t
  induction t with
  | nil => intro bus l sec sub o l' s' h; rw [enumLoop] at h; cases h; exact Lim.le_refl _
  | ep f rest ih =>
    intro bus l sec sub o l' s' h
    obtain ⟨regs, l1, o1, h1, h2, _⟩ := enumLoop_ep h
    exact Lim.le_trans (enumBars_le _ _ (Nat.le_refl _) _ _ _ h1) (ih _ _ _ _ _ _ _ h2)
  | br f b child rest ihc ihr =>
    intro bus l sec sub o l' s' h
    obtain ⟨regs, l1, c, l2, s, o1, h1, h2, _, h3, _⟩ := enumLoop_br h
    exact Lim.le_trans (enumBars_le _ _ (Nat.le_refl _) _ _ _ h1) (Lim.le_trans l1.align_ok.2 (Lim.le_trans (ihc _ _ _ _ _ _ _ h2)
      (Lim.le_trans l2.align_ok.2 (ihr _ _ _ _ _ _ _ h3))))

/-! ### regions do not overlap -/

def Disj (a b : Rgn) : Prop := ∀ addr io, a.holds addr io → b.holds addr io → False

theorem Chain.disj {l l' : Lim} {rs : List Rgn} (h : Chain l rs l') (hm : l'.mem ≤ 2 ^ 32) (hp : 2 ^ 32 ≤ l.pf) :
    rs.Pairwise Disj := by
  have hb := h.before
  have hmem := h.mem
  refine (List.Pairwise.and_mem.mp hb).imp ?_
  rintro a b ⟨ha, hbm, hab⟩ addr io ⟨a1, a2, a3⟩ ⟨b1, b2, b3⟩
  obtain ⟨ma1, ma2, _⟩ := hmem a ha
  obtain ⟨mb1, mb2, _⟩ := hmem b hbm
  by_cases he : a.sp = b.sp
  · have := hab he; omega
  · cases hsa : a.sp <;> cases hsb : b.sp <;> rw [hsa] at a1 ma1 ma2 he <;> rw [hsb] at b1 mb1 mb2 he <;>
      simp only [Lim.get] at ma1 ma2 mb1 mb2
    · exact he rfl
    · have := b1.mpr (a1.mp rfl); cases this
    · have := b1.mpr (a1.mp rfl); cases this
    · have := a1.mpr (b1.mp rfl); cases this
    · exact he rfl
    · omega
    · have := a1.mpr (b1.mp rfl); cases this
    · omega
    · exact he rfl

theorem filterMap_none {addr : Nat} {io : Bool} {rs : List Rgn} (h : ∀ r ∈ rs, ¬ r.holds addr io) : rs.filterMap (hit addr io) = [] := by
  induction rs with
  | nil => rfl
  | cons r rs ih =>
    rw [cons_hit, if_neg (h r List.mem_cons_self), ih fun x hx => h x (List.mem_cons_of_mem _ hx)]; rfl

theorem filterMap_one {addr : Nat} {io : Bool} {rs : List Rgn} (hd : rs.Pairwise Disj) {r : Rgn} (hr : r ∈ rs) (hh : r.holds addr io) :
    rs.filterMap (hit addr io) = [(r.bar, addr - r.base)] := by
  induction rs with
  | nil => cases hr
  | cons r0 rs ih =>
    obtain ⟨h1, h2⟩ := List.pairwise_cons.mp hd
    rw [cons_hit]
    rcases List.mem_cons.mp hr with rfl | hr
    · rw [if_pos hh, filterMap_none fun x hx hx2 => h1 x hx addr io hh hx2]; rfl
    · rw [if_neg fun h0 => h1 r hr addr io h0 hh, ih h2 hr]; rfl

/-! ### the main induction -/

theorem map_map_snd (i : Nat) (c : List (List Nat × Rgn)) : (c.map (fun x => (i :: x.1, x.2))).map Prod.snd = c.map Prod.snd := by
  rw [List.map_map]; rfl

theorem map_own (i : Nat) (c : List Rgn) : (c.map (fun r => ([i], r))).map Prod.snd = c := by
  rw [List.map_map]; exact List.map_id _

structure Good (bus : Nat) (l : Lim) (sub : Nat) (o : Seg) (l' : Lim) (s' : Nat) : Prop where
  ok : SegOk o
  chain : ∀ i, Chain l ((o.regions i).map Prod.snd) l'
  nested : o.nested bus
  buses : ∀ i, ((o.buses i).map Prod.snd) = List.range' (sub + 1) (s' - sub)
  sub : sub ≤ s'
  busHit : ∀ i n p, (p, n) ∈ o.buses i → routeBus n i o = some p
  hits : ∀ addr io M, Fair addr io M → M ≤ l.mem → ∀ i p r, (p, r) ∈ o.regions i → r.holds addr io →
    route addr io i o = some (p, [(r.bar, addr - r.base)])
  misses : ∀ addr io M, Fair addr io M → M ≤ l.mem → ∀ i, (∀ x ∈ o.regions i, ¬ x.2.holds addr io) → route addr io i o = none

theorem map_snd_mem {c : List (List Nat × Rgn)} {p : List Nat} {r : Rgn} (h : (p, r) ∈ c) : r ∈ c.map Prod.snd :=
  List.mem_map.mpr ⟨(p, r), h, rfl⟩

theorem enumLoop_spec : ∀ (t : Seg), SegOk t → ∀ (bus : Nat) (l : Lim) (sub : Nat) (o : Seg) (l' : Lim) (s' : Nat),
    enumLoop bus t l (sub + 1) sub = some (o, l', s') → bus < 256 → 0 < l.mem → l'.mem < 2 ^ 32 → l'.pf ≤ 2 ^ 64 → 2 ^ 32 ≤ l.pf →
    Good bus l sub o l' s' := by
  intro t
  induction t with
  | nil =>
    intro _ bus l sub o l' s' h _ _ _ _ _
    rw [enumLoop] at h
    cases h
    exact ⟨trivial, fun _ => Lim.le_refl _, trivial, fun _ => by rw [Nat.sub_self]; rfl, Nat.le_refl _, (by intro _ _ _ h; cases h),
      (by intro _ _ _ _ _ _ _ _ h; cases h), fun _ _ _ _ _ _ _ => rfl⟩
  | ep f rest ih =>
    intro ⟨hok, hok'⟩ bus l sub o l' s' h hb h0 hm hp hp0
    obtain ⟨regs, l1, o1, h1, h2, rfl⟩ := enumLoop_ep h
    have le2 := enumLoop_le _ _ _ _ _ _ _ _ h2
    have le1 := enumBars_le _ _ (Nat.le_refl _) _ _ _ h1
    have hm1 : l1.mem ≤ 2 ^ 32 := Nat.le_trans le2.2.1 (Nat.le_of_lt hm)
    have hp1 : l1.pf ≤ 2 ^ 64 := Nat.le_trans le2.2.2 hp
    obtain ⟨g1, g2⟩ := enumBars_spec f.slots f.regs hok 0 l regs l1 h1 hm1 hp1
    have G := ih hok' bus l1 sub o1 l' s' h2 hb (Nat.lt_of_lt_of_le h0 le1.2.1) hm hp (Nat.le_trans hp0 le1.2.2)
    have hch : ∀ i, Chain l (((Seg.ep { f with regs := regs } o1).regions i).map Prod.snd) l' := by
      intro i
      rw [Seg.regions, List.map_append, map_own]
      exact g2.append (G.chain (i + 1))
    have hdj : ∀ i, (((Seg.ep { f with regs := regs } o1).regions i).map Prod.snd).Pairwise Disj :=
      fun i => (hch i).disj (Nat.le_of_lt hm) hp0
    have hmb : ∀ addr io M, Fair addr io M → M ≤ l.mem → matchBar addr io 0 regs = (regions 0 f.slots regs).filterMap (hit addr io) := by
      intro addr io M hf hM
      refine matchBar_spec hf f.slots regs g1 0 ?_
      intro r hr hs
      have := (g2.mem r hr).1
      rw [hs] at this
      exact Nat.le_trans hM this
    refine ⟨⟨g1, G.ok⟩, hch, G.nested, fun i => G.buses (i + 1), G.sub, ?_, ?_, ?_⟩
    · intro i n p hmem
      exact G.busHit (i + 1) n p hmem
    · intro addr io M hf hM i p r hmem hh
      have hd := hdj i
      rw [Seg.regions] at hmem hd
      rw [List.map_append, map_own] at hd
      obtain ⟨d1, d2, d3⟩ := List.pairwise_append.mp hd
      rw [route, hmb addr io M hf hM]
      rcases List.mem_append.mp hmem with hmem | hmem
      · obtain ⟨r', hr', he⟩ := List.mem_map.mp hmem
        cases he
        rw [filterMap_one d1 hr' hh, if_pos (by simp)]
      · rw [filterMap_none fun x hx hx2 => d3 x hx r (map_snd_mem hmem) addr io hx2 hh, if_neg (by simp)]
        exact G.hits addr io M hf (Nat.le_trans hM le1.2.1) (i + 1) p r hmem hh
    · intro addr io M hf hM i hno
      rw [Seg.regions] at hno
      rw [route, hmb addr io M hf hM, filterMap_none fun r hr => hno ([i], r) (List.mem_append_left _ (List.mem_map.mpr ⟨r, hr, rfl⟩)),
        if_neg (by simp)]
      exact G.misses addr io M hf (Nat.le_trans hM le1.2.1) (i + 1) fun x hx => hno x (List.mem_append_right _ hx)
  | br f b child rest ihc ihr =>
    intro ⟨hok, hbr, hokc, hokr⟩ bus l sub o l' s' h hb h0 hm hp hp0
    obtain ⟨regs, l1, c, l2, s, o1, h1, h2, hfit, h3, rfl⟩ := enumLoop_br h
    have le1 := enumBars_le _ _ (Nat.le_refl _) _ _ _ h1
    have la1 := l1.align_ok
    have le2 := enumLoop_le _ _ _ _ _ _ _ _ h2
    have la2 := l2.align_ok
    have le3 := enumLoop_le _ _ _ _ _ _ _ _ h3
    simp only [fits, Bool.and_eq_true, decide_eq_true_eq] at hfit
    obtain ⟨⟨⟨⟨⟨⟨⟨f1, f2⟩, f3⟩, f4⟩, f5⟩, f6⟩, f7⟩, f8⟩ := hfit
    have hmhi : l2.align.mem < 2 ^ 32 := Nat.lt_of_le_of_lt le3.2.1 hm
    have hm2 : l2.mem < 2 ^ 32 := Nat.lt_of_le_of_lt la2.2.2.1 hmhi
    have hp2 : l2.pf ≤ 2 ^ 64 := Nat.le_trans la2.2.2.2 f6
    have hmlo : l1.align.mem < 2 ^ 32 := Nat.lt_of_le_of_lt le2.2.1 hm2
    have hm1 : l1.mem ≤ 2 ^ 32 := Nat.le_trans la1.2.2.1 (Nat.le_of_lt hmlo)
    have hp1 : l1.pf ≤ 2 ^ 64 := Nat.le_trans la1.2.2.2 (Nat.le_of_lt f4)
    obtain ⟨g1, g2⟩ := enumBars_spec f.slots f.regs hok 0 l regs l1 h1 hm1 hp1
    have h01 : 0 < l1.align.mem := Nat.lt_of_lt_of_le h0 (Nat.le_trans le1.2.1 la1.2.2.1)
    have hp01 : 2 ^ 32 ≤ l1.align.pf := Nat.le_trans hp0 (Nat.le_trans le1.2.2 la1.2.2.2)
    have GC := ihc hokc (sub + 1) l1.align (sub + 1) c l2 s h2 f7 h01 hm2 hp2 hp01
    have h02 : 0 < l2.align.mem := Nat.lt_of_lt_of_le h01 (Nat.le_trans le2.2.1 la2.2.2.1)
    have hp02 : 2 ^ 32 ≤ l2.align.pf := Nat.le_trans hp01 (Nat.le_trans le2.2.2 la2.2.2.2)
    have GR := ihr hokr bus l2.align s o1 l' s' h3 hb h02 hm hp hp02
    -- the bridge registers
    have hbus : (b.setBus bus (sub + 1) 255).setBus bus (sub + 1) s = { b with pri := bus, sec := sub + 1, sub := s } := by
      rw [setBus_spec hbr hb f7 (by decide)]
      have hb2 : BrOk { b with pri := bus, sec := sub + 1, sub := 255 } :=
        ⟨hbr.ioBase, hbr.ioLimit, hbr.memBase, hbr.memLimit, hbr.pfBase, hbr.pfLimit, hb, f7, show 255 < 256 by decide⟩
      rw [setBus_spec hb2 hb f7 f8]
    have hb3 : BrOk { b with pri := bus, sec := sub + 1, sub := s } :=
      ⟨hbr.ioBase, hbr.ioLimit, hbr.memBase, hbr.memLimit, hbr.pfBase, hbr.pfLimit, hb, f7, f8⟩
    rw [hbus, setWindows_spec hb3 la1.1 la2.1 f1 f2 f3 hmlo h02 (Nat.le_of_lt hmhi) f4 f5 f6]
    dsimp only
    obtain ⟨w, hw⟩ : ∃ w : Br, w = ⟨bus, sub + 1, s, l1.align.io, l2.align.io - 1, l1.align.mem, l2.align.mem - 1, l1.align.pf,
      l2.align.pf - 1⟩ := ⟨_, rfl⟩
    rw [← hw]
    have hlt : ∀ addr, (l1.align.io ≤ addr ∧ addr ≤ l2.align.io - 1 ↔ l1.align.io ≤ addr ∧ addr < l2.align.io) ∧
        (l1.align.mem ≤ addr ∧ addr ≤ l2.align.mem - 1 ↔ l1.align.mem ≤ addr ∧ addr < l2.align.mem) ∧
        (l1.align.pf ≤ addr ∧ addr ≤ l2.align.pf - 1 ↔ l1.align.pf ≤ addr ∧ addr < l2.align.pf) := by
      intro addr; refine ⟨?_, ?_, ?_⟩ <;> constructor <;> intro h <;> omega
    have hwin : ∀ addr io, w.window addr io = true ↔
        if io = true then l1.align.io ≤ addr ∧ addr < l2.align.io
        else (l1.align.mem ≤ addr ∧ addr < l2.align.mem) ∨ (l1.align.pf ≤ addr ∧ addr < l2.align.pf) := by
      intro addr io
      rw [hw]
      obtain ⟨q1, q2, q3⟩ := hlt addr
      cases io
      · simp only [Br.window, Bool.false_eq_true, if_false, Bool.or_eq_true, Bool.and_eq_true, decide_eq_true_eq]
        rw [q2, q3]
      · simp only [Br.window, if_true, Bool.and_eq_true, decide_eq_true_eq]
        exact q1
    have hwbus : w.pri = bus ∧ w.sec = sub + 1 ∧ w.sub = s := by rw [hw]; exact ⟨rfl, rfl, rfl⟩
    have hbw : BrOk w := by
      rw [hw]
      exact ⟨⟨la1.1.io, f1⟩, show l2.align.io - 1 < 2 ^ 32 by omega, ⟨la1.1.mem, hmlo⟩, show l2.align.mem - 1 < 2 ^ 32 by omega,
        ⟨la1.1.pf, f4⟩, show l2.align.pf - 1 < 2 ^ 64 by omega, hb, f7, f8⟩
    clear hlt
    have hch : ∀ i, Chain l (((Seg.br { f with regs := regs } w c o1).regions i).map Prod.snd) l' := by
      intro i
      rw [Seg.regions, List.map_append, map_own, List.map_append, map_map_snd]
      refine g2.append ?_
      exact ((GC.chain 0).weaken la1.2).extend la2.2 |>.append (GR.chain (i + 1))
    have hdj : ∀ i, (((Seg.br { f with regs := regs } w c o1).regions i).map Prod.snd).Pairwise Disj :=
      fun i => (hch i).disj (Nat.le_of_lt hm) hp0
    have hmb : ∀ addr io M, Fair addr io M → M ≤ l.mem → matchBar addr io 0 regs = (regions 0 f.slots regs).filterMap (hit addr io) := by
      intro addr io M hf hM
      refine matchBar_spec hf f.slots regs g1 0 ?_
      intro r hr hs
      have := (g2.mem r hr).1
      rw [hs] at this
      exact Nat.le_trans hM this
    have hcw : ∀ x ∈ Seg.regions 0 c, ∀ a io, x.2.holds a io → w.window a io = true := by
      intro x hx a io ⟨q1, q2, q3⟩
      rw [hwin]
      obtain ⟨e1, e2, _⟩ := (GC.chain 0).mem x.2 (List.mem_map.mpr ⟨x, hx, rfl⟩)
      have e3 := Lim.le_get la2.2 x.2.sp
      cases hs : x.2.sp <;> rw [hs] at q1 e1 e2 e3 <;> simp only [Lim.get] at e1 e2 e3
      · rw [if_pos (q1.mp rfl)]; omega
      · rw [if_neg (fun h => by cases q1.mpr h)]; left; omega
      · rw [if_neg (fun h => by cases q1.mpr h)]; right; omega
    have hrw : ∀ i, ∀ x ∈ Seg.regions i o1, ∀ a io, x.2.holds a io → w.window a io = false := by
      intro i x hx a io ⟨q1, q2, q3⟩
      obtain ⟨e1, e2, _⟩ := (GR.chain i).mem x.2 (List.mem_map.mpr ⟨x, hx, rfl⟩)
      rw [← Bool.not_eq_true, hwin]
      have e3 := Lim.le_get le3 x.2.sp
      cases hs : x.2.sp <;> rw [hs] at q1 e1 e2 e3 <;> simp only [Lim.get] at e1 e2 e3
      · rw [if_pos (q1.mp rfl)]; omega
      · rw [if_neg (fun h => by cases q1.mpr h)]; omega
      · rw [if_neg (fun h => by cases q1.mpr h)]; omega
    have hsub := GC.sub
    have hsub' := GR.sub
    have hcb : ∀ x ∈ Seg.buses 0 c, w.sec < x.2 ∧ x.2 ≤ w.sub := by
      intro x hx
      have : x.2 ∈ (Seg.buses 0 c).map Prod.snd := List.mem_map.mpr ⟨x, hx, rfl⟩
      rw [GC.buses 0, List.mem_range'_1] at this
      rw [hwbus.2.1, hwbus.2.2]
      omega
    refine ⟨⟨g1, hbw, GC.ok, GR.ok⟩, hch, ⟨hwbus.1, hcw, hcb, by rw [hwbus.2.1]; exact GC.nested, GR.nested⟩, ?_, by omega, ?_, ?_, ?_⟩
    · intro i
      rw [Seg.buses, List.map_cons, List.map_append, List.map_map, GR.buses (i + 1)]
      have : (Seg.buses 0 c).map (Prod.snd ∘ fun x => (i :: x.1, x.2)) = (Seg.buses 0 c).map Prod.snd := rfl
      rw [this, GC.buses 0, hwbus.2.1]
      rw [show s' - sub = (s - (sub + 1)) + (s' - s) + 1 by omega, List.range'_succ,
        show s + 1 = sub + 1 + 1 + (s - (sub + 1)) by omega]
      congr 1
      exact List.range'_append_1 ..
    · intro i n p hmem
      rw [Seg.buses] at hmem
      rw [routeBus]
      rcases List.mem_cons.mp hmem with he | hmem
      · cases he
        rw [if_pos (by rw [hwbus.2.1, hwbus.2.2]; omega), if_pos rfl]
      · rcases List.mem_append.mp hmem with hmem | hmem
        · obtain ⟨x, hx, he⟩ := List.mem_map.mp hmem
          cases he
          have := hcb x hx
          rw [if_pos (by omega), if_neg (by omega), GC.busHit 0 x.2 x.1 hx]
          rfl
        · have hn : n ∈ (Seg.buses (i + 1) o1).map Prod.snd := List.mem_map.mpr ⟨(p, n), hmem, rfl⟩
          rw [GR.buses (i + 1), List.mem_range'_1] at hn
          rw [if_neg (by rw [hwbus.2.2]; omega)]
          exact GR.busHit (i + 1) n p hmem
    · intro addr io M hf hM i p r hmem hh
      have hd := hdj i
      rw [Seg.regions] at hmem hd
      rw [List.map_append, map_own] at hd
      obtain ⟨d1, d2, d3⟩ := List.pairwise_append.mp hd
      rw [route, hmb addr io M hf hM]
      rcases List.mem_append.mp hmem with hmem | hmem
      · obtain ⟨r', hr', he⟩ := List.mem_map.mp hmem
        cases he
        rw [filterMap_one d1 hr' hh, if_pos (by simp)]
      · rw [filterMap_none fun x hx hx2 => d3 x hx r (map_snd_mem hmem) addr io hx2 hh, if_neg (by simp)]
        rcases List.mem_append.mp hmem with hmem | hmem
        · obtain ⟨x, hx, he⟩ := List.mem_map.mp hmem
          cases he
          rw [if_pos (hcw x hx addr io hh), GC.hits addr io M hf (Nat.le_trans hM (Nat.le_trans le1.2.1 la1.2.2.1)) 0 x.1 x.2 hx hh]
          rfl
        · rw [if_neg (by rw [hrw (i + 1) (p, r) hmem addr io hh]; decide)]
          exact GR.hits addr io M hf (Nat.le_trans hM (Nat.le_trans le1.2.1 (Nat.le_trans la1.2.2.1 (Nat.le_trans le2.2.1 la2.2.2.1))))
            (i + 1) p r hmem hh
    · intro addr io M hf hM i hno
      rw [Seg.regions] at hno
      rw [route, hmb addr io M hf hM, filterMap_none fun r hr => hno ([i], r) (List.mem_append_left _ (List.mem_map.mpr ⟨r, hr, rfl⟩)),
        if_neg (by simp)]
      split
      · rw [GC.misses addr io M hf (Nat.le_trans hM (Nat.le_trans le1.2.1 la1.2.2.1)) 0 fun x hx => hno (i :: x.1, x.2)
          (List.mem_append_right _ (List.mem_append_left _ (List.mem_map.mpr ⟨x, hx, rfl⟩)))]
        rfl
      · exact GR.misses addr io M hf (Nat.le_trans hM (Nat.le_trans le1.2.1 (Nat.le_trans la1.2.2.1 (Nat.le_trans le2.2.1 la2.2.2.1))))
          (i + 1) fun x hx => hno x (List.mem_append_right _ (List.mem_append_right _ hx))

end Corundum.PcieEnum
