import Verif.Proof.PcieEnum

/-! Properties C55 (address assignment), C56 (address routing), C57 (bus numbers). -/
namespace Corundum.PcieEnum
open Corundum

theorem regsOk_fresh : ∀ (s : List Slot), (∀ x ∈ s, x.ok) → RegsOk s (s.flatMap Slot.regs) := by
  intro s
  induction s with
  | nil => intro _; trivial
  | cons sl s ih =>
    intro h
    have hs := ih fun x hx => h x (List.mem_cons_of_mem _ hx)
    have h0 := h sl List.mem_cons_self
    rw [List.flatMap_cons]
    cases sl with
    | unused => exact ⟨rfl, hs⟩
    | io k =>
      have : 1 < 2 ^ k := Nat.one_lt_two_pow (by have := h0.1; omega)
      exact ⟨h0, rfl, show 1 < 2 ^ 32 by decide, Nat.mod_eq_of_lt this, hs⟩
    | m32 k pf =>
      have := pow_split h0.1
      have h2 : 0 < 2 ^ (k - 4) := Nat.two_pow_pos _
      refine ⟨h0, rfl, ?_, ?_, hs⟩
      · show (if pf = true then 8 else 0) < _
        split <;> decide
      · show (if pf = true then 8 else 0) % 2 ^ k = _
        exact Nat.mod_eq_of_lt (by split <;> omega)
    | m64 k pf =>
      have := pow_split h0.1
      have h2 : 0 < 2 ^ (k - 4) := Nat.two_pow_pos _
      refine ⟨h0, rfl, ?_, ?_, rfl, Nat.two_pow_pos 32, hs⟩
      · show (if pf = true then 12 else 4) < _
        split <;> decide
      · show (if pf = true then 12 else 4) % 2 ^ k = _
        exact Nat.mod_eq_of_lt (by split <;> omega)

theorem segOk_fresh : ∀ (t : Seg), t.fresh → SegOk t := by
  intro t
  induction t with
  | nil => intro _; trivial
  | ep f rest ih => intro ⟨h1, h2, h3⟩; exact ⟨h2 ▸ regsOk_fresh _ h1, ih h3⟩
  | br f b c r ihc ihr => intro ⟨h1, h2, h3, h4, h5⟩; exact ⟨h2 ▸ regsOk_fresh _ h1, h3 ▸ BrOk.fresh, ihc h4, ihr h5⟩

theorem enum_shape {base : Lim} {t o : Seg} {b lim : Lim} (h : enumerate base t = some (o, b, lim)) :
    b = base ∧ ∃ l' s, enumLoop 0 t base.align 1 0 = some (o, l', s) ∧ lim = l'.align := by
  unfold enumerate at h
  cases h1 : enumLoop 0 t base.align 1 0 with
  | none => rw [h1] at h; cases h
  | some x =>
    obtain ⟨o', l', s⟩ := x
    rw [h1] at h
    cases h
    exact ⟨rfl, l', s, rfl, rfl⟩

theorem enum_good {base : Lim} {t o : Seg} {b lim : Lim} (ht : SegOk t) (h : enumerate base t = some (o, b, lim)) (hf : Fits base lim) :
    ∃ l' s, Good 0 base.align 0 o l' s ∧ l'.le lim ∧ base.le base.align := by
  obtain ⟨_, l', s, h1, rfl⟩ := enum_shape h
  have la := base.align_ok.2
  have lb := l'.align_ok.2
  exact ⟨l', s, enumLoop_spec t ht 0 base.align 0 o l' s h1 (by decide) (Nat.lt_of_lt_of_le hf.mem0 la.2.1)
    (Nat.lt_of_le_of_lt lb.2.1 hf.mem) (Nat.le_trans lb.2.2 hf.pf) (Nat.le_trans hf.pf0 la.2.2), lb, la⟩

theorem segOk_ready {t : Seg} (h : Ready t) : SegOk t := by
  induction h with
  | fresh h => exact segOk_fresh _ h
  | again _ h hf ih => obtain ⟨_, _, g, _⟩ := enum_good ih h hf; exact g.ok

/-! ### C55 -/

/-- C55: the region of every BAR of every function starts at a multiple of its size and lies within the range enumeration reports for
its address space. -/
theorem C55_in_range {base : Lim} {t o : Seg} {b lim : Lim} (ht : Ready t) (h : enumerate base t = some (o, b, lim)) (hf : Fits base lim) :
    ∀ x ∈ o.regions 0, x.2.base % x.2.size = 0 ∧ base.get x.2.sp ≤ x.2.base ∧ x.2.base + x.2.size ≤ lim.get x.2.sp := by
  obtain ⟨l', s, g, hle, la⟩ := enum_good (segOk_ready ht) h hf
  intro x hx
  obtain ⟨h1, h2, h3, _⟩ := (g.chain 0).mem x.2 (List.mem_map.mpr ⟨x, hx, rfl⟩)
  exact ⟨h3, Nat.le_trans (Lim.le_get la _) h1, Nat.le_trans h2 (Lim.le_get hle _)⟩

/-- C55: no address belongs to two BARs, whichever functions they are in. -/
theorem C55_disjoint {base : Lim} {t o : Seg} {b lim : Lim} (ht : Ready t) (h : enumerate base t = some (o, b, lim)) (hf : Fits base lim) :
    (o.regions 0).Pairwise fun x y => ∀ addr io, ¬ (x.2.holds addr io ∧ y.2.holds addr io) := by
  obtain ⟨l', s, g, hle, la⟩ := enum_good (segOk_ready ht) h hf
  have := (g.chain 0).disj (Nat.le_trans hle.2.1 (Nat.le_of_lt hf.mem)) (Nat.le_trans hf.pf0 la.2.2)
  rw [List.pairwise_map] at this
  exact this.imp fun hd addr io hh => hd addr io hh.1 hh.2

/-- C55: the windows of every bridge contain all BARs below it, its secondary to subordinate range all buses below it, and its primary
bus number is the number of its bus. -/
theorem C55_nested {base : Lim} {t o : Seg} {b lim : Lim} (ht : Ready t) (h : enumerate base t = some (o, b, lim)) (hf : Fits base lim) :
    o.nested 0 := by
  obtain ⟨l', s, g, _⟩ := enum_good (segOk_ready ht) h hf
  exact g.nested

theorem regions_length : ∀ (s : List Slot) (rs : List Reg) (i : Nat), RegsOk s rs →
    (regions i s rs).map (fun r => (r.bar, r.sp, r.size)) = (regions i s (s.flatMap Slot.regs)).map (fun r => (r.bar, r.sp, r.size)) := by
  intro s
  induction s with
  | nil => intro rs i h; cases rs; · rfl
           · exact absurd h (by simp [RegsOk])
  | cons sl s ih =>
    intro rs i h
    cases rs with
    | nil => cases sl <;> exact absurd h (by simp [RegsOk])
    | cons r rs =>
      cases sl with
      | unused => exact ih rs (i + 1) h.2
      | io k => simp only [regions, Slot.regs, List.flatMap_cons, List.cons_append, List.nil_append, List.map_cons]; rw [ih rs (i + 1) h.2.2.2.2]
      | m32 k pf => simp only [regions, Slot.regs, List.flatMap_cons, List.cons_append, List.nil_append, List.map_cons]; rw [ih rs (i + 1) h.2.2.2.2]
      | m64 k pf =>
        cases rs with
        | nil => exact absurd h (by simp [RegsOk])
        | cons r2 rs =>
          simp only [regions, Slot.regs, List.flatMap_cons, List.cons_append, List.nil_append, List.map_cons]; rw [ih rs (i + 2) h.2.2.2.2.2.2]

/-- what is known about the regions before enumeration: function, BAR number, address space, size -/
def kinds (x : List (List Nat × Rgn)) : List (List Nat × Nat × Sp × Nat) := x.map fun y => (y.1, y.2.bar, y.2.sp, y.2.size)

theorem kinds_own (i : Nat) {s : List Slot} {a b : List Reg} (ha : RegsOk s a) (hb : RegsOk s b) :
    kinds ((regions 0 s a).map fun r => ([i], r)) = kinds ((regions 0 s b).map fun r => ([i], r)) := by
  have h := (regions_length s a 0 ha).trans (regions_length s b 0 hb).symm
  have := congrArg (List.map fun y => (([i] : List Nat), y)) h
  simp only [kinds, List.map_map, Function.comp_def] at this ⊢
  exact this

theorem enumLoop_kinds : ∀ (t : Seg) (bus : Nat) (l : Lim) (sec sub : Nat) (o : Seg) (l' : Lim) (s' : Nat),
    enumLoop bus t l sec sub = some (o, l', s') → SegOk t → SegOk o → ∀ i, kinds (o.regions i) = kinds (t.regions i) := by
  intro t
  induction t with
  | nil => intro bus l sec sub o l' s' h _ _ i; rw [enumLoop] at h; cases h; rfl
  | ep f rest ih =>
    intro bus l sec sub o l' s' h hk ho i
    obtain ⟨regs, l1, o1, h1, h2, rfl⟩ := enumLoop_ep h
    have e1 := kinds_own i ho.1 hk.1
    have e2 := ih _ _ _ _ _ _ _ h2 hk.2 ho.2 (i + 1)
    rw [Seg.regions, Seg.regions, kinds, kinds, List.map_append, List.map_append]
    exact congr (congrArg _ e1) e2
  | br f b child rest ihc ihr =>
    intro bus l sec sub o l' s' h hk ho i
    obtain ⟨regs, l1, c, l2, s, o1, h1, h2, _, h3, rfl⟩ := enumLoop_br h
    have e1 := kinds_own i ho.1 hk.1
    have e2 := ihc _ _ _ _ _ _ _ h2 hk.2.2.1 ho.2.2.1 0
    have e3 := ihr _ _ _ _ _ _ _ h3 hk.2.2.2 ho.2.2.2 (i + 1)
    have e2' := congrArg (List.map fun y => (i :: y.1, y.2)) e2
    simp only [kinds, List.map_map, Function.comp_def] at e2'
    rw [Seg.regions, Seg.regions, kinds, kinds, List.map_append, List.map_append, List.map_append, List.map_append]
    refine congr (congrArg _ e1) (congr (congrArg _ ?_) e3)
    rw [List.map_map, List.map_map]
    exact e2'

/-- C55: enumeration gives every BAR the functions have a region of the size it was configured with, in the address space it was
configured for. -/
theorem C55_complete {base : Lim} {t o : Seg} {b lim : Lim} (ht : Ready t) (h : enumerate base t = some (o, b, lim)) (hf : Fits base lim) :
    kinds (o.regions 0) = kinds (t.regions 0) := by
  obtain ⟨l', s, g, _⟩ := enum_good (segOk_ready ht) h hf
  obtain ⟨_, l'', s', h1, _⟩ := enum_shape h
  exact enumLoop_kinds _ _ _ _ _ _ _ _ h1 (segOk_ready ht) g.ok 0

theorem andNot_range {a k n : Nat} (h : a ≤ k) (hk : k ≤ n) : andNot (2 ^ n - 2 ^ a) (2 ^ k - 1) = 2 ^ n - 2 ^ k := by
  apply ext_lt
  intro i
  rw [andNot_bit, tb_range (by omega), tb_range hk, tb_low]
  by_cases h1 : i < k
  · rw [decide_eq_true h1, decide_eq_false (by omega : ¬ (k ≤ i ∧ i < n))]; simp
  · rw [decide_eq_false h1, Bool.not_false, Bool.and_true]
    by_cases h2 : i < n
    · rw [decide_eq_true (by omega), decide_eq_true (by omega)]
    · rw [decide_eq_false (by omega), decide_eq_false (by omega)]

/-- C55: `configure_bar` with a size of `2 ^ k` bytes sets up the registers the other theorems start from. -/
theorem C55_configure (pre post : List Reg) (r r2 : Reg) (k : Nat) (pf : Bool) :
    (Slot.ok (.io k) → configureBar (pre ++ r :: post) pre.length k false pf true = some (pre ++ Slot.regs (.io k) ++ post)) ∧
    (Slot.ok (.m32 k pf) → configureBar (pre ++ r :: post) pre.length k false pf false = some (pre ++ Slot.regs (.m32 k pf) ++ post)) ∧
    (Slot.ok (.m64 k pf) →
      configureBar (pre ++ r :: r2 :: post) pre.length k true pf false = some (pre ++ Slot.regs (.m64 k pf) ++ post)) := by
  refine ⟨?_, ?_, ?_⟩
  · rintro ⟨h1, h2⟩
    unfold configureBar
    rw [if_neg (by simp), if_pos rfl, show (0xfffffffc : Nat) = 2 ^ 32 - 2 ^ 2 from rfl, andNot_range h1 (by omega)]
    simp [Slot.regs]
  · rintro ⟨h1, h2⟩
    unfold configureBar
    rw [if_neg (by simp), if_neg (by decide), show (0xfffffff0 : Nat) = 2 ^ 32 - 2 ^ 4 from rfl, andNot_range h1 (by omega)]
    cases pf <;> simp [Slot.regs]
  · rintro ⟨h1, h2⟩
    unfold configureBar
    have e : 0xffffffff &&& (andNot 0xffffffffffffffff (2 ^ k - 1) >>> 32) = 2 ^ 32 - 1 := by
      rw [show (0xffffffffffffffff : Nat) = 2 ^ 64 - 2 ^ 0 from rfl, andNot_range (Nat.zero_le _) (by omega), Nat.shiftRight_eq_div_pow]
      have := pow_le_31 h2
      have hp := Nat.two_pow_pos k
      rw [show (2 ^ 64 - 2 ^ k) / 2 ^ 32 = 0xffffffff by omega]
      decide
    rw [if_neg (by simp), if_neg (by decide), show (0xfffffff0 : Nat) = 2 ^ 32 - 2 ^ 4 from rfl, andNot_range h1 (by omega), e]
    cases pf <;> simp [Slot.regs]

/-! ### C56 -/

theorem fair_of {base lim : Lim} (hf : Fits base lim) (hal : base.pf % 2 ^ 32 + (lim.pf - base.pf) < base.mem) {addr : Nat} {io : Bool}
    (h : if io = true then addr < 2 ^ 32 else addr ≤ lim.mem ∨ (base.pf ≤ addr ∧ addr ≤ lim.pf ∧ addr < 2 ^ 64)) : Fair addr io base.mem := by
  have h1 := hf.mem
  have h2 := hf.pf
  cases io with
  | true =>
    have h : addr < 2 ^ 32 := h
    exact ⟨by omega, Or.inl h⟩
  | false =>
    rcases h with h | ⟨h3, h4, h5⟩
    · exact ⟨by omega, Or.inl (by omega)⟩
    · exact ⟨h5, if h6 : addr < 2 ^ 32 then Or.inl h6 else Or.inr ⟨rfl, by omega⟩⟩

/-- C56: a memory or IO request of the root complex to any address of any BAR is delivered to the function that has the BAR, which
decodes it as that BAR alone and the offset from its base.  Assumed: less prefetchable space in use than the memory base leaves below
it (2 GB by default) - see the counterexamples. -/
theorem C56_delivered_partial {base : Lim} {t o : Seg} {b lim : Lim} (ht : Ready t) (h : enumerate base t = some (o, b, lim))
    (hf : Fits base lim) (hal : base.pf % 2 ^ 32 + (lim.pf - base.pf) < base.mem) {p : List Nat} {r : Rgn} (hr : (p, r) ∈ o.regions 0)
    {addr : Nat} {io : Bool} (hh : r.holds addr io) : routeRoot addr io (o, b, lim) = some (p, [(r.bar, addr - r.base)]) := by
  obtain ⟨l', s, g, hle, la⟩ := enum_good (segOk_ready ht) h hf
  obtain ⟨rfl, -⟩ := enum_shape h
  obtain ⟨e1, e2, _⟩ := (g.chain 0).mem r (map_snd_mem hr)
  have f1 := Nat.le_trans (Lim.le_get la r.sp) e1
  have f2 := Nat.le_trans e2 (Lim.le_get hle r.sp)
  obtain ⟨q1, q2, q3⟩ := hh
  have b1 := hf.io
  have b2 := hf.mem
  have b3 := hf.pf
  have hwin : (⟨0, 0, 255, b.io, lim.io, b.mem, lim.mem, b.pf, lim.pf⟩ : Br).window addr io = true ∧ Fair addr io b.mem := by
    cases hs : r.sp <;> rw [hs] at q1 f1 f2 <;> simp only [Lim.get] at f1 f2
    · have hio := q1.mp rfl
      subst hio
      refine ⟨?_, fair_of hf hal (by simp only [if_true]; omega)⟩
      simp only [Br.window, if_true, Bool.and_eq_true, decide_eq_true_eq]
      omega
    · have hio : io = false := by cases io; rfl; cases q1.mpr rfl
      subst hio
      refine ⟨?_, fair_of hf hal (by simp only [Bool.false_eq_true, if_false]; left; omega)⟩
      simp only [Br.window, Bool.false_eq_true, if_false, Bool.or_eq_true, Bool.and_eq_true, decide_eq_true_eq]
      omega
    · have hio : io = false := by cases io; rfl; cases q1.mpr rfl
      subst hio
      refine ⟨?_, fair_of hf hal (by simp only [Bool.false_eq_true, if_false]; right; omega)⟩
      simp only [Br.window, Bool.false_eq_true, if_false, Bool.or_eq_true, Bool.and_eq_true, decide_eq_true_eq]
      omega
  rw [routeRoot, if_pos hwin.1]
  exact g.hits addr io b.mem hwin.2 la.2.1 0 p r hr ⟨q1, q2, q3⟩

/-- C56: a request to an address in no BAR is delivered to no function.  (IO addresses have 32 bits, memory addresses 64.) -/
theorem C56_unclaimed_partial {base : Lim} {t o : Seg} {b lim : Lim} (ht : Ready t) (h : enumerate base t = some (o, b, lim))
    (hf : Fits base lim) (hal : base.pf % 2 ^ 32 + (lim.pf - base.pf) < base.mem) {addr : Nat} {io : Bool}
    (ha : addr < if io = true then 2 ^ 32 else 2 ^ 64) (hno : ∀ x ∈ o.regions 0, ¬ x.2.holds addr io) :
    routeRoot addr io (o, b, lim) = none := by
  obtain ⟨l', s, g, hle, la⟩ := enum_good (segOk_ready ht) h hf
  obtain ⟨rfl, -⟩ := enum_shape h
  rw [routeRoot]
  split
  · rename_i hw
    refine g.misses addr io b.mem (fair_of hf hal ?_) la.2.1 0 hno
    cases io with
    | true => exact ha
    | false =>
      simp only [Br.window, Bool.false_eq_true, if_false, Bool.or_eq_true, Bool.and_eq_true, decide_eq_true_eq] at hw ha ⊢
      omega
  · rfl

/-- the default address ranges of the root complex (pcie.py:3233-3238) -/
def defaults : Lim := ⟨0x80000000, 0x80000000, 0x8000000000000000⟩

/-- a function with its BARs configured -/
def fn (s : List Slot) : Fn := ⟨s, s.flatMap Slot.regs⟩

/-- C56 fails for a 64-bit BAR of 4 GB: `configure_bar` leaves a mask of 0 in the lower register, which `match_bar` takes for an
unimplemented BAR (and then reads the upper register as a 32-bit BAR): a request to the base address enumeration assigned reaches no
function. -/
theorem C56_big_counterexample :
    let regs := (configureBar [{}, {}, {}, {}, {}, {}] 0 32 true true false).get!
    ∃ o b lim, enumerate defaults (.ep ⟨[], regs⟩ .nil) = some (o, b, lim) ∧
      o = .ep ⟨[], [⟨0xc, 0⟩, ⟨0x80000000, 0xffffffff⟩, {}, {}, {}, {}]⟩ .nil ∧ lim.pf = 0x8000000000000000 + 2 ^ 32 ∧
      routeRoot 0x8000000000000000 false (o, b, lim) = none := by
  refine ⟨_, _, _, rfl, ?_, ?_, ?_⟩ <;> decide

/-- C56 fails with 2 GB or more of prefetchable BARs: a 32-bit BAR compares only the low 32 address bits, so a request to a 64-bit BAR
whose low bits coincide goes to the wrong function (here the first instead of the second). -/
theorem C56_alias_counterexample :
    let t := Seg.ep (fn [.m32 12 false]) (.ep (fn [.m64 31 true, .m64 31 true]) .nil)
    ∃ o b lim, t.fresh ∧ enumerate defaults t = some (o, b, lim) ∧ Fits defaults lim ∧
      (([1], ⟨2, .pf, 0x8000000080000000, 2 ^ 31⟩) : List Nat × Rgn) ∈ o.regions 0 ∧
      routeRoot 0x8000000080000010 false (o, b, lim) = some ([0], [(0, 0x8000000000000010)]) := by
  refine ⟨_, _, _, ?_, rfl, ?_, ?_, ?_⟩
  · refine ⟨?_, rfl, ?_, rfl, trivial⟩ <;> intro x hx <;> simp [fn] at hx <;> subst hx <;> simp [Slot.ok]
  all_goals decide

/-- C55/C56: a root port leading to a switch with two ports, an endpoint with IO, 32-bit and 64-bit BARs behind each. -/
def sample : Seg :=
  .br (fn [.unused, .unused]) {} (.br (fn [.m32 12 false, .unused]) {}
      (.br (fn [.unused, .unused]) {} (.ep (fn [.m32 24 false, .m64 22 true, .io 5]) .nil)
        (.br (fn [.unused, .unused]) {} (.ep (fn [.m64 24 true, .m32 16 false]) (.ep (fn [.m64 20 false]) .nil)) .nil)) .nil)
    .nil

theorem sample_fresh : sample.fresh := by
  simp [sample, Seg.fresh, fn, Slot.ok]

example : ∃ o b lim, enumerate defaults sample = some (o, b, lim) ∧ Fits defaults lim ∧
    defaults.pf % 2 ^ 32 + (lim.pf - defaults.pf) < defaults.mem ∧ (o.regions 0).length = 7 ∧
    (([0, 0, 1, 0], ⟨2, .mem, 0x82000000, 2 ^ 16⟩) : List Nat × Rgn) ∈ o.regions 0 ∧
    routeRoot 0x82000123 false (o, b, lim) = some ([0, 0, 1, 0], [(2, 0x123)]) ∧ (o.buses 0).map Prod.snd = [1, 2, 3, 4] := by
  refine ⟨_, _, _, rfl, ?_, ?_, ?_, ?_, ?_, ?_⟩ <;> decide

/-! ### C57 -/

/-- C57: the buses are numbered 1, 2, 3, ... in depth first order. -/
theorem C57_numbers {base : Lim} {t o : Seg} {b lim : Lim} (ht : Ready t) (h : enumerate base t = some (o, b, lim)) (hf : Fits base lim) :
    (o.buses 0).map Prod.snd = List.range' 1 (o.buses 0).length := by
  obtain ⟨l', s, g, _⟩ := enum_good (segOk_ready ht) h hf
  have := g.buses 0
  have hl := congrArg List.length this
  rw [List.length_map, List.length_range'] at hl
  rw [this, hl]

theorem routeBus_mem {n : Nat} : ∀ (t : Seg) (i : Nat) (p : List Nat), routeBus n i t = some p → (p, n) ∈ t.buses i := by
  intro t
  induction t with
  | nil => intro i p h; cases h
  | ep f rest ih => intro i p h; exact ih (i + 1) p h
  | br f b c rest ihc ihr =>
    intro i p h
    rw [routeBus] at h
    rw [Seg.buses]
    split at h
    · split at h
      · rename_i he; cases h; rw [he]; exact List.mem_cons_self
      · cases hc : routeBus n 0 c with
        | none => rw [hc] at h; cases h
        | some q =>
          rw [hc] at h
          cases h
          exact List.mem_cons_of_mem _ (List.mem_append_left _ (List.mem_map.mpr ⟨(q, n), ihc 0 q hc, rfl⟩))
    · exact List.mem_cons_of_mem _ (List.mem_append_right _ (ihr (i + 1) p h))

/-- C57: a configuration request or completion for bus `n` travels through the bridges that lead to bus `n`, and to no bus when there is
none of that number. -/
theorem C57_routed {base : Lim} {t o : Seg} {b lim : Lim} (ht : Ready t) (h : enumerate base t = some (o, b, lim)) (hf : Fits base lim)
    (n : Nat) (p : List Nat) : routeBus n 0 o = some p ↔ (p, n) ∈ o.buses 0 := by
  obtain ⟨l', s, g, _⟩ := enum_good (segOk_ready ht) h hf
  exact ⟨routeBus_mem o 0 p, g.busHit 0 n p⟩

end Corundum.PcieEnum
