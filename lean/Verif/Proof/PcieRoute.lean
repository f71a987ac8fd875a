import Verif.Spec.PcieRoute
import Verif.Proof.PcieEnum

/-! Routing towards a function that is the only taker, and that exactly the bridges above it pass. -/
namespace Corundum.PcieRoute
open Corundum.PcieEnum

abbrev Lab := List Nat → Nat × Nat

/-- nobody takes the packet, no bridge passes it -/
def Clear (k : Pkt) (bus : Nat) : Lab → Nat → Seg → Prop
  | _, _, .nil => True
  | lab, i, .ep f rest => own lab k [i] bus f = false ∧ Clear k bus lab (i + 1) rest
  | lab, i, .br f b c rest => own lab k [i] bus f = false ∧ pass k b = false ∧ Clear k b.sec (fun p => lab (i :: p)) 0 c ∧
      Clear k bus lab (i + 1) rest

/-- only the function at `q` takes the packet, exactly the bridges above it pass it -/
def Aim (k : Pkt) (bus : Nat) : Lab → Nat → Seg → List Nat → Prop
  | _, _, .nil, _ => False
  | lab, i, .ep f rest, q => (q = [i] ∧ own lab k [i] bus f = true ∧ Clear k bus lab (i + 1) rest) ∨
      (own lab k [i] bus f = false ∧ Aim k bus lab (i + 1) rest q)
  | lab, i, .br f b c rest, q =>
      (q = [i] ∧ own lab k [i] bus f = true ∧ pass k b = false ∧ Clear k b.sec (fun p => lab (i :: p)) 0 c ∧ Clear k bus lab (i + 1) rest) ∨
      (∃ r, q = i :: r ∧ own lab k [i] bus f = false ∧ pass k b = true ∧ Aim k b.sec (fun p => lab (i :: p)) 0 c r ∧
        Clear k bus lab (i + 1) rest) ∨
      (own lab k [i] bus f = false ∧ pass k b = false ∧ Clear k b.sec (fun p => lab (i :: p)) 0 c ∧ Aim k bus lab (i + 1) rest q)

/-- not a message -/
def Pkt.plain : Pkt → Bool
  | .msg _ _ => false
  | _ => true

theorem sel_plain {k : Pkt} (h : k.plain = true) (link : Bool) (b : Br) : sel k link b = pass k b := by
  cases k with
  | msg r d => cases h
  | cpl r => rfl
  | req a io => rfl

theorem aim_head {k : Pkt} : ∀ (o : Seg) (bus : Nat) (lab : Lab) (i : Nat) (q : List Nat), Aim k bus lab i o q →
    ∃ j r, q = j :: r ∧ i ≤ j := by
  intro o
  induction o with
  | nil => intro bus lab i q h; exact h.elim
  | ep f rest ih =>
    intro bus lab i q h
    rcases h with ⟨rfl, _⟩ | ⟨_, h⟩
    · exact ⟨i, [], rfl, Nat.le_refl _⟩
    · obtain ⟨j, r, h1, h2⟩ := ih _ _ _ _ h; exact ⟨j, r, h1, by omega⟩
  | br f b c rest ihc ihr =>
    intro bus lab i q h
    rcases h with ⟨rfl, _⟩ | ⟨r, rfl, _⟩ | ⟨_, _, _, h⟩
    · exact ⟨i, [], rfl, Nat.le_refl _⟩
    · exact ⟨i, r, rfl, Nat.le_refl _⟩
    · obtain ⟨j, r, h1, h2⟩ := ihr _ _ _ _ h; exact ⟨j, r, h1, by omega⟩

theorem down_aim {k : Pkt} (hk : k.plain = true) : ∀ (o : Seg) (bus : Nat) (lab : Lab) (link : Bool) (i : Nat) (q : List Nat),
    Aim k bus lab i o q → down lab k link bus i o = .got q := by
  intro o
  induction o with
  | nil => intro bus lab link i q h; exact h.elim
  | ep f rest ih =>
    intro bus lab link i q h
    rw [down]
    rcases h with ⟨rfl, h1, _⟩ | ⟨h1, h⟩
    · rw [h1]; rfl
    · rw [h1]; exact ih _ _ _ _ _ h
  | br f b c rest ihc ihr =>
    intro bus lab link i q h
    rw [down, sel_plain hk]
    rcases h with ⟨rfl, h1, _⟩ | ⟨r, rfl, h1, h2, h, _⟩ | ⟨h1, h2, _, h⟩
    · rw [h1]; rfl
    · rw [h1, h2, ihc _ _ _ _ _ h]; rfl
    · rw [h1, h2]; exact ihr _ _ _ _ _ h

theorem down_clear {k : Pkt} (hk : k.plain = true) : ∀ (o : Seg) (bus : Nat) (lab : Lab) (link : Bool) (i : Nat),
    Clear k bus lab i o → down lab k link bus i o = .lost [] false := by
  intro o
  induction o with
  | nil => intro bus lab link i h; rfl
  | ep f rest ih =>
    intro bus lab link i h
    rw [down, h.1]; exact ih _ _ _ _ h.2
  | br f b c rest ihc ihr =>
    intro bus lab link i h
    rw [down, sel_plain hk, h.1, h.2.1]; exact ihr _ _ _ _ h.2.2.2

theorem up_clear {k : Pkt} : ∀ (o : Seg) (bus : Nat) (lab : Lab) (link : Bool) (i : Nat) (p : List Nat),
    Clear k bus lab i o → up lab k link bus i o p = none := by
  intro o
  induction o with
  | nil => intro bus lab link i p h; cases p <;> rfl
  | ep f rest ih => intro bus lab link i p h; rw [up]; exact ih _ _ _ _ _ h.2
  | br f b c rest ihc ihr =>
    intro bus lab link i p h
    cases p with
    | nil => rfl
    | cons j p =>
      rw [up]
      split
      · rw [ihc _ _ _ _ _ h.2.2.1, h.1, h.2.1]; rfl
      · exact ihr _ _ _ _ _ h.2.2.2

/-- a packet on its way up from below position `j` leaves the bus unless it is for something at or below position `j` -/
theorem up_aim {k : Pkt} (hk : k.plain = true) : ∀ (o : Seg) (bus : Nat) (lab : Lab) (link : Bool) (i : Nat) (q p : List Nat),
    Aim k bus lab i o q → up lab k link bus i o p = none ∨ up lab k link bus i o p = some (.got q) := by
  intro o
  induction o with
  | nil => intro bus lab link i q p h; exact h.elim
  | ep f rest ih =>
    intro bus lab link i q p h
    rw [up]
    rcases h with ⟨rfl, h1, h⟩ | ⟨h1, h⟩
    · exact Or.inl (up_clear _ _ _ _ _ _ h)
    · exact ih _ _ _ _ _ _ h
  | br f b c rest ihc ihr =>
    intro bus lab link i q p h
    cases p with
    | nil => exact Or.inl rfl
    | cons j p =>
      rw [up]
      split
      · rcases h with ⟨rfl, h1, h2, h3, _⟩ | ⟨r, rfl, h1, h2, h, _⟩ | ⟨h1, h2, h3, h⟩
        · rw [up_clear _ _ _ _ _ _ h3, h1]; exact Or.inr rfl
        · rcases ihc _ _ (!link) _ _ p h with e | e
          · rw [e, h1, h2, down_aim hk _ _ _ _ _ _ h]; exact Or.inr rfl
          · rw [e]; exact Or.inr rfl
        · rw [up_clear _ _ _ _ _ _ h3, h1, h2]; exact Or.inl rfl
      · rcases h with ⟨rfl, h1, h2, h3, h⟩ | ⟨r, rfl, h1, h2, _, h⟩ | ⟨h1, h2, h3, h⟩
        · exact Or.inl (up_clear _ _ _ _ _ _ h)
        · exact Or.inl (up_clear _ _ _ _ _ _ h)
        · exact ihr _ _ _ _ _ _ h

/-! ### the layout enumeration leaves -/

/-- addresses between two limits -/
def rng (l l' : Lim) (a : Nat) (io : Bool) : Prop :=
  if io = true then l.io ≤ a ∧ a < l'.io else (l.mem ≤ a ∧ a < l'.mem) ∨ (l.pf ≤ a ∧ a < l'.pf)

/-- addresses from `l` to `l'` and bus numbers above `sub` up to `s` are given out in order -/
def Lay (bus : Nat) : Lim → Nat → Seg → Lim → Nat → Prop
  | l, sub, .nil, l', s => l = l' ∧ s = sub
  | l, sub, .ep f rest, l', s => ∃ l1, RegsOk f.slots f.regs ∧ Chain l (regions 0 f.slots f.regs) l1 ∧ Lay bus l1 sub rest l' s
  | l, sub, .br f w c rest, l', s => ∃ l1 lo l2 hi t, RegsOk f.slots f.regs ∧ Chain l (regions 0 f.slots f.regs) l1 ∧ l1.le lo ∧
      w.sec = sub + 1 ∧ w.sub = t ∧ sub + 1 ≤ t ∧ (∀ a io, w.window a io = true ↔ rng lo hi a io) ∧ Lay (sub + 1) lo (sub + 1) c l2 t ∧
      (l2.le hi ∧ lo = l1.align ∧ hi = l2.align ∧ ((∀ x ∈ f.slots, x = .unused) → l1 = l)) ∧ Lay bus hi t rest l' s

theorem enumBars_unused : ∀ (s : List Slot), (∀ x ∈ s, x = .unused) → ∀ (rs : List Reg), RegsOk s rs → ∀ (l : Lim) o l',
    enumBars rs l = some (o, l') → l' = l := by
  intro s
  induction s with
  | nil =>
    intro _ rs hk l o l' h
    cases rs with
    | nil => rw [enumBars.eq_def] at h; cases h; rfl
    | cons r rs => exact absurd hk (by simp [RegsOk])
  | cons x s ih =>
    intro hu rs hk l o l' h
    cases hu x List.mem_cons_self
    cases rs with
    | nil => exact absurd hk (by simp [RegsOk])
    | cons r rs =>
      obtain ⟨rfl, hk⟩ := hk
      rw [enumBars.eq_def] at h
      have e : ((⟨0, 0⟩ : Reg).write 0xffffffff).val = 0 := by decide
      simp only [e, if_true] at h
      cases h1 : enumBars rs l with
      | none => rw [h1] at h; cases h
      | some y =>
        rw [h1] at h
        cases h
        exact ih (fun x hx => hu x (List.mem_cons_of_mem _ hx)) rs hk l y.1 y.2 h1

theorem enumLoop_lay : ∀ (t : Seg), SegOk t → ∀ (bus : Nat) (l : Lim) (sub : Nat) (o : Seg) (l' : Lim) (s' : Nat),
    enumLoop bus t l (sub + 1) sub = some (o, l', s') → bus < 256 → 0 < l.mem → l'.mem < 2 ^ 32 → l'.pf ≤ 2 ^ 64 → 2 ^ 32 ≤ l.pf →
    Lay bus l sub o l' s' ∧ sub ≤ s' := by
  intro t
  induction t with
  | nil =>
    intro _ bus l sub o l' s' h _ _ _ _ _
    rw [enumLoop] at h
    cases h
    exact ⟨⟨rfl, rfl⟩, Nat.le_refl _⟩
  | ep f rest ih =>
    intro ⟨hok, hok'⟩ bus l sub o l' s' h hb h0 hm hp hp0
    obtain ⟨regs, l1, o1, h1, h2, rfl⟩ := enumLoop_ep h
    have le2 := enumLoop_le _ _ _ _ _ _ _ _ h2
    have le1 := enumBars_le _ _ (Nat.le_refl _) _ _ _ h1
    obtain ⟨g1, g2⟩ := enumBars_spec f.slots f.regs hok 0 l regs l1 h1 (Nat.le_trans le2.2.1 (Nat.le_of_lt hm)) (Nat.le_trans le2.2.2 hp)
    have G := ih hok' bus l1 sub o1 l' s' h2 hb (Nat.lt_of_lt_of_le h0 le1.2.1) hm hp (Nat.le_trans hp0 le1.2.2)
    exact ⟨⟨l1, g1, g2, G.1⟩, G.2⟩
  | br f b child rest ihc ihr =>
    intro ⟨hok, hbr, hokc, hokr⟩ bus l sub o l' s' h hb h0 hm hp hp0
    obtain ⟨regs, l1, c, l2, s, o1, h1, h2, hfit, h3, rfl⟩ := enumLoop_br h
    have le1 := enumBars_le _ _ (Nat.le_refl _) _ _ _ h1
    have la1 := l1.align_ok
    have le2 := enumLoop_le _ _ _ _ _ _ _ _ h2
    have la2 := l2.align_ok
    have le3 := enumLoop_le _ _ _ _ _ _ _ _ h3
    simp only [fits, Bool.and_eq_true, decide_eq_true_eq] at hfit
    obtain ⟨⟨⟨⟨⟨⟨⟨f1, f2⟩, f3⟩, f4⟩, f5⟩, f6⟩, f7⟩, f8⟩ := hfit
    have hmhi : l2.align.mem < 2 ^ 32 := Nat.lt_of_le_of_lt le3.2.1 hm
    have hm2 : l2.mem < 2 ^ 32 := Nat.lt_of_le_of_lt la2.2.2.1 hmhi
    have hp2 : l2.pf ≤ 2 ^ 64 := Nat.le_trans la2.2.2.2 f6
    have hmlo : l1.align.mem < 2 ^ 32 := Nat.lt_of_le_of_lt le2.2.1 hm2
    have hm1 : l1.mem ≤ 2 ^ 32 := Nat.le_trans la1.2.2.1 (Nat.le_of_lt hmlo)
    have hp1 : l1.pf ≤ 2 ^ 64 := Nat.le_trans la1.2.2.2 (Nat.le_of_lt f4)
    obtain ⟨g1, g2⟩ := enumBars_spec f.slots f.regs hok 0 l regs l1 h1 hm1 hp1
    have h01 : 0 < l1.align.mem := Nat.lt_of_lt_of_le h0 (Nat.le_trans le1.2.1 la1.2.2.1)
    have hp01 : 2 ^ 32 ≤ l1.align.pf := Nat.le_trans hp0 (Nat.le_trans le1.2.2 la1.2.2.2)
    have GC := ihc hokc (sub + 1) l1.align (sub + 1) c l2 s h2 f7 h01 hm2 hp2 hp01
    have h02 : 0 < l2.align.mem := Nat.lt_of_lt_of_le h01 (Nat.le_trans le2.2.1 la2.2.2.1)
    have hp02 : 2 ^ 32 ≤ l2.align.pf := Nat.le_trans hp01 (Nat.le_trans le2.2.2 la2.2.2.2)
    have GR := ihr hokr bus l2.align s o1 l' s' h3 hb h02 hm hp hp02
    have hbus : (b.setBus bus (sub + 1) 255).setBus bus (sub + 1) s = { b with pri := bus, sec := sub + 1, sub := s } := by
      rw [setBus_spec hbr hb f7 (by decide)]
      have hb2 : BrOk { b with pri := bus, sec := sub + 1, sub := 255 } :=
        ⟨hbr.ioBase, hbr.ioLimit, hbr.memBase, hbr.memLimit, hbr.pfBase, hbr.pfLimit, hb, f7, show 255 < 256 by decide⟩
      rw [setBus_spec hb2 hb f7 f8]
    have hb3 : BrOk { b with pri := bus, sec := sub + 1, sub := s } :=
      ⟨hbr.ioBase, hbr.ioLimit, hbr.memBase, hbr.memLimit, hbr.pfBase, hbr.pfLimit, hb, f7, f8⟩
    rw [hbus, setWindows_spec hb3 la1.1 la2.1 f1 f2 f3 hmlo h02 (Nat.le_of_lt hmhi) f4 f5 f6]
    refine ⟨⟨l1, l1.align, l2, l2.align, s, g1, g2, la1.2, rfl, rfl, GC.2, ?_, GC.1, ⟨la2.2, rfl, rfl, ?_⟩, GR.1⟩, by omega⟩
    rotate_left
    · exact fun hu => enumBars_unused f.slots hu f.regs hok l regs l1 h1
    intro a io
    cases io
    · simp only [Br.window, rng, Bool.false_eq_true, if_false, Bool.or_eq_true, Bool.and_eq_true, decide_eq_true_eq]
      constructor <;> intro h <;> omega
    · simp only [Br.window, rng, if_true, Bool.and_eq_true, decide_eq_true_eq]
      constructor <;> intro h <;> omega

/-! ### routing by ID -/

theorem lay_sub : ∀ (o : Seg) (bus : Nat) (l : Lim) (sub : Nat) (l' : Lim) (s : Nat), Lay bus l sub o l' s → sub ≤ s := by
  intro o
  induction o with
  | nil => intro bus l sub l' s h; exact Nat.le_of_eq h.2.symm
  | ep f rest ih => intro bus l sub l' s ⟨l1, _, _, h⟩; exact ih _ _ _ _ _ h
  | br f w c rest ihc ihr =>
    intro bus l sub l' s ⟨l1, lo, l2, hi, t, _, _, _, _, _, h1, _, _, _, h⟩
    have := ihr _ _ _ _ _ h
    omega

/-- the bus numbers of the functions -/
theorem fns_bus : ∀ (o : Seg) (bus : Nat) (l : Lim) (sub : Nat) (l' : Lim) (s i : Nat), Lay bus l sub o l' s →
    ∀ x ∈ fns bus i o, (x.2 = bus ∧ ∃ j, x.1 = [j] ∧ i ≤ j) ∨ (sub < x.2 ∧ x.2 ≤ s ∧ ∃ j r, x.1 = j :: r ∧ i ≤ j) := by
  intro o
  induction o with
  | nil => intro bus l sub l' s i h x hx; cases hx
  | ep f rest ih =>
    intro bus l sub l' s i ⟨l1, _, _, h⟩ x hx
    rcases List.mem_cons.1 hx with rfl | hx
    · exact Or.inl ⟨rfl, i, rfl, Nat.le_refl _⟩
    · rcases ih _ _ _ _ _ (i + 1) h x hx with ⟨h1, j, h2, h3⟩ | ⟨h1, h2, j, r, h3, h4⟩
      · exact Or.inl ⟨h1, j, h2, by omega⟩
      · exact Or.inr ⟨h1, h2, j, r, h3, by omega⟩
  | br f w c rest ihc ihr =>
    intro bus l sub l' s i ⟨l1, lo, l2, hi, t, _, _, _, w1, w2, w3, _, hc, _, h⟩ x hx
    have hs := lay_sub _ _ _ _ _ _ h
    rcases List.mem_cons.1 hx with rfl | hx
    · exact Or.inl ⟨rfl, i, rfl, Nat.le_refl _⟩
    · rcases List.mem_append.1 hx with hx | hx
      · obtain ⟨y, hy, rfl⟩ := List.mem_map.1 hx
        rw [w1] at hy
        rcases ihc _ _ _ _ _ 0 hc y hy with ⟨h1, j, h2, h3⟩ | ⟨h1, h2, j, r, h3, h4⟩
        · exact Or.inr ⟨by show sub < y.2; omega, by show y.2 ≤ s; omega, i, y.1, rfl, Nat.le_refl _⟩
        · exact Or.inr ⟨by show sub < y.2; omega, by show y.2 ≤ s; omega, i, y.1, rfl, Nat.le_refl _⟩
      · rcases ihr _ _ _ _ _ (i + 1) h x hx with ⟨h1, j, h2, h3⟩ | ⟨h1, h2, j, r, h3, h4⟩
        · exact Or.inl ⟨h1, j, h2, by omega⟩
        · exact Or.inr ⟨by omega, h2, j, r, h3, by omega⟩

theorem clear_id {r : Id} : ∀ (o : Seg) (bus : Nat) (l : Lim) (sub : Nat) (l' : Lim) (s i : Nat) (lab : Lab), Lay bus l sub o l' s →
    (∀ x ∈ fns bus i o, ident lab x ≠ r) → ¬ (sub < r.1 ∧ r.1 ≤ s) → Clear (.cpl r) bus lab i o := by
  intro o
  induction o with
  | nil => intro bus l sub l' s i lab _ _ _; trivial
  | ep f rest ih =>
    intro bus l sub l' s i lab ⟨l1, _, _, h⟩ hn hr
    refine ⟨?_, ih _ _ _ _ _ _ _ h (fun x hx => hn x (List.mem_cons_of_mem _ hx)) hr⟩
    have := hn _ List.mem_cons_self
    simp only [own, decide_eq_false_iff_not]
    exact fun e => this e.symm
  | br f w c rest ihc ihr =>
    intro bus l sub l' s i lab ⟨l1, lo, l2, hi, t, _, _, _, w1, w2, w3, _, hc, _, h⟩ hn hr
    have hs := lay_sub _ _ _ _ _ _ h
    refine ⟨?_, ?_, ?_, ihr _ _ _ _ _ _ _ h (fun x hx => hn x (List.mem_cons_of_mem _ (List.mem_append_right _ hx))) (by omega)⟩
    · have := hn _ List.mem_cons_self
      simp only [own, decide_eq_false_iff_not]
      exact fun e => this e.symm
    · rw [pass, w1, w2, ← Bool.not_eq_true, Bool.and_eq_true, decide_eq_true_eq, decide_eq_true_eq]
      omega
    · rw [w1]
      refine ihc _ _ _ _ _ _ _ hc (fun x hx => ?_) (by omega)
      have := hn (i :: x.1, x.2) (List.mem_cons_of_mem _ (List.mem_append_left _ (List.mem_map.2 ⟨x, by rw [w1]; exact hx, rfl⟩)))
      exact this

/-- functions on one bus have different device and function numbers -/
def Inj (lab : Lab) (bus i : Nat) (o : Seg) : Prop :=
  ∀ x ∈ fns bus i o, ∀ y ∈ fns bus i o, x.1.dropLast = y.1.dropLast → lab x.1 = lab y.1 → x.1 = y.1

theorem aim_id : ∀ (o : Seg) (bus : Nat) (l : Lim) (sub : Nat) (l' : Lim) (s i : Nat) (lab : Lab), Lay bus l sub o l' s → bus ≤ sub →
    Inj lab bus i o → ∀ q n, (q, n) ∈ fns bus i o → Aim (.cpl (n, lab q)) bus lab i o q := by
  intro o
  induction o with
  | nil => intro bus l sub l' s i lab _ _ _ q n h; cases h
  | ep f rest ih =>
    intro bus l sub l' s i lab ⟨l1, _, _, h⟩ hb hj q n hq
    have hj' : Inj lab bus (i + 1) rest := fun x hx y hy => hj x (List.mem_cons_of_mem _ hx) y (List.mem_cons_of_mem _ hy)
    rcases List.mem_cons.1 hq with e | hq'
    · cases e
      refine Or.inl ⟨rfl, by simp [own], clear_id _ _ _ _ _ _ _ _ h (fun x hx e => ?_) (by show ¬ (sub < bus ∧ bus ≤ s); omega)⟩
      rcases fns_bus _ _ _ _ _ _ _ h x hx with ⟨_, j, h2, h3⟩ | ⟨h1, _⟩
      · have := hj x (List.mem_cons_of_mem _ hx) ([i], bus) List.mem_cons_self (by rw [h2]; rfl) (Prod.mk.inj e).2
        rw [h2] at this
        cases this
        omega
      · have := (Prod.mk.inj e).1
        omega
    · refine Or.inr ⟨?_, ih _ _ _ _ _ _ _ h hb hj' q n hq'⟩
      simp only [own, decide_eq_false_iff_not]
      intro e
      rcases fns_bus _ _ _ _ _ _ _ h _ hq' with ⟨_, j, h2, h3⟩ | ⟨h1, _⟩
      · have := hj _ hq ([i], bus) List.mem_cons_self (by show q.dropLast = _; rw [show q = [j] from h2]; rfl) (Prod.mk.inj e).2
        rw [show q = [i] from this] at h2
        cases h2
        omega
      · have := (Prod.mk.inj e).1
        have : sub < n := h1
        omega
  | br f w c rest ihc ihr =>
    intro bus l sub l' s i lab ⟨l1, lo, l2, hi, t, _, _, _, w1, w2, w3, _, hc, _, h⟩ hb hj q n hq
    have hs := lay_sub _ _ _ _ _ _ h
    have hj' : Inj lab bus (i + 1) rest := fun x hx y hy =>
      hj x (List.mem_cons_of_mem _ (List.mem_append_right _ hx)) y (List.mem_cons_of_mem _ (List.mem_append_right _ hy))
    have memc : ∀ x ∈ fns (sub + 1) 0 c, (i :: x.1, x.2) ∈ fns bus i (.br f w c rest) := fun x hx =>
      List.mem_cons_of_mem _ (List.mem_append_left _ (List.mem_map.2 ⟨x, by rw [w1]; exact hx, rfl⟩))
    have memr : ∀ x ∈ fns bus (i + 1) rest, x ∈ fns bus i (.br f w c rest) := fun x hx =>
      List.mem_cons_of_mem _ (List.mem_append_right _ hx)
    rcases List.mem_cons.1 hq with e | hq'
    · cases e
      refine Or.inl ⟨rfl, by simp [own], ?_, ?_, clear_id _ _ _ _ _ _ _ _ h (fun x hx e => ?_) (by show ¬ (t < bus ∧ bus ≤ s); omega)⟩
      · rw [pass, w1, w2, ← Bool.not_eq_true, Bool.and_eq_true, decide_eq_true_eq, decide_eq_true_eq]
        show ¬ (sub + 1 ≤ bus ∧ bus ≤ t)
        omega
      · rw [w1]
        refine clear_id _ _ _ _ _ _ _ _ hc (fun x hx e => ?_) (by show ¬ (sub + 1 < bus ∧ bus ≤ t); omega)
        have := (Prod.mk.inj e).1
        rcases fns_bus _ _ _ _ _ _ _ hc x hx with ⟨h1, _⟩ | ⟨h1, _⟩ <;> omega
      · rcases fns_bus _ _ _ _ _ _ _ h x hx with ⟨_, j, h2, h3⟩ | ⟨h1, _⟩
        · have := hj x (memr x hx) ([i], bus) List.mem_cons_self (by rw [h2]; rfl) (Prod.mk.inj e).2
          rw [h2] at this
          cases this
          omega
        · have := (Prod.mk.inj e).1
          omega
    · rcases List.mem_append.1 hq' with hm | hm
      · obtain ⟨y, hy, he⟩ := List.mem_map.1 hm
        rw [w1] at hy
        obtain ⟨q', n'⟩ := y
        cases he
        have hn : sub < n' ∧ n' ≤ t := by
          rcases fns_bus _ _ _ _ _ _ _ hc _ hy with ⟨h1, _⟩ | ⟨h1, h2, _⟩
          · have : n' = sub + 1 := h1
            omega
          · have : sub + 1 < n' := h1
            have : n' ≤ t := h2
            omega
        refine Or.inr (Or.inl ⟨q', rfl, ?_, ?_, ?_, ?_⟩)
        · simp only [own, decide_eq_false_iff_not]
          intro e
          have := (Prod.mk.inj e).1
          omega
        · rw [pass, w1, w2, Bool.and_eq_true, decide_eq_true_eq, decide_eq_true_eq]
          show sub + 1 ≤ n' ∧ n' ≤ t
          omega
        · rw [w1]
          refine ihc _ _ _ _ _ _ (fun p => lab (i :: p)) hc (Nat.le_refl _) ?_ q' n' hy
          intro x hx z hz hd hl
          have nx : ∀ v ∈ fns (sub + 1) 0 c, v.1 ≠ [] := by
            intro v hv
            rcases fns_bus _ _ _ _ _ _ _ hc v hv with ⟨_, j, h2, _⟩ | ⟨_, _, j, r, h2, _⟩ <;> rw [h2] <;> exact List.cons_ne_nil _ _
          have := hj _ (memc x hx) _ (memc z hz) (by
            show (i :: x.1).dropLast = (i :: z.1).dropLast
            rw [List.dropLast_cons_of_ne_nil (nx x hx), List.dropLast_cons_of_ne_nil (nx z hz), hd]) hl
          exact (List.cons.inj this).2
        · refine clear_id _ _ _ _ _ _ _ _ h (fun x hx e => ?_) (by show ¬ (t < n' ∧ n' ≤ s); omega)
          have := (Prod.mk.inj e).1
          have e1 : x.2 = n' := this
          rcases fns_bus _ _ _ _ _ _ _ h x hx with ⟨h1, _⟩ | ⟨h1, _⟩ <;> omega
      · refine Or.inr (Or.inr ?_)
        have key : n = bus ∨ (t < n ∧ n ≤ s) := by
          rcases fns_bus _ _ _ _ _ _ _ h _ hm with ⟨h1, _⟩ | ⟨h1, h2, _⟩
          · exact Or.inl h1
          · exact Or.inr ⟨h1, h2⟩
        refine ⟨?_, ?_, ?_, ihr _ _ _ _ _ _ _ h (by omega) hj' q n hm⟩
        · simp only [own, decide_eq_false_iff_not]
          intro e
          rcases fns_bus _ _ _ _ _ _ _ h _ hm with ⟨_, j, h2, h3⟩ | ⟨h1, _⟩
          · have := hj _ hq ([i], bus) List.mem_cons_self (by show q.dropLast = _; rw [show q = [j] from h2]; rfl) (Prod.mk.inj e).2
            rw [show q = [i] from this] at h2
            cases h2
            omega
          · have := (Prod.mk.inj e).1
            have : t < n := h1
            omega
        · rw [pass, w1, w2, ← Bool.not_eq_true, Bool.and_eq_true, decide_eq_true_eq, decide_eq_true_eq]
          show ¬ (sub + 1 ≤ n ∧ n ≤ t)
          omega
        · rw [w1]
          refine clear_id _ _ _ _ _ _ _ _ hc (fun x hx e => ?_) (by show ¬ (sub + 1 < n ∧ n ≤ t); omega)
          have e1 : x.2 = n := (Prod.mk.inj e).1
          rcases fns_bus _ _ _ _ _ _ _ hc x hx with ⟨h1, _⟩ | ⟨h1, h2, _⟩ <;> omega

/-! ### routing by address -/

theorem rng_mono {l l' m m' : Lim} {a : Nat} {io : Bool} (h1 : l.le m) (h2 : m'.le l') (h : rng m m' a io) : rng l l' a io := by
  obtain ⟨a1, a2, a3⟩ := h1
  obtain ⟨b1, b2, b3⟩ := h2
  cases io <;> simp only [rng, Bool.false_eq_true, if_false, if_true] at * <;> omega

theorem rng_apart {l m m' l' : Lim} {a : Nat} {io : Bool} (hm : m.le m') (hp : 2 ^ 32 ≤ l.pf) (hl : l.le m) (hl' : m'.le l')
    (hmem : l'.mem ≤ 2 ^ 32) (h : rng l m a io) (h' : rng m' l' a io) : False := by
  obtain ⟨a1, a2, a3⟩ := hm
  obtain ⟨b1, b2, b3⟩ := hl
  obtain ⟨c1, c2, c3⟩ := hl'
  cases io <;> simp only [rng, Bool.false_eq_true, if_false, if_true] at * <;> omega

theorem holds_rng {l l1 : Lim} {rs : List Rgn} (hc : Chain l rs l1) {r : Rgn} (hr : r ∈ rs) {a : Nat} {io : Bool} (hh : r.holds a io) :
    rng l l1 a io := by
  obtain ⟨e1, e2, _⟩ := hc.mem r hr
  obtain ⟨q1, q2, q3⟩ := hh
  unfold rng
  cases hs : r.sp <;> rw [hs] at q1 e1 e2 <;> simp only [Lim.get] at e1 e2
  · rw [if_pos (q1.mp rfl)]; omega
  · rw [if_neg (fun h => by cases q1.mpr h)]; left; omega
  · rw [if_neg (fun h => by cases q1.mpr h)]; right; omega

theorem own_addr {l l1 : Lim} {f : Fn} (hk : RegsOk f.slots f.regs) (hc : Chain l (regions 0 f.slots f.regs) l1) {a : Nat} {io : Bool}
    {M : Nat} (hf : Fair a io M) (hM : M ≤ l.mem) (lab : Lab) (p : List Nat) (bus : Nat) :
    own lab (.req a io) p bus f = true ↔ ∃ r ∈ regions 0 f.slots f.regs, r.holds a io := by
  simp only [own, decide_eq_true_eq]
  rw [matchBar_spec hf f.slots f.regs hk 0 fun r hr hs => by
    have := (hc.mem r hr).1
    rw [hs] at this
    exact Nat.le_trans hM this]
  constructor
  · intro h
    refine Classical.byContradiction fun hno => h (filterMap_none fun r hr hh => hno ⟨r, hr, hh⟩)
  · rintro ⟨r, hr, hh⟩ e
    have : (r.bar, a - r.base) ∈ (regions 0 f.slots f.regs).filterMap (hit a io) :=
      List.mem_filterMap.2 ⟨r, hr, by simp [hit, hh]⟩
    rw [e] at this
    cases this

theorem own_false {l l1 : Lim} {f : Fn} (hk : RegsOk f.slots f.regs) (hc : Chain l (regions 0 f.slots f.regs) l1) {a : Nat} {io : Bool}
    {M : Nat} (hf : Fair a io M) (hM : M ≤ l.mem) (lab : Lab) (p : List Nat) (bus : Nat)
    (hn : ∀ r ∈ regions 0 f.slots f.regs, ¬ r.holds a io) : own lab (.req a io) p bus f = false := by
  rw [← Bool.not_eq_true, own_addr hk hc hf hM]
  rintro ⟨r, hr, hh⟩
  exact hn r hr hh

theorem lay_le : ∀ (o : Seg) (bus : Nat) (l : Lim) (sub : Nat) (l' : Lim) (s : Nat), Lay bus l sub o l' s → l.le l' := by
  intro o
  induction o with
  | nil => intro bus l sub l' s h; exact h.1 ▸ Lim.le_refl _
  | ep f rest ih => intro bus l sub l' s ⟨l1, _, hc, h⟩; exact Lim.le_trans hc.le (ih _ _ _ _ _ h)
  | br f w c rest ihc ihr =>
    intro bus l sub l' s ⟨l1, lo, l2, hi, t, _, hc, h1, _, _, _, _, h2, ⟨h3, _⟩, h⟩
    exact Lim.le_trans hc.le (Lim.le_trans h1 (Lim.le_trans (ihc _ _ _ _ _ h2) (Lim.le_trans h3 (ihr _ _ _ _ _ h))))

theorem clear_addr {a : Nat} {io : Bool} {M : Nat} (hf : Fair a io M) : ∀ (o : Seg) (bus : Nat) (l : Lim) (sub : Nat) (l' : Lim)
    (s i : Nat) (lab : Lab), Lay bus l sub o l' s → M ≤ l.mem → ¬ rng l l' a io → Clear (.req a io) bus lab i o := by
  intro o
  induction o with
  | nil => intro bus l sub l' s i lab _ _ _; trivial
  | ep f rest ih =>
    intro bus l sub l' s i lab ⟨l1, hk, hc, h⟩ hM hr
    have e1 := hc.le
    have e2 := lay_le _ _ _ _ _ _ h
    refine ⟨own_false hk hc hf hM _ _ _ fun r hr' hh => hr (rng_mono (Lim.le_refl _) e2 (holds_rng hc hr' hh)),
      ih _ _ _ _ _ _ _ h (Nat.le_trans hM e1.2.1) fun h' => hr (rng_mono e1 (Lim.le_refl _) h')⟩
  | br f w c rest ihc ihr =>
    intro bus l sub l' s i lab ⟨l1, lo, l2, hi, t, hk, hc, h1, w1, w2, w3, hw, h2, ⟨h3, _⟩, h⟩ hM hr
    have e1 := hc.le
    have e2 := lay_le _ _ _ _ _ _ h2
    have e3 := lay_le _ _ _ _ _ _ h
    have f1 := Lim.le_trans e1 h1
    have f2 := Lim.le_trans f1 (Lim.le_trans e2 h3)
    have f3 := Lim.le_trans h3 e3
    refine ⟨own_false hk hc hf hM _ _ _ fun r hr' hh => hr (rng_mono (Lim.le_refl _) (Lim.le_trans h1 (Lim.le_trans e2 f3)) (holds_rng hc hr' hh)),
      ?_, ?_, ihr _ _ _ _ _ _ _ h (Nat.le_trans hM f2.2.1) fun h' => hr (rng_mono f2 (Lim.le_refl _) h')⟩
    · rw [pass, ← Bool.not_eq_true, hw]
      exact fun h' => hr (rng_mono f1 e3 h')
    · rw [w1]
      exact ihc _ _ _ _ _ _ _ h2 (Nat.le_trans hM f1.2.1) fun h' => hr (rng_mono f1 f3 h')

theorem region_rng : ∀ (o : Seg) (bus : Nat) (l : Lim) (sub : Nat) (l' : Lim) (s i : Nat), Lay bus l sub o l' s →
    ∀ x ∈ o.regions i, ∀ a io, x.2.holds a io → rng l l' a io := by
  intro o
  induction o with
  | nil => intro bus l sub l' s i h x hx; cases hx
  | ep f rest ih =>
    intro bus l sub l' s i ⟨l1, hk, hc, h⟩ x hx a io hh
    rw [Seg.regions] at hx
    rcases List.mem_append.1 hx with hx | hx
    · obtain ⟨r, hr, rfl⟩ := List.mem_map.1 hx
      exact rng_mono (Lim.le_refl _) (lay_le _ _ _ _ _ _ h) (holds_rng hc hr hh)
    · exact rng_mono hc.le (Lim.le_refl _) (ih _ _ _ _ _ _ h x hx a io hh)
  | br f w c rest ihc ihr =>
    intro bus l sub l' s i ⟨l1, lo, l2, hi, t, hk, hc, h1, w1, w2, w3, hw, h2, ⟨h3, _⟩, h⟩ x hx a io hh
    have e1 := hc.le
    have e2 := lay_le _ _ _ _ _ _ h2
    have e3 := lay_le _ _ _ _ _ _ h
    rw [Seg.regions] at hx
    rcases List.mem_append.1 hx with hx | hx
    · obtain ⟨r, hr, rfl⟩ := List.mem_map.1 hx
      exact rng_mono (Lim.le_refl _) (Lim.le_trans h1 (Lim.le_trans e2 (Lim.le_trans h3 e3))) (holds_rng hc hr hh)
    · rcases List.mem_append.1 hx with hx | hx
      · obtain ⟨y, hy, rfl⟩ := List.mem_map.1 hx
        exact rng_mono (Lim.le_trans e1 h1) (Lim.le_trans h3 e3) (ihc _ _ _ _ _ _ h2 y hy a io hh)
      · exact rng_mono (Lim.le_trans e1 (Lim.le_trans h1 (Lim.le_trans e2 h3))) (Lim.le_refl _) (ihr _ _ _ _ _ _ h x hx a io hh)

theorem aim_addr {a : Nat} {io : Bool} {M : Nat} (hf : Fair a io M) : ∀ (o : Seg) (bus : Nat) (l : Lim) (sub : Nat) (l' : Lim)
    (s i : Nat) (lab : Lab), Lay bus l sub o l' s → M ≤ l.mem → 2 ^ 32 ≤ l.pf → l'.mem ≤ 2 ^ 32 →
    ∀ q r, (q, r) ∈ o.regions i → r.holds a io → Aim (.req a io) bus lab i o q := by
  intro o
  induction o with
  | nil => intro bus l sub l' s i lab _ _ _ _ q r h; cases h
  | ep f rest ih =>
    intro bus l sub l' s i lab ⟨l1, hk, hc, h⟩ hM hp hm q r hq hh
    have e1 := hc.le
    have e2 := lay_le _ _ _ _ _ _ h
    rw [Seg.regions] at hq
    rcases List.mem_append.1 hq with hq | hq
    · obtain ⟨r', hr, e⟩ := List.mem_map.1 hq
      cases e
      refine Or.inl ⟨rfl, (own_addr hk hc hf hM _ _ _).2 ⟨r, hr, hh⟩, clear_addr hf _ _ _ _ _ _ _ _ h (Nat.le_trans hM e1.2.1) ?_⟩
      exact fun h' => rng_apart (Lim.le_refl _) hp e1 e2 hm (holds_rng hc hr hh) h'
    · refine Or.inr ⟨own_false hk hc hf hM _ _ _ fun r' hr' hh' => ?_,
        ih _ _ _ _ _ _ _ h (Nat.le_trans hM e1.2.1) (Nat.le_trans hp e1.2.2) hm q r hq hh⟩
      exact rng_apart (Lim.le_refl _) hp e1 e2 hm (holds_rng hc hr' hh') (region_rng _ _ _ _ _ _ _ h _ hq a io hh)
  | br f w c rest ihc ihr =>
    intro bus l sub l' s i lab ⟨l1, lo, l2, hi, t, hk, hc, h1, w1, w2, w3, hw, h2, ⟨h3, _⟩, h⟩ hM hp hm q r hq hh
    have e1 := hc.le
    have e2 := lay_le _ _ _ _ _ _ h2
    have e3 := lay_le _ _ _ _ _ _ h
    have f1 := Lim.le_trans e1 h1
    have f2 := Lim.le_trans f1 (Lim.le_trans e2 h3)
    have f3 := Lim.le_trans h3 e3
    have hlh := Lim.le_trans e2 h3
    have mlo : lo.mem ≤ 2 ^ 32 := Nat.le_trans hlh.2.1 (Nat.le_trans e3.2.1 hm)
    have mhi : hi.mem ≤ 2 ^ 32 := Nat.le_trans e3.2.1 hm
    rw [Seg.regions] at hq
    rcases List.mem_append.1 hq with hq | hq
    · obtain ⟨r', hr, e⟩ := List.mem_map.1 hq
      cases e
      have hr0 := holds_rng hc hr hh
      refine Or.inl ⟨rfl, (own_addr hk hc hf hM _ _ _).2 ⟨r, hr, hh⟩, ?_, ?_, clear_addr hf _ _ _ _ _ _ _ _ h (Nat.le_trans hM f2.2.1) ?_⟩
      · rw [pass, ← Bool.not_eq_true, hw]
        exact fun h' => rng_apart h1 hp e1 hlh mhi hr0 h'
      · rw [w1]
        exact clear_addr hf _ _ _ _ _ _ _ _ h2 (Nat.le_trans hM f1.2.1) fun h' =>
          rng_apart h1 hp e1 hlh mhi hr0 (rng_mono (Lim.le_refl _) h3 h')
      · exact fun h' => rng_apart (Lim.le_trans h1 hlh) hp e1 e3 hm hr0 h'
    · rcases List.mem_append.1 hq with hq | hq
      · obtain ⟨y, hy, e⟩ := List.mem_map.1 hq
        obtain ⟨q', r'⟩ := y
        cases e
        have hr0 := rng_mono (Lim.le_refl _) h3 (region_rng _ _ _ _ _ _ _ h2 _ hy a io hh)
        refine Or.inr (Or.inl ⟨q', rfl, own_false hk hc hf hM _ _ _ fun r' hr' hh' => ?_, ?_, ?_, ?_⟩)
        · exact rng_apart h1 hp e1 hlh mhi (holds_rng hc hr' hh') hr0
        · rw [pass, hw]; exact hr0
        · rw [w1]
          exact ihc _ _ _ _ _ _ _ h2 (Nat.le_trans hM f1.2.1) (Nat.le_trans hp f1.2.2) (Nat.le_trans h3.2.1 mhi) q' r' hy hh
        · exact clear_addr hf _ _ _ _ _ _ _ _ h (Nat.le_trans hM f2.2.1) fun h' =>
            rng_apart (Lim.le_refl _) (Nat.le_trans hp f1.2.2) hlh e3 hm hr0 h'
      · have hr0 := region_rng _ _ _ _ _ _ _ h _ hq a io hh
        refine Or.inr (Or.inr ⟨own_false hk hc hf hM _ _ _ fun r' hr' hh' => ?_, ?_, ?_,
          ihr _ _ _ _ _ _ _ h (Nat.le_trans hM f2.2.1) (Nat.le_trans hp f2.2.2) hm q r hq hh⟩)
        · exact rng_apart (Lim.le_trans h1 hlh) hp e1 e3 hm (holds_rng hc hr' hh') hr0
        · rw [pass, ← Bool.not_eq_true, hw]
          exact fun h' => rng_apart (Lim.le_refl _) (Nat.le_trans hp f1.2.2) hlh e3 hm h' hr0
        · rw [w1]
          exact clear_addr hf _ _ _ _ _ _ _ _ h2 (Nat.le_trans hM f1.2.1) fun h' =>
            rng_apart (Lim.le_refl _) (Nat.le_trans hp f1.2.2) hlh e3 hm (rng_mono (Lim.le_refl _) h3 h') hr0

/-! ### addresses nobody has -/

theorem align_self {m : Lim} (h : m.io % 2 ^ 12 = 0 ∧ m.mem % 2 ^ 20 = 0 ∧ m.pf % 2 ^ 20 = 0) : m.align = m := by
  obtain ⟨h1, h2, h3⟩ := h
  have key : ∀ v n : Nat, v % 2 ^ n = 0 → PcieEnum.align v (2 ^ n - 1) = v := by
    intro v n h
    rw [PcieEnum.align, Nat.and_two_pow_sub_one_eq_mod, if_neg (by simp [h])]
  have e1 := key m.io 12 h1
  have e2 := key m.mem 20 h2
  have e3 := key m.pf 20 h3
  show (⟨PcieEnum.align m.io 0xfff, PcieEnum.align m.mem 0xfffff, PcieEnum.align m.pf 0xfffff⟩ : Lim) = m
  rw [show (0xfff : Nat) = 2 ^ 12 - 1 from rfl, show (0xfffff : Nat) = 2 ^ 20 - 1 from rfl, e1, e2, e3]

theorem align_idem (l : Lim) : l.align.align = l.align :=
  have ⟨h1, h2, h3⟩ := l.align_ok.1
  align_self ⟨h1, h2, h3⟩

/-- where a packet nobody takes may end: a bus of a switch, or a link with a device -/
def LostAt (link : Bool) (bus i : Nat) (o : Seg) (p : List Nat) : Prop :=
  ∃ n s, below bus i o p = some (n, s) ∧ ((link != decide (p.length % 2 = 1)) = true → ∃ f rest, s = .ep f rest)

theorem below_head : ∀ (o : Seg) (bus i : Nat) (p : List Nat) (x : Nat × Seg), below bus i o p = some x → ∃ j r, p = j :: r ∧ i ≤ j := by
  intro o
  induction o with
  | nil => intro bus i p x h; cases p <;> cases h
  | ep f rest ih =>
    intro bus i p x h
    rw [below] at h
    obtain ⟨j, r, h1, h2⟩ := ih _ _ _ _ h
    exact ⟨j, r, h1, by omega⟩
  | br f w c rest ihc ihr =>
    intro bus i p x h
    cases p with
    | nil => cases h
    | cons j p =>
      rw [below] at h
      split at h
      · exact ⟨j, p, rfl, by omega⟩
      · obtain ⟨j', r, h1, h2⟩ := ihr _ _ _ _ h
        cases h1
        exact ⟨j, p, rfl, by omega⟩

theorem down_gap {a : Nat} {io : Bool} {M : Nat} (hf : Fair a io M) : ∀ (o : Seg) (bus : Nat) (l : Lim) (sub : Nat) (l' : Lim)
    (s i : Nat) (lab : Lab) (link : Bool), Lay bus l sub o l' s → M ≤ l.mem → Wired link o → (∀ x ∈ o.regions i, ¬ x.2.holds a io) →
    ∃ p, down lab (.req a io) link bus i o = .lost p false ∧ (p = [] ∨ LostAt link bus i o p) ∧
      (p = [] → ∀ f w c rest, o = .br f w c rest → w.window a io = false) := by
  intro o
  induction o with
  | nil =>
    intro bus l sub l' s i lab link h hM hw hno
    exact ⟨[], rfl, Or.inl rfl, fun _ f w c rest e => by cases e⟩
  | ep f rest ih =>
    intro bus l sub l' s i lab link ⟨l1, hk, hc, h⟩ hM hw hno
    rw [Seg.regions] at hno
    rw [down, own_false hk hc hf hM _ _ _ fun r hr => hno ([i], r) (List.mem_append_left _ (List.mem_map.2 ⟨r, hr, rfl⟩))]
    obtain ⟨p, e1, e2, _⟩ := ih bus l1 sub l' s (i + 1) lab link h (Nat.le_trans hM hc.le.2.1) hw fun x hx => hno x (List.mem_append_right _ hx)
    exact ⟨p, e1, e2, fun _ f w c rest e => by cases e⟩
  | br f w c rest ihc ihr =>
    intro bus l sub l' s i lab link ⟨l1, lo, l2, hi, t, hk, hc, h1, w1, w2, w3, hw, h2, ⟨h3, hlo, hhi, _⟩, h⟩ hM ⟨v1, v2, v3, v4⟩ hno
    rw [Seg.regions] at hno
    have e1 := hc.le
    have e2 := lay_le _ _ _ _ _ _ h2
    have f1 := Lim.le_trans e1 h1
    have f2 := Lim.le_trans f1 (Lim.le_trans e2 h3)
    rw [down, own_false hk hc hf hM _ _ _ fun r hr => hno ([i], r) (List.mem_append_left _ (List.mem_map.2 ⟨r, hr, rfl⟩)), sel_plain rfl]
    cases hp : pass (.req a io) w with
    | true =>
      obtain ⟨p, d1, d2, d3⟩ := ihc w.sec lo (sub + 1) l2 t 0 (fun p => lab (i :: p)) (!link) (by rw [w1]; exact h2)
        (Nat.le_trans hM f1.2.1) v3 fun x hx => hno (i :: x.1, x.2) (List.mem_append_right _ (List.mem_append_left _ (List.mem_map.2 ⟨x, hx, rfl⟩)))
      refine ⟨i :: p, ?_, Or.inr ?_, fun e => by cases e⟩
      · simp only [Bool.false_eq_true, if_false, if_true, d1]; rfl
      · by_cases hpn : p = []
        · subst hpn
          refine ⟨w.sec, c, by rw [below, if_pos rfl]; rfl, fun hl => ?_⟩
          have hl : link = false := by cases link; rfl; exact absurd hl (by simp)
          subst hl
          cases hcc : c with
          | nil => exact absurd hcc (v2 rfl)
          | ep f' r' => exact ⟨f', r', rfl⟩
          | br f' w' c' r' =>
            exfalso
            subst hcc
            have := d3 rfl f' w' c' r' rfl
            obtain ⟨u1, u2⟩ := v3.1 rfl
            subst u1
            obtain ⟨l1', lo', l2', hi', t', hk', hc', h1', _, _, _, hw', h2', ⟨h3', hlo', hhi', hu'⟩, hn'⟩ := h2
            have q1 : l1' = lo := hu' u2
            have q2 : lo' = lo := by rw [hlo', q1, hlo, align_idem]
            have q3 : hi = hi' := by rw [hhi, ← hn'.1, hhi', align_idem]
            have : w'.window a io = true := (hw' a io).2 (by rw [q2, ← q3]; exact (hw a io).1 hp)
            simp_all
        · rcases d2 with d2 | ⟨n, s', d2, d4⟩
          · exact absurd d2 hpn
          · refine ⟨n, s', ?_, fun hl => d4 ?_⟩
            · rw [below, if_pos rfl, if_neg (by simpa using hpn)]; exact d2
            · rw [List.length_cons] at hl
              cases link <;> rcases Nat.mod_two_eq_zero_or_one p.length with hm | hm <;> simp_all <;> omega
    | false =>
      obtain ⟨p, d1, d2, _⟩ := ihr bus hi t l' s (i + 1) lab link h (Nat.le_trans hM f2.2.1) v4 fun x hx =>
        hno x (List.mem_append_right _ (List.mem_append_right _ hx))
      refine ⟨p, by simpa using d1, ?_, fun _ f w c rest e => by cases e; exact hp⟩
      rcases d2 with d2 | ⟨n, s', d2, d4⟩
      · exact Or.inl d2
      · refine Or.inr ⟨n, s', ?_, d4⟩
        obtain ⟨j, p', rfl, hj⟩ := below_head _ _ _ _ _ d2
        rw [below, if_neg (by omega)]
        exact d2

theorem down_gap_at {a : Nat} {io : Bool} {M : Nat} (hf : Fair a io M) {f : Fn} {w : Br} {c rest : Seg} {bus : Nat} {l : Lim} {sub : Nat}
    {l' : Lim} {s i : Nat} (lab : Lab) {link : Bool} (h : Lay bus l sub (.br f w c rest) l' s) (hM : M ≤ l.mem)
    (hw : Wired link (.br f w c rest)) (hno : ∀ x ∈ Seg.regions i (.br f w c rest), ¬ x.2.holds a io)
    (hp : pass (.req a io) w = true) :
    ∃ p, down (fun p => lab (i :: p)) (.req a io) (!link) w.sec 0 c = .lost p false ∧ LostAt link bus i (.br f w c rest) (i :: p) := by
  obtain ⟨p, d1, d2, _⟩ := down_gap hf _ _ _ _ _ _ i lab link h hM hw hno
  obtain ⟨l1, lo, l2, hi, t, hk, hc, h1, w1, w2, w3, hww, h2, ⟨h3, hlo, hhi, _⟩, h⟩ := h
  rw [Seg.regions] at hno
  rw [down, own_false hk hc hf hM _ _ _ fun r hr => hno ([i], r) (List.mem_append_left _ (List.mem_map.2 ⟨r, hr, rfl⟩)), sel_plain rfl, hp] at d1
  simp only [Bool.false_eq_true, if_false, if_true] at d1
  cases hd : down (fun p => lab (i :: p)) (.req a io) (!link) w.sec 0 c with
  | got x => rw [hd] at d1; cases d1
  | drop x => rw [hd] at d1; cases d1
  | lost x y =>
    rw [hd] at d1
    cases d1
    rcases d2 with d2 | d2
    · cases d2
    · exact ⟨x, rfl, d2⟩

theorem up_gap {a : Nat} {io : Bool} {M : Nat} (hf : Fair a io M) : ∀ (o : Seg) (bus : Nat) (l : Lim) (sub : Nat) (l' : Lim)
    (s i : Nat) (lab : Lab) (link : Bool) (q : List Nat), Lay bus l sub o l' s → M ≤ l.mem → Wired link o →
    (∀ x ∈ o.regions i, ¬ x.2.holds a io) → up lab (.req a io) link bus i o q = none ∨
    ∃ p t, up lab (.req a io) link bus i o q = some (.lost p t) ∧ LostAt link bus i o p ∧ (t = true → ∃ r, q = p ++ r) := by
  intro o
  induction o with
  | nil => intro bus l sub l' s i lab link q h hM hw hno; cases q <;> exact Or.inl rfl
  | ep f rest ih =>
    intro bus l sub l' s i lab link q ⟨l1, hk, hc, h⟩ hM hw hno
    rw [Seg.regions] at hno
    rw [up]
    rcases ih bus l1 sub l' s (i + 1) lab link q h (Nat.le_trans hM hc.le.2.1) hw fun x hx => hno x (List.mem_append_right _ hx) with
      e | ⟨p, t, e, e1, e2⟩
    · exact Or.inl e
    · exact Or.inr ⟨p, t, e, e1, e2⟩
  | br f w c rest ihc ihr =>
    intro bus l sub l' s i lab link q hl hM hw hno
    obtain ⟨l1, lo, l2, hi, t, hk, hc, h1, w1, w2, w3, hww, h2, ⟨h3, hlo, hhi, _⟩, h⟩ := id hl
    have e1 := hc.le
    have f1 := Lim.le_trans e1 h1
    have f2 := Lim.le_trans f1 (Lim.le_trans (lay_le _ _ _ _ _ _ h2) h3)
    have hno' := id hno
    rw [Seg.regions] at hno'
    cases q with
    | nil => exact Or.inl rfl
    | cons j q =>
      rw [up]
      by_cases hij : i = j
      · subst hij
        rw [if_pos rfl]
        rcases ihc w.sec lo (sub + 1) l2 t 0 (fun p => lab (i :: p)) (!link) q (by rw [w1]; exact h2) (Nat.le_trans hM f1.2.1) hw.2.2.1
          (fun x hx => hno' (i :: x.1, x.2) (List.mem_append_right _ (List.mem_append_left _ (List.mem_map.2 ⟨x, hx, rfl⟩)))) with
          e | ⟨p, t', e, ⟨n, s', g1, g2⟩, g3⟩
        · rw [e]
          dsimp only
          rw [own_false hk hc hf hM _ _ _ fun r hr => hno' ([i], r) (List.mem_append_left _ (List.mem_map.2 ⟨r, hr, rfl⟩))]
          cases hp : pass (.req a io) w with
          | false => exact Or.inl rfl
          | true =>
            obtain ⟨p, d1, d2⟩ := down_gap_at hf lab hl hM hw hno hp
            refine Or.inr ?_
            simp only [Bool.false_eq_true, if_false, if_true, d1]
            cases p with
            | nil => exact ⟨[i], true, rfl, d2, fun _ => ⟨q, rfl⟩⟩
            | cons x p => exact ⟨i :: x :: p, false, rfl, d2, fun e => by cases e⟩
        · rw [e]
          refine Or.inr ⟨i :: p, t', rfl, ⟨n, s', ?_, fun hl => g2 ?_⟩, fun ht => ?_⟩
          · obtain ⟨j, r, rfl, _⟩ := below_head _ _ _ _ _ g1
            rw [below, if_pos rfl, if_neg (by simp)]; exact g1
          · rw [List.length_cons] at hl
            cases link <;> rcases Nat.mod_two_eq_zero_or_one p.length with hm | hm <;> simp_all <;> omega
          · obtain ⟨r, rfl⟩ := g3 ht
            exact ⟨r, rfl⟩
      · rw [if_neg hij]
        rcases ihr bus hi t l' s (i + 1) lab link (j :: q) h (Nat.le_trans hM f2.2.1) hw.2.2.2 fun x hx =>
          hno' x (List.mem_append_right _ (List.mem_append_right _ hx)) with e | ⟨p, t', e, ⟨n, s', g1, g2⟩, g3⟩
        · exact Or.inl e
        · refine Or.inr ⟨p, t', e, ⟨n, s', ?_, g2⟩, g3⟩
          obtain ⟨j', p', rfl, hj⟩ := below_head _ _ _ _ _ g1
          rw [below, if_neg (by omega)]
          exact g1

/-! ### no gaps between ports -/

theorem bare_wired : ∀ (o : Seg) (link : Bool), Bare link o → Wired link o := by
  intro o
  induction o with
  | nil => intro link h; trivial
  | ep f rest ih => intro link h; exact ih _ h.2.2
  | br f w c rest ihc ihr => intro link ⟨h1, h2, h3, h4, h5⟩; exact ⟨fun e => ⟨h2 e, h1⟩, h3, ihc _ h4, ihr _ h5⟩

theorem rng_split {l m l' : Lim} {a : Nat} {io : Bool} (h : rng l l' a io) (h' : ¬ rng l m a io) : rng m l' a io := by
  cases io <;> simp only [rng, Bool.false_eq_true, if_false, if_true] at * <;> omega

theorem rng_self {l : Lim} {a : Nat} {io : Bool} (h : rng l l a io) : False := by
  cases io <;> simp only [rng, Bool.false_eq_true, if_false, if_true] at * <;> omega

/-- the limits after ports without gaps are aligned -/
theorem end_aligned : ∀ (o : Seg) (bus : Nat) (l : Lim) (sub : Nat) (l' : Lim) (s : Nat) (link : Bool), Lay bus l sub o l' s → Bare link o →
    l.align = l → (link = false ∨ ∃ f w c rest, o = .br f w c rest) → l'.align = l' := by
  intro o
  induction o with
  | nil => intro bus l sub l' s link h _ ha _; rw [← h.1]; exact ha
  | ep f rest ih =>
    intro bus l sub l' s link _ hb _ hl
    rcases hl with rfl | ⟨_, _, _, _, e⟩
    · cases hb.1
    · cases e
  | br f w c rest ihc ihr =>
    intro bus l sub l' s link ⟨l1, lo, l2, hi, t, hk, hc, h1, w1, w2, w3, hw, h2, ⟨h3, hlo, hhi, hu⟩, h⟩ ⟨b1, b2, b3, b4, b5⟩ ha hl
    have hal : hi.align = hi := by rw [hhi, align_idem]
    cases link with
    | false => exact ihr _ _ _ _ _ false h b5 hal (Or.inl rfl)
    | true =>
      rw [b2 rfl] at h
      rw [← h.1]; exact hal

/-- what a port passes, the link or bus below covers -/
theorem child_bare {f : Fn} {w : Br} {c rest : Seg} {bus : Nat} {l : Lim} {sub : Nat} {l' : Lim} {s : Nat} {link : Bool}
    (h : Lay bus l sub (.br f w c rest) l' s) (hb : Bare link (.br f w c rest)) {a : Nat} {io : Bool} (hp : w.window a io = true) :
    ∃ lo l2 t, Lay w.sec lo (sub + 1) c l2 t ∧ l.le lo ∧ Bare (!link) c ∧
      ((!link) = false ∨ (∃ f w c' rest, c = .br f w c' rest) → lo.align = lo ∧ rng lo l2 a io) := by
  obtain ⟨l1, lo, l2, hi, t, hk, hc, h1, w1, w2, w3, hw, h2, ⟨h3, hlo, hhi, hu⟩, h⟩ := h
  obtain ⟨b1, b2, b3, b4, b5⟩ := hb
  have hal : lo.align = lo := by rw [hlo, align_idem]
  refine ⟨lo, l2, t, by rw [w1]; exact h2, Lim.le_trans hc.le h1, b4, fun hx => ⟨hal, ?_⟩⟩
  have := end_aligned c _ _ _ _ _ (!link) h2 b4 hal hx
  rw [← this, ← hhi]
  exact (hw a io).1 hp

theorem down_bare {a : Nat} {io : Bool} {M : Nat} (hf : Fair a io M) : ∀ (o : Seg) (bus : Nat) (l : Lim) (sub : Nat) (l' : Lim)
    (s i : Nat) (lab : Lab) (link : Bool), Lay bus l sub o l' s → M ≤ l.mem → Bare link o →
    (link = false ∨ (∃ f w c rest, o = .br f w c rest) → l.align = l ∧ rng l l' a io) → (∀ x ∈ o.regions i, ¬ x.2.holds a io) →
    ∃ p, down lab (.req a io) link bus i o = .lost p false ∧ (link != decide (p.length % 2 = 1)) = true := by
  intro o
  induction o with
  | nil =>
    intro bus l sub l' s i lab link h hM hb hr hno
    refine ⟨[], rfl, ?_⟩
    cases link with
    | true => rfl
    | false => have := (hr (Or.inl rfl)).2; rw [h.1] at this; exact (rng_self this).elim
  | ep f rest ih =>
    intro bus l sub l' s i lab link ⟨l1, hk, hc, h⟩ hM ⟨b1, b2, b3⟩ hr hno
    subst b1
    rw [Seg.regions] at hno
    rw [down, own_false hk hc hf hM _ _ _ fun r hr => hno ([i], r) (List.mem_append_left _ (List.mem_map.2 ⟨r, hr, rfl⟩))]
    refine ih _ _ _ _ _ _ _ true h (Nat.le_trans hM hc.le.2.1) b3 (fun hx => ?_) fun x hx => hno x (List.mem_append_right _ hx)
    rcases hx with hx | ⟨_, _, _, _, rfl⟩
    · cases hx
    · rcases b2 with e | ⟨_, _, e⟩ <;> cases e
  | br f w c rest ihc ihr =>
    intro bus l sub l' s i lab link hl hM hb hr hno
    obtain ⟨ha, hr⟩ := hr (Or.inr ⟨f, w, c, rest, rfl⟩)
    obtain ⟨l1, lo, l2, hi, t, hk, hc, h1, w1, w2, w3, hw, h2, ⟨h3, hlo, hhi, hu⟩, h⟩ := id hl
    obtain ⟨b1, b2, b3, b4, b5⟩ := id hb
    rw [Seg.regions] at hno
    have f2 := Lim.le_trans (Lim.le_trans hc.le h1) (Lim.le_trans (lay_le _ _ _ _ _ _ h2) h3)
    rw [down, own_false hk hc hf hM _ _ _ fun r hr => hno ([i], r) (List.mem_append_left _ (List.mem_map.2 ⟨r, hr, rfl⟩)), sel_plain rfl]
    cases hp : pass (.req a io) w with
    | true =>
      obtain ⟨lo', l2', t', g1, g2, g3, g4⟩ := child_bare hl hb (a := a) (io := io) hp
      obtain ⟨p, d1, d2⟩ := ihc _ _ _ _ _ 0 (fun p => lab (i :: p)) _ g1 (Nat.le_trans hM g2.2.1) g3 g4 fun x hx =>
        hno (i :: x.1, x.2) (List.mem_append_right _ (List.mem_append_left _ (List.mem_map.2 ⟨x, hx, rfl⟩)))
      refine ⟨i :: p, ?_, ?_⟩
      · simp only [Bool.false_eq_true, if_false, if_true, d1]; rfl
      · rw [List.length_cons]
        cases link <;> rcases Nat.mod_two_eq_zero_or_one p.length with hm | hm <;> simp_all <;> omega
    | false =>
      have hl1 : lo = l := by rw [hlo, hu b1, ha]
      have hn : ¬ rng l hi a io := by
        rw [← hl1, ← hw a io]
        exact fun e => by rw [show w.window a io = false from hp] at e; cases e
      have hr' := rng_split hr hn
      have hal : hi.align = hi := by rw [hhi, align_idem]
      obtain ⟨p, d1, d2⟩ := ihr bus hi t l' s (i + 1) lab link h (Nat.le_trans hM f2.2.1) b5 (fun _ => ⟨hal, hr'⟩) fun x hx =>
        hno x (List.mem_append_right _ (List.mem_append_right _ hx))
      exact ⟨p, by simpa using d1, d2⟩

theorem up_bare {a : Nat} {io : Bool} {M : Nat} (hf : Fair a io M) : ∀ (o : Seg) (bus : Nat) (l : Lim) (sub : Nat) (l' : Lim)
    (s i : Nat) (lab : Lab) (link : Bool) (q : List Nat), Lay bus l sub o l' s → M ≤ l.mem → Bare link o →
    (∀ x ∈ o.regions i, ¬ x.2.holds a io) → up lab (.req a io) link bus i o q = none ∨
    ∃ p t, up lab (.req a io) link bus i o q = some (.lost p t) ∧ (link != decide (p.length % 2 = 1)) = true := by
  intro o
  induction o with
  | nil => intro bus l sub l' s i lab link q h hM hw hno; cases q <;> exact Or.inl rfl
  | ep f rest ih =>
    intro bus l sub l' s i lab link q ⟨l1, hk, hc, h⟩ hM hb hno
    rw [Seg.regions] at hno
    rw [up]
    exact ih bus l1 sub l' s (i + 1) lab link q h (Nat.le_trans hM hc.le.2.1) hb.2.2 fun x hx => hno x (List.mem_append_right _ hx)
  | br f w c rest ihc ihr =>
    intro bus l sub l' s i lab link q hl hM hb hno
    obtain ⟨l1, lo, l2, hi, t, hk, hc, h1, w1, w2, w3, hww, h2, ⟨h3, hlo, hhi, _⟩, h⟩ := id hl
    have f1 := Lim.le_trans hc.le h1
    have f2 := Lim.le_trans f1 (Lim.le_trans (lay_le _ _ _ _ _ _ h2) h3)
    rw [Seg.regions] at hno
    have hnoc : ∀ x ∈ c.regions 0, ¬ x.2.holds a io := fun x hx =>
      hno (i :: x.1, x.2) (List.mem_append_right _ (List.mem_append_left _ (List.mem_map.2 ⟨x, hx, rfl⟩)))
    have par : ∀ p : List Nat, ((!link) != decide (p.length % 2 = 1)) = true → (link != decide ((i :: p).length % 2 = 1)) = true := by
      intro p hp
      rw [List.length_cons]
      cases link <;> rcases Nat.mod_two_eq_zero_or_one p.length with hm | hm <;> simp_all <;> omega
    cases q with
    | nil => exact Or.inl rfl
    | cons j q =>
      rw [up]
      by_cases hij : i = j
      · subst hij
        rw [if_pos rfl]
        rcases ihc w.sec lo (sub + 1) l2 t 0 (fun p => lab (i :: p)) (!link) q (by rw [w1]; exact h2) (Nat.le_trans hM f1.2.1) hb.2.2.2.1
          hnoc with e | ⟨p, t', e, g2⟩
        · rw [e]
          dsimp only
          rw [own_false hk hc hf hM _ _ _ fun r hr => hno ([i], r) (List.mem_append_left _ (List.mem_map.2 ⟨r, hr, rfl⟩))]
          cases hp : pass (.req a io) w with
          | false => exact Or.inl rfl
          | true =>
            obtain ⟨lo', l2', t', g1, g2, g3, g4⟩ := child_bare hl hb (a := a) (io := io) hp
            obtain ⟨p, d1, d2⟩ := down_bare hf _ _ _ _ _ _ 0 (fun p => lab (i :: p)) _ g1 (Nat.le_trans hM g2.2.1) g3 g4 hnoc
            refine Or.inr ?_
            simp only [Bool.false_eq_true, if_false, if_true, d1]
            cases p with
            | nil => exact ⟨[i], true, rfl, par _ d2⟩
            | cons x p => exact ⟨i :: x :: p, false, rfl, par _ d2⟩
        · rw [e]
          exact Or.inr ⟨i :: p, t', rfl, par _ g2⟩
      · rw [if_neg hij]
        exact ihr bus hi t l' s (i + 1) lab link (j :: q) h (Nat.le_trans hM f2.2.1) hb.2.2.2.2 fun x hx =>
          hno x (List.mem_append_right _ (List.mem_append_right _ hx))

/-- the target as seen from a bridge above it -/
theorem aim_below {k : Pkt} : ∀ (o : Seg) (bus : Nat) (lab : Lab) (i : Nat) (p r : List Nat) (n : Nat) (s : Seg), r ≠ [] →
    Aim k bus lab i o (p ++ r) → below bus i o p = some (n, s) → Aim k n (fun x => lab (p ++ x)) 0 s r := by
  intro o
  induction o with
  | nil => intro bus lab i p r n s hr h; exact h.elim
  | ep f rest ih =>
    intro bus lab i p r n s hr h hb
    obtain ⟨j, p', rfl, hj⟩ := below_head _ _ _ _ _ (show below bus (i + 1) rest p = _ by rw [below] at hb; exact hb)
    rw [below] at hb
    rcases h with ⟨e, _⟩ | ⟨_, h⟩
    · cases (List.cons.inj e).1; omega
    · exact ih _ _ _ _ _ _ _ hr h hb
  | br f w c rest ihc ihr =>
    intro bus lab i p r n s hr h hb
    cases p with
    | nil => cases hb
    | cons j p =>
      rw [below] at hb
      by_cases hij : i = j
      · subst hij
        rw [if_pos rfl] at hb
        rcases h with ⟨e, _⟩ | ⟨r', e, _, _, h, _⟩ | ⟨_, _, _, h⟩
        · have := (List.cons.inj e).2
          exact absurd (List.append_eq_nil_iff.1 this).2 hr
        · have e' := (List.cons.inj e).2
          rw [← e'] at h
          cases p with
          | nil =>
            rw [List.isEmpty_nil, if_pos rfl] at hb
            cases hb
            exact h
          | cons x p =>
            rw [List.isEmpty_cons, if_neg (by decide)] at hb
            exact ihc _ (fun p => lab (i :: p)) _ (x :: p) _ _ _ hr h hb
        · obtain ⟨j, r', e, hj⟩ := aim_head _ _ _ _ _ h
          cases (List.cons.inj e).1
          omega
      · rw [if_neg hij] at hb
        rcases h with ⟨e, _⟩ | ⟨r', e, _⟩ | ⟨_, _, _, h⟩
        · exact absurd (List.cons.inj e).1.symm hij
        · exact absurd (List.cons.inj e).1.symm hij
        · exact ihr _ _ _ _ _ _ _ hr h hb

end Corundum.PcieRoute
