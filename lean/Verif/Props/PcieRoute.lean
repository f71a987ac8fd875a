import Verif.Proof.PcieRoute
import Verif.Props.PcieEnum

/-! Properties C103 (routing by ID), C104 (requests of functions), C105 (unsupported requests). -/
namespace Corundum.PcieRoute
open Corundum.PcieEnum

/-! ### from enumeration to the layout -/

theorem enum_lay {base : Lim} {t o : Seg} {b lim : Lim} (ht : Ready t) (h : enumerate base t = some (o, b, lim)) (hf : Fits base lim) :
    b = base ∧ ∃ l' s, Lay 0 base.align 0 o l' s ∧ l'.le lim ∧ base.le base.align ∧ SegOk o := by
  obtain ⟨_, _, g, _⟩ := enum_good (segOk_ready ht) h hf
  obtain ⟨hb, l', s, h1, rfl⟩ := enum_shape h
  have la := base.align_ok.2
  have lb := l'.align_ok.2
  exact ⟨hb, l', s, (enumLoop_lay t (segOk_ready ht) 0 base.align 0 o l' s h1 (by decide) (Nat.lt_of_lt_of_le hf.mem0 la.2.1)
    (Nat.lt_of_le_of_lt lb.2.1 hf.mem) (Nat.le_trans lb.2.2 hf.pf) (Nat.le_trans hf.pf0 la.2.2)).1, lb, la, g.ok⟩

theorem fns_lt : ∀ (o : Seg) (bus i : Nat), SegOk o → bus < 256 → ∀ x ∈ fns bus i o, x.2 < 256 := by
  intro o
  induction o with
  | nil => intro bus i _ _ x hx; cases hx
  | ep f rest ih =>
    intro bus i hk hb x hx
    rcases List.mem_cons.1 hx with rfl | hx
    · exact hb
    · exact ih _ _ hk.2 hb x hx
  | br f w c rest ihc ihr =>
    intro bus i hk hb x hx
    rcases List.mem_cons.1 hx with rfl | hx
    · exact hb
    · rcases List.mem_append.1 hx with hx | hx
      · obtain ⟨y, hy, rfl⟩ := List.mem_map.1 hx
        exact ihc _ _ hk.2.2.1 hk.2.1.bus.2.1 y hy
      · exact ihr _ _ hk.2.2.2 hb x hx

theorem host_id {r d : Id} {base lim : Lim} : (pass (.cpl r) (host base lim) = true ↔ r.1 ≤ 255) ∧
    (pass (.msg d r) (host base lim) = true ↔ r.1 ≤ 255) := by
  have : (decide (0 ≤ r.1) && decide (r.1 ≤ 255)) = true ↔ r.1 ≤ 255 := by simp
  exact ⟨this, this⟩

theorem host_addr {a : Nat} {io : Bool} {base lim : Lim} : pass (.req a io) (host base lim) = true ↔
    if io = true then base.io ≤ a ∧ a ≤ lim.io else (base.mem ≤ a ∧ a ≤ lim.mem) ∨ (base.pf ≤ a ∧ a ≤ lim.pf) := by
  cases io
  · show ((decide (base.mem ≤ a) && decide (a ≤ lim.mem)) || (decide (base.pf ≤ a) && decide (a ≤ lim.pf))) = true ↔ _
    simp
  · show (decide (base.io ≤ a) && decide (a ≤ lim.io)) = true ↔ _
    simp

theorem upFrom_aim {lab : Lab} {o : Seg} {base lim : Lim} {k : Pkt} (hk : k.plain = true) {q : List Nat} (h : Aim k 0 lab 0 o q)
    (hp : pass k (host base lim) = true) (hr : toRoot k = false) (p : List Nat) : upFrom lab o base lim k p = .tree (.got q) := by
  rw [upFrom]
  rcases up_aim hk o 0 lab false 0 q p h with e | e
  · rw [e, hp, hr, down_aim hk _ _ _ _ _ _ h]; rfl
  · rw [e]

theorem cpl_aim {t o : Seg} {base b lim : Lim} (ht : Ready t) (h : enumerate base t = some (o, b, lim)) (hf : Fits base lim) {lab : Lab}
    (hl : Proper lab o) {q : List Nat × Nat} (hq : q ∈ fns 0 0 o) :
    Aim (.cpl (ident lab q)) 0 lab 0 o q.1 ∧ pass (.cpl (ident lab q)) (host b lim) = true ∧ toRoot (.cpl (ident lab q)) = false := by
  obtain ⟨rfl, l', s, g, _, _, gk⟩ := enum_lay ht h hf
  refine ⟨aim_id o 0 _ 0 l' s 0 lab g (Nat.le_refl _) hl.inj q.1 q.2 hq, ?_, ?_⟩
  · have := fns_lt o 0 0 gk (by decide) q hq
    exact (host_id (d := (0, 0, 0))).1.2 (Nat.le_of_lt_succ this)
  · rw [← Bool.not_eq_true]
    simp only [toRoot, ident, Bool.and_eq_true, beq_iff_eq]
    rintro ⟨e1, e2⟩
    rcases fns_bus o 0 _ 0 l' s 0 g q hq with ⟨_, j, h2, _⟩ | ⟨h1, _⟩
    · exact hl.dev0 q hq (by rw [h2]; rfl) e2
    · omega

/-! ### C103 -/

/-- C103: after enumeration a completion sent by any function - from whatever part of the tree - is handled by the function whose ID it
carries as requester. -/
theorem C103_delivered {t o : Seg} {base b lim : Lim} (ht : Ready t) (h : enumerate base t = some (o, b, lim)) (hf : Fits base lim)
    {lab : List Nat → Nat × Nat} (hl : Proper lab o) {p q : List Nat × Nat} (_hp : p ∈ fns 0 0 o) (hq : q ∈ fns 0 0 o) :
    fnSend lab o b lim (.cpl (ident lab q)) p.1 = .tree (.got q.1) := by
  obtain ⟨h1, h2, h3⟩ := cpl_aim ht h hf hl hq
  exact upFrom_aim rfl h1 h2 h3 _

/-- C103: so is one sent by the root complex. -/
theorem C103_from_root {t o : Seg} {base b lim : Lim} (ht : Ready t) (h : enumerate base t = some (o, b, lim)) (hf : Fits base lim)
    {lab : List Nat → Nat × Nat} (hl : Proper lab o) {q : List Nat × Nat} (hq : q ∈ fns 0 0 o) :
    rootSend lab o b lim (.cpl (ident lab q)) = some (.got q.1) := by
  obtain ⟨h1, h2, _⟩ := cpl_aim ht h hf hl hq
  rw [rootSend, if_pos h2, down_aim rfl _ _ _ _ _ _ h1]

/-- C103: a completion for device 0 on bus 0 reaches the root complex. -/
theorem C103_to_root {t o : Seg} {base b lim : Lim} (ht : Ready t) (h : enumerate base t = some (o, b, lim)) (hf : Fits base lim)
    {lab : List Nat → Nat × Nat} (hl : Proper lab o) {p : List Nat × Nat} (_hp : p ∈ fns 0 0 o) (fn : Nat) :
    fnSend lab o b lim (.cpl (0, 0, fn)) p.1 = .rc := by
  obtain ⟨rfl, l', s, g, _, _, gk⟩ := enum_lay ht h hf
  have hc : Clear (.cpl (0, 0, fn)) 0 lab 0 o := by
    refine clear_id o 0 _ 0 l' s 0 lab g (fun x hx e => ?_) (by show ¬ (0 < 0 ∧ _); omega)
    obtain ⟨e1, e2⟩ := Prod.mk.inj e
    rcases fns_bus o 0 _ 0 l' s 0 g x hx with ⟨_, j, h2, _⟩ | ⟨h1, _⟩
    · exact hl.dev0 x hx (by rw [h2]; rfl) (by rw [e2])
    · omega
  rw [fnSend, upFrom, up_clear _ _ _ _ _ _ hc]
  rfl

/-- nobody takes the packet -/
def NoOwn (k : Pkt) (bus : Nat) : Lab → Nat → Seg → Prop
  | _, _, .nil => True
  | lab, i, .ep f rest => own lab k [i] bus f = false ∧ NoOwn k bus lab (i + 1) rest
  | lab, i, .br f b c rest => own lab k [i] bus f = false ∧ NoOwn k b.sec (fun p => lab (i :: p)) 0 c ∧ NoOwn k bus lab (i + 1) rest

theorem push_got {i : Nat} {h : Hit} {p : List Nat} (e : h.push i = .got p) : ∃ r, h = .got r := by
  cases h <;> cases e
  exact ⟨_, rfl⟩

theorem turn_got {h : Hit} {p : List Nat} (e : h.turn = .got p) : h = .got p := by
  cases h with
  | got x => exact e
  | drop x => cases e
  | lost x y => cases x <;> cases e

theorem down_noOwn {k : Pkt} : ∀ (o : Seg) (bus : Nat) (lab : Lab) (link : Bool) (i : Nat), NoOwn k bus lab i o →
    ∀ p, down lab k link bus i o ≠ .got p := by
  intro o
  induction o with
  | nil => intro bus lab link i h p e; cases e
  | ep f rest ih => intro bus lab link i h p; rw [down, h.1]; exact ih _ _ _ _ h.2 p
  | br f b c rest ihc ihr =>
    intro bus lab link i h p
    rw [down, h.1]
    simp only [Bool.false_eq_true, if_false]
    split
    · split
      · intro e
        obtain ⟨r, e⟩ := push_got e
        exact ihc _ _ _ _ h.2.1 r e
      · intro e; cases e
    · exact ihr _ _ _ _ h.2.2 p

theorem up_noOwn {k : Pkt} : ∀ (o : Seg) (bus : Nat) (lab : Lab) (link : Bool) (i : Nat) (q : List Nat), NoOwn k bus lab i o →
    ∀ p, up lab k link bus i o q ≠ some (.got p) := by
  intro o
  induction o with
  | nil => intro bus lab link i q h p e; cases q <;> cases e
  | ep f rest ih => intro bus lab link i q h p; rw [up]; exact ih _ _ _ _ _ h.2 p
  | br f b c rest ihc ihr =>
    intro bus lab link i q h p
    cases q with
    | nil => intro e; cases e
    | cons j q =>
      rw [up]
      split
      · split
        · rename_i hh e0
          intro e
          obtain ⟨r, e⟩ := push_got (Option.some.inj e)
          exact ihc _ _ _ _ _ h.2.1 r (by rw [e0, e])
        · rw [h.1]
          simp only [Bool.false_eq_true, if_false]
          split
          · intro e
            obtain ⟨r, e⟩ := push_got (Option.some.inj e)
            exact down_noOwn _ _ _ _ _ h.2.1 r (turn_got e)
          · intro e; cases e
      · exact ihr _ _ _ _ _ h.2.2 p

theorem send_noOwn {k : Pkt} {o : Seg} {lab : Lab} (h : NoOwn k 0 lab 0 o) (base lim : Lim) (p : List Nat) :
    (∀ q, fnSend lab o base lim k q ≠ .tree (.got p)) ∧ rootSend lab o base lim k ≠ some (.got p) := by
  constructor
  · intro q
    rw [fnSend, upFrom]
    split
    · rename_i e
      intro e'
      cases e'
      exact up_noOwn o 0 lab false 0 _ h p e
    · split
      · split
        · intro e; cases e
        · intro e
          exact down_noOwn o 0 lab false 0 h p (turn_got (Dest.tree.inj e))
      · intro e; cases e
  · rw [rootSend]
    split
    · intro e
      exact down_noOwn o 0 lab false 0 h p (Option.some.inj e)
    · intro e; cases e

theorem noOwn_id {r : Id} : ∀ (o : Seg) (bus i : Nat) (lab : Lab), (∀ x ∈ fns bus i o, ident lab x ≠ r) → NoOwn (.cpl r) bus lab i o := by
  intro o
  induction o with
  | nil => intro bus i lab h; trivial
  | ep f rest ih =>
    intro bus i lab h
    refine ⟨?_, ih _ _ _ fun x hx => h x (List.mem_cons_of_mem _ hx)⟩
    have := h _ List.mem_cons_self
    simp only [own, decide_eq_false_iff_not]
    exact fun e => this e.symm
  | br f b c rest ihc ihr =>
    intro bus i lab h
    refine ⟨?_, ihc _ _ _ fun x hx => ?_, ihr _ _ _ fun x hx => h x (List.mem_cons_of_mem _ (List.mem_append_right _ hx))⟩
    · have := h _ List.mem_cons_self
      simp only [own, decide_eq_false_iff_not]
      exact fun e => this e.symm
    · exact h (i :: x.1, x.2) (List.mem_cons_of_mem _ (List.mem_append_left _ (List.mem_map.2 ⟨x, hx, rfl⟩)))

/-- C103: in any tree, enumerated or not, a completion for an ID that no function has is handled by no function. -/
theorem C103_stranger (lab : List Nat → Nat × Nat) (o : Seg) (base lim : Lim) {r : Id} (h : ∀ x ∈ fns 0 0 o, ident lab x ≠ r) (p : List Nat) :
    (∀ q, fnSend lab o base lim (.cpl r) q ≠ .tree (.got p)) ∧ rootSend lab o base lim (.cpl r) ≠ some (.got p) :=
  send_noOwn (noOwn_id o 0 0 lab h) base lim p

theorem down_msg {d : Id} {o : Seg} (lab : Lab) (hd : d.1 ≠ 0) : ∀ (l : Lim) (sub : Nat) (l' : Lim) (s i : Nat), Lay 0 l sub o l' s →
    down lab (.msg (0, 0, 0) d) false 0 i o = .lost [] false := by
  induction o with
  | nil => intro l sub l' s i h; rfl
  | ep f rest ih =>
    intro l sub l' s i ⟨l1, _, _, h⟩
    rw [down, if_neg]
    · exact ih _ _ _ _ _ h
    · simp only [own, decide_eq_true_eq]; intro e; exact hd (by rw [e])
  | br f w c rest ihc ihr =>
    intro l sub l' s i ⟨l1, lo, l2, hi, t, _, _, _, w1, w2, w3, _, _, _, h⟩
    rw [down, if_neg, if_neg]
    · exact ihr _ _ _ _ _ h
    · simp only [sel, Bool.false_eq_true, if_false, Bool.and_eq_true, decide_eq_true_eq, w1]; omega
    · simp only [own, decide_eq_true_eq]; intro e; exact hd (by rw [e])

/-- C103 fails for messages routed by ID: the switch picks its port by the sender instead of the receiver, so no message of the root
complex reaches any function below a root port - in no tree. -/
theorem C103_message_counterexample {t o : Seg} {base b lim : Lim} (ht : Ready t) (h : enumerate base t = some (o, b, lim))
    (hf : Fits base lim) {lab : List Nat → Nat × Nat} {q : List Nat × Nat} (hq : q ∈ fns 0 0 o) (hb : q.2 ≠ 0) :
    rootSend lab o b lim (.msg (0, 0, 0) (ident lab q)) = some (.lost [] false) := by
  obtain ⟨rfl, l', s, g, _, _, gk⟩ := enum_lay ht h hf
  have := fns_lt o 0 0 gk (by decide) q hq
  rw [rootSend, if_pos (host_id.2.2 (Nat.le_of_lt_succ this)), down_msg lab hb _ _ _ _ _ g]

/-! ### C104 -/

/-- C104: a memory or IO request sent by any function to an address of a BAR - of any function, wherever it is in the tree - is handled by
the function that has the BAR.  (Assumed as in C56: less prefetchable space in use than the memory base leaves below it.) -/
theorem C104_peer_partial {t o : Seg} {base b lim : Lim} (ht : Ready t) (h : enumerate base t = some (o, b, lim)) (hf : Fits base lim)
    (hal : base.pf % 2 ^ 32 + (lim.pf - base.pf) < base.mem) (lab : List Nat → Nat × Nat) {p : List Nat × Nat} (_hp : p ∈ fns 0 0 o)
    {q : List Nat} {r : Rgn} (hr : (q, r) ∈ o.regions 0) {addr : Nat} {io : Bool} (hh : r.holds addr io) :
    fnSend lab o b lim (.req addr io) p.1 = .tree (.got q) := by
  obtain ⟨rfl, l', s, g, hle, la, gk⟩ := enum_lay ht h hf
  have hrg := region_rng o 0 _ 0 l' s 0 g _ hr addr io hh
  have b1 := hf.mem
  have b2 := hf.pf
  have b3 := hf.io
  have fair : Fair addr io b.mem := by
    refine fair_of hf hal ?_
    have := rng_mono la hle hrg
    cases io <;> simp only [rng, Bool.false_eq_true, if_false, if_true] at this ⊢ <;> omega
  have ha := aim_addr fair o 0 b.align 0 l' s 0 lab g la.2.1 (Nat.le_trans hf.pf0 la.2.2) (Nat.le_trans hle.2.1 (Nat.le_of_lt hf.mem))
    q r hr hh
  refine upFrom_aim rfl ha ?_ rfl _
  have := rng_mono la hle hrg
  rw [host_addr]
  cases io <;> simp only [rng, Bool.false_eq_true, if_false, if_true] at this ⊢ <;> omega

/-- C104: a request of any function to an address outside the ranges handed out by enumeration - host memory - reaches the root complex.
(The address must not be above 4 GB with low bits at or above the memory base: 32-bit BARs of bridges look at the low bits only.) -/
theorem C104_host {t o : Seg} {base b lim : Lim} (ht : Ready t) (h : enumerate base t = some (o, b, lim)) (hf : Fits base lim)
    (lab : List Nat → Nat × Nat) {p : List Nat × Nat} (_hp : p ∈ fns 0 0 o) {addr : Nat} {io : Bool}
    (ha : addr < 2 ^ 32 ∨ (io = false ∧ addr < 2 ^ 64 ∧ addr % 2 ^ 32 < base.mem))
    (hout : if io = true then addr < base.io ∨ lim.io < addr
      else (addr < base.mem ∨ lim.mem < addr) ∧ (addr < base.pf ∨ lim.pf < addr)) :
    fnSend lab o b lim (.req addr io) p.1 = .rc := by
  obtain ⟨rfl, l', s, g, hle, la, gk⟩ := enum_lay ht h hf
  have fair : Fair addr io b.mem := by
    rcases ha with ha | ⟨rfl, ha, h2⟩
    · exact ⟨by omega, Or.inl ha⟩
    · exact ⟨ha, Or.inr ⟨rfl, h2⟩⟩
  have hc : Clear (.req addr io) 0 lab 0 o := by
    refine clear_addr fair o 0 b.align 0 l' s 0 lab g la.2.1 fun hrg => ?_
    have := rng_mono la hle hrg
    cases io <;> simp only [rng, Bool.false_eq_true, if_false, if_true] at this hout <;> omega
  rw [fnSend, upFrom, up_clear _ _ _ _ _ _ hc]
  have : pass (.req addr io) (host b lim) = false := by
    rw [← Bool.not_eq_true, host_addr]
    cases io <;> simp only [Bool.false_eq_true, if_false, if_true] at hout ⊢ <;> omega
  rw [this]
  rfl

theorem noOwn_addr {a : Nat} {io : Bool} {M : Nat} (hf : Fair a io M) : ∀ (o : Seg) (bus : Nat) (l : Lim) (sub : Nat) (l' : Lim)
    (s i : Nat) (lab : Lab), Lay bus l sub o l' s → M ≤ l.mem → (∀ x ∈ o.regions i, ¬ x.2.holds a io) → NoOwn (.req a io) bus lab i o := by
  intro o
  induction o with
  | nil => intro bus l sub l' s i lab _ _ _; trivial
  | ep f rest ih =>
    intro bus l sub l' s i lab ⟨l1, hk, hc, h⟩ hM hno
    rw [Seg.regions] at hno
    exact ⟨own_false hk hc hf hM _ _ _ fun r hr => hno ([i], r) (List.mem_append_left _ (List.mem_map.2 ⟨r, hr, rfl⟩)),
      ih _ _ _ _ _ _ _ h (Nat.le_trans hM hc.le.2.1) fun x hx => hno x (List.mem_append_right _ hx)⟩
  | br f w c rest ihc ihr =>
    intro bus l sub l' s i lab ⟨l1, lo, l2, hi, t, hk, hc, h1, w1, w2, w3, hw, h2, ⟨h3, _⟩, h⟩ hM hno
    rw [Seg.regions] at hno
    have e1 := hc.le
    have e2 := lay_le _ _ _ _ _ _ h2
    have f1 := Lim.le_trans e1 h1
    have f2 := Lim.le_trans f1 (Lim.le_trans e2 h3)
    refine ⟨own_false hk hc hf hM _ _ _ fun r hr => hno ([i], r) (List.mem_append_left _ (List.mem_map.2 ⟨r, hr, rfl⟩)), ?_,
      ihr _ _ _ _ _ _ _ h (Nat.le_trans hM f2.2.1) fun x hx => hno x (List.mem_append_right _ (List.mem_append_right _ hx))⟩
    rw [w1]
    exact ihc _ _ _ _ _ _ _ h2 (Nat.le_trans hM f1.2.1) fun x hx =>
      hno (i :: x.1, x.2) (List.mem_append_right _ (List.mem_append_left _ (List.mem_map.2 ⟨x, hx, rfl⟩)))

/-- C104: a request to an address in no BAR is handled by no function, whoever sends it. -/
theorem C104_unclaimed {t o : Seg} {base b lim : Lim} (ht : Ready t) (h : enumerate base t = some (o, b, lim)) (hf : Fits base lim)
    (lab : List Nat → Nat × Nat) {addr : Nat} {io : Bool} (ha : addr < 2 ^ 32 ∨ (io = false ∧ addr < 2 ^ 64 ∧ addr % 2 ^ 32 < base.mem))
    (hno : ∀ x ∈ o.regions 0, ¬ x.2.holds addr io) (p q : List Nat) : fnSend lab o b lim (.req addr io) q ≠ .tree (.got p) := by
  obtain ⟨rfl, l', s, g, hle, la, gk⟩ := enum_lay ht h hf
  have fair : Fair addr io b.mem := by
    rcases ha with ha | ⟨rfl, ha, h2⟩
    · exact ⟨by omega, Or.inl ha⟩
    · exact ⟨ha, Or.inr ⟨rfl, h2⟩⟩
  exact (send_noOwn (noOwn_addr fair o 0 b.align 0 l' s 0 lab g la.2.1 hno) b lim p).1 q

/-! ### C105 -/

theorem isBr_buses : ∀ (o : Seg) (i : Nat) (q : List Nat), isBr i o q = true → ∃ n, (q, n) ∈ o.buses i := by
  intro o
  induction o with
  | nil => intro i q h; cases q <;> cases h
  | ep f rest ih => intro i q h; rw [isBr] at h; exact ih _ _ h
  | br f w c rest ihc ihr =>
    intro i q h
    cases q with
    | nil => cases h
    | cons j q =>
      rw [isBr] at h
      rw [Seg.buses]
      split at h
      · rename_i e
        subst e
        rcases Bool.or_eq_true _ _ ▸ h with h | h
        · rw [List.isEmpty_iff.1 h]; exact ⟨w.sec, List.mem_cons_self⟩
        · obtain ⟨n, hn⟩ := ihc _ _ h
          exact ⟨n, List.mem_cons_of_mem _ (List.mem_append_left _ (List.mem_map.2 ⟨_, hn, rfl⟩))⟩
      · obtain ⟨n, hn⟩ := ihr _ _ h
        exact ⟨n, List.mem_cons_of_mem _ (List.mem_append_right _ hn)⟩

theorem fns_ne : ∀ (o : Seg) (bus i : Nat), ∀ x ∈ fns bus i o, x.1 ≠ [] := by
  intro o
  induction o with
  | nil => intro bus i x hx; cases hx
  | ep f rest ih =>
    intro bus i x hx
    rcases List.mem_cons.1 hx with rfl | hx
    · exact List.cons_ne_nil _ _
    · exact ih _ _ x hx
  | br f w c rest ihc ihr =>
    intro bus i x hx
    rcases List.mem_cons.1 hx with rfl | hx
    · exact List.cons_ne_nil _ _
    · rcases List.mem_append.1 hx with hx | hx
      · obtain ⟨y, hy, rfl⟩ := List.mem_map.1 hx
        exact List.cons_ne_nil _ _
      · exact ihr _ _ x hx

/-- C105: a read of a function (not a bridge) to an address that no BAR has either reaches the root complex, or the bridge or device where
it ends answers with an "unsupported request" completion, and this completion is handled by the function that sent the read. -/
theorem C105_answered {t o : Seg} {base b lim : Lim} (ht : Ready t) (h : enumerate base t = some (o, b, lim)) (hf : Fits base lim)
    {lab : List Nat → Nat × Nat} (hl : Proper lab o) (hw : Wired false o) {q : List Nat × Nat} (hq : q ∈ fns 0 0 o)
    (hep : ∀ n, (q.1, n) ∉ o.buses 0) {addr : Nat} {io : Bool}
    (ha : addr < 2 ^ 32 ∨ (io = false ∧ addr < 2 ^ 64 ∧ addr % 2 ^ 32 < base.mem)) (hno : ∀ x ∈ o.regions 0, ¬ x.2.holds addr io) :
    fnSend lab o b lim (.req addr io) q.1 = .rc ∨ ∃ p turned, fnSend lab o b lim (.req addr io) q.1 = .tree (.lost p turned) ∧
      unsupported lab o b lim false (ident lab q) p turned = some (.tree (.got q.1)) := by
  obtain ⟨c1, c2, c3⟩ := cpl_aim ht h hf hl hq
  have ans : ∀ p, upFrom lab o b lim (.cpl (ident lab q)) p = .tree (.got q.1) := upFrom_aim rfl c1 c2 c3
  obtain ⟨rfl, l', s, g, hle, la, gk⟩ := enum_lay ht h hf
  have fair : Fair addr io b.mem := by
    rcases ha with ha | ⟨rfl, ha, h2⟩
    · exact ⟨by omega, Or.inl ha⟩
    · exact ⟨ha, Or.inr ⟨rfl, h2⟩⟩
  have hbr : isBr 0 o q.1 = false := by
    rw [← Bool.not_eq_true]
    intro e
    obtain ⟨n, hn⟩ := isBr_buses o 0 q.1 e
    exact hep n hn
  have hq0 := fns_ne o 0 0 q hq
  have hqd : q.1 = q.1.dropLast ++ [q.1.getLast hq0] := (List.dropLast_concat_getLast hq0).symm
  -- the answer where the request is lost
  have key : ∀ p turned, LostAt false 0 0 o p → (turned = true → ∃ r, q.1.dropLast = p ++ r) →
      unsupported lab o b lim false (ident lab q) p turned = some (.tree (.got q.1)) := by
    intro p turned ⟨n, sg, hb, hlk⟩ ht
    obtain ⟨j, p', hp', _⟩ := below_head _ _ _ _ _ hb
    have hpn : p ≠ [] := by rw [hp']; exact List.cons_ne_nil _ _
    rw [unsupported, if_neg hpn, hb]
    dsimp only
    by_cases hpar : p.length % 2 = 0
    · rw [if_pos hpar]
      cases turned with
      | true =>
        obtain ⟨r, hr⟩ := ht rfl
        have hqe : q.1 = p ++ (r ++ [q.1.getLast hq0]) := by rw [← List.append_assoc, ← hr]; exact hqd
        have := aim_below o 0 lab 0 p _ n sg (by simp) (hqe ▸ c1) hb
        rw [if_pos rfl, down_aim rfl _ _ _ _ _ _ this]
        dsimp only
        rw [← hqe]
      | false => rw [if_neg (by decide), if_neg hpn, ans]
    · rw [if_neg hpar]
      obtain ⟨f, rest, rfl⟩ := hlk (by simp; omega)
      rw [← ans p]
      rfl
  rw [fnSend, hbr, if_neg (by decide), upFrom]
  rcases up_gap fair o 0 b.align 0 l' s 0 lab false q.1.dropLast g la.2.1 hw hno with e | ⟨p, t', e, e1, e2⟩
  · rw [e]
    dsimp only
    split
    · refine Or.inr ?_
      obtain ⟨p, d1, d2, _⟩ := down_gap fair o 0 b.align 0 l' s 0 lab false g la.2.1 hw hno
      rw [d1]
      rcases d2 with rfl | d2
      · refine ⟨[], true, rfl, ?_⟩
        rw [unsupported, if_pos rfl]
        dsimp only
        rw [if_pos rfl]
        have : down (fun x => lab ([] ++ x)) (.cpl (ident lab q)) false 0 0 o = .got q.1 := down_aim rfl _ _ _ _ _ _ c1
        rw [this]
        rfl
      · obtain ⟨n, sg, hb, hlk⟩ := id d2
        obtain ⟨j, p', rfl, _⟩ := below_head _ _ _ _ _ hb
        exact ⟨_, false, rfl, key _ _ d2 fun e => by cases e⟩
    · exact Or.inl rfl
  · rw [e]
    exact Or.inr ⟨p, t', rfl, key p t' e1 e2⟩

/-- C105: a write of a function to an address that no BAR has either reaches the root complex or ends at a device, which does not answer.
Assumed: no bridge has a BAR, aligned base addresses, and not the first address after a range - see the counterexample. -/
theorem C105_write_partial {t o : Seg} {base b lim : Lim} (ht : Ready t) (h : enumerate base t = some (o, b, lim)) (hf : Fits base lim)
    (lab : List Nat → Nat × Nat) (hw : Bare false o) (hal : base.io % 2 ^ 12 = 0 ∧ base.mem % 2 ^ 20 = 0 ∧ base.pf % 2 ^ 20 = 0)
    {q : List Nat × Nat} (_hq : q ∈ fns 0 0 o) (hep : ∀ n, (q.1, n) ∉ o.buses 0) {addr : Nat} {io : Bool}
    (ha : addr < 2 ^ 32 ∨ (io = false ∧ addr < 2 ^ 64 ∧ addr % 2 ^ 32 < base.mem)) (hno : ∀ x ∈ o.regions 0, ¬ x.2.holds addr io)
    (hl : if io = true then addr ≠ lim.io else addr ≠ lim.mem ∧ addr ≠ lim.pf) :
    fnSend lab o b lim (.req addr io) q.1 = .rc ∨ ∃ p turned, fnSend lab o b lim (.req addr io) q.1 = .tree (.lost p turned) ∧
      unsupported lab o b lim true (ident lab q) p turned = none := by
  obtain ⟨rfl, l', s, h1, rfl⟩ := enum_shape h
  have la := b.align_ok.2
  have lb := l'.align_ok.2
  have g := (enumLoop_lay t (segOk_ready ht) 0 b.align 0 o l' s h1 (by decide) (Nat.lt_of_lt_of_le hf.mem0 la.2.1)
    (Nat.lt_of_le_of_lt lb.2.1 hf.mem) (Nat.le_trans lb.2.2 hf.pf) (Nat.le_trans hf.pf0 la.2.2)).1
  rw [align_self hal] at g la
  have hend := end_aligned o 0 b 0 l' s false g hw (align_self hal) (Or.inl rfl)
  have fair : Fair addr io b.mem := by
    rcases ha with ha | ⟨rfl, ha, h2⟩
    · exact ⟨by omega, Or.inl ha⟩
    · exact ⟨ha, Or.inr ⟨rfl, h2⟩⟩
  have hbr : isBr 0 o q.1 = false := by
    rw [← Bool.not_eq_true]
    intro e
    obtain ⟨n, hn⟩ := isBr_buses o 0 q.1 e
    exact hep n hn
  have key : ∀ p turned, (false != decide (p.length % 2 = 1)) = true → unsupported lab o b l'.align true (ident lab q) p turned = none := by
    intro p turned hp
    rw [unsupported]
    have hp1 : ¬ p.length % 2 = 0 := by
      intro e; rw [e] at hp; cases hp
    split
    · rfl
    · rw [if_neg hp1]
      split <;> rfl
  rw [fnSend, hbr, if_neg (by decide), upFrom]
  rcases up_bare fair o 0 b 0 l' s 0 lab false q.1.dropLast g (Nat.le_refl _) hw hno with e | ⟨p, t', e, e1⟩
  · rw [e]
    dsimp only
    split
    · rename_i hp
      refine Or.inr ?_
      have hr : rng b l' addr io := by
        rw [host_addr, hend] at hp
        rw [hend] at hl
        cases io <;> simp only [rng, Bool.false_eq_true, if_false, if_true] at * <;> omega
      obtain ⟨p, d1, d2⟩ := down_bare fair o 0 b 0 l' s 0 lab false g (Nat.le_refl _) hw (fun _ => ⟨align_self hal, hr⟩) hno
      rw [d1]
      cases p with
      | nil => cases d2
      | cons x p => exact ⟨x :: p, false, rfl, key _ _ d2⟩
    · exact Or.inl rfl
  · rw [e]
    exact Or.inr ⟨p, t', rfl, key p t' e1⟩

/-! ### examples -/

/-- numbers as the constructors give them: ports 1, 2, ... inside a root complex or switch, functions of device 0 at the end of a link -/
def numbers (p : List Nat) : Nat × Nat := if p.length % 2 = 1 then (p.getLast?.getD 0 + 1, 0) else (0, p.getLast?.getD 0)

/-- two root ports: a switch with two ports and an endpoint with two functions behind the second, a single endpoint -/
def net : Seg :=
  .br (fn [.unused, .unused]) {} (.br (fn [.unused, .unused]) {}
      (.br (fn [.unused, .unused]) {} (.ep (fn [.m32 16 false, .m64 22 true, .io 5]) .nil)
        (.br (fn [.unused, .unused]) {} (.ep (fn [.m64 24 true, .m32 16 false]) (.ep (fn [.m64 20 false]) .nil)) .nil)) .nil)
    (.br (fn [.unused, .unused]) {} (.ep (fn [.m32 12 false]) .nil) .nil)

theorem net_fresh : net.fresh := by
  simp [net, Seg.fresh, fn, Slot.ok]

/-- `net` after enumeration -/
def net' : Seg × Lim × Lim := (enumerate defaults net).get (by decide)

theorem net_enum : enumerate defaults net = some net' := by decide +kernel

instance decWired : (link : Bool) → (o : Seg) → Decidable (Wired link o)
  | _, .nil => isTrue trivial
  | link, .ep _ rest => decWired link rest
  | link, .br f _ c rest =>
    have := decWired (!link) c
    have := decWired link rest
    inferInstanceAs (Decidable ((link = true → rest = .nil ∧ ∀ x ∈ f.slots, x = .unused) ∧ (link = false → c ≠ .nil) ∧ Wired (!link) c ∧
      Wired link rest))

instance (lab : List Nat → Nat × Nat) (o : Seg) : Decidable (Proper lab o) :=
  decidable_of_iff ((∀ x ∈ fns 0 0 o, ∀ y ∈ fns 0 0 o, x.1.dropLast = y.1.dropLast → lab x.1 = lab y.1 → x.1 = y.1) ∧
    ∀ x ∈ fns 0 0 o, x.1.length = 1 → (lab x.1).1 ≠ 0) ⟨fun ⟨a, b⟩ => ⟨a, b⟩, fun ⟨a, b⟩ => ⟨a, b⟩⟩

theorem net_ok : Fits defaults net'.2.2 ∧ Proper numbers net'.1 ∧ Wired false net'.1 ∧
    defaults.pf % 2 ^ 32 + (net'.2.2.pf - defaults.pf) < defaults.mem := by decide +kernel

instance decBare : (link : Bool) → (o : Seg) → Decidable (Bare link o)
  | _, .nil => isTrue trivial
  | link, .ep _ .nil => decidable_of_iff (link = true) ⟨fun h => ⟨h, Or.inl rfl, trivial⟩, fun h => h.1⟩
  | link, .ep _ (.ep f r) =>
    have := decBare link (.ep f r)
    decidable_of_iff (link = true ∧ Bare link (.ep f r)) ⟨fun h => ⟨h.1, Or.inr ⟨f, r, rfl⟩, h.2⟩, fun h => ⟨h.1, h.2.2⟩⟩
  | _, .ep _ (.br _ _ _ _) => isFalse fun h => by rcases h.2.1 with h | ⟨_, _, h⟩ <;> cases h
  | link, .br f _ c rest =>
    have := decBare (!link) c
    have := decBare link rest
    inferInstanceAs (Decidable ((∀ x ∈ f.slots, x = .unused) ∧ (link = true → rest = .nil) ∧ (link = false → c ≠ .nil) ∧ Bare (!link) c ∧
      Bare link rest))

/-- a write of the endpoint at the second root port to an address inside the memory range that no BAR has: the endpoint below the switch
gets it and does not answer, while it would answer a read -/
example : Bare false net'.1 ∧ (defaults.io % 2 ^ 12 = 0 ∧ defaults.mem % 2 ^ 20 = 0 ∧ defaults.pf % 2 ^ 20 = 0) ∧
    (∀ x ∈ net'.1.regions 0, ¬ x.2.holds 0x80020000 false) ∧ 0x80020000 ≠ net'.2.2.mem ∧ 0x80020000 ≠ net'.2.2.pf ∧
    fnSend numbers net'.1 net'.2.1 net'.2.2 (.req 0x80020000 false) [1, 0] = .tree (.lost [0, 0, 0] false) ∧
    unsupported numbers net'.1 net'.2.1 net'.2.2 true (5, 0, 0) [0, 0, 0] false = none ∧
    unsupported numbers net'.1 net'.2.1 net'.2.2 false (5, 0, 0) [0, 0, 0] false = some (.tree (.got [1, 0])) := by decide +kernel

/-- the functions of `net` and their IDs; a completion of the first function of the endpoint behind the second port of the switch for the
endpoint at the second root port -/
example : (fns 0 0 net'.1).map (ident numbers) =
      [(0, 1, 0), (1, 0, 0), (2, 1, 0), (3, 0, 0), (2, 2, 0), (4, 0, 0), (4, 0, 1), (0, 2, 0), (5, 0, 0)] ∧
    ([0, 0, 1, 0], 4) ∈ fns 0 0 net'.1 ∧ ([1, 0], 5) ∈ fns 0 0 net'.1 ∧
    fnSend numbers net'.1 net'.2.1 net'.2.2 (.cpl (5, 0, 0)) [0, 0, 1, 0] = .tree (.got [1, 0]) := by decide +kernel

/-- a request of the same function to a BAR of the endpoint at the other port of the switch, to host memory, and to an address that
the switch passes but nobody has: the answer comes back -/
example : (([0, 0, 0, 0], ⟨0, .mem, 0x80000000, 2 ^ 16⟩) : List Nat × Rgn) ∈ net'.1.regions 0 ∧
    fnSend numbers net'.1 net'.2.1 net'.2.2 (.req 0x80000123 false) [0, 0, 1, 0] = .tree (.got [0, 0, 0, 0]) ∧
    fnSend numbers net'.1 net'.2.1 net'.2.2 (.req 0x10000 false) [0, 0, 1, 0] = .rc ∧
    (∀ x ∈ net'.1.regions 0, ¬ x.2.holds 0x80020000 false) ∧
    fnSend numbers net'.1 net'.2.1 net'.2.2 (.req 0x80020000 false) [0, 0, 1, 0] = .tree (.lost [0, 0, 0] false) ∧
    unsupported numbers net'.1 net'.2.1 net'.2.2 false (4, 0, 0) [0, 0, 0] false = some (.tree (.got [0, 0, 1, 0])) := by decide +kernel

/-- `sample` after enumeration -/
def sample' : Seg × Lim × Lim := (enumerate defaults sample).get (by decide)

theorem sample_enum : enumerate defaults sample = some sample' := by decide +kernel

/-- C105 fails without `Wired`: when the bridge of a switch has a BAR of its own, the window of the port above it has room that neither the
BAR nor the window of the bridge covers.  A read there is discarded without an answer. -/
theorem C105_switch_counterexample : ∃ o b lim, sample.fresh ∧ enumerate defaults sample = some (o, b, lim) ∧ Fits defaults lim ∧
    Proper numbers o ∧ (∀ x ∈ o.regions 0, ¬ x.2.holds 0x80010000 false) ∧
    fnSend numbers o b lim (.req 0x80010000 false) [0, 0, 0, 0] = .tree (.lost [0] true) ∧
    unsupported numbers o b lim false (3, 0, 0) [0] true = none := by
  refine ⟨sample'.1, sample'.2.1, sample'.2.2, sample_fresh, sample_enum, ?_, ?_, ?_, ?_, ?_⟩ <;> decide +kernel

/-- C105 fails for writes: a switch or root complex answers a memory write that nobody takes with a completion, although memory writes are
posted and the sender waits for none.  (The address is the first one after the memory range: the window of the host bridge is one byte
too large.) -/
theorem C105_posted_counterexample : ∃ o b lim, net.fresh ∧ enumerate defaults net = some (o, b, lim) ∧ Fits defaults lim ∧
    Proper numbers o ∧ Wired false o ∧ (∀ x ∈ o.regions 0, ¬ x.2.holds 0x80400000 false) ∧ lim.mem = 0x80400000 ∧
    fnSend numbers o b lim (.req 0x80400000 false) [1, 0] = .tree (.lost [] true) ∧
    unsupported numbers o b lim true (5, 0, 0) [] true = some (.tree (.got [1, 0])) := by
  refine ⟨net'.1, net'.2.1, net'.2.2, net_fresh, net_enum, net_ok.1, net_ok.2.1, net_ok.2.2.1, ?_, ?_, ?_, ?_⟩ <;> decide +kernel

/-- C103: a completion for a device that is not there, with a bus number below a switch, is not discarded: the switch answers it with a
completion for the same ID, which the port above sends straight back to the switch, and so on without end. -/
theorem C103_stray_counterexample : ∃ o b lim, net.fresh ∧ enumerate defaults net = some (o, b, lim) ∧ Fits defaults lim ∧
    Proper numbers o ∧ (∀ x ∈ fns 0 0 o, ident numbers x ≠ (2, 7, 0)) ∧
    fnSend numbers o b lim (.cpl (2, 7, 0)) [1, 0] = .tree (.lost [0, 0] false) ∧
    unsupported numbers o b lim false (2, 7, 0) [0, 0] false = some (.tree (.lost [0, 0] false)) := by
  refine ⟨net'.1, net'.2.1, net'.2.2, net_fresh, net_enum, net_ok.1, net_ok.2.1, ?_, ?_, ?_⟩ <;> decide +kernel

end Corundum.PcieRoute
