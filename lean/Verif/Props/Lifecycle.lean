import Verif.Proof.LifecycleIf
/-!
# C97, C98, C99: queues of the driver and of the hardware

C97: through any sequence of openings, closings and use, what the hardware has in the words of the queues is what the driver believes; a queue that belongs to nobody is disabled.
C98: a completion finds its way back to the ring it belongs to.
C99: `Interface.open` brings all queues up.  `Interface.close` never works: it raises an exception with all queues left enabled.
-/
namespace Corundum.Lifecycle
open Corundum.Resource (Res)

theorem Boot.inv {p : Corundum.CplQueue.Params} {s : Sys} (h : Boot p s) : Inv s := by
  obtain ⟨neq, ncq, nq, he, hc, hq, h1, h2, h3, h4, h5, rfl⟩ := h
  exact inv_init p neq ncq nq he hc hq h1 h2 h3 h4 h5

variable (p : Corundum.CplQueue.Params)

/-! ### a concrete system -/

def exP : Corundum.CplQueue.Params := ⟨8, 4, 5, 64, 16⟩
def exQW : QW := ⟨7, 9, 3, 5, 1, true, 0, 0x5000, 1⟩
def exCW : CW := ⟨7, 9, 3, 5, false, false, true, 0, 0x5000, 1⟩
/-- two event queues, five completion queues, two TX queues and one RX queue, all found enabled -/
def exSys : Sys := init exP 2 5 (fun d => if d = .tx then 2 else 1) (fun _ => exCW) (fun _ => exCW) (fun _ _ => exQW)

theorem exBoot : Boot exP exSys := ⟨2, 5, _, _, _, _, by decide, by decide, fun _ => rfl, fun _ => rfl, fun _ _ => rfl, rfl⟩

def exOps : List Op := [.eqOpen 0 3 1024 0x10000, .cqOpen 0 0 256 0x20000, .cqOpen 1 0 256 0x30000, .ringOpen .tx 0 0 512 4 0x100000000, .ringOpen .rx 0 1 512 4 0x40000, .ringEnable .tx 0, .ringPost .tx 0 3, .hwRing .tx 0 2 1,
  .ringClose .rx 0, .cqClose 1]

theorem exValid : Valid exP exSys exOps := by
  refine ⟨⟨by decide, by decide, by decide⟩, ⟨by decide, by decide, by decide⟩, ⟨by decide, by decide, by decide⟩, ⟨by decide, by decide, by decide, by decide, by decide⟩, ⟨by decide, by decide, by decide, by decide, by decide⟩,
    trivial, ?_, trivial, trivial, ?_, trivial⟩
  · show (Ring.hw _ ≠ none); decide
  · show (CqObj.ring _ = none); decide

/-! ### C97 -/

/-- What the hardware knows of an open TX or RX queue is what the driver knows: enable, completion queue, size, block size, address and producer pointer — for sizes up to 32768, blocks up to 8 and an address at a page. -/
theorem C97_rings (s : Sys) (ops : List Op) (h : Boot p s) (v : Valid p s ops) (d : Dir) (r n : Nat) (ho : ((run p s ops).rings d r).hw = some n) :
    let t := run p s ops
    (t.hq d n).en = (t.rings d r).enabled ∧ (t.hq d n).prod = (t.rings d r).prod % 65536 ∧ (∃ c, (t.rings d r).cq = some c ∧ (t.cqs c).hw = some (t.hq d n).cplq) ∧
    ((t.rings d r).log < 16 → (t.hq d n).logSize = (t.rings d r).log) ∧ ((t.rings d r).blk < 4 → (t.hq d n).logBlock = (t.rings d r).blk) ∧
    ((t.rings d r).base % 4096 = 0 → hwBase (t.hq d n) = (t.rings d r).base) := by
  obtain ⟨c, m, g1, g2, g3, g4⟩ := (inv_run p ops s h.inv v).q.hw d r n ho
  refine ⟨g4.en, g4.prod, ⟨c, g1, by rw [g4.cplq]; exact g2⟩, fun h => ?_, fun h => ?_, fun h => ?_⟩
  · rw [g4.size]; omega
  · rw [g4.block]; omega
  · rw [g4.base]; omega

example : let t := run exP exSys exOps
    (t.rings .tx 0).hw = some 0 ∧ (t.hq .tx 0).en = true ∧ (t.hq .tx 0).prod = 3 ∧ (t.hq .tx 0).logSize = 9 ∧ hwBase (t.hq .tx 0) = 0x100000000 := by decide +kernel

/-- The same of an open completion queue. -/
theorem C97_cqs (s : Sys) (ops : List Op) (h : Boot p s) (v : Valid p s ops) (c n : Nat) (ho : ((run p s ops).cqs c).hw = some n) :
    let t := run p s ops
    (t.hc n).en = true ∧ (∃ e, (t.cqs c).eq = some e ∧ (t.eqs e).hw = some (t.hc n).evn) ∧ ((t.cqs c).log < 16 → (t.hc n).logSize = (t.cqs c).log) ∧ ((t.cqs c).base % 4096 = 0 → hwBaseC (t.hc n) = (t.cqs c).base) := by
  obtain ⟨e, m, g1, g2, g3, g4⟩ := (inv_run p ops s h.inv v).c.hw c n ho
  refine ⟨g4.en, ⟨e, g1, by rw [g4.evn]; exact g2⟩, fun h => ?_, fun h => ?_⟩
  · rw [g4.size]; omega
  · rw [g4.base]; omega

/-- The same of an open event queue. -/
theorem C97_eqs (s : Sys) (ops : List Op) (h : Boot p s) (v : Valid p s ops) (e n : Nat) (ho : ((run p s ops).eqs e).hw = some n) :
    let t := run p s ops
    (t.he n).en = true ∧ (t.eqs e).irq = some (t.he n).evn ∧ ((t.eqs e).log < 16 → (t.he n).logSize = (t.eqs e).log) ∧ ((t.eqs e).base % 4096 = 0 → hwBaseC (t.he n) = (t.eqs e).base) := by
  obtain ⟨irq, g1, g4⟩ := (inv_run p ops s h.inv v).e.hw e n ho
  refine ⟨g4.en, by rw [g4.evn]; exact g1, fun h => ?_, fun h => ?_⟩
  · rw [g4.size]; omega
  · rw [g4.base]; omega

example : let t := run exP exSys exOps
    (t.cqs 0).hw = some 0 ∧ (t.hc 0).logSize = 8 ∧ hwBaseC (t.hc 0) = 0x20000 ∧ (t.eqs 0).hw = some 0 ∧ (t.he 0).evn = 3 ∧ (t.hc 1).en = false := by decide +kernel

/-- An `open` of a TX or RX queue that succeeds takes the free queue with the smallest number; it leaves that disabled and empty — for an RX queue of at least eight entries filled with descriptors —, with the parameters given, and
touches no other queue. -/
theorem C97_open (s : Sys) (ops : List Op) (h : Boot p s) (v : Valid p s ops) (d : Dir) (r c size blk base : Nat) (ok : (Op.ringOpen d r c size blk base).Ok (run p s ops))
    (hs : (step p (run p s ops) (.ringOpen d r c size blk base)).2 = false) :
    let t := run p s ops
    let u := (step p t (.ringOpen d r c size blk base)).1
    ∃ n, (u.rings d r).hw = some n ∧ n < (t.qRes d).count ∧ (∀ x, (t.rings d x).hw ≠ some n) ∧ (∀ k < n, ∃ x, (t.rings d x).hw = some k) ∧
      (u.rings d r).base = base ∧ (u.rings d r).log = Nat.log2 size ∧ (u.rings d r).blk = Nat.log2 blk ∧ (u.rings d r).cq = some c ∧ (u.rings d r).cons = 0 ∧
      (u.rings d r).prod = (if d = .rx ∧ 8 ≤ 2 ^ Nat.log2 size then 2 ^ Nat.log2 size else 0) ∧
      (u.hq d n).en = false ∧ (u.hq d n).cons = 0 ∧ (u.hq d n).prod = (u.rings d r).prod % 65536 ∧
      (∀ b k, (b, k) ≠ (d, n) → u.hq b k = t.hq b k) ∧ u.hc = t.hc ∧ u.he = t.he ∧ (∀ b x, (b, x) ≠ (d, r) → u.rings b x = t.rings b x) := by
  have i := inv_run p ops s h.inv v
  generalize run p s ops = t at *
  obtain ⟨h1, h2, h3, h4, h5⟩ := ok
  obtain ⟨m, hm⟩ := Option.ne_none_iff_exists'.1 h1
  have hms := i.c.own.lt c m hm
  have hcnt := i.c.cnt
  intro t' u
  have hs' : (ringOpen t d r c size blk base).2 = false := hs
  have hu : u = (ringOpen t d r c size blk base).1 := rfl
  cases hh : (t.rings d r).hw with
  | some k =>
    have : (ringOpen t d r c size blk base).2 = true := by unfold ringOpen; rw [hh]
    rw [this] at hs'; cases hs'
  | none =>
    cases hf : (t.qRes d).free with
    | nil =>
      obtain ⟨x, hx⟩ := alloc_nil hf
      have : (ringOpen t d r c size blk base).2 = true := by unfold ringOpen; rw [hh, hx]
      rw [this] at hs'; cases hs'
    | cons n l =>
      rw [ringOpen_eval t d r c size blk base n m l hh hf hm] at hu
      have hn := ((i.q.own d).mem n).1 (by rw [hf]; exact List.mem_cons_self ..)
      obtain ⟨k1, k2, k3⟩ := open_match (t.hq d n) d n base size blk c m (i.q.low d n) h3 h4 h5 (by omega)
      have er : u.rings d r = ⟨some n, base, Nat.log2 size, Nat.log2 blk, some c, (t.rings d r).enabled, refill d (Nat.log2 size), 0⟩ := by rw [hu]; exact upd2_same ..
      have eq : u.hq d n = progQ (t.hq d n) (progQ7 base (Nat.log2 size) (Nat.log2 blk) m ++ if refill d (Nat.log2 size) = 0 then [] else [(CTRL, SET_PROD_PTR ||| (refill d (Nat.log2 size) &&& 0xffff))]) := by
        rw [hu]; exact upd2_same ..
      refine ⟨n, by rw [er], hn.1, hn.2, fun k hk => ?_, by rw [er], by rw [er], by rw [er], by rw [er], by rw [er], by rw [er]; rfl, ?_, ?_, ?_, ?_, by rw [hu], by rw [hu], ?_⟩
      · refine Classical.byContradiction fun hne => ?_
        have := ((i.q.own d).mem k).2 ⟨by omega, fun x hx => hne ⟨x, hx⟩⟩
        have hs := (i.q.own d).sorted
        rw [hf, List.pairwise_cons] at hs
        rw [hf, List.mem_cons] at this
        rcases this with this | this
        · omega
        · have := hs.1 k this; omega
      · rw [eq]; exact k1.en
      · rw [eq]; exact k3
      · rw [eq, er]; exact k1.prod
      · intro b k hb
        rw [hu]
        exact upd2_ne _ _ (fun e => hb (by rw [e.1, e.2]))
      · intro b x hb
        rw [hu]
        exact upd2_ne _ _ (fun e => hb (by rw [e.1, e.2]))

example : (step exP (run exP exSys exOps) (.ringOpen .rx 7 0 64 1 0x50000)).2 = false ∧ (((step exP (run exP exSys exOps) (.ringOpen .rx 7 0 64 1 0x50000)).1).hq .rx 0).prod = 64 := by decide +kernel

/-- No two open queues have the same number. -/
theorem C97_distinct (s : Sys) (ops : List Op) (h : Boot p s) (v : Valid p s ops) :
    let t := run p s ops
    (∀ d r x n, (t.rings d r).hw = some n → (t.rings d x).hw = some n → r = x) ∧ (∀ c x n, (t.cqs c).hw = some n → (t.cqs x).hw = some n → c = x) ∧ (∀ e x n, (t.eqs e).hw = some n → (t.eqs x).hw = some n → e = x) := by
  have i := inv_run p ops s h.inv v
  exact ⟨fun d r x n h1 h2 => (i.q.own d).inj r x n h1 h2, fun c x n h1 h2 => i.c.own.inj c x n h1 h2, fun e x n h1 h2 => i.e.own.inj e x n h1 h2⟩

/-- A queue that is enabled in the hardware belongs to an object that is open, and (TX, RX) enabled. -/
theorem C97_enabled_owned (s : Sys) (ops : List Op) (h : Boot p s) (v : Valid p s ops) :
    let t := run p s ops
    (∀ d n, n < (t.qRes d).count → (t.hq d n).en = true → ∃ r, (t.rings d r).hw = some n ∧ (t.rings d r).enabled = true) ∧
    (∀ n, n < t.cqRes.count → (t.hc n).en = true → ∃ c, (t.cqs c).hw = some n) ∧ (∀ n, n < t.eqRes.count → (t.he n).en = true → ∃ e, (t.eqs e).hw = some n) := by
  have i := inv_run p ops s h.inv v
  refine ⟨fun d n hn he => ?_, fun n hn he => ?_, fun n hn he => ?_⟩
  · refine Classical.byContradiction fun hne => ?_
    by_cases hx : ∃ r, ((run p s ops).rings d r).hw = some n
    · obtain ⟨r, hr⟩ := hx
      obtain ⟨c, m, _, _, _, g⟩ := i.q.hw d r n hr
      exact hne ⟨r, hr, by rw [← g.en]; exact he⟩
    · have := i.q.off d n hn fun r hr => hx ⟨r, hr⟩
      rw [this] at he; cases he
  · refine Classical.byContradiction fun hne => ?_
    have := i.c.off n hn fun r hr => hne ⟨r, hr⟩
    rw [this] at he; cases he
  · refine Classical.byContradiction fun hne => ?_
    have := i.e.off n hn fun r hr => hne ⟨r, hr⟩
    rw [this] at he; cases he

/-- A call that keeps the order fails only if the object is already open or no queue is free (`enable`: if it is not open); it then changes nothing. -/
theorem C97_errors (s : Sys) (ops : List Op) (h : Boot p s) (v : Valid p s ops) (o : Op) (ok : o.Ok (run p s ops)) (he : (step p (run p s ops) o).2 = true) :
    let t := run p s ops
    (step p t o).1 = t ∧ o.Why t := by
  have i := inv_run p ops s h.inv v
  generalize run p s ops = t at *
  have full : ∀ {r : Res} {own : Nat → Option Nat}, Own r own → ∀ {x}, r.alloc = .error x → ∀ n < r.count, ∃ x, own x = some n := by
    intro r own ho x hx n hn
    have hf : r.free = [] := by
      unfold Res.alloc at hx
      split at hx
      · assumption
      · cases hx
    refine Classical.byContradiction fun hne => ?_
    have := (ho.mem n).2 ⟨hn, fun y hy => hne ⟨y, hy⟩⟩
    rw [hf] at this; cases this
  cases o with
  | eqOpen e irq size base =>
    dsimp only [step, eqOpen] at he ⊢
    split at he
    · rename_i k hk; exact ⟨rfl, Or.inl (by rw [hk]; exact fun h => (by cases h))⟩
    · rename_i hk ha; exact ⟨rfl, Or.inr (full i.e.own ha)⟩
    · cases he
  | eqClose e =>
    dsimp only [step, eqClose] at he
    split at he <;> cases he
  | cqOpen c e size base =>
    dsimp only [step, cqOpen] at he ⊢
    split at he
    · rename_i k hk; exact ⟨rfl, Or.inl (by rw [hk]; exact fun h => (by cases h))⟩
    · rename_i hk ha; exact ⟨rfl, Or.inr (full i.c.own ha)⟩
    · split at he
      · rename_i hh; exact absurd hh ok.1
      · cases he
  | cqClose c =>
    dsimp only [step, cqClose] at he
    split at he
    · cases he
    · rename_i n hn
      obtain ⟨e, m, g1, g2, g3, g4⟩ := i.c.hw c n hn
      rw [g1] at he
      dsimp only at he
      rw [g3] at he
      cases he
  | ringOpen d r c size blk base =>
    dsimp only [step, ringOpen] at he ⊢
    split at he
    · rename_i k hk; exact ⟨rfl, Or.inl (by rw [hk]; exact fun h => (by cases h))⟩
    · rename_i hk ha; exact ⟨rfl, Or.inr (full (i.q.own d) ha)⟩
    · split at he
      · rename_i hh; exact absurd hh ok.1
      · cases he
  | ringClose d r =>
    dsimp only [step, ringClose] at he
    split at he <;> cases he
  | ringEnable d r =>
    dsimp only [step, ringEnable] at he ⊢
    split at he
    · rename_i hk; exact ⟨rfl, hk⟩
    · cases he
  | ringDisable d r =>
    dsimp only [step, ringDisable] at he
    split at he <;> cases he
  | ringPost d r k =>
    dsimp only [step, ringPost] at he
    split at he
    · rename_i hk; exact absurd hk ok
    · cases he
  | eqArm e =>
    dsimp only [step] at he
    split at he <;> cases he
  | cqArm c =>
    dsimp only [step] at he
    split at he <;> cases he
  | hwRing | hwCpl | hwEvent => cases he

example : (step exP (run exP exSys exOps) (.cqOpen 0 0 16 0)).2 = true ∧ (step exP (run exP exSys exOps) (.ringEnable .rx 0)).2 = true := by decide +kernel

/-- With everything closed again all queues are disabled, and all numbers can be given out in the same order as at the start. -/
theorem C97_all_closed (s : Sys) (ops : List Op) (h : Boot p s) (v : Valid p s ops) (hr : ∀ d r, ((run p s ops).rings d r).hw = none) (hc : ∀ c, ((run p s ops).cqs c).hw = none) (he : ∀ e, ((run p s ops).eqs e).hw = none) :
    let t := run p s ops
    (∀ d, t.qRes d = Res.init (t.qRes d).count) ∧ t.cqRes = Res.init t.cqRes.count ∧ t.eqRes = Res.init t.eqRes.count ∧
    (∀ d n, n < (t.qRes d).count → (t.hq d n).en = false) ∧ (∀ n, n < t.cqRes.count → (t.hc n).en = false) ∧ (∀ n, n < t.eqRes.count → (t.he n).en = false) := by
  have i := inv_run p ops s h.inv v
  exact ⟨fun d => own_none (i.q.own d) (hr d), own_none i.c.own hc, own_none i.e.own he, fun d n hn => i.q.off d n hn fun r => by rw [hr]; exact fun h => (by cases h),
    fun n hn => i.c.off n hn fun r => by rw [hc]; exact fun h => (by cases h), fun n hn => i.e.off n hn fun r => by rw [he]; exact fun h => (by cases h)⟩

/-- The limits of `C97_rings` are sharp: with an address that is not at a page the hardware uses other memory, and with more than 32768 entries or blocks of more than 8 it has another size than the driver. -/
theorem C97_limits (s : Sys) (ops : List Op) (h : Boot p s) (v : Valid p s ops) (d : Dir) (r n : Nat) (ho : ((run p s ops).rings d r).hw = some n) :
    let t := run p s ops
    ((t.rings d r).base % 4096 ≠ 0 → hwBase (t.hq d n) < (t.rings d r).base) ∧ (16 ≤ (t.rings d r).log → (t.hq d n).logSize < (t.rings d r).log) ∧ (4 ≤ (t.rings d r).blk → (t.hq d n).logBlock < (t.rings d r).blk) := by
  obtain ⟨c, m, g1, g2, g3, g4⟩ := (inv_run p ops s h.inv v).q.hw d r n ho
  refine ⟨fun h => ?_, fun h => ?_, fun h => ?_⟩
  · rw [g4.base]; omega
  · rw [g4.size]; omega
  · rw [g4.block]; omega

example : let t := run exP exSys (exOps ++ [.ringOpen .rx 7 0 65536 16 0x50800])
    (t.rings .rx 7).base = 0x50800 ∧ hwBase (t.hq .rx 0) = 0x50000 ∧ (t.rings .rx 7).log = 16 ∧ (t.hq .rx 0).logSize = 0 ∧ (t.hq .rx 0).logBlock = 0 := by decide +kernel

/-! ### C98 -/

/-- From every open TX or RX queue in the hardware the way leads through enabled queues back to the ring of the driver it belongs to. -/
theorem C98_route (s : Sys) (ops : List Op) (h : Boot p s) (v : Valid p s ops) (d : Dir) (r n : Nat) (ho : ((run p s ops).rings d r).hw = some n) : Route (run p s ops) d r n :=
  route_of_inv (inv_run p ops s h.inv v) ho

example : ((run exP exSys exOps).rings .tx 0).hw = some 0 ∧ ((run exP exSys exOps).eqs 0).table 0 = some 0 := by decide +kernel

/-- Every enabled completion queue of the hardware sends its events to an enabled event queue, and the driver finds the `Cq` in the table of that: `cq_table[event_source]` does not fail. -/
theorem C98_events_found (s : Sys) (ops : List Op) (h : Boot p s) (v : Valid p s ops) (n : Nat) (hn : n < (run p s ops).cqRes.count) (he : ((run p s ops).hc n).en = true) :
    let t := run p s ops
    (t.he (t.hc n).evn).en = true ∧ ∃ e c, (t.eqs e).hw = some (t.hc n).evn ∧ (t.eqs e).table n = some c ∧ (t.cqs c).hw = some n := by
  obtain ⟨_, h2, _⟩ := C97_enabled_owned p s ops h v
  obtain ⟨c, hc⟩ := h2 n hn he
  have i := inv_run p ops s h.inv v
  obtain ⟨e, k, f1, f2, f3, f4⟩ := i.c.hw c n hc
  obtain ⟨irq, _, h4⟩ := i.e.hw e k f2
  dsimp only
  rw [f4.evn]
  exact ⟨h4.en, e, c, f2, f3, hc⟩

/-- The table of an event queue has nothing else: what is found in it is an open completion queue on this event queue. -/
theorem C98_table_exact (s : Sys) (ops : List Op) (h : Boot p s) (v : Valid p s ops) (e n c : Nat) (ht : ((run p s ops).eqs e).table n = some c) :
    ((run p s ops).cqs c).hw = some n ∧ ((run p s ops).cqs c).eq = some e ∧ ((run p s ops).eqs e).hw ≠ none := by
  have i := inv_run p ops s h.inv v
  obtain ⟨h1, h2⟩ := i.c.tbl e n c ht
  obtain ⟨x, k, f1, f2, _⟩ := i.c.hw c n h1
  rw [h2] at f1
  cases f1
  exact ⟨h1, h2, by rw [f2]; exact fun h => (by cases h)⟩

/-- The order matters: if an event queue is closed and opened again while a completion queue is attached, the completion queue can no longer be closed; its number is lost. -/
theorem C98_eq_first (s : Sys) (ops : List Op) (h : Boot p s) (v : Valid p s ops) (c e n irq size base : Nat) (hc : ((run p s ops).cqs c).hw = some n) (he : ((run p s ops).cqs c).eq = some e)
    (hopen : (step p (step p (run p s ops) (.eqClose e)).1 (.eqOpen e irq size base)).2 = false) :
    let t := (step p (step p (run p s ops) (.eqClose e)).1 (.eqOpen e irq size base)).1
    (step p t (.cqClose c)).2 = true ∧ ((step p t (.cqClose c)).1.cqs c).hw = some n ∧ n ∉ (step p t (.cqClose c)).1.cqRes.free := by
  have i := inv_run p ops s h.inv v
  generalize run p s ops = t0 at *
  obtain ⟨e', k, f1, f2, f3, f4⟩ := i.c.hw c n hc
  rw [he] at f1
  cases f1
  have hnf : n ∉ t0.cqRes.free := fun hm => ((i.c.own.mem n).1 hm).2 c hc
  have v1 : step p t0 (.eqClose e) = ({ t0 with
        eqRes := t0.eqRes.release k
        eqs := upd t0.eqs e { t0.eqs e with hw := none, irq := none, enabled := false }
        he := upd t0.he k (wrC p (t0.he k) (CTRL, SET_ENABLE ||| 0)) }, false) := by
    show eqClose p t0 e = _
    unfold eqClose
    rw [f2]
  rw [v1] at hopen ⊢
  dsimp only at hopen ⊢
  generalize hs1 : ({ t0 with
        eqRes := t0.eqRes.release k
        eqs := upd t0.eqs e { t0.eqs e with hw := none, irq := none, enabled := false }
        he := upd t0.he k (wrC p (t0.he k) (CTRL, SET_ENABLE ||| 0)) } : Sys) = s1 at *
  have q1 : s1.cqs = t0.cqs ∧ s1.cqRes = t0.cqRes := by rw [← hs1]; exact ⟨rfl, rfl⟩
  have key : ∀ u : Sys × Bool, u = step p s1 (.eqOpen e irq size base) → u.2 = false → u.1.cqs = s1.cqs ∧ u.1.cqRes = s1.cqRes ∧ (u.1.eqs e).table n = none := by
    intro u hu h0
    rw [hu] at h0 ⊢
    dsimp only [step, eqOpen] at h0 ⊢
    split at h0
    · cases h0
    · cases h0
    · refine ⟨rfl, rfl, ?_⟩
      dsimp only
      rw [upd_same]
  obtain ⟨a1, a2, a3⟩ := key _ rfl hopen
  generalize (step p s1 (.eqOpen e irq size base)).1 = u at *
  have b1 : (u.cqs c).hw = some n := by rw [a1, q1.1]; exact hc
  have b2 : (u.cqs c).eq = some e := by rw [a1, q1.1]; exact he
  have v2 : step p u (.cqClose c) = ({ u with hc := upd u.hc n (wrC p (u.hc n) (CTRL, SET_ENABLE ||| 0)) }, true) := by
    show cqClose p u c = _
    unfold cqClose
    rw [b1]
    dsimp only
    rw [b2]
    dsimp only
    rw [a3]
  rw [v2]
  exact ⟨rfl, b1, by dsimp only; rw [a2, q1.2]; exact hnf⟩

example : (step exP (step exP (run exP exSys exOps) (.eqClose 0)).1 (.eqOpen 0 1 64 0)).2 = false ∧ ((run exP exSys exOps).cqs 0).eq = some 0 := by decide +kernel

/-- A completion queue serves one ring: if a second one is opened on it, completions of the first no longer find their way. -/
theorem C98_second_ring (s : Sys) (ops : List Op) (h : Boot p s) (v : Valid p s ops) (d d' : Dir) (r r' c n size blk base : Nat) (hr : ((run p s ops).rings d r).hw = some n) (hc : ((run p s ops).rings d r).cq = some c)
    (ho : (step p (run p s ops) (.ringOpen d' r' c size blk base)).2 = false) :
    ¬ Route (step p (run p s ops) (.ringOpen d' r' c size blk base)).1 d r n := by
  have i := inv_run p ops s h.inv v
  generalize run p s ops = t at *
  obtain ⟨c', m, g1, g2, g3, g4⟩ := i.q.hw d r n hr
  rw [hc] at g1
  cases g1
  have ho' : (ringOpen t d' r' c size blk base).2 = false := ho
  show ¬ Route (ringOpen t d' r' c size blk base).1 d r n
  cases hh : (t.rings d' r').hw with
  | some k =>
    have : (ringOpen t d' r' c size blk base).2 = true := by unfold ringOpen; rw [hh]
    rw [this] at ho'; cases ho'
  | none =>
    cases hf : (t.qRes d').free with
    | nil =>
      obtain ⟨x, hx⟩ := alloc_nil hf
      have : (ringOpen t d' r' c size blk base).2 = true := by unfold ringOpen; rw [hh, hx]
      rw [this] at ho'; cases ho'
    | cons k l =>
      have hk := ((i.q.own d').mem k).1 (by rw [hf]; exact List.mem_cons_self ..)
      rw [ringOpen_eval t d' r' c size blk base k m l hh hf g2]
      rintro ⟨_, _, e, y, _, _, h3, h4⟩
      dsimp only at h3 h4
      have hne : ¬ (d = d' ∧ n = k) := by
        rintro ⟨rfl, rfl⟩
        exact hk.2 r hr
      rw [upd2_ne _ _ hne, g4.cplq] at h3
      by_cases ey : y = c
      · rw [ey, upd_same] at h4
        cases h4
        rw [hr] at hh; cases hh
      · rw [upd_ne _ _ ey] at h3
        exact ey (i.c.own.inj y c m h3 g2)

example : (step exP (run exP exSys exOps) (.ringOpen .tx 1 0 64 1 0)).2 = false ∧ ((run exP exSys exOps).rings .tx 0).cq = some 0 := by decide +kernel

/-! ### C99 -/

/-- the interface after `Interface.init` -/
theorem ready {p : Corundum.CplQueue.Params} {s : Sys} (h : Boot p s) (he : 0 < s.eqRes.count) (irq : Nat) (hi : irq < 2 ^ 16) (edma : Nat → Nat) (hed : ∀ k, edma k < 2 ^ 64) :
    (ifInit p irq edma s).2 = false ∧ IfInv (ifInit p irq edma s).1 ∧ (∀ d r, ((ifInit p irq edma s).1.sys.rings d r).hw = none) ∧ (∀ d, (ifInit p irq edma s).1.queues d = []) ∧
      (ifInit p irq edma s).1.sys.qRes = s.qRes ∧ (ifInit p irq edma s).1.sys.cqRes = s.cqRes ∧ (∀ c, ((ifInit p irq edma s).1.sys.cqs c).hw = none) ∧ s.cqRes.free.length = s.cqRes.count := by
  have i := h.inv
  obtain ⟨neq, ncq, nq, he', hc, hq, h1, h2, h3, h4, h5, rfl⟩ := h
  obtain ⟨a1, a2, a3, a4, a5, a6, a7, a8⟩ := initEqs_ok p irq hi edma hed neq 0 ⟨init p neq ncq nq he' hc hq, [], [], [], false, false, false, 0⟩ i (fun _ _ => ⟨rfl, fun _ => rfl⟩) (fun _ h => by cases h)
    (Or.inr (by have he0 : 0 < neq := he
                omega)) (fun _ _ => rfl) (by show (List.range neq).length = neq; rw [List.length_range])
  refine ⟨a1, a2, fun d r => ?_, fun d => ?_, a4, a3, fun c => ?_, by show (List.range ncq).length = ncq; rw [List.length_range]⟩
  · show ((initEqs p irq edma neq 0 _).1.sys.rings d r).hw = none
    rw [a5]; rfl
  · cases d
    · exact a7
    · exact a8
  · show ((initEqs p irq edma neq 0 _).1.sys.cqs c).hw = none
    rw [a6]; rfl

/-- With an event queue and enough completion queues, `Interface.open` succeeds: the port is up, every TX and RX queue of the hardware is enabled and belongs to a ring of the interface, and its completions come back to that. -/
theorem C99_open (s : Sys) (h : Boot p s) (he : 0 < s.eqRes.count) (hc : (s.qRes .rx).count + (s.qRes .tx).count ≤ s.cqRes.count) (irq : Nat) (hi : irq < 2 ^ 16) (edma : Nat → Nat) (hed : ∀ k, edma k < 2 ^ 64)
    (dma : Nat → Nat × Nat) (hd : ∀ k, (dma k).1 < 2 ^ 64 ∧ (dma k).2 < 2 ^ 64) :
    let i := (ifInit p irq edma s).1
    let j := (ifOpen p dma i).1
    (ifInit p irq edma s).2 = false ∧ (ifOpen p dma i).2 = false ∧ j.portUp = true ∧ j.txCtrl = true ∧ j.rxCtrl = true ∧
    ∀ d n, n < (s.qRes d).count → (j.sys.hq d n).en = true ∧ ∃ r ∈ j.queues d, (j.sys.rings d r).hw = some n ∧ Route j.sys d r n := by
  obtain ⟨a1, a2, a3, a4, a5, a6, a7, a8⟩ := ready h he irq hi edma hed
  obtain ⟨b1, b2, b3, b4, b5, b6, b7, _⟩ := ifOpen_ok p dma hd _ a2 a3 a4 (by rw [a5, a6, a8]; exact hc)
  refine ⟨a1, b1, b3, b4, b5, fun d n hn => ?_⟩
  obtain ⟨r, h1, h2, h3⟩ := b2.en d n (by rw [b7, a5]; exact hn)
  obtain ⟨_, _, _, _, _, g⟩ := b2.inv.inv.q.hw d r n h2
  exact ⟨by rw [g.en]; exact h3, r, h1, h2, route_of_inv b2.inv.inv h2⟩

example : let j := (ifOpen exP (fun k => (k * 0x20000, k * 0x20000 + 0x10000)) (ifInit exP 1 (fun k => k * 0x1000) exSys).1)
    j.2 = false ∧ (j.1.sys.hq .tx 1).en = true ∧ j.1.txq = [1, 2] ∧ j.1.rxq = [0] := by decide +kernel

/-- With too few completion queues `Interface.open` fails, and the port stays down. -/
theorem C99_open_needs_cqs (s : Sys) (h : Boot p s) (he : 0 < s.eqRes.count) (hc : s.cqRes.count < (s.qRes .rx).count + (s.qRes .tx).count) (irq : Nat) (hi : irq < 2 ^ 16) (edma : Nat → Nat) (hed : ∀ k, edma k < 2 ^ 64)
    (dma : Nat → Nat × Nat) (hd : ∀ k, (dma k).1 < 2 ^ 64 ∧ (dma k).2 < 2 ^ 64) :
    (ifOpen p dma (ifInit p irq edma s).1).2 = true ∧ (ifOpen p dma (ifInit p irq edma s).1).1.portUp = (ifInit p irq edma s).1.portUp := by
  obtain ⟨a1, a2, a3, a4, a5, a6, a7, a8⟩ := ready h he irq hi edma hed
  exact ifOpen_fail p dma hd _ a2 (Or.inl (by rw [a5, a6, a8]; exact hc))

/-- `Interface.close` fails on every interface that has a queue: an exception, all queues of the hardware enabled as before, the buffers of the first ring given back, no number free that was not free before. -/
theorem C99_close_raises (i : Iface) (h : i.txq ≠ [] ∨ i.rxq ≠ []) :
    (ifClose i).2 = true ∧ (ifClose i).1.sys.hq = i.sys.hq ∧ (ifClose i).1.sys.hc = i.sys.hc ∧ (ifClose i).1.sys.qRes = i.sys.qRes ∧ (ifClose i).1.sys.cqRes = i.sys.cqRes ∧ (ifClose i).1.txCtrl = i.txCtrl ∧
    (ifClose i).1.portUp = false ∧ ∃ d, ∃ r ∈ i.queues d, ((ifClose i).1.sys.rings d r).cons = (i.sys.rings d r).prod ∧ ((ifClose i).1.sys.rings d r).enabled = (i.sys.rings d r).enabled := by
  unfold ifClose
  dsimp only
  cases hx : i.txq with
  | cons r l =>
    dsimp only
    refine ⟨rfl, rfl, rfl, rfl, rfl, rfl, rfl, .tx, r, ?_, ?_⟩
    · show r ∈ i.txq
      rw [hx]; exact List.mem_cons_self ..
    · show (upd2 i.sys.rings .tx r _ .tx r).cons = _ ∧ (upd2 i.sys.rings .tx r _ .tx r).enabled = _
      rw [upd2_same]; exact ⟨rfl, rfl⟩
  | nil =>
    cases hy : i.rxq with
    | cons r l =>
      dsimp only
      refine ⟨rfl, rfl, rfl, rfl, rfl, rfl, rfl, .rx, r, ?_, ?_⟩
      · show r ∈ i.rxq
        rw [hy]; exact List.mem_cons_self ..
      · show (upd2 i.sys.rings .rx r _ .rx r).cons = _ ∧ (upd2 i.sys.rings .rx r _ .rx r).enabled = _
        rw [upd2_same]; exact ⟨rfl, rfl⟩
    | nil =>
      rcases h with h | h
      · exact absurd hx h
      · exact absurd hy h

theorem up_freeBuf {i : Iface} (u : Up i) (d : Dir) (r : Nat) (hr : r ∈ i.queues d) (s : Sys) (hs : s = freeBuf i.sys d r) (j : Iface) (hj : j.sys = s) (he : j.eq = i.eq) (hn : j.next = i.next) : IfInv j := by
  have ho := (u.open' d r).2 hr
  obtain ⟨n, en⟩ := Option.ne_none_iff_exists'.1 ho
  have hq : s.hq = i.sys.hq := by rw [hs]; rfl
  have hrr : s.rings = upd2 i.sys.rings d r { i.sys.rings d r with cons := (i.sys.rings d r).prod } := by rw [hs]; rfl
  have iv : Inv s := by
    have := u.inv.inv.q.change d r en { i.sys.rings d r with cons := (i.sys.rings d r).prod } (i.sys.hq d n) en rfl rfl fun m g => ⟨g.en, g.cplq, g.size, g.block, g.base, g.prod⟩
    rw [upd2_self] at this
    rw [hs]
    exact ⟨u.inv.inv.e, u.inv.inv.c, this⟩
  refine ⟨hj ▸ iv, fun o ho' => ?_, fun e hm => ?_, by rw [he]; exact u.inv.ne⟩
  · rw [hn] at ho'
    obtain ⟨f1, f2⟩ := u.inv.fresh o ho'
    have ne : o ≠ r := by
      rintro rfl
      rw [f2 d] at ho
      exact ho rfl
    rw [hj]
    refine ⟨by rw [hs]; exact f1, fun b => ?_⟩
    rw [hrr, upd2_ne _ _ (fun h => ne h.2)]
    exact f2 b
  · rw [he] at hm
    rw [hj, hs]
    exact u.inv.eqs e hm

/-- After that the interface cannot be opened again. -/
theorem C99_no_reopen (s : Sys) (h : Boot p s) (he : 0 < s.eqRes.count) (hc : (s.qRes .rx).count + (s.qRes .tx).count ≤ s.cqRes.count) (hq : 0 < (s.qRes .rx).count + (s.qRes .tx).count) (irq : Nat) (hi : irq < 2 ^ 16) (edma : Nat → Nat)
    (hed : ∀ k, edma k < 2 ^ 64) (dma : Nat → Nat × Nat) (hd : ∀ k, (dma k).1 < 2 ^ 64 ∧ (dma k).2 < 2 ^ 64) :
    let j := (ifOpen p dma (ifInit p irq edma s).1).1
    (ifClose j).2 = true ∧ (ifOpen p dma (ifClose j).1).2 = true ∧ (ifOpen p dma (ifClose j).1).1.portUp = false := by
  obtain ⟨a1, a2, a3, a4, a5, a6, a7, a8⟩ := ready h he irq hi edma hed
  obtain ⟨b1, b2, b3, b4, b5, b6, b7, _⟩ := ifOpen_ok p dma hd _ a2 a3 a4 (by rw [a5, a6, a8]; exact hc)
  generalize (ifOpen p dma (ifInit p irq edma s).1).1 = j at *
  have hcnt : ∀ d, (j.sys.qRes d).count = (s.qRes d).count := fun d => by rw [b7, a5]
  have hne : j.txq ≠ [] ∨ j.rxq ≠ [] := by
    by_cases h0 : 0 < (s.qRes .tx).count
    · obtain ⟨r, hr, _⟩ := b2.en .tx 0 (by rw [hcnt]; exact h0)
      exact Or.inl (List.ne_nil_of_mem hr)
    · obtain ⟨r, hr, _⟩ := b2.en .rx 0 (by rw [hcnt]; omega)
      exact Or.inr (List.ne_nil_of_mem hr)
  obtain ⟨c1, _, _, c4, c5, _, c7, _⟩ := C99_close_raises j hne
  have iv : IfInv (ifClose j).1 := by
    unfold ifClose
    dsimp only
    cases hx : j.txq with
    | cons r l => exact up_freeBuf b2 .tx r (by show r ∈ j.txq; rw [hx]; exact List.mem_cons_self ..) _ rfl _ rfl rfl rfl
    | nil =>
      cases hy : j.rxq with
      | cons r l => exact up_freeBuf b2 .rx r (by show r ∈ j.rxq; rw [hy]; exact List.mem_cons_self ..) _ rfl _ rfl rfl rfl
      | nil =>
        rcases hne with h | h
        · exact absurd hx h
        · exact absurd hy h
  have hf : ∀ d, ((ifClose j).1.sys.qRes d).free.length = 0 := fun d => by rw [c4, b2.full d]; rfl
  have := ifOpen_fail p dma hd _ iv (by
    rw [hf, hf, c4, hcnt, hcnt]
    omega)
  exact ⟨c1, this.1, this.2.trans c7⟩

/-- What `Interface.close` is written to do would work: after any use of the open interface, closing each ring and its completion queue raises no exception, leaves every queue disabled, and the interface can be opened again as before.
Missing: that `Interface.close` does this; it does not (`C99_close_raises`). -/
theorem C99_close_partial (s : Sys) (h : Boot p s) (he : 0 < s.eqRes.count) (hc : (s.qRes .rx).count + (s.qRes .tx).count ≤ s.cqRes.count) (irq : Nat) (hi : irq < 2 ^ 16) (edma : Nat → Nat) (hed : ∀ k, edma k < 2 ^ 64)
    (dma : Nat → Nat × Nat) (hd : ∀ k, (dma k).1 < 2 ^ 64 ∧ (dma k).2 < 2 ^ 64) (ops : List Op) (data : ∀ o ∈ ops, o.Data) :
    let j := (ifOpen p dma (ifInit p irq edma s).1).1
    Valid p j.sys ops →
    let b := byHand p (run p j.sys ops) j.all
    b.2 = false ∧ (∀ d n, n < (s.qRes d).count → (b.1.hq d n).en = false) ∧ (∀ n, n < s.cqRes.count → (b.1.hc n).en = false) ∧ (∀ d, b.1.qRes d = s.qRes d) ∧ b.1.cqRes = s.cqRes ∧
    let k := ifOpen p dma { j with sys := b.1, txq := [], rxq := [] }
    k.2 = false ∧ ∀ d n, n < (s.qRes d).count → (k.1.sys.hq d n).en = true ∧ ∃ r ∈ k.1.queues d, (k.1.sys.rings d r).hw = some n ∧ Route k.1.sys d r n := by
  obtain ⟨a1, a2, a3, a4, a5, a6, a7, a8⟩ := ready h he irq hi edma hed
  obtain ⟨b1, b2, b3, b4, b5, b6, b7, b8⟩ := ifOpen_ok p dma hd _ a2 a3 a4 (by rw [a5, a6, a8]; exact hc)
  have b9 := b8 (fun x hx => absurd (a7 x) hx)
  generalize (ifOpen p dma (ifInit p irq edma s).1).1 = j at *
  dsimp only
  intro v
  obtain ⟨c1, c2, c3, c4, c5, c6⟩ := data_run p ops j.sys v data
  have ci := inv_run p ops j.sys b2.inv.inv v
  generalize run p j.sys ops = t at *
  have hall : ∀ d r, (d, r) ∈ j.all ↔ (t.rings d r).hw ≠ none := by
    intro d r
    rw [(c6 d r).1, b2.open' d r]
    unfold Iface.all
    rw [List.mem_append, List.mem_map, List.mem_map]
    constructor
    · rintro (⟨x, hx, e⟩ | ⟨x, hx, e⟩)
      · cases e; exact hx
      · cases e; exact hx
    · intro hx
      cases d
      · exact Or.inl ⟨r, hx, rfl⟩
      · exact Or.inr ⟨r, hx, rfl⟩
  have hnd : j.all.Nodup := by
    unfold Iface.all
    refine List.nodup_append.2 ⟨?_, ?_, ?_⟩
    · exact List.Pairwise.map _ (fun a b hab e => hab (by cases e; rfl)) (b2.nd .tx)
    · exact List.Pairwise.map _ (fun a b hab e => hab (by cases e; rfl)) (b2.nd .rx)
    · intro x hx y hy e
      obtain ⟨_, _, rfl⟩ := List.mem_map.1 hx
      obtain ⟨_, _, rfl⟩ := List.mem_map.1 hy
      cases e
  obtain ⟨d1, d2⟩ := byHand_ok p j.all t ci hnd (fun x hx => (hall x.1 x.2).1 hx)
  generalize byHand p t j.all = b at *
  have r0 : ∀ d r, (b.1.rings d r).hw = none := by
    intro d r
    by_cases hm : (d, r) ∈ j.all
    · exact d2.shut (d, r) hm
    · rw [d2.other d r hm]
      refine Classical.byContradiction fun hne => hm ((hall d r).2 hne)
  have q0 : ∀ c, (b.1.cqs c).hw = none := by
    intro c
    refine Classical.byContradiction fun hne => ?_
    have := d2.cqr (fun x hx => by rw [c2] at hx ⊢; exact b9 x hx) c hne
    obtain ⟨⟨d, r⟩, hdr⟩ := Option.ne_none_iff_exists'.1 this
    exact (d2.inv.q.rng c d r hdr).1 (r0 d r)
  have cnt1 : b.1.cqRes.count = s.cqRes.count := by rw [d2.cnt.1, c4, b6, a6]
  have cnt2 : ∀ d, (b.1.qRes d).count = (s.qRes d).count := fun d => by rw [d2.cnt.2, c5, b7, a5]
  have res1 : b.1.cqRes = s.cqRes := by
    have e1 := own_none d2.inv.c.own q0
    have e2 := own_none h.inv.c.own (by obtain ⟨_, _, _, _, _, _, _, _, _, _, _, rfl⟩ := h; exact fun _ => rfl)
    rw [cnt1] at e1
    rw [e1]
    exact e2.symm
  have res2 : ∀ d, b.1.qRes d = s.qRes d := fun d => by
    have e1 := own_none (d2.inv.q.own d) (r0 d)
    have e2 := own_none (h.inv.q.own d) (by obtain ⟨_, _, _, _, _, _, _, _, _, _, _, rfl⟩ := h; exact fun _ => rfl)
    rw [cnt2] at e1
    rw [e1]
    exact e2.symm
  have iv : IfInv { j with sys := b.1, txq := [], rxq := [] } := by
    refine ⟨d2.inv, fun o ho => ?_, fun e hm => ?_, b2.inv.ne⟩
    · obtain ⟨f1, f2⟩ := b2.inv.fresh o ho
      refine ⟨d2.new o (by rw [c2]; exact f1), fun d => ?_⟩
      have f3 := (c6 d o).2 (f2 d)
      show b.1.rings d o = _
      rw [d2.other d o (fun hm => (hall d o).1 hm (by rw [f3]; rfl))]
      exact f3
    · show (b.1.eqs e).hw ≠ none
      rw [d2.eqs e, c1]
      exact b2.inv.eqs e hm
  obtain ⟨k1, k2, _, _, _, _, k7, _⟩ := ifOpen_ok p dma hd _ iv r0 (fun d => by cases d <;> rfl) (by
    show (b.1.qRes .rx).count + (b.1.qRes .tx).count ≤ b.1.cqRes.free.length
    rw [cnt2, cnt2, res1, a8]; exact hc)
  refine ⟨d1, fun d n hn => d2.inv.q.off d n (by rw [cnt2]; exact hn) fun r => by rw [r0]; exact fun h => (by cases h), fun n hn => d2.inv.c.off n (by rw [cnt1]; exact hn) fun r => by rw [q0]; exact fun h => (by cases h), res2, res1, k1,
    fun d n hn => ?_⟩
  obtain ⟨r, h1, h2, h3⟩ := k2.en d n (by rw [k7]; show n < (b.1.qRes d).count; rw [cnt2]; exact hn)
  obtain ⟨_, _, _, _, _, g⟩ := k2.inv.inv.q.hw d r n h2
  exact ⟨by rw [g.en]; exact h3, r, h1, h2, route_of_inv k2.inv.inv h2⟩

example : let j := (ifOpen exP (fun k => (k * 0x20000, k * 0x20000 + 0x10000)) (ifInit exP 1 (fun k => k * 0x1000) exSys).1).1
    (ifClose j).2 = true ∧ ((ifClose j).1.sys.hq .tx 0).en = true ∧ (byHand exP (run exP j.sys [.ringPost .tx 1 5]) j.all).2 = false := by decide +kernel

end Corundum.Lifecycle
