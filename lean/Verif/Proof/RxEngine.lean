import Verif.Spec.RxEngine
import Verif.Proof.TxEngineOut

namespace Corundum.RxEngine
open Corundum.Driver (mod_inj_of_window)
open Corundum.CplWrite (upd upd? upd_same upd_ne updo_ne updo_some)
open Corundum.TxEngine (DStat Act Cpl shown filter_congr filter_some act_cases)

theorem mask_eq (P : Params) (x : Nat) : P.mask x = x % P.n := Nat.and_two_pow_sub_one_eq_mod x P.cl

theorem n_pos (P : Params) : 0 < P.n := Nat.two_pow_pos _

theorem two_n (P : Params) : 2 ^ (P.cl + 1) = 2 * P.n := by unfold Params.n; rw [Nat.pow_succ, Nat.mul_comm]

theorem mask_ptr (P : Params) (x : Nat) : P.mask (x % 2 ^ (P.cl + 1)) = x % P.n := by
  rw [mask_eq, two_n, Nat.mod_mul_left_mod]

theorem mask_lt (P : Params) (x : Nat) : P.mask (x % P.n) = x % P.n := by rw [mask_eq, Nat.mod_mod]

/-! ### One request and its row -/

/-- what the monitor knows about one request -/
structure V where
  req : Option Nat := none
  place : Nat := 0
  rx : Option RStat := none
  map : Option Nat := none
  resp : Option DStat := none
  rep : Nat := 0
  csum : Option Nat := none
  cst : Bool := false

def view (g : G) (k : Nat) : V := ⟨g.reqs[k]?, g.place k, g.rx k, g.map k, g.resp k, g.rep k, g.csum k, g.cst k⟩

/-- the row of a request in flight -/
structure Fit (P : Params) (v : V) (r : Row) : Prop where
  active : r.active = true
  req : ∀ q, v.req = some q → r.tag = q
  buf : r.bufPtr = v.place
  rx : ∀ x, v.rx = some x → r.len = x.len ∧ r.id = x.id ∧ r.ts = x.user / 2 % 2 ^ P.tw ∧ r.hash = x.user / 2 ^ P.hashOff % 2 ^ 32 ∧
    r.htype = x.user / 2 ^ P.typeOff % 2 ^ 4
  done : r.rxDone = v.map.isSome
  map : ∀ q, v.map = some q → r.queue = q
  inv : r.invalid = v.resp.any fun d => !d.ok
  resp : ∀ d, v.resp = some d → r.qptr = d.ptr ∧ r.cplQueue = d.cpl
  wr : r.written = decide (0 < v.rep)
  csum : ∀ c, v.csum = some c → r.csum = c
  cst : r.cplDone = v.cst

/-- the events of a cycle for one request -/
structure Ev where
  rx : Option RStat
  map : Option Nat
  deq : Option DStat
  wr : Bool
  sum : Option Nat
  cpl : Bool

def V.next (v : V) (e : Ev) : V where
  req := v.req
  place := v.place
  rx := match e.rx with | some x => some x | none => v.rx
  map := match e.map with | some q => some q | none => v.map
  resp := match e.deq with | some d => some d | none => v.resp
  rep := v.rep + e.wr.toNat
  csum := match e.sum with | some c => some c | none => v.csum
  cst := v.cst || e.cpl

theorem fit_next {P : Params} {s : S} {v : V} {r : Row} {h : Hit} {e : Ev} (hf : Fit P v r) (h1 : h.acc = none) (h2 : h.free = false)
    (e1 : h.rx = e.rx) (e2 : h.map = e.map) (e3 : h.deq = e.deq) (e4 : h.wr = e.wr) (e5 : h.cpl = e.cpl)
    (c1 : ∀ c, e.sum = some c → h.sum = some c) (c2 : e.sum = none → v.csum ≠ none → h.sum = none)
    (c3 : ∀ d, e.deq = some d → v.resp = none) :
    Fit P (v.next e) (rowNext P s r h) := by
  obtain ⟨hacc, hrx, hmap, hdeq, hwr, hsum, hcpl, hfree⟩ := h
  obtain ⟨erx, emap, edeq, ewr, esum, ecpl⟩ := e
  simp only at h1 h2 e1 e2 e3 e4 e5 c1 c2 c3
  subst h1 h2 e1 e2 e3 e4 e5
  constructor
  case active => exact hf.active
  case req => exact hf.req
  case buf => exact hf.buf
  case rx =>
    intro x hx
    cases hrx with
    | none => exact hf.rx x hx
    | some y =>
      have hx : some y = some x := hx
      cases hx; exact ⟨rfl, rfl, rfl, rfl, rfl⟩
  case done =>
    cases hmap with
    | none => exact hf.done
    | some q => rfl
  case map =>
    intro q hq
    cases hmap with
    | none => exact hf.map q hq
    | some y =>
      have hq : some y = some q := hq
      cases hq; rfl
  case inv =>
    cases hdeq with
    | none => exact hf.inv
    | some d =>
      have : v.resp = none := c3 d rfl
      have hi := hf.inv
      rw [this] at hi
      show (if (d.error || d.empty) = true then true else if false = true then _ else r.invalid) = !d.ok
      rw [show (d.error || d.empty) = !d.ok from (Bool.not_not _).symm]
      rw [hi]; cases d.ok <;> rfl
  case resp =>
    intro d hd
    cases hdeq with
    | none => exact hf.resp d hd
    | some d' =>
      have hd : some d' = some d := hd
      cases hd; exact ⟨rfl, rfl⟩
  case wr =>
    show (if hwr = true then true else if false = true then _ else r.written) = decide (0 < v.rep + hwr.toNat)
    cases hwr with
    | false => exact hf.wr
    | true => show true = decide (0 < v.rep + 1); rw [decide_eq_true (by omega)]
  case csum =>
    intro c hc
    cases he : esum with
    | none =>
      have hc : v.csum = some c := by subst he; exact hc
      have := c2 he (by rw [hc]; simp)
      subst this
      exact hf.csum c hc
    | some c' =>
      subst he
      have hc : some c' = some c := hc
      have := c1 c' rfl
      subst this
      cases hc; rfl
  case cst =>
    show (if hcpl = true then true else if false = true then _ else r.cplDone) = (v.cst || hcpl)
    rw [hf.cst]
    cases hcpl <;> cases v.cst <;> rfl

/-- the row of a new request -/
theorem fit_new {P : Params} {s : S} {r : Row} {h : Hit} {q : Nat} (h1 : h.acc = some q) (h2 : h.free = false) (h3 : h.map = none)
    (h4 : h.deq = none) (h5 : h.wr = false) (h6 : h.cpl = false) : Fit P { req := some q, place := s.wr } (rowNext P s r h) := by
  obtain ⟨hacc, hrx, hmap, hdeq, hwr, hsum, hcpl, hfree⟩ := h
  simp only at h1 h2 h3 h4 h5 h6
  subst h1 h2 h3 h4 h5 h6
  constructor
  case active => rfl
  case req => intro q' hq; cases hq; rfl
  case buf => rfl
  case rx => intro x hx; cases hx
  case done => rfl
  case map => intro x hx; cases hx
  case inv => rfl
  case resp => intro d hd; cases hd
  case wr => rfl
  case csum => intro d hd; cases hd
  case cst => rfl

/-! ### Cutting a packet up -/

theorem total_snoc (ds : List Desc) (d : Desc) : total (ds ++ [d]) = total ds + d.len := by
  unfold total; rw [List.map_append, List.sum_append]; simp

theorem complete_snoc (ds : List Desc) (d : Desc) : complete (ds ++ [d]) = (complete ds || d.last) := by
  unfold complete; rw [List.any_append]; simp

theorem carve_snoc (d : Desc) (ds : List Desc) : ∀ a n, carve a n (ds ++ [d]) =
    carve a n ds ++ (if min d.len (n - total ds) = 0 then [] else [⟨d.addr, a + min (total ds) n, min d.len (n - total ds)⟩]) := by
  induction ds with
  | nil =>
    intro a n
    have h0 : total [] = 0 := rfl
    rw [h0]
    simp only [List.nil_append, carve, List.append_nil, Nat.sub_zero]
    rw [Nat.zero_min, Nat.add_zero]
  | cons e ds ih =>
    intro a n
    have ht : total (e :: ds) = e.len + total ds := by unfold total; simp
    simp only [List.cons_append, carve]
    rw [ih, ht, List.append_assoc]
    have e1 : n - min e.len n - total ds = n - (e.len + total ds) := by omega
    have e2 : a + min e.len n + min (total ds) (n - min e.len n) = a + min (e.len + total ds) n := by omega
    rw [e1, e2]

/-! ### The invariant -/

structure Inv (P : Params) (m : Nat) (s : S) (g : G) : Prop where
  le1 : g.fin ≤ g.cpn
  le2 : g.cpn ≤ g.dqn
  le3 : g.dqn ≤ g.reqs.length
  le4 : g.reqs.length ≤ g.fin + P.n
  le5 : P.csum = true → g.cpn ≤ g.csn
  le6 : g.csn ≤ g.reqs.length
  p1 : s.start = g.reqs.length % 2 ^ (P.cl + 1)
  p2 : s.dqp = g.dqn % 2 ^ (P.cl + 1)
  p3 : s.cpp = g.cpn % 2 ^ (P.cl + 1)
  p4 : s.fin = g.fin % 2 ^ (P.cl + 1)
  p5 : s.csp = g.csn % 2 ^ (P.cl + 1)
  mtu : s.mtu = min m P.buf.max
  row : ∀ k, g.fin ≤ k → k < g.reqs.length → Fit P (view g k) (s.row (k % P.n))
  idle : ∀ k, g.reqs.length ≤ k → k < g.fin + P.n → (s.row (k % P.n)).active = false
  own : ∀ t k, g.own t = some k → k % P.n = t ∧ k < g.reqs.length
  own' : ∀ k, g.fin ≤ k → k < g.reqs.length → g.own (k % P.n) = some k
  fresh : ∀ k, g.reqs.length ≤ k → view g k = { req := none, place := g.place k } ∧ g.descs k = [] ∧ g.ops k = [] ∧ g.cqTook k = false
  pul : g.pulses.length + s.stValid.toNat = g.fin
  rdy : s.reqReady = true → g.reqs.length < g.pulses.length + P.n ∧ s.rxValid = false
  rxs : g.rxs ++ shown s.rxValid s.rx = g.rxOf P m
  fe : g.fetches.length + s.drValid.toNat = g.dqn
  mr : ∀ k, g.map k ≠ none → g.rx k ≠ none
  rl : ∀ k x, g.rx k = some x → x.len ≤ min m P.buf.max
  oldq : ∀ k, k < g.dqn → g.map k ≠ none
  rq : ∀ k, g.resp k ≠ none → k < g.dqn
  gd : ∀ k, g.descs k ≠ [] → g.good k = true
  rp : ∀ k, 0 < g.rep k → complete (g.descs k) = true
  olds : ∀ k, k < g.csn → g.bad k = true ∨ g.csum k ≠ none
  csf : ∀ k, g.csn ≤ k → g.csum k = none
  csr : s.csReady = true → P.csum = true ∧ g.csn < g.reqs.length
  oldc : ∀ k, k < g.cpn → g.bad k = true ∨ (g.good k = true ∧ 0 < g.rep k)
  oldf : ∀ k, k < g.fin → g.bad k = true ∨ (g.good k = true ∧ g.cst k = true)
  ck : ∀ k, g.cqTook k = true → k < g.cpn ∧ g.good k = true
  cs : ∀ k, g.cst k = true → g.cqTook k = true
  ofC : s.cqValid = true → ∃ k, g.fin ≤ k ∧ k < g.cpn ∧ g.good k = true ∧ g.cqTook k = false ∧ s.cq.tag = k % P.n
  cur1 : (∀ k, g.descs k = [] ∨ complete (g.descs k) = true) → s.dLen = 0 ∧ s.dDone = false
  cur2 : ∀ k, g.descs k ≠ [] → complete (g.descs k) = false → (∀ j, j ≠ k → g.descs j = [] ∨ complete (g.descs j) = true) ∧
    ∃ x, g.rx k = some x ∧ s.dDone = decide (x.len ≤ total (g.descs k)) ∧ (s.dDone = false → s.dLen = total (g.descs k))
  opsE : ∀ k, g.ops k = carve (P.buf.off (g.place k)) (((g.rx k).map (·.len)).getD 0) (g.descs k)

theorem mtuNext_eq (P : Params) (m : Nat) : mtuNext P m = min m P.buf.max := by
  unfold mtuNext; split <;> omega

theorem inv_init (P : Params) (m : Nat) : Inv P m (init P m).s (init P m).g := by
  constructor <;> first
    | exact Nat.le_refl _
    | exact Nat.zero_le _
    | exact (Nat.zero_mod _).symm
    | exact mtuNext_eq P m
    | rfl
    | (intro k _ h; exact absurd h (Nat.not_lt_zero _))
    | (intro k h; exact absurd h (Nat.not_lt_zero _))
    | (intro k h; exact absurd rfl h)
    | (intro k h; cases h; done)
    | (intro h; cases h; done)
    | (intro t k h; cases h; done)
    | (intro k _ _; rfl)
    | (intro k; rfl)
    | (intro _; exact Nat.zero_le _)
    | (intro k _; rfl)
    | (intro k _; exact ⟨rfl, rfl, rfl, rfl⟩)
    | (intro _; exact ⟨rfl, rfl⟩)

theorem good_not_bad {g : G} {k : Nat} (h : g.good k = true) : g.bad k = false := by
  unfold G.good at h; unfold G.bad
  cases hr : g.resp k with
  | none => rfl
  | some r => rw [hr] at h; have h : r.ok = true := h; show (!r.ok) = false; rw [h]; rfl

theorem good_some {g : G} {k : Nat} (hk : g.good k = true) : ∃ r, g.resp k = some r ∧ r.ok = true := by
  unfold G.good at hk
  cases hr : g.resp k with
  | none => rw [hr] at hk; cases hk
  | some r => rw [hr] at hk; exact ⟨r, rfl, hk⟩

theorem bad_some {g : G} {k : Nat} (hk : g.bad k = true) : ∃ r, g.resp k = some r ∧ r.ok = false := by
  unfold G.bad at hk
  cases hr : g.resp k with
  | none => rw [hr] at hk; cases hk
  | some r => rw [hr] at hk; exact ⟨r, rfl, by simpa using hk⟩

theorem bad_good {g : G} {k : Nat} (hb : g.bad k = true) : g.good k = false := by
  obtain ⟨r, hr, hok⟩ := bad_some hb
  unfold G.good; rw [hr]; exact hok

/-! ### Where the events of a cycle go -/

section
variable {P : Params} {m : Nat} {s : S} {g : G} {i : In}

theorem rx_spec (h : Inv P m s g) (hl : Legal P m g i) {r : RStat} (hr : i.rxStat = some r) :
    ∃ k, g.own r.tag = some k ∧ g.dqn ≤ k ∧ k < g.reqs.length ∧ g.rx k = none ∧ r.len ≤ min m P.buf.max := by
  obtain ⟨k, h1, h2, o, h3, h4⟩ := hl.rx r hr
  refine ⟨k, h1, ?_, (h.own _ _ h1).2, h2, ?_⟩
  · apply Nat.le_of_not_lt
    intro hlt
    exact h.mr k (h.oldq k hlt) h2
  · have ho : (g.rxOf P m)[k]? = some o := by
      rw [← h.rxs, List.getElem?_append_left (List.getElem?_eq_some_iff.mp h3).1, h3]
    unfold G.rxOf at ho
    rw [List.getElem?_map] at ho
    cases hx : (List.range g.reqs.length)[k]? with
    | none => rw [hx] at ho; cases ho
    | some y => rw [hx] at ho; cases ho; exact h4

theorem map_spec (h : Inv P m s g) (hl : Legal P m g i) {x : Nat × Nat} (hx : i.qmap = some x) :
    ∃ k, g.own x.1 = some k ∧ g.dqn ≤ k ∧ k < g.reqs.length ∧ g.rx k ≠ none ∧ g.map k = none := by
  obtain ⟨k, h1, h2, h3⟩ := hl.qmap x.1 x.2 hx
  refine ⟨k, h1, ?_, (h.own _ _ h1).2, ?_, h3⟩
  · apply Nat.le_of_not_lt
    intro hlt
    exact h.oldq k hlt h3
  · intro e; rw [e] at h2; cases h2

theorem deq_spec (h : Inv P m s g) (hl : Legal P m g i) {d : DStat} (hd : i.dstat = some d) :
    ∃ k, g.own d.tag = some k ∧ g.cpn ≤ k ∧ k < g.dqn ∧ k < g.reqs.length ∧ g.resp k = none := by
  obtain ⟨k, h1, h2, h3⟩ := hl.dstat d hd
  have := h.fe
  refine ⟨k, h1, ?_, by omega, (h.own _ _ h1).2, h3⟩
  apply Nat.le_of_not_lt
  intro hlt
  rcases h.oldc k hlt with hb | hb
  · obtain ⟨r, hr, _⟩ := bad_some hb; rw [h3] at hr; cases hr
  · obtain ⟨r, hr, _⟩ := good_some hb.1; rw [h3] at hr; cases hr

theorem resp_rx (h : Inv P m s g) {k : Nat} (hk : g.resp k ≠ none) : ∃ x, g.rx k = some x :=
  Option.ne_none_iff_exists'.mp (h.mr k (h.oldq k (h.rq k hk)))

theorem desc_spec (h : Inv P m s g) (hl : Legal P m g i) {d : Desc} (hd : i.desc = some d) :
    d.len < 2 ^ 32 ∧ ∃ k, g.own d.tid = some k ∧ g.cpn ≤ k ∧ k < g.reqs.length ∧ g.good k = true ∧ complete (g.descs k) = false ∧
      (∀ j, j ≠ k → g.descs j = [] ∨ complete (g.descs j) = true) ∧ ∃ x, g.rx k = some x ∧ x.len ≤ min m P.buf.max ∧
      s.dDone = (!(g.descs k).isEmpty && decide (x.len ≤ total (g.descs k))) ∧ (s.dDone = false → s.dLen = total (g.descs k)) := by
  obtain ⟨hlen, k, h1, h2, h3, h4⟩ := hl.desc d hd
  obtain ⟨r, hr, _⟩ := good_some h2
  obtain ⟨x, hx⟩ := resp_rx h (k := k) (by rw [hr]; simp)
  refine ⟨hlen, k, h1, ?_, (h.own _ _ h1).2, h2, h3, h4, x, hx, h.rl k x hx, ?_⟩
  · apply Nat.le_of_not_lt
    intro hlt
    rcases h.oldc k hlt with hb | hb
    · rw [good_not_bad h2] at hb; cases hb
    · rw [h.rp k hb.2] at h3; cases h3
  · cases hk : g.descs k with
    | nil =>
      obtain ⟨c1, c2⟩ := h.cur1 (by
        intro j
        by_cases hj : j = k
        · subst hj; exact Or.inl hk
        · exact h4 j hj)
      rw [c2]
      exact ⟨rfl, fun _ => c1⟩
    | cons a as =>
      obtain ⟨_, y, hy, c1, c2⟩ := h.cur2 k (by rw [hk]; simp) h3
      rw [hx] at hy; cases hy
      rw [hk] at c1 c2
      exact ⟨c1, c2⟩

theorem wstat_spec (h : Inv P m s g) (hl : Legal P m g i) {t : Nat} (ht : i.wstat = some t) :
    ∃ k, g.own t = some k ∧ g.pulses.length ≤ k ∧ k < g.reqs.length ∧ g.rep k < (g.ops k).length ∧ complete (g.descs k) = true := by
  obtain ⟨k, h1, h2, h3, h4⟩ := hl.wstat t ht
  exact ⟨k, h1, h4, (h.own _ _ h1).2, h2, h3⟩

theorem cstat_spec (h : Inv P m s g) (hl : Legal P m g i) {t : Nat} (ht : i.cstat = some t) :
    ∃ k, g.own t = some k ∧ g.fin ≤ k ∧ k < g.cpn ∧ g.cqTook k = true ∧ g.cst k = false := by
  obtain ⟨k, h1, h2, h3⟩ := hl.cstat t ht
  refine ⟨k, h1, ?_, (h.ck k h2).1, h2, h3⟩
  apply Nat.le_of_not_lt
  intro hlt
  rcases h.oldf k hlt with hb | hb
  · rw [good_not_bad (h.ck k h2).2] at hb; cases hb
  · rw [h3] at hb; cases hb.2

/-- a tag names the row of its request only -/
theorem route (h : Inv P m s g) {t k0 k : Nat} (h1 : g.own t = some k0) (h3 : g.fin ≤ k) (h4 : k < g.reqs.length) :
    (P.mask t == k % P.n) = (g.own t == some k) := by
  obtain ⟨e, hlt⟩ := h.own t k0 h1
  have hm : P.mask t = t := by rw [← e, mask_lt]
  rw [hm]
  by_cases hk : t = k % P.n
  · have := h.own' k h3 h4
    rw [← hk] at this
    rw [this, hk]; simp
  · rw [beq_eq_false_iff_ne.mpr hk, beq_eq_false_iff_ne.mpr]
    intro e2
    exact hk (h.own t k e2).1.symm

/-- no tag in use names the row of a new request -/
theorem no_hit (h : Inv P m s g) {t k0 : Nat} (hr : s.reqReady = true) (h1 : g.own t = some k0) (h2 : g.pulses.length ≤ k0) :
    (P.mask t == g.reqs.length % P.n) = false := by
  obtain ⟨e, hlt⟩ := h.own t k0 h1
  have hm : P.mask t = t := by rw [← e, mask_lt]
  have hroom := (h.rdy hr).1
  rw [hm, ← e, beq_eq_false_iff_ne]
  intro e2
  have := mod_inj_of_window (n := P.n) (a := g.pulses.length) h2 (by omega) (by omega) (by omega) e2
  omega

/-- the events for request `k` -/
def evs (s : S) (g : G) (i : In) (k : Nat) : Ev := ⟨eRx g i k, eMap g i k, eDeq g i k, eFor g i.wstat k, eSum s g i k, eFor g i.cstat k⟩

theorem beat_desc {d : Desc} (hd : beat P s i = some d) : i.desc = some d ∧ s.descReady = true := by
  unfold beat at hd
  split at hd
  · rename_i d' hd'
    split at hd
    · cases hd
      split at hd'
      · exact ⟨hd', by assumption⟩
      · cases hd'
    · cases hd
  · cases hd

theorem hit_evs (h : Inv P m s g) (hl : Legal P m g i) {k : Nat} (h3 : g.fin ≤ k) (h4 : k < g.reqs.length) :
    (hit P s i (k % P.n)).rx = eRx g i k ∧ (hit P s i (k % P.n)).map = eMap g i k ∧ (hit P s i (k % P.n)).deq = eDeq g i k ∧
    (hit P s i (k % P.n)).wr = eFor g i.wstat k ∧ (hit P s i (k % P.n)).cpl = eFor g i.cstat k := by
  refine ⟨?_, ?_, ?_, ?_, ?_⟩
  · apply filter_congr
    intro d hd
    obtain ⟨k0, a1, _⟩ := rx_spec h hl hd
    exact route h a1 h3 h4
  · show Option.map _ _ = eMap g i k
    unfold eMap
    congr 1
    apply filter_congr
    intro d hd
    obtain ⟨k0, a1, _⟩ := map_spec h hl hd
    exact route h a1 h3 h4
  · apply filter_congr
    intro d hd
    obtain ⟨k0, a1, _⟩ := deq_spec h hl hd
    exact route h a1 h3 h4
  · unfold hit eFor
    cases hc : i.wstat with
    | none => rfl
    | some t =>
      obtain ⟨k0, a1, _⟩ := wstat_spec h hl hc
      exact route h a1 h3 h4
  · unfold hit eFor
    cases hc : i.cstat with
    | none => rfl
    | some t =>
      obtain ⟨k0, a1, _⟩ := cstat_spec h hl hc
      exact route h a1 h3 h4

theorem filter_false {α : Type} {o : Option α} {p : α → Bool} (h : ∀ a, o = some a → p a = false) : o.filter p = none := by
  cases o with
  | none => rfl
  | some a => simp [Option.filter, h a rfl]

theorem hit_new (h : Inv P m s g) (hl : Legal P m g i) (hr : s.reqReady = true) :
    (hit P s i (g.reqs.length % P.n)).rx = none ∧ (hit P s i (g.reqs.length % P.n)).map = none ∧ (hit P s i (g.reqs.length % P.n)).deq = none ∧
    (hit P s i (g.reqs.length % P.n)).wr = false ∧ (hit P s i (g.reqs.length % P.n)).cpl = false := by
  have hp : g.pulses.length ≤ g.fin := by have := h.pul; omega
  have hle1 := h.le1
  have hle2 := h.le2
  refine ⟨?_, ?_, ?_, ?_, ?_⟩
  · apply filter_false
    intro d hd
    obtain ⟨k0, a1, a2, _⟩ := rx_spec h hl hd
    exact no_hit h hr a1 (by omega)
  · show Option.map _ (i.qmap.filter _) = _
    rw [filter_false]
    · rfl
    · intro d hd
      obtain ⟨k0, a1, a2, _⟩ := map_spec h hl hd
      exact no_hit h hr a1 (by omega)
  · apply filter_false
    intro d hd
    obtain ⟨k0, a1, a2, _⟩ := deq_spec h hl hd
    exact no_hit h hr a1 (by omega)
  · unfold hit
    cases hc : i.wstat with
    | none => rfl
    | some t =>
      obtain ⟨k0, a1, a2, _⟩ := wstat_spec h hl hc
      exact no_hit h hr a1 a2
  · unfold hit
    cases hc : i.cstat with
    | none => rfl
    | some t =>
      obtain ⟨k0, a1, a2, _⟩ := cstat_spec h hl hc
      exact no_hit h hr a1 (by omega)

/-! ### The stages -/

theorem ptr_ne (h : Inv P m s g) {a b : Nat} (h1 : g.fin ≤ a) (h2 : a ≤ b) (h3 : b ≤ g.reqs.length) :
    decide (a % 2 ^ (P.cl + 1) ≠ b % 2 ^ (P.cl + 1)) = decide (a < b) := by
  have := h.le4
  have := n_pos P
  rw [two_n]
  apply Bool.eq_iff_iff.mpr
  rw [decide_eq_true_eq, decide_eq_true_eq]
  constructor
  · intro hne; rcases Nat.lt_or_ge a b with hlt | hge
    · exact hlt
    · exact absurd (by rw [show a = b by omega]) hne
  · intro hlt e
    have := mod_inj_of_window (n := 2 * P.n) (a := g.fin) h1 (by omega) (by omega) (by omega) e
    omega

theorem row_at (h : Inv P m s g) {k : Nat} (h1 : g.fin ≤ k) (h2 : k < g.reqs.length) : Fit P (view g k) (at_ P s (k % 2 ^ (P.cl + 1))) := by
  unfold at_; rw [mask_ptr]; exact h.row k h1 h2

theorem inv_bad {k : Nat} {r : Row} (hf : Fit P (view g k) r) : r.invalid = g.bad k := hf.inv

theorem dq_spec (h : Inv P m s g) (hd : dqGo P s = true) : g.dqn < g.reqs.length ∧ g.map g.dqn ≠ none ∧ s.drValid = false ∧ s.count < P.maxReq := by
  have hf : g.fin ≤ g.dqn := Nat.le_trans h.le1 h.le2
  unfold dqGo at hd
  rw [show decide (s.dqp ≠ s.start) = decide (g.dqn < g.reqs.length) by rw [h.p1, h.p2]; exact ptr_ne h hf h.le3 (Nat.le_refl _)] at hd
  simp only [Bool.and_eq_true, decide_eq_true_eq, Bool.not_eq_true'] at hd
  obtain ⟨⟨⟨⟨_, d2⟩, d3⟩, d4⟩, d5⟩ := hd
  refine ⟨d2, ?_, d4, d5⟩
  have fit := row_at h hf d2
  rw [h.p2, fit.done] at d3
  have d3 : (g.map g.dqn).isSome = true := d3
  intro e; rw [e] at d3; cases d3

theorem cs_spec (h : Inv P m s g) :
    (csAct P s i = .skip → P.csum = true ∧ g.csn < g.reqs.length ∧ g.bad g.csn = true) ∧
    (csAct P s i = .go → P.csum = true ∧ g.csn < g.reqs.length ∧ s.csReady = true ∧ i.csum.isSome = true) ∧
    (csAct P s i = .wait → s.csReady = true → i.csum = none) ∧
    ((at_ P s s.csp).active && decide (s.csp ≠ s.start) && P.csum = true → g.csn < g.reqs.length) := by
  cases hc : P.csum with
  | false =>
    have hr : s.csReady = false := by
      cases hr : s.csReady with
      | false => rfl
      | true => have := (h.csr hr).1; rw [hc] at this; cases this
    unfold csAct
    simp [hc, hr]
  | true =>
    have hf : g.fin ≤ g.csn := Nat.le_trans h.le1 (h.le5 hc)
    unfold csAct
    rw [show decide (s.csp ≠ s.start) = decide (g.csn < g.reqs.length) by rw [h.p1, h.p5]; exact ptr_ne h hf h.le6 (Nat.le_refl _)]
    rcases Nat.lt_or_ge g.csn g.reqs.length with hlt | hge
    · have fit := row_at h hf hlt
      rw [h.p5]
      simp only [fit.active, decide_eq_true hlt, hc, Bool.and_self, if_true]
      rw [inv_bad fit]
      cases hb : g.bad g.csn with
      | true => simp [hlt]
      | false =>
        simp only [Bool.false_eq_true, if_false]
        cases hr : s.csReady <;> cases hi : i.csum <;> simp [hlt]
    · have hr : s.csReady = false := by
        cases hr : s.csReady with
        | false => rfl
        | true => have := (h.csr hr).2; omega
      simp [show ¬ g.csn < g.reqs.length by omega, hr]

theorem cp_spec (h : Inv P m s g) :
    (cpAct P s i = .skip → g.cpn < g.dqn ∧ (P.csum = true → g.cpn < g.csn) ∧ g.bad g.cpn = true) ∧
    (cpAct P s i = .go → g.cpn < g.dqn ∧ (P.csum = true → g.cpn < g.csn) ∧ g.good g.cpn = true ∧ 0 < g.rep g.cpn ∧ (s.cqValid && !i.cqReady) = false) := by
  have hf : g.fin ≤ g.cpn := h.le1
  have hle3 := h.le3
  have hle2 := h.le2
  unfold cpAct
  rw [show decide (s.cpp ≠ s.dqp) = decide (g.cpn < g.dqn) by rw [h.p2, h.p3]; exact ptr_ne h hf h.le2 h.le3]
  rw [show decide (s.cpp ≠ s.start) = decide (g.cpn < g.reqs.length) by rw [h.p1, h.p3]; exact ptr_ne h hf (by omega) (Nat.le_refl _)]
  rw [show (decide (s.cpp ≠ s.csp) || !P.csum) = (decide (g.cpn < g.csn) || !P.csum) by
    cases hc : P.csum with
    | false => rw [Bool.not_false, Bool.or_true, Bool.or_true]
    | true => rw [h.p3, h.p5, ptr_ne h hf (h.le5 hc) h.le6]]
  rw [h.p3]
  rcases Nat.lt_or_ge g.cpn g.dqn with hlt | hge
  · have fit := row_at h hf (show g.cpn < g.reqs.length by omega)
    simp only [fit.active, decide_eq_true hlt, decide_eq_true (show g.cpn < g.reqs.length by omega), Bool.and_self, Bool.true_and]
    rw [inv_bad fit, fit.wr]
    have hcs : (decide (g.cpn < g.csn) || !P.csum) = true → P.csum = true → g.cpn < g.csn := by
      intro h1 h2; rw [h2] at h1; simpa using h1
    constructor
    · intro e
      split at e
      · rename_i hx
        split at e
        · exact ⟨hlt, hcs hx, by assumption⟩
        · split at e <;> cases e
      · cases e
    · intro e
      split at e
      · rename_i hc
        split at e
        · cases e
        · split at e
          · rename_i hb hx
            rw [Bool.and_eq_true] at hx
            have hrep : 0 < g.rep g.cpn := of_decide_eq_true hx.1
            refine ⟨hlt, hcs hc, ?_, hrep, by have := hx.2; rwa [Bool.not_eq_true'] at this⟩
            apply h.gd
            intro e2
            have := h.rp _ hrep
            rw [e2] at this; cases this
          · cases e
      · cases e
  · simp [show ¬ g.cpn < g.dqn by omega]

theorem fi_spec (h : Inv P m s g) :
    (fiAct P s = .skip → g.fin < g.cpn ∧ g.bad g.fin = true) ∧
    (fiAct P s = .go → g.fin < g.cpn ∧ g.good g.fin = true ∧ g.cst g.fin = true) := by
  have hle1 := h.le1
  have hle3 := h.le3
  have hle2 := h.le2
  unfold fiAct
  rw [show decide (s.fin ≠ s.cpp) = decide (g.fin < g.cpn) by rw [h.p3, h.p4]; exact ptr_ne h (Nat.le_refl _) h.le1 (by omega)]
  rw [show decide (s.fin ≠ s.start) = decide (g.fin < g.reqs.length) by rw [h.p1, h.p4]; exact ptr_ne h (Nat.le_refl _) (by omega) (Nat.le_refl _)]
  rw [h.p4]
  rcases Nat.lt_or_ge g.fin g.cpn with hlt | hge
  · have fit := row_at h (Nat.le_refl _) (show g.fin < g.reqs.length by omega)
    simp only [fit.active, decide_eq_true hlt, decide_eq_true (show g.fin < g.reqs.length by omega), Bool.and_self, if_true]
    rw [inv_bad fit, fit.cst]
    constructor
    · intro e
      split at e
      · exact ⟨hlt, by assumption⟩
      · split at e <;> cases e
    · intro e
      split at e
      · cases e
      · split at e
        · rename_i hb hx
          have hx : g.cst g.fin = true := hx
          exact ⟨hlt, (h.ck _ (h.cs _ hx)).2, hx⟩
        · cases e
  · simp [show ¬ g.fin < g.cpn by omega]

/-! ### The monitor moves forward -/

theorem eDeq_spec (h : Inv P m s g) (hl : Legal P m g i) {k : Nat} {d : DStat} (he : eDeq g i k = some d) :
    i.dstat = some d ∧ g.own d.tag = some k ∧ g.cpn ≤ k ∧ k < g.dqn ∧ k < g.reqs.length ∧ g.resp k = none := by
  obtain ⟨h1, h2⟩ := filter_some he
  obtain ⟨k0, a1, a2⟩ := deq_spec h hl h1
  have : k0 = k := by rw [a1] at h2; simpa using h2
  subst this; exact ⟨h1, a1, a2⟩

theorem eRx_spec (h : Inv P m s g) (hl : Legal P m g i) {k : Nat} {r : RStat} (he : eRx g i k = some r) :
    i.rxStat = some r ∧ g.own r.tag = some k ∧ g.dqn ≤ k ∧ k < g.reqs.length ∧ g.rx k = none ∧ r.len ≤ min m P.buf.max := by
  obtain ⟨h1, h2⟩ := filter_some he
  obtain ⟨k0, a1, a2⟩ := rx_spec h hl h1
  have : k0 = k := by rw [a1] at h2; simpa using h2
  subst this; exact ⟨h1, a1, a2⟩

theorem eMap_spec (h : Inv P m s g) (hl : Legal P m g i) {k q : Nat} (he : eMap g i k = some q) :
    g.dqn ≤ k ∧ k < g.reqs.length ∧ g.rx k ≠ none ∧ g.map k = none := by
  unfold eMap at he
  cases hf : i.qmap.filter fun x => g.own x.1 == some k with
  | none => rw [hf] at he; cases he
  | some x =>
    obtain ⟨h1, h2⟩ := filter_some hf
    obtain ⟨k0, a1, a2⟩ := map_spec h hl h1
    have : k0 = k := by rw [a1] at h2; simpa using h2
    subst this; exact a2

theorem eFor_spec {o : Option Nat} {k : Nat} (he : eFor g o k = true) : ∃ t, o = some t ∧ g.own t = some k := by
  unfold eFor at he
  cases o with
  | none => cases he
  | some t => exact ⟨t, rfl, by simpa using he⟩

theorem eBeat_spec (h : Inv P m s g) (hl : Legal P m g i) {k : Nat} {d : Desc} (he : eBeat P s g i k = some d) :
    beat P s i = some d ∧ g.own d.tid = some k ∧ d.len < 2 ^ 32 ∧ g.cpn ≤ k ∧ k < g.reqs.length ∧ g.good k = true ∧ complete (g.descs k) = false ∧
      (∀ j, j ≠ k → g.descs j = [] ∨ complete (g.descs j) = true) ∧ ∃ x, g.rx k = some x ∧ x.len ≤ min m P.buf.max ∧
      s.dDone = (!(g.descs k).isEmpty && decide (x.len ≤ total (g.descs k))) ∧ (s.dDone = false → s.dLen = total (g.descs k)) := by
  obtain ⟨h1, h2⟩ := filter_some he
  obtain ⟨a0, k0, a1, a2⟩ := desc_spec h hl (beat_desc h1).1
  have : k0 = k := by rw [a1] at h2; simpa using h2
  subst this
  exact ⟨h1, a1, a0, a2⟩

theorem eSum_spec {k c : Nat} (he : eSum s g i k = some c) : s.csReady = true ∧ k = g.csn ∧ i.csum = some c := by
  unfold eSum at he
  split at he
  · rename_i hx
    rw [Bool.and_eq_true] at hx
    exact ⟨hx.1, by simpa using hx.2, he⟩
  · cases he

theorem resp_old (h : Inv P m s g) (hl : Legal P m g i) {k : Nat} {r : DStat} (hk : g.resp k = some r) : (watch P s g i).resp k = some r := by
  show (match eDeq g i k with | some d => some d | none => g.resp k) = _
  cases he : eDeq g i k with
  | none => exact hk
  | some d => have := (eDeq_spec h hl he).2.2.2.2.2; rw [hk] at this; cases this

theorem good_mono (h : Inv P m s g) (hl : Legal P m g i) {k : Nat} (hk : g.good k = true) : (watch P s g i).good k = true := by
  obtain ⟨r, hr, hok⟩ := good_some hk
  unfold G.good
  rw [resp_old h hl hr]; exact hok

theorem bad_mono (h : Inv P m s g) (hl : Legal P m g i) {k : Nat} (hk : g.bad k = true) : (watch P s g i).bad k = true := by
  obtain ⟨r, hr, hok⟩ := bad_some hk
  unfold G.bad
  rw [resp_old h hl hr]
  show (!r.ok) = true
  rw [hok]; rfl

theorem rx_old (h : Inv P m s g) (hl : Legal P m g i) {k : Nat} {r : RStat} (hk : g.rx k = some r) : (watch P s g i).rx k = some r := by
  show (match eRx g i k with | some d => some d | none => g.rx k) = _
  cases he : eRx g i k with
  | none => exact hk
  | some d => have := (eRx_spec h hl he).2.2.2.2.1; rw [hk] at this; cases this

theorem map_old (h : Inv P m s g) (hl : Legal P m g i) {k q : Nat} (hk : g.map k = some q) : (watch P s g i).map k = some q := by
  show (match eMap g i k with | some d => some d | none => g.map k) = _
  cases he : eMap g i k with
  | none => exact hk
  | some d => have := (eMap_spec h hl he).2.2.2; rw [hk] at this; cases this

theorem csum_old (h : Inv P m s g) {k c : Nat} (hk : g.csum k = some c) : (watch P s g i).csum k = some c := by
  show (match eSum s g i k with | some d => some d | none => g.csum k) = _
  cases he : eSum s g i k with
  | none => exact hk
  | some d =>
    have := (eSum_spec he).2.1
    rw [h.csf k (by omega)] at hk; cases hk

theorem complete_mono {k : Nat} (h : complete (g.descs k) = true) : complete ((watch P s g i).descs k) = true := by
  show complete (g.descs k ++ _) = true
  unfold complete at h ⊢
  rw [List.any_append, h]; rfl

/-- nothing happens to requests that have not been made -/
theorem evs_fresh (h : Inv P m s g) (hl : Legal P m g i) {k : Nat} (hk : g.reqs.length ≤ k) :
    evs s g i k = ⟨none, none, none, false, none, false⟩ ∧ eBeat P s g i k = none := by
  have hle := h.le1
  have hle2 := h.le2
  have hle3 := h.le3
  unfold evs
  have e1 : eDeq g i k = none := by
    cases he : eDeq g i k with
    | none => rfl
    | some d => have := (eDeq_spec h hl he).2.2.2.2.1; omega
  have e2 : eBeat P s g i k = none := by
    cases he : eBeat P s g i k with
    | none => rfl
    | some d => have := (eBeat_spec h hl he).2.2.2.2.1; omega
  have e3 : eRx g i k = none := by
    cases he : eRx g i k with
    | none => rfl
    | some d => have := (eRx_spec h hl he).2.2.2.1; omega
  have e4 : eMap g i k = none := by
    cases he : eMap g i k with
    | none => rfl
    | some d => have := (eMap_spec h hl he).2.1; omega
  have e5 : eSum s g i k = none := by
    cases he : eSum s g i k with
    | none => rfl
    | some d =>
      obtain ⟨a1, a2, _⟩ := eSum_spec he
      have := (h.csr a1).2; omega
  have e0 : ∀ o, eFor g o k = false := by
    intro o
    cases he : eFor g o k with
    | false => rfl
    | true =>
      obtain ⟨t, _, h2⟩ := eFor_spec he
      have := (h.own t k h2).2; omega
  rw [e1, e3, e4, e5, e0, e0]
  exact ⟨rfl, e2⟩

theorem place_old {k : Nat} (hk : k < g.reqs.length) : (watch P s g i).place k = g.place k := by
  show (if ((accept s i).isSome && k == g.reqs.length) = true then s.wr else g.place k) = _
  rw [beq_eq_false_iff_ne.mpr (by omega), Bool.and_false]; rfl

theorem view_next (k : Nat) (hk : k < g.reqs.length) : view (watch P s g i) k = (view g k).next (evs s g i k) := by
  have e : (watch P s g i).reqs[k]? = g.reqs[k]? := List.getElem?_append_left hk
  unfold view V.next
  rw [e, place_old hk]
  rfl

theorem len_next : (watch P s g i).reqs.length = g.reqs.length + (accept s i).isSome.toNat := by
  show (g.reqs ++ (accept s i).toList).length = _
  rw [List.length_append]; cases accept s i <;> rfl

theorem accept_rdy {q : Nat} (ha : accept s i = some q) : s.reqReady = true := by
  unfold accept at ha
  split at ha
  · assumption
  · cases ha

theorem inc_mod (P : Params) (x : Nat) : inc P (x % 2 ^ (P.cl + 1)) = (x + 1) % 2 ^ (P.cl + 1) := by
  unfold inc; rw [Nat.mod_add_mod]

theorem fin_next : (watch P s g i).fin = if fiAct P s = .wait then g.fin else g.fin + 1 := rfl

theorem cpn_next : (watch P s g i).cpn = if cpAct P s i = .wait then g.cpn else g.cpn + 1 := rfl

theorem csn_next : (watch P s g i).csn = if csAct P s i = .wait then g.csn else g.csn + 1 := rfl

theorem dqn_next : (watch P s g i).dqn = if dqGo P s then g.dqn + 1 else g.dqn := rfl

theorem fin_mono : g.fin ≤ (watch P s g i).fin := by rw [fin_next]; split <;> omega

theorem room_fin (h : Inv P m s g) (hr : s.reqReady = true) : g.reqs.length < g.fin + P.n := by
  have := h.pul
  have := (h.rdy hr).1
  omega

theorem acc_slot (h : Inv P m s g) {k : Nat} (h1 : g.fin ≤ k) (h2 : k < g.reqs.length) : (hit P s i (k % P.n)).acc = none := by
  show (accept s i).filter _ = none
  cases ha : accept s i with
  | none => rfl
  | some q =>
    have hlt := room_fin h (accept_rdy ha)
    have : (P.mask s.start == k % P.n) = false := by
      rw [h.p1, mask_ptr, beq_eq_false_iff_ne]
      intro e
      have := mod_inj_of_window (n := P.n) (a := g.fin) (by omega) (by omega) h1 (by omega) e
      omega
    simp [Option.filter, this]

theorem free_slot (h : Inv P m s g) {k : Nat} (h1 : (watch P s g i).fin ≤ k) (h2 : k < g.fin + P.n) : (hit P s i (k % P.n)).free = false := by
  show (decide (fiAct P s ≠ .wait) && _) = false
  rw [fin_next] at h1
  split at h1
  · rename_i hw; simp [hw]
  · have hf : (P.mask s.fin == k % P.n) = false := by
      rw [h.p4, mask_ptr, beq_eq_false_iff_ne]
      intro e
      have := mod_inj_of_window (n := P.n) (a := g.fin) (b := g.fin) (Nat.le_refl _) (by omega) (by omega) h2 e
      omega
    rw [hf, Bool.and_false]

/-- the row that gets a checksum -/
theorem sum_slot (h : Inv P m s g) {k : Nat} (h1 : g.fin ≤ k) (h2 : k < g.reqs.length) :
    (hit P s i (k % P.n)).sum = if csAct P s i ≠ .wait && k == g.csn then i.csum else none := by
  show (if (decide (csAct P s i ≠ .wait) && (P.mask s.csp == k % P.n)) = true then i.csum else none) = _
  by_cases hw : csAct P s i = .wait
  · simp [hw]
  · obtain ⟨c1, c2, _⟩ := cs_spec (i := i) h
    have hc : P.csum = true ∧ g.csn < g.reqs.length := by
      rcases act_cases (csAct P s i) with ha | ha | ha
      · exact absurd ha hw
      · exact ⟨(c1 ha).1, (c1 ha).2.1⟩
      · exact ⟨(c2 ha).1, (c2 ha).2.1⟩
    have hle := h.le5 hc.1
    have hle1 := h.le1
    have hle4 := h.le4
    have : (P.mask s.csp == k % P.n) = (k == g.csn) := by
      rw [h.p5, mask_ptr]
      by_cases hk : k = g.csn
      · rw [hk]; simp
      · rw [beq_eq_false_iff_ne.mpr hk, beq_eq_false_iff_ne]
        intro e
        have := mod_inj_of_window (n := P.n) (a := g.fin) (b := g.csn) (by omega) (by omega) h1 (by omega) e
        omega
    rw [this]

theorem row_next (h : Inv P m s g) (hl : Legal P m g i) (k : Nat) (h1 : (watch P s g i).fin ≤ k) (h2 : k < (watch P s g i).reqs.length) :
    Fit P (view (watch P s g i) k) ((next P s i).row (k % P.n)) := by
  have hle4 := h.le4
  have hfm : g.fin ≤ (watch P s g i).fin := fin_mono
  have hx := n_pos P
  rcases Nat.lt_or_ge k g.reqs.length with hlt | hge
  · rw [view_next k hlt]
    obtain ⟨r1, r2, r3, r4, r5⟩ := hit_evs h hl (show g.fin ≤ k by omega) hlt
    have hsum := sum_slot (i := i) h (show g.fin ≤ k by omega) hlt
    refine fit_next (e := evs s g i k) (h.row k (by omega) hlt) (acc_slot h (by omega) hlt) (free_slot h h1 (by omega)) r1 r2 r3 r4 r5 ?_ ?_ ?_
    · intro c hc
      obtain ⟨a1, a2, a3⟩ := eSum_spec hc
      have hw : csAct P s i ≠ .wait := by
        intro hw
        have := (cs_spec (i := i) h).2.2.1 hw a1
        rw [a3] at this; cases this
      rw [hsum, a2, a3]
      simp [hw]
    · intro _ hv
      have hk : k < g.csn := by
        apply Nat.lt_of_not_le
        intro hge
        exact hv (h.csf k hge)
      rw [hsum, beq_eq_false_iff_ne.mpr (by omega), Bool.and_false]; rfl
    · intro d hd; exact (eDeq_spec h hl hd).2.2.2.2.2
  · -- a new request
    rw [len_next] at h2
    cases ha : accept s i with
    | none => rw [ha] at h2; exact absurd h2 (by show ¬ k < g.reqs.length + 0; omega)
    | some q =>
      rw [ha] at h2
      have h2 : k < g.reqs.length + 1 := h2
      have hk : k = g.reqs.length := by omega
      subst hk
      have hroom := room_fin h (accept_rdy ha)
      have hv : view (watch P s g i) g.reqs.length = { req := some q, place := s.wr } := by
        have hf := (h.fresh g.reqs.length (Nat.le_refl _)).1
        have he := (evs_fresh h hl (Nat.le_refl g.reqs.length)).1
        unfold evs at he
        unfold view at hf ⊢
        simp only [V.mk.injEq] at hf
        simp only [Ev.mk.injEq] at he
        obtain ⟨f1, f2, f3, f4, f5, f6, f7, f8⟩ := hf
        obtain ⟨g1, g2, g3, g4, g5, g6⟩ := he
        simp only [V.mk.injEq]
        refine ⟨?_, ?_, ?_, ?_, ?_, ?_, ?_, ?_⟩
        · show (g.reqs ++ (accept s i).toList)[g.reqs.length]? = _; rw [ha]; simp
        · show (if ((accept s i).isSome && g.reqs.length == g.reqs.length) = true then s.wr else _) = _; rw [ha]; simp
        · show (match eRx g i _ with | some d => some d | none => g.rx _) = _; rw [g1]; exact f3
        · show (match eMap g i _ with | some d => some d | none => g.map _) = _; rw [g2]; exact f4
        · show (match eDeq g i _ with | some d => some d | none => g.resp _) = _; rw [g3]; exact f5
        · show g.rep _ + _ = _; rw [g4, f6]; rfl
        · show (match eSum s g i _ with | some t => some t | none => g.csum _) = _; rw [g5]; exact f7
        · show (g.cst _ || _) = _; rw [g6, f8]; rfl
      rw [hv]
      obtain ⟨r1, r2, r3, r4, r5⟩ := hit_new h hl (accept_rdy ha)
      refine fit_new ?_ (free_slot h h1 hroom) r2 r3 r4 r5
      show (accept s i).filter _ = _
      rw [ha, h.p1, mask_ptr]; simp [Option.filter]

theorem idle_next (h : Inv P m s g) (k : Nat) (h1 : (watch P s g i).reqs.length ≤ k) (h2 : k < (watch P s g i).fin + P.n) :
    ((next P s i).row (k % P.n)).active = false := by
  have hle1 := h.le1
  have hle2 := h.le2
  have hle3 := h.le3
  have hx := n_pos P
  show (if (hit P s i (k % P.n)).free = true then false else if (hit P s i (k % P.n)).acc.isSome then true else (s.row (k % P.n)).active) = false
  split
  · rfl
  · rename_i hfree
    rw [len_next] at h1
    have hk : k < g.fin + P.n := by
      rw [fin_next] at h2
      split at h2
      · exact h2
      · rename_i hw
        apply Nat.lt_of_not_le
        intro hge
        apply hfree
        show (decide (fiAct P s ≠ .wait) && (P.mask s.fin == k % P.n)) = true
        rw [h.p4, mask_ptr, show k = g.fin + P.n by omega, Nat.add_mod_right]
        simp [hw]
    have : (hit P s i (k % P.n)).acc = none := by
      show (accept s i).filter _ = none
      cases ha : accept s i with
      | none => rfl
      | some q =>
        rw [ha] at h1
        have h1 : g.reqs.length + 1 ≤ k := h1
        have : (P.mask s.start == k % P.n) = false := by
          rw [h.p1, mask_ptr, beq_eq_false_iff_ne]
          intro e
          have := mod_inj_of_window (n := P.n) (a := g.fin) (by omega) (by omega) (by omega) (by omega) e
          omega
        simp [Option.filter, this]
    rw [this]
    exact h.idle k (by omega) hk

theorem descs_cases (k : Nat) :
    (watch P s g i).descs k = g.descs k ∨ ∃ d, eBeat P s g i k = some d ∧ (watch P s g i).descs k = g.descs k ++ [d] := by
  show g.descs k ++ (eBeat P s g i k).toList = _ ∨ _
  cases he : eBeat P s g i k with
  | none => left; exact List.append_nil _
  | some d => right; exact ⟨d, rfl, by show g.descs k ++ (eBeat P s g i k).toList = _; rw [he]; rfl⟩

theorem room_lt (h : Inv P m s g) (hr : (s.start + 2 ^ (P.cl + 1) - s.fin) % 2 ^ (P.cl + 1) < P.n) : g.reqs.length < g.fin + P.n := by
  rw [h.p1, h.p4] at hr
  have := h.le1
  have := h.le2
  have := h.le3
  have h4 := h.le4
  have hn := n_pos P
  rw [two_n] at hr
  obtain ⟨m, hm⟩ : ∃ m, m = 2 * P.n := ⟨_, rfl⟩
  rw [← hm] at hr
  obtain ⟨d, hd⟩ : ∃ d, g.reqs.length = g.fin + d := ⟨g.reqs.length - g.fin, by omega⟩
  rw [hd] at hr ⊢
  have hb := Nat.mod_lt g.fin (show 0 < m by omega)
  have : ((g.fin + d) % m + m - g.fin % m) % m = d := by
    rw [Nat.add_mod, Nat.mod_eq_of_lt (show d < m by omega)]
    rcases Nat.lt_or_ge (g.fin % m + d) m with hc | hc
    · rw [Nat.mod_eq_of_lt hc, show g.fin % m + d + m - g.fin % m = d + m by omega, Nat.add_mod_right, Nat.mod_eq_of_lt (by omega)]
    · rw [Nat.mod_eq_sub_mod hc, Nat.mod_eq_of_lt (show g.fin % m + d - m < m by omega), show g.fin % m + d - m + m - g.fin % m = d by omega,
        Nat.mod_eq_of_lt (by omega)]
  rw [this] at hr
  omega

end

end Corundum.RxEngine
