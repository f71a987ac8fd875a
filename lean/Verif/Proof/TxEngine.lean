import Verif.Spec.TxEngine
import Verif.Proof.BufRing
import Verif.Proof.CplWrite

namespace Corundum.TxEngine
open Corundum.Driver (mod_inj_of_window)
open Corundum.CplWrite (upd upd? upd_same upd_ne updo_ne updo_some ix ix')

theorem mask_eq (P : Params) (x : Nat) : P.mask x = x % P.n := Nat.and_two_pow_sub_one_eq_mod x P.cl

theorem n_pos (P : Params) : 0 < P.n := Nat.two_pow_pos _

theorem two_n (P : Params) : 2 ^ (P.cl + 1) = 2 * P.n := by unfold Params.n; rw [Nat.pow_succ, Nat.mul_comm]

theorem mask_ptr (P : Params) (x : Nat) : P.mask (x % 2 ^ (P.cl + 1)) = x % P.n := by
  rw [mask_eq, two_n, Nat.mod_mul_left_mod]

theorem mask_lt (P : Params) (x : Nat) : P.mask (x % P.n) = x % P.n := by rw [mask_eq, Nat.mod_mod]

theorem filter_congr {α : Type} {o : Option α} {p q : α → Bool} (h : ∀ a, o = some a → p a = q a) : o.filter p = o.filter q := by
  cases o with
  | none => rfl
  | some a => simp only [Option.filter, h a rfl]

theorem filter_some {α : Type} {o : Option α} {p : α → Bool} {a : α} (h : o.filter p = some a) : o = some a ∧ p a = true := by
  cases o with
  | none => cases h
  | some b =>
    simp only [Option.filter] at h
    split at h
    · cases h; exact ⟨rfl, by assumption⟩
    · cases h

/-! ### One request and its row -/

/-- what the monitor knows about one request -/
structure V where
  req : Option Req := none
  resp : Option DStat := none
  descs : List Desc := []
  place : Nat := 0
  rep : Nat := 0
  ts : Option Nat := none
  cst : Bool := false

def view (g : G) (k : Nat) : V := ⟨g.reqs[k]?, g.resp k, g.descs k, g.place k, g.rep k, g.ts k, g.cst k⟩

/-- the row of a request in flight -/
structure Fit (P : Params) (v : V) (r : Row) : Prop where
  active : r.active = true
  req : ∀ q, v.req = some q → r.queue = q.queue ∧ r.tag = q.tag ∧ r.dest = q.dest
  inv : r.invalid = v.resp.any fun d => !d.ok
  resp : ∀ d, v.resp = some d → r.qptr = d.ptr ∧ r.cplQueue = d.cpl
  fetched : r.descFetched = complete v.descs
  len : complete v.descs = true → r.len = total v.descs
  ctrl : ∀ d ds, v.descs = d :: ds → r.bufPtr = v.place ∧ r.csStart = (if P.csum then d.csStart % 128 else 0) ∧
    r.csOff = (if P.csum then d.csOff % 128 else 0) ∧ r.csEn = (P.csum && d.csEn)
  commit : v.descs ≠ [] → r.commit = complete v.descs
  cnt : v.descs ≠ [] → r.cntS = (r.cntF + (reads v.descs - v.rep)) % 2 ^ P.cw
  cntF : r.cntF < 2 ^ P.cw
  rep : v.rep ≤ reads v.descs
  few : reads v.descs < 2 ^ P.cw
  done : (r.doneA != r.doneB) = v.ts.isSome
  ts : ∀ t, v.ts = some t → P.ptp = true → r.ts = t
  cst : r.cplDone = v.cst

/-- the events of a cycle for one request -/
structure Ev where
  deq : Option DStat
  beat : Option Desc
  sent : Option Nat
  cpl : Bool
  done : Bool

def V.next (v : V) (wr : Nat) (e : Ev) : V where
  req := v.req
  resp := match e.deq with | some d => some d | none => v.resp
  descs := v.descs ++ e.beat.toList
  place := if e.beat.isSome && v.descs.isEmpty then wr else v.place
  rep := v.rep + e.done.toNat
  ts := match e.sent with | some t => some t | none => v.ts
  cst := v.cst || e.cpl

theorem total_snoc (ds : List Desc) (d : Desc) : total (ds ++ [d]) = total ds + d.data.length := by
  unfold total; rw [List.map_append, List.sum_append]; simp

theorem reads_snoc (ds : List Desc) (d : Desc) : reads (ds ++ [d]) = reads ds + (decide (d.data.length ≠ 0)).toNat := by
  unfold reads; rw [List.countP_append, List.countP_singleton]
  by_cases h : d.data.length ≠ 0
  · rw [if_pos (by simpa using h), decide_eq_true h]; rfl
  · rw [if_neg (by simpa using h), decide_eq_false h]; rfl

theorem complete_snoc (ds : List Desc) (d : Desc) : complete (ds ++ [d]) = (complete ds || d.last) := by
  unfold complete; rw [List.any_append]; simp

theorem fit_next {P : Params} {s : S} {v : V} {r : Row} {h : Hit} {e : Ev} (hf : Fit P v r) (h1 : h.acc = none) (h2 : h.free = false)
    (e1 : h.deq = e.deq) (e2 : h.beat = e.beat) (e3 : h.sent.map (·.2) = e.sent) (e4 : h.cpl = e.cpl) (e5 : h.done = e.done)
    (c1 : ∀ d, e.deq = some d → v.resp = none)
    (c2 : ∀ d, e.beat = some d → complete v.descs = false ∧ total v.descs + d.data.length ≤ P.buf.max ∧ reads v.descs + 1 < 2 ^ P.cw ∧
      s.dStart = v.descs.isEmpty ∧ s.dLen = total v.descs)
    (c3 : ∀ t, e.sent = some t → v.ts = none) (c4 : e.done = true → v.rep < reads v.descs) :
    Fit P (v.next s.wr e) (rowNext P s r h) := by
  obtain ⟨hacc, hdeq, hbeat, hsent, hcpl, hfree, hdone⟩ := h
  obtain ⟨edeq, ebeat, esent, ecpl, edone⟩ := e
  simp only at h1 h2 e1 e2 e3 e4 e5 c1 c2 c3 c4
  subst h1 h2 e1 e2 e4 e5
  have hM : 0 < 2 ^ P.cw := Nat.two_pow_pos _
  constructor
  case active => exact hf.active
  case req => exact hf.req
  case inv =>
    show (if hdeq.any (fun d => d.error || d.empty) then true else _) = _
    rw [show (fun d : DStat => d.error || d.empty) = fun d => !d.ok from funext fun d => (Bool.not_not _).symm]
    cases hdeq with
    | none => exact hf.inv
    | some d =>
      have : v.resp = none := c1 d rfl
      have hi := hf.inv
      rw [this] at hi
      show (if (!d.ok) = true then true else if false = true then _ else r.invalid) = !d.ok
      rw [hi]; cases d.ok <;> rfl
  case resp =>
    intro d hd
    cases hdeq with
    | none => exact hf.resp d hd
    | some d' =>
      have hd : some d' = some d := hd
      cases hd; exact ⟨rfl, rfl⟩
  case fetched =>
    cases hbeat with
    | none => show r.descFetched = complete (v.descs ++ []); rw [List.append_nil]; exact hf.fetched
    | some d =>
      show (if d.last = true then true else r.descFetched) = complete (v.descs ++ [d])
      rw [complete_snoc, hf.fetched]
      cases d.last
      · rw [Bool.or_false]; rfl
      · rw [Bool.or_true]; rfl
  case len =>
    intro hc
    cases hbeat with
    | none =>
      have hc : complete (v.descs ++ []) = true := hc
      show r.len = total (v.descs ++ [])
      rw [List.append_nil] at hc ⊢; exact hf.len hc
    | some d =>
      have hc : complete (v.descs ++ [d]) = true := hc
      obtain ⟨k1, k2, k3, k4, k5⟩ := c2 d rfl
      rw [complete_snoc, k1, Bool.false_or] at hc
      show (if d.last = true then lenNext P s d.data.length else r.len) = total (v.descs ++ [d])
      rw [hc, total_snoc]
      show lenNext P s d.data.length = _
      unfold lenNext
      rw [k5, if_neg (by omega)]
  case ctrl =>
    intro d ds hd
    cases hbeat with
    | none =>
      have hd : v.descs ++ [] = d :: ds := hd
      rw [List.append_nil] at hd
      obtain ⟨k1, k2⟩ := hf.ctrl d ds hd
      exact ⟨k1, k2⟩
    | some d' =>
      have hd : v.descs ++ [d'] = d :: ds := hd
      obtain ⟨k1, k2, k3, k4, k5⟩ := c2 d' rfl
      cases hv : v.descs with
      | nil =>
        rw [hv] at hd k4
        have k4 : s.dStart = true := k4
        cases hd
        show (if s.dStart = true then s.wr else r.bufPtr) = (if (true && v.descs.isEmpty) = true then s.wr else v.place) ∧ _
        rw [k4, hv]
        refine ⟨rfl, ?_, ?_, ?_⟩
        · show (if s.dStart = true then _ else _) = _; rw [k4]; rfl
        · show (if s.dStart = true then _ else _) = _; rw [k4]; rfl
        · show (if s.dStart = true then _ else _) = _; rw [k4]; rfl
      | cons a as =>
        rw [hv] at hd k4
        have k4 : s.dStart = false := k4
        cases hd
        obtain ⟨l1, l2, l3, l4⟩ := hf.ctrl d as hv
        show (if s.dStart = true then s.wr else r.bufPtr) = (if (true && v.descs.isEmpty) = true then s.wr else v.place) ∧ _
        rw [k4, hv]
        refine ⟨l1, ?_, ?_, ?_⟩
        · show (if s.dStart = true then _ else _) = _; rw [k4]; exact l2
        · show (if s.dStart = true then _ else _) = _; rw [k4]; exact l3
        · show (if s.dStart = true then _ else _) = _; rw [k4]; exact l4
  case commit =>
    intro hn
    cases hbeat with
    | none =>
      have hn : v.descs ++ [] ≠ [] := hn
      show r.commit = complete (v.descs ++ [])
      rw [List.append_nil] at hn ⊢; exact hf.commit hn
    | some d =>
      obtain ⟨k1, k2, k3, k4, k5⟩ := c2 d rfl
      show (if (decide (d.data.length ≠ 0) || d.last || s.dStart) = true then d.last else r.commit) = complete (v.descs ++ [d])
      rw [complete_snoc, k1, Bool.false_or]
      split
      · rfl
      · rename_i hx
        cases hs : s.dStart with
        | true => rw [hs] at hx; simp at hx
        | false =>
          rw [hs] at k4
          have : v.descs ≠ [] := by intro e; rw [e] at k4; cases k4
          rw [hf.commit this, k1]
          cases hl : d.last with
          | false => rfl
          | true => rw [hl] at hx; simp at hx
  case cnt =>
    intro hn
    cases hbeat with
    | none =>
      have hn : v.descs ++ [] ≠ [] := hn
      show r.cntS = ((if hdone = true then _ else _) + (reads (v.descs ++ []) - (v.rep + hdone.toNat))) % _
      rw [List.append_nil] at hn ⊢
      rw [hf.cnt hn]
      cases hdone with
      | false => rfl
      | true =>
        have := c4 rfl
        show _ = ((r.cntF + 1) % 2 ^ P.cw + (reads v.descs - (v.rep + 1))) % 2 ^ P.cw
        rw [Nat.mod_add_mod]
        congr 1; omega
    | some d =>
      obtain ⟨k1, k2, k3, k4, k5⟩ := c2 d rfl
      show cntNext P s r d = ((if hdone = true then (r.cntF + 1) % 2 ^ P.cw else r.cntF) + (reads (v.descs ++ [d]) - (v.rep + hdone.toNat))) % 2 ^ P.cw
      rw [reads_snoc]
      unfold cntNext
      cases hs : s.dStart with
      | true =>
        rw [hs] at k4
        have hv : v.descs = [] := by cases hx : v.descs with | nil => rfl | cons a as => rw [hx] at k4; cases k4
        have hr := hf.rep
        rw [hv] at hr c4 ⊢
        have h0 : reads [] = 0 := rfl
        rw [h0] at hr c4 ⊢
        cases hdone with
        | true => have := c4 rfl; omega
        | false =>
          have hr0 : v.rep = 0 := by omega
          rw [hr0]
          by_cases hd : d.data.length ≠ 0
          · rw [if_pos hd, decide_eq_true hd]; rfl
          · rw [if_neg hd, decide_eq_false hd]
            show r.cntF = (r.cntF + 0) % 2 ^ P.cw
            rw [Nat.add_zero, Nat.mod_eq_of_lt hf.cntF]
      | false =>
        rw [hs] at k4
        have hne : v.descs ≠ [] := by intro e; rw [e] at k4; cases k4
        have hr := hf.rep
        have hcnt := hf.cnt hne
        simp only [Bool.false_eq_true, if_false]
        rw [hcnt]
        by_cases hd : d.data.length ≠ 0
        · rw [if_pos hd, decide_eq_true hd]
          cases hdone with
          | true =>
            have := c4 rfl
            show ((r.cntF + (reads v.descs - v.rep)) % 2 ^ P.cw + 1) % 2 ^ P.cw = ((r.cntF + 1) % 2 ^ P.cw + (reads v.descs + 1 - (v.rep + 1))) % 2 ^ P.cw
            rw [Nat.mod_add_mod, Nat.mod_add_mod]
            congr 1; omega
          | false =>
            show ((r.cntF + (reads v.descs - v.rep)) % 2 ^ P.cw + 1) % 2 ^ P.cw = (r.cntF + (reads v.descs + 1 - (v.rep + 0))) % 2 ^ P.cw
            rw [Nat.mod_add_mod]
            congr 1; omega
        · rw [if_neg hd, decide_eq_false hd]
          cases hdone with
          | true =>
            have := c4 rfl
            show (r.cntF + (reads v.descs - v.rep)) % 2 ^ P.cw = ((r.cntF + 1) % 2 ^ P.cw + (reads v.descs + 0 - (v.rep + 1))) % 2 ^ P.cw
            rw [Nat.mod_add_mod]
            congr 1; omega
          | false => rfl
  case cntF =>
    show (if hdone = true then _ else _) < _
    split
    · exact Nat.mod_lt _ hM
    · exact hf.cntF
  case rep =>
    have hr := hf.rep
    show v.rep + hdone.toNat ≤ reads (v.descs ++ hbeat.toList)
    have h3 : reads v.descs ≤ reads (v.descs ++ hbeat.toList) := by unfold reads; rw [List.countP_append]; omega
    cases hdone with
    | false => show v.rep + 0 ≤ _; omega
    | true => have := c4 rfl; show v.rep + 1 ≤ _; omega
  case few =>
    show reads (v.descs ++ hbeat.toList) < _
    cases hbeat with
    | none => rw [Option.toList_none, List.append_nil]; exact hf.few
    | some d =>
      have := (c2 d rfl).2.2.1
      rw [Option.toList_some, reads_snoc]
      cases decide (d.data.length ≠ 0)
      · show reads v.descs + 0 < _; omega
      · exact this
  case done =>
    subst e3
    cases hsent with
    | none => exact hf.done
    | some t =>
      have := c3 t.2 rfl
      have hd := hf.done
      rw [this] at hd
      show (r.doneA != !r.doneA) = true
      cases r.doneA <;> rfl
  case ts =>
    intro t ht hp
    subst e3
    cases hsent with
    | none => exact hf.ts t ht hp
    | some x =>
      have ht : some x.2 = some t := ht
      cases ht
      show (if P.ptp = true then x.2 else r.ts) = _
      rw [hp]; rfl
  case cst =>
    show (if hcpl = true then true else if false = true then _ else r.cplDone) = (v.cst || hcpl)
    rw [hf.cst]
    cases hcpl <;> cases v.cst <;> rfl

/-- the row of a new request -/
theorem fit_new {P : Params} {s : S} {r : Row} {h : Hit} {q : Req} (h1 : h.acc = some q) (h2 : h.free = false) (h3 : h.deq = none) (h4 : h.beat = none)
    (h5 : h.sent = none) (h6 : h.cpl = false) (hc : r.cntF < 2 ^ P.cw) : Fit P { req := some q } (rowNext P s r h) := by
  obtain ⟨hacc, hdeq, hbeat, hsent, hcpl, hfree, hdone⟩ := h
  simp only at h1 h2 h3 h4 h5 h6
  subst h1 h2 h3 h4 h5 h6
  have hM : 0 < 2 ^ P.cw := Nat.two_pow_pos _
  constructor
  case active => rfl
  case req => intro q' hq; cases hq; exact ⟨rfl, rfl, rfl⟩
  case inv => rfl
  case resp => intro d hd; cases hd
  case fetched => rfl
  case len => intro hx; cases hx
  case ctrl => intro d ds hd; cases hd
  case commit => intro hx; exact absurd rfl hx
  case cnt => intro hx; exact absurd rfl hx
  case cntF =>
    show (if hdone = true then _ else _) < _
    split
    · exact Nat.mod_lt _ hM
    · exact hc
  case rep => exact Nat.zero_le _
  case few => exact hM
  case done => show (r.doneB != r.doneB) = false; cases r.doneB <;> rfl
  case ts => intro t ht; cases ht
  case cst => rfl

/-! ### The invariant -/

structure Inv (P : Params) (s : S) (g : G) : Prop where
  le1 : g.fin ≤ g.cpn
  le2 : g.cpn ≤ g.txn
  le3 : g.txn ≤ g.reqs.length
  le4 : g.reqs.length ≤ g.fin + P.n
  p1 : s.start = g.reqs.length % 2 ^ (P.cl + 1)
  p2 : s.txp = g.txn % 2 ^ (P.cl + 1)
  p3 : s.cpp = g.cpn % 2 ^ (P.cl + 1)
  p4 : s.fin = g.fin % 2 ^ (P.cl + 1)
  row : ∀ k, g.fin ≤ k → k < g.reqs.length → Fit P (view g k) (s.row (k % P.n))
  idle : ∀ k, g.reqs.length ≤ k → k < g.fin + P.n → (s.row (k % P.n)).active = false
  cntF : ∀ j, (s.row j).cntF < 2 ^ P.cw
  own : ∀ t k, g.own t = some k → k % P.n = t ∧ k < g.reqs.length
  own' : ∀ k, g.fin ≤ k → k < g.reqs.length → g.own (k % P.n) = some k
  fresh : ∀ k, g.reqs.length ≤ k → view g k = { req := none, place := g.place k } ∧ g.ops k = [] ∧ g.took k = false ∧ g.txs k = false ∧ g.cqTook k = false
  rdy : s.reqReady = true → g.reqs.length < g.fin + P.n
  oldf : ∀ k, k < g.fin → g.bad k = true ∨ (g.good k = true ∧ g.cst k = true)
  oldc : ∀ k, k < g.cpn → g.bad k = true ∨ (g.good k = true ∧ (g.ts k).isSome = true)
  oldt : ∀ k, k < g.txn → g.bad k = true ∨ (g.good k = true ∧ complete (g.descs k) = true ∧ g.rep k = reads (g.descs k))
  gd : ∀ k, g.descs k ≠ [] → g.good k = true ∧ ∀ j, j < k → g.bad j = true ∨ complete (g.descs j) = true
  opsd : ∀ k, (g.ops k).map (·.data) = (g.descs k).map (·.data)
  tk : ∀ k, g.took k = true → k < g.txn ∧ g.good k = true
  tx : ∀ k, g.txs k = true → g.took k = true
  tt : ∀ k, (g.ts k).isSome = true → g.txs k = true
  ck : ∀ k, g.cqTook k = true → k < g.cpn ∧ g.good k = true
  cs : ∀ k, g.cst k = true → g.cqTook k = true
  ofT : s.txValid = true → ∃ k, g.cpn ≤ k ∧ k < g.txn ∧ g.good k = true ∧ g.took k = false ∧ s.tx.tag = k % P.n
  ofC : s.cqValid = true → ∃ k, g.fin ≤ k ∧ k < g.cpn ∧ g.good k = true ∧ g.cqTook k = false ∧ s.cq.tag = k % P.n
  cur1 : s.dStart = true → s.dLen = 0 ∧ ∀ k, g.descs k ≠ [] → complete (g.descs k) = true
  cur2 : s.dStart = false → ∃ k, g.descs k ≠ [] ∧ complete (g.descs k) = false ∧ s.dLen = total (g.descs k) ∧
    ∀ j, g.descs j ≠ [] → j = k ∨ complete (g.descs j) = true

theorem inv_init (P : Params) : Inv P {} {} := by
  have hM : 0 < 2 ^ P.cw := Nat.two_pow_pos _
  constructor <;> first
    | exact Nat.le_refl _
    | exact Nat.zero_le _
    | exact (Nat.zero_mod _).symm
    | (intro k _ h; exact absurd h (Nat.not_lt_zero _))
    | (intro k h; exact absurd h (Nat.not_lt_zero _))
    | (intro k h; exact absurd rfl h)
    | (intro k h; cases h; done)
    | (intro h; cases h; done)
    | (intro t k h; cases h; done)
    | (intro _; exact hM)
    | (intro k _ _; rfl)
    | (intro k; rfl)
    | (intro k _; exact ⟨rfl, rfl, rfl, rfl, rfl⟩)
    | (intro _; exact ⟨rfl, fun k h => absurd rfl h⟩)

theorem good_not_bad {g : G} {k : Nat} (h : g.good k = true) : g.bad k = false := by
  unfold G.good at h; unfold G.bad
  cases hr : g.resp k with
  | none => rfl
  | some r => rw [hr] at h; have h : r.ok = true := h; show (!r.ok) = false; rw [h]; rfl

theorem resp_cases {g : G} {k : Nat} {r : DStat} (h : g.resp k = some r) : (g.bad k = true ∧ r.ok = false) ∨ (g.good k = true ∧ r.ok = true) := by
  unfold G.good G.bad
  rw [h]
  show (((!r.ok) = true) ∧ _) ∨ (r.ok = true ∧ _)
  cases r.ok <;> simp

theorem good_resp {g : G} {k : Nat} (h : g.good k = true) : g.resp k ≠ none := by
  intro e; unfold G.good at h; rw [e] at h; cases h

theorem bad_resp {g : G} {k : Nat} (h : g.bad k = true) : g.resp k ≠ none := by
  intro e; unfold G.bad at h; rw [e] at h; cases h

/-! ### Where the events of a cycle go -/

theorem reads_eq {g : G} {k : Nat} (h : (g.ops k).map (·.data) = (g.descs k).map (·.data)) :
    (g.ops k).countP (fun o => decide (o.data.length ≠ 0)) = reads (g.descs k) := by
  have h1 : (g.ops k).countP (fun o => decide (o.data.length ≠ 0)) = ((g.ops k).map (·.data)).countP (fun d => decide (d.length ≠ 0)) := by
    rw [List.countP_map]; rfl
  rw [h1, h, List.countP_map]
  rfl

theorem countP_le_reads {g : G} {k : Nat} (h : (g.ops k).map (·.data) = (g.descs k).map (·.data)) (f : BufRing.Op → Bool) :
    (g.ops k).countP (fun o => decide (o.data.length ≠ 0) && f o) ≤ reads (g.descs k) := by
  rw [← reads_eq h]
  apply List.countP_mono_left
  intro o _ ho
  rw [Bool.and_eq_true] at ho
  exact ho.1

section
variable {P : Params} {s : S} {g : G} {i : In}

theorem deq_spec (h : Inv P s g) (hl : Legal P g i) {d : DStat} (hd : i.dstat = some d) :
    ∃ k, g.own d.tag = some k ∧ g.txn ≤ k ∧ k < g.reqs.length ∧ g.resp k = none := by
  obtain ⟨k, h1, _, h3⟩ := hl.dstat d hd
  refine ⟨k, h1, ?_, (h.own _ _ h1).2, h3⟩
  apply Nat.le_of_not_lt
  intro hlt
  rcases h.oldt k hlt with hb | hb
  · exact bad_resp hb h3
  · exact good_resp hb.1 h3

theorem desc_spec (h : Inv P s g) (hl : Legal P g i) {d : Desc} (hd : i.desc = some d) :
    ∃ k, g.own d.tid = some k ∧ g.txn ≤ k ∧ k < g.reqs.length ∧ g.good k = true ∧ complete (g.descs k) = false ∧
      (∀ j, j < k → g.bad j = true ∨ complete (g.descs j) = true) ∧ total (g.descs k) + d.data.length ≤ P.buf.max ∧ reads (g.descs k) + 1 < 2 ^ P.cw ∧
      s.dStart = (g.descs k).isEmpty ∧ s.dLen = total (g.descs k) := by
  obtain ⟨k, h1, h2, h3, h4, h5, h6⟩ := hl.desc d hd
  refine ⟨k, h1, ?_, (h.own _ _ h1).2, h2, h3, h4, h5, h6, ?_⟩
  · apply Nat.le_of_not_lt
    intro hlt
    rcases h.oldt k hlt with hb | hb
    · rw [good_not_bad h2] at hb; cases hb
    · rw [hb.2.1] at h3; cases h3
  · cases hs : s.dStart with
    | true =>
      obtain ⟨c1, c2⟩ := h.cur1 hs
      cases hk : g.descs k with
      | nil => exact ⟨rfl, c1⟩
      | cons a as => rw [c2 k (by rw [hk]; simp)] at h3; cases h3
    | false =>
      obtain ⟨k0, c1, c2, c3, c4⟩ := h.cur2 hs
      have : k0 = k := by
        rcases Nat.lt_trichotomy k0 k with hlt | heq | hgt
        · rcases h4 k0 hlt with hb | hb
          · rw [good_not_bad (h.gd k0 c1).1] at hb; cases hb
          · rw [c2] at hb; cases hb
        · exact heq
        · rcases (h.gd k0 c1).2 k hgt with hb | hb
          · rw [good_not_bad h2] at hb; cases hb
          · rw [h3] at hb; cases hb
      subst this
      refine ⟨?_, c3⟩
      cases hk : g.descs k0 with
      | nil => exact absurd hk c1
      | cons a as => rfl

theorem rstat_spec (h : Inv P s g) (hl : Legal P g i) {t : Nat} (ht : i.rstat = some t) :
    ∃ k, g.own t = some k ∧ g.txn ≤ k ∧ k < g.reqs.length ∧ g.rep k < reads (g.descs k) := by
  obtain ⟨k, h1, _, h2⟩ := hl.rstat t ht
  have h3 := countP_le_reads (h.opsd k) g.written
  refine ⟨k, h1, ?_, (h.own _ _ h1).2, by omega⟩
  apply Nat.le_of_not_lt
  intro hlt
  rcases h.oldt k hlt with hb | hb
  · have hn : g.descs k ≠ [] := by intro e; rw [e] at h3; have : reads [] = 0 := rfl; omega
    rw [good_not_bad (h.gd k hn).1] at hb; cases hb
  · have := hb.2.2; omega

theorem txs_ge (h : Inv P s g) {k : Nat} (hg : g.took k = true) (ht : g.ts k = none) : g.cpn ≤ k := by
  apply Nat.le_of_not_lt
  intro hlt
  rcases h.oldc k hlt with hb | hb
  · rw [good_not_bad (h.tk k hg).2] at hb; cases hb
  · rw [ht] at hb; cases hb.2

theorem txStat_spec (h : Inv P s g) (hl : Legal P g i) {t : Nat} (ht : i.txStat = some t) :
    ∃ k, g.own t = some k ∧ g.cpn ≤ k ∧ k < g.txn ∧ g.took k = true ∧ g.txs k = false ∧ g.out.head? = some k := by
  obtain ⟨k, h1, h2, h3, h4⟩ := hl.txStat t ht
  refine ⟨k, h1, txs_ge h h2 ?_, (h.tk k h2).1, h2, h3, h4⟩
  cases hts : g.ts k with
  | none => rfl
  | some x => rw [h.tt k (by rw [hts]; rfl)] at h3; cases h3

theorem sent_spec (h : Inv P s g) (hl : Legal P g i) {x : Nat × Nat} (hx : sentEv i = some x) :
    ∃ k, g.own x.1 = some k ∧ g.cpn ≤ k ∧ k < g.txn ∧ g.txs k = true ∧ g.ts k = none := by
  have hc : i.txCpl = some (true, x.1, x.2) := by
    unfold sentEv at hx
    split at hx
    · cases hx; assumption
    · cases hx
  obtain ⟨k, h1, h2, h3⟩ := hl.txCpl _ _ hc
  exact ⟨k, h1, txs_ge h (h.tx k h2) h3, (h.tk k (h.tx k h2)).1, h2, h3⟩

theorem cstat_spec (h : Inv P s g) (hl : Legal P g i) {t : Nat} (ht : i.cstat = some t) :
    ∃ k, g.own t = some k ∧ g.fin ≤ k ∧ k < g.cpn ∧ g.cqTook k = true ∧ g.cst k = false := by
  obtain ⟨k, h1, h2, h3⟩ := hl.cstat t ht
  refine ⟨k, h1, ?_, (h.ck k h2).1, h2, h3⟩
  apply Nat.le_of_not_lt
  intro hlt
  rcases h.oldf k hlt with hb | hb
  · rw [good_not_bad (h.ck k h2).2] at hb; cases hb
  · rw [h3] at hb; cases hb.2

/-- a tag in use names the row of its request only -/
theorem route (h : Inv P s g) {t k0 k : Nat} (h1 : g.own t = some k0) (h2 : g.fin ≤ k0) (h3 : g.fin ≤ k) (h4 : k < g.fin + P.n) :
    (P.mask t == k % P.n) = (g.own t == some k) := by
  obtain ⟨e, hlt⟩ := h.own t k0 h1
  have := h.le4
  rw [h1, ← e, mask_lt]
  by_cases hk : k0 = k
  · subst hk; simp
  · have hne : k0 % P.n ≠ k % P.n := fun e => hk (mod_inj_of_window (n := P.n) (a := g.fin) h2 (by omega) h3 h4 e)
    rw [beq_eq_false_iff_ne.mpr hne, beq_eq_false_iff_ne.mpr (by intro e; cases e; exact hk rfl)]

/-- the events for request `k` -/
def evs (P : Params) (s : S) (g : G) (i : In) (k : Nat) : Ev := ⟨eDeq g i k, eBeat P s g i k, eSent g i k, eFor g i.cstat k, eFor g i.rstat k⟩

theorem beat_desc {d : Desc} (hd : beat P s i = some d) : i.desc = some d ∧ s.descReady = true := by
  unfold beat at hd
  split at hd
  · rename_i d' hd'
    split at hd
    · cases hd
      split at hd'
      · exact ⟨hd', by assumption⟩
      · cases hd'
    · cases hd
  · cases hd

theorem hit_evs (h : Inv P s g) (hl : Legal P g i) {k : Nat} (h3 : g.fin ≤ k) (h4 : k < g.fin + P.n) :
    (hit P s i (k % P.n)).deq = eDeq g i k ∧ (hit P s i (k % P.n)).beat = eBeat P s g i k ∧ (hit P s i (k % P.n)).sent.map (·.2) = eSent g i k ∧
    (hit P s i (k % P.n)).cpl = eFor g i.cstat k ∧ (hit P s i (k % P.n)).done = eFor g i.rstat k := by
  have hle1 := h.le1
  have hle2 := h.le2
  refine ⟨?_, ?_, ?_, ?_, ?_⟩
  · apply filter_congr
    intro d hd
    obtain ⟨k0, a1, a2, a3, _⟩ := deq_spec h hl hd
    exact route h a1 (by omega) h3 h4
  · apply filter_congr
    intro d hd
    obtain ⟨k0, a1, a2, a3, _⟩ := desc_spec h hl (beat_desc hd).1
    exact route h a1 (by omega) h3 h4
  · unfold eSent
    congr 1
    apply filter_congr
    intro d hd
    obtain ⟨k0, a1, a2, a3, _⟩ := sent_spec h hl hd
    exact route h a1 (by omega) h3 h4
  · unfold hit eFor
    cases hc : i.cstat with
    | none => rfl
    | some t =>
      obtain ⟨k0, a1, a2, a3, _⟩ := cstat_spec h hl hc
      exact route h a1 (by omega) h3 h4
  · unfold hit eFor
    cases hc : i.rstat with
    | none => rfl
    | some t =>
      obtain ⟨k0, a1, a2, a3, _⟩ := rstat_spec h hl hc
      exact route h a1 (by omega) h3 h4

/-! ### The stages -/

theorem ptr_ne (h : Inv P s g) {a b : Nat} (h1 : g.fin ≤ a) (h2 : a ≤ b) (h3 : b ≤ g.reqs.length) :
    decide (a % 2 ^ (P.cl + 1) ≠ b % 2 ^ (P.cl + 1)) = decide (a < b) := by
  have := h.le4
  have := n_pos P
  rw [two_n]
  apply Bool.eq_iff_iff.mpr
  rw [decide_eq_true_eq, decide_eq_true_eq]
  constructor
  · intro hne; rcases Nat.lt_or_ge a b with hlt | hge
    · exact hlt
    · exact absurd (by rw [show a = b by omega]) hne
  · intro hlt e
    have := mod_inj_of_window (n := 2 * P.n) (a := g.fin) h1 (by omega) (by omega) (by omega) e
    omega

theorem row_at (h : Inv P s g) {k : Nat} (h1 : g.fin ≤ k) (h2 : k < g.reqs.length) : Fit P (view g k) (at_ P s (k % 2 ^ (P.cl + 1))) := by
  unfold at_; rw [mask_ptr]; exact h.row k h1 h2

theorem tx_spec (h : Inv P s g) :
    (txAct P s = .skip → g.txn < g.reqs.length ∧ g.bad g.txn = true) ∧
    (txAct P s = .go → g.txn < g.reqs.length ∧ g.good g.txn = true ∧ complete (g.descs g.txn) = true ∧ g.rep g.txn = reads (g.descs g.txn) ∧
      s.txValid = false ∧ (s.csValid = false ∨ P.csum = false)) := by
  have hf : g.fin ≤ g.txn := Nat.le_trans h.le1 h.le2
  unfold txAct
  rw [show decide (s.txp ≠ s.start) = decide (g.txn < g.reqs.length) by rw [h.p1, h.p2]; exact ptr_ne h hf h.le3 (Nat.le_refl _)]
  rw [h.p2]
  rcases Nat.lt_or_ge g.txn g.reqs.length with hlt | hge
  · have fit := row_at h hf hlt
    have hinv : (at_ P s (g.txn % 2 ^ (P.cl + 1))).invalid = g.bad g.txn := fit.inv
    simp only [fit.active, decide_eq_true hlt, Bool.and_self, if_true]
    rw [hinv]
    constructor
    · intro e
      split at e
      · exact ⟨hlt, by assumption⟩
      · split at e <;> cases e
    · intro e
      split at e
      · cases e
      · split at e
        · rename_i hb hx
          simp only [Bool.and_eq_true, Bool.not_eq_true', Bool.or_eq_true, beq_iff_eq] at hx
          obtain ⟨⟨⟨⟨x1, x2⟩, x3⟩, x4⟩, x5⟩ := hx
          have hc : complete (g.descs g.txn) = true := by rw [fit.fetched] at x1; exact x1
          have hne : g.descs g.txn ≠ [] := by intro e; rw [e] at hc; cases hc
          have hcnt := fit.cnt hne
          have hrep := fit.rep
          have hfew := fit.few
          have hF := fit.cntF
          refine ⟨hlt, (h.gd _ hne).1, hc, ?_, x4, x5⟩
          rw [x3] at hcnt
          have hrep : g.rep g.txn ≤ reads (g.descs g.txn) := hrep
          have hfew : reads (g.descs g.txn) < 2 ^ P.cw := hfew
          have hcnt : _ = (_ + (reads (g.descs g.txn) - g.rep g.txn)) % 2 ^ P.cw := hcnt
          generalize (at_ P s (g.txn % 2 ^ (P.cl + 1))).cntF = c at hcnt hF
          generalize 2 ^ P.cw = M at hcnt hF hfew
          generalize reads (g.descs g.txn) = a at *
          generalize g.rep g.txn = b at *
          rcases Nat.lt_or_ge (c + (a - b)) M with hl | hl
          · rw [Nat.mod_eq_of_lt hl] at hcnt; omega
          · rw [Nat.mod_eq_sub_mod hl, Nat.mod_eq_of_lt (by omega)] at hcnt; omega
        · cases e
  · simp [show ¬ g.txn < g.reqs.length by omega]

theorem cp_spec (h : Inv P s g) :
    (cpAct P s i = .skip → g.cpn < g.txn ∧ g.bad g.cpn = true) ∧
    (cpAct P s i = .go → g.cpn < g.txn ∧ g.good g.cpn = true ∧ (g.ts g.cpn).isSome = true ∧ (s.cqValid && !i.cqReady) = false) := by
  have hf : g.fin ≤ g.cpn := h.le1
  have hle3 := h.le3
  have hle2 := h.le2
  unfold cpAct
  rw [show decide (s.cpp ≠ s.txp) = decide (g.cpn < g.txn) by rw [h.p2, h.p3]; exact ptr_ne h hf h.le2 h.le3]
  rw [show decide (s.cpp ≠ s.start) = decide (g.cpn < g.reqs.length) by rw [h.p1, h.p3]; exact ptr_ne h hf (by omega) (Nat.le_refl _)]
  rw [h.p3]
  rcases Nat.lt_or_ge g.cpn g.txn with hlt | hge
  · have fit := row_at h hf (show g.cpn < g.reqs.length by omega)
    have hinv : (at_ P s (g.cpn % 2 ^ (P.cl + 1))).invalid = g.bad g.cpn := fit.inv
    simp only [fit.active, decide_eq_true hlt, decide_eq_true (show g.cpn < g.reqs.length by omega), Bool.and_self, if_true]
    rw [hinv, fit.done]
    constructor
    · intro e
      split at e
      · exact ⟨hlt, by assumption⟩
      · split at e <;> cases e
    · intro e
      split at e
      · cases e
      · split at e
        · rename_i hb hx
          rw [Bool.and_eq_true] at hx
          refine ⟨hlt, ?_, hx.1, by have := hx.2; rwa [Bool.not_eq_true'] at this⟩
          rcases h.oldt _ hlt with hb' | hb'
          · exact absurd hb' hb
          · exact hb'.1
        · cases e
  · simp [show ¬ g.cpn < g.txn by omega]

theorem fi_spec (h : Inv P s g) :
    (fiAct P s = .skip → g.fin < g.cpn ∧ g.bad g.fin = true ∧ s.fValid = false) ∧
    (fiAct P s = .go → g.fin < g.cpn ∧ g.good g.fin = true ∧ g.cst g.fin = true ∧ s.fValid = false) := by
  have hle1 := h.le1
  have hle3 := h.le3
  have hle2 := h.le2
  unfold fiAct
  rw [show decide (s.fin ≠ s.cpp) = decide (g.fin < g.cpn) by rw [h.p3, h.p4]; exact ptr_ne h (Nat.le_refl _) h.le1 (by omega)]
  rw [show decide (s.fin ≠ s.start) = decide (g.fin < g.reqs.length) by rw [h.p1, h.p4]; exact ptr_ne h (Nat.le_refl _) (by omega) (Nat.le_refl _)]
  rw [h.p4]
  rcases Nat.lt_or_ge g.fin g.cpn with hlt | hge
  · have fit := row_at h (Nat.le_refl _) (show g.fin < g.reqs.length by omega)
    have hinv : (at_ P s (g.fin % 2 ^ (P.cl + 1))).invalid = g.bad g.fin := fit.inv
    simp only [fit.active, decide_eq_true hlt, decide_eq_true (show g.fin < g.reqs.length by omega), Bool.and_self, Bool.true_and]
    rw [hinv, fit.cst]
    cases hv : s.fValid with
    | true => simp
    | false =>
      simp only [Bool.not_false, if_true]
      constructor
      · intro e
        split at e
        · exact ⟨hlt, by assumption, trivial⟩
        · split at e <;> cases e
      · intro e
        split at e
        · cases e
        · split at e
          · rename_i hb hx
            refine ⟨hlt, ?_, hx, trivial⟩
            rcases h.oldc _ hlt with hb' | hb'
            · exact absurd hb' hb
            · exact hb'.1
          · cases e
  · simp [show ¬ g.fin < g.cpn by omega]

/-! ### The monitor moves forward -/

theorem resp_mono {k : Nat} (hl : Legal P g i) {r : DStat} (hr : g.resp k = some r) : (watch P s g i).resp k = some r := by
  show (match eDeq g i k with | some d => some d | none => g.resp k) = _
  cases he : eDeq g i k with
  | none => exact hr
  | some d =>
    obtain ⟨h1, h2⟩ := filter_some he
    obtain ⟨k0, a1, _, a3⟩ := hl.dstat d h1
    rw [a1] at h2
    have : k0 = k := by simpa using h2
    subst this
    rw [hr] at a3; cases a3

theorem good_mono (hl : Legal P g i) {k : Nat} (h : g.good k = true) : (watch P s g i).good k = true := by
  obtain ⟨r, hr⟩ := Option.ne_none_iff_exists'.mp (good_resp h)
  unfold G.good at h ⊢
  rw [resp_mono hl hr]; rw [hr] at h; exact h

theorem bad_mono (hl : Legal P g i) {k : Nat} (h : g.bad k = true) : (watch P s g i).bad k = true := by
  obtain ⟨r, hr⟩ := Option.ne_none_iff_exists'.mp (bad_resp h)
  unfold G.bad at h ⊢
  rw [resp_mono hl hr]; rw [hr] at h; exact h

theorem complete_mono {k : Nat} (h : complete (g.descs k) = true) : complete ((watch P s g i).descs k) = true := by
  show complete (g.descs k ++ _) = true
  unfold complete at h ⊢
  rw [List.any_append, h]; rfl

/-- a packet which is complete gets no more descriptors -/
theorem beat_none (h : Inv P s g) (hl : Legal P g i) {k : Nat} (hc : complete (g.descs k) = true) : eBeat P s g i k = none := by
  cases he : eBeat P s g i k with
  | none => rfl
  | some d =>
    obtain ⟨h1, h2⟩ := filter_some he
    obtain ⟨k0, a1, _, _, _, a5, _⟩ := desc_spec h hl (beat_desc h1).1
    rw [a1] at h2
    have : k0 = k := by simpa using h2
    subst this
    rw [hc] at a5; cases a5

theorem eBeat_spec (h : Inv P s g) (hl : Legal P g i) {k : Nat} {d : Desc} (he : eBeat P s g i k = some d) :
    beat P s i = some d ∧ g.own d.tid = some k ∧ g.txn ≤ k ∧ k < g.reqs.length ∧ g.good k = true ∧ complete (g.descs k) = false ∧
      (∀ j, j < k → g.bad j = true ∨ complete (g.descs j) = true) ∧ total (g.descs k) + d.data.length ≤ P.buf.max ∧ reads (g.descs k) + 1 < 2 ^ P.cw ∧
      s.dStart = (g.descs k).isEmpty ∧ s.dLen = total (g.descs k) := by
  obtain ⟨h1, h2⟩ := filter_some he
  obtain ⟨k0, a1, a2⟩ := desc_spec h hl (beat_desc h1).1
  have : k0 = k := by rw [a1] at h2; simpa using h2
  subst this
  exact ⟨h1, a1, a2⟩

theorem eFor_spec {o : Option Nat} {k : Nat} (he : eFor g o k = true) : ∃ t, o = some t ∧ g.own t = some k := by
  unfold eFor at he
  cases o with
  | none => cases he
  | some t => exact ⟨t, rfl, by simpa using he⟩

theorem done_none (h : Inv P s g) (hl : Legal P g i) {k : Nat} (hc : g.rep k = reads (g.descs k)) : eFor g i.rstat k = false := by
  cases he : eFor g i.rstat k with
  | false => rfl
  | true =>
    obtain ⟨t, h1, h2⟩ := eFor_spec he
    obtain ⟨k0, a1, _, _, a4⟩ := rstat_spec h hl h1
    rw [h2] at a1; cases a1; omega

theorem eSent_spec (h : Inv P s g) (hl : Legal P g i) {k t : Nat} (he : eSent g i k = some t) :
    g.cpn ≤ k ∧ k < g.txn ∧ g.txs k = true ∧ g.ts k = none := by
  unfold eSent at he
  cases hf : (sentEv i).filter fun x => g.own x.1 == some k with
  | none => rw [hf] at he; cases he
  | some x =>
    obtain ⟨h1, h2⟩ := filter_some hf
    obtain ⟨k0, a1, a2⟩ := sent_spec h hl h1
    have : k0 = k := by rw [a1] at h2; simpa using h2
    subst this; exact a2

theorem eDeq_spec (h : Inv P s g) (hl : Legal P g i) {k : Nat} {d : DStat} (he : eDeq g i k = some d) :
    i.dstat = some d ∧ g.own d.tag = some k ∧ g.txn ≤ k ∧ k < g.reqs.length ∧ g.resp k = none := by
  obtain ⟨h1, h2⟩ := filter_some he
  obtain ⟨k0, a1, a2⟩ := deq_spec h hl h1
  have : k0 = k := by rw [a1] at h2; simpa using h2
  subst this; exact ⟨h1, a1, a2⟩

/-- nothing happens to requests that have not been made -/
theorem evs_fresh (h : Inv P s g) (hl : Legal P g i) {k : Nat} (hk : g.reqs.length ≤ k) : evs P s g i k = ⟨none, none, none, false, false⟩ := by
  have hle := h.le1
  have hle2 := h.le2
  have hle3 := h.le3
  unfold evs
  have e1 : eDeq g i k = none := by
    cases he : eDeq g i k with
    | none => rfl
    | some d => have := (eDeq_spec h hl he).2.2.2.1; omega
  have e2 : eBeat P s g i k = none := by
    cases he : eBeat P s g i k with
    | none => rfl
    | some d => have := (eBeat_spec h hl he).2.2.2.1; omega
  have e3 : eSent g i k = none := by
    cases he : eSent g i k with
    | none => rfl
    | some d => have := (eSent_spec h hl he).2.1; omega
  have e0 : ∀ o, eFor g o k = false := by
    intro o
    cases he : eFor g o k with
    | false => rfl
    | true =>
      obtain ⟨t, _, h2⟩ := eFor_spec he
      have := (h.own t k h2).2; omega
  rw [e1, e2, e3, e0, e0]

theorem view_next (k : Nat) (hk : k < g.reqs.length) : view (watch P s g i) k = (view g k).next s.wr (evs P s g i k) := by
  have e : (watch P s g i).reqs[k]? = g.reqs[k]? := List.getElem?_append_left hk
  unfold view V.next
  rw [e]
  rfl

theorem len_next : (watch P s g i).reqs.length = g.reqs.length + (accept s i).isSome.toNat := by
  show (g.reqs ++ (accept s i).toList).length = _
  rw [List.length_append]; cases accept s i <;> rfl

theorem accept_rdy {q : Req} (ha : accept s i = some q) : s.reqReady = true := by
  unfold accept at ha
  split at ha
  · assumption
  · cases ha

theorem inc_mod (P : Params) (x : Nat) : inc P (x % 2 ^ (P.cl + 1)) = (x + 1) % 2 ^ (P.cl + 1) := by
  unfold inc; rw [Nat.mod_add_mod]

theorem fin_next : (watch P s g i).fin = if fiAct P s = .wait then g.fin else g.fin + 1 := rfl

theorem act_cases (a : Act) : a = .wait ∨ a = .skip ∨ a = .go := by cases a <;> simp

/-- a row that changes hands or is freed -/
theorem acc_slot (h : Inv P s g) {k : Nat} (h1 : g.fin ≤ k) (h2 : k < g.reqs.length) : (hit P s i (k % P.n)).acc = none := by
  show (accept s i).filter _ = none
  cases ha : accept s i with
  | none => rfl
  | some q =>
    have hlt := h.rdy (accept_rdy ha)
    have : (P.mask s.start == k % P.n) = false := by
      rw [h.p1, mask_ptr, beq_eq_false_iff_ne]
      intro e
      have := mod_inj_of_window (n := P.n) (a := g.fin) (by omega) (by omega) h1 (by omega) e
      omega
    simp [Option.filter, this]

theorem free_slot (h : Inv P s g) {k : Nat} (h1 : (watch P s g i).fin ≤ k) (h2 : k < g.fin + P.n) : (hit P s i (k % P.n)).free = false := by
  show (decide (fiAct P s ≠ .wait) && _) = false
  rw [fin_next] at h1
  split at h1
  · rename_i hw; simp [hw]
  · have hf : (P.mask s.fin == k % P.n) = false := by
      rw [h.p4, mask_ptr, beq_eq_false_iff_ne]
      intro e
      have := mod_inj_of_window (n := P.n) (a := g.fin) (b := g.fin) (Nat.le_refl _) (by omega) (by omega) h2 e
      omega
    rw [hf, Bool.and_false]

theorem fin_mono : g.fin ≤ (watch P s g i).fin := by rw [fin_next]; split <;> omega

theorem row_next (h : Inv P s g) (hl : Legal P g i) (k : Nat) (h1 : (watch P s g i).fin ≤ k) (h2 : k < (watch P s g i).reqs.length) :
    Fit P (view (watch P s g i) k) ((next P s i).row (k % P.n)) := by
  have hle4 := h.le4
  have hfm : g.fin ≤ (watch P s g i).fin := fin_mono
  have hx := n_pos P
  rcases Nat.lt_or_ge k g.reqs.length with hlt | hge
  · rw [view_next k hlt]
    obtain ⟨r1, r2, r3, r4, r5⟩ := hit_evs h hl (show g.fin ≤ k by omega) (show k < g.fin + P.n by omega)
    refine fit_next (e := evs P s g i k) (h.row k (by omega) hlt) (acc_slot h (by omega) hlt) (free_slot h h1 (by omega)) r1 r2 r3 r4 r5 ?_ ?_ ?_ ?_
    · intro d hd; exact (eDeq_spec h hl hd).2.2.2.2
    · intro d hd
      obtain ⟨_, _, _, _, _, b1, _, b2, b3, b4, b5⟩ := eBeat_spec h hl hd
      exact ⟨b1, b2, b3, b4, b5⟩
    · intro t ht; exact (eSent_spec h hl ht).2.2.2
    · intro hd
      obtain ⟨t, t1, t2⟩ := eFor_spec hd
      obtain ⟨k0, a1, _, _, a4⟩ := rstat_spec h hl t1
      rw [t2] at a1; cases a1; exact a4
  · -- a new request
    rw [len_next] at h2
    cases ha : accept s i with
    | none => rw [ha] at h2; exact absurd h2 (by show ¬ k < g.reqs.length + 0; omega)
    | some q =>
      rw [ha] at h2
      have h2 : k < g.reqs.length + 1 := h2
      have hk : k = g.reqs.length := by omega
      subst hk
      have hroom := h.rdy (accept_rdy ha)
      have hle1 := h.le1
      have hle2 := h.le2
      have hle3 := h.le3
      have hv : view (watch P s g i) g.reqs.length = { req := some q, place := g.place g.reqs.length } := by
        have hf := (h.fresh g.reqs.length (Nat.le_refl _)).1
        have he := evs_fresh h hl (Nat.le_refl g.reqs.length)
        unfold evs at he
        unfold view at hf ⊢
        simp only [V.mk.injEq] at hf
        simp only [Ev.mk.injEq] at he
        obtain ⟨f1, f2, f3, f4, f5, f6, f7⟩ := hf
        obtain ⟨g1, g2, g3, g4, g5⟩ := he
        simp only [V.mk.injEq]
        refine ⟨?_, ?_, ?_, ?_, ?_, ?_, ?_⟩
        · show (g.reqs ++ (accept s i).toList)[g.reqs.length]? = _; rw [ha]; simp
        · show (match eDeq g i _ with | some d => some d | none => g.resp _) = _; rw [g1]; exact f2
        · show g.descs _ ++ (eBeat P s g i _).toList = _; rw [g2, f3]; rfl
        · show (if (eBeat P s g i _).isSome && _ then _ else _) = _; rw [g2]; rfl
        · show g.rep _ + _ = _; rw [g5, f5]; rfl
        · show (match eSent g i _ with | some t => some t | none => g.ts _) = _; rw [g3]; exact f6
        · show (g.cst _ || _) = _; rw [g4, f7]; rfl
      rw [hv]
      obtain ⟨r1, r2, r3, r4, r5⟩ := hit_evs h hl (show g.fin ≤ g.reqs.length by omega) hroom
      have he := evs_fresh h hl (Nat.le_refl g.reqs.length)
      unfold evs at he
      simp only [Ev.mk.injEq] at he
      obtain ⟨g1, g2, g3, g4, g5⟩ := he
      have hfit := fit_new (P := P) (s := s) (r := s.row (g.reqs.length % P.n)) (h := hit P s i (g.reqs.length % P.n)) (q := q) ?_ (free_slot h h1 hroom)
        (by rw [r1, g1]) (by rw [r2, g2]) ?_ (by rw [r4, g4]) (h.cntF _)
      · constructor
        · exact hfit.active
        · exact hfit.req
        · exact hfit.inv
        · exact hfit.resp
        · exact hfit.fetched
        · exact hfit.len
        · intro d ds hd; cases hd
        · exact hfit.commit
        · exact hfit.cnt
        · exact hfit.cntF
        · exact hfit.rep
        · exact hfit.few
        · exact hfit.done
        · exact hfit.ts
        · exact hfit.cst
      · show (accept s i).filter _ = _
        rw [ha, h.p1, mask_ptr]; simp [Option.filter]
      · rw [g3] at r3
        cases hx : (hit P s i (g.reqs.length % P.n)).sent with
        | none => rfl
        | some x => rw [hx] at r3; cases r3

theorem idle_next (h : Inv P s g) (k : Nat) (h1 : (watch P s g i).reqs.length ≤ k) (h2 : k < (watch P s g i).fin + P.n) :
    ((next P s i).row (k % P.n)).active = false := by
  have hle1 := h.le1
  have hle2 := h.le2
  have hle3 := h.le3
  have hx := n_pos P
  show (if (hit P s i (k % P.n)).free = true then false else if (hit P s i (k % P.n)).acc.isSome then true else (s.row (k % P.n)).active) = false
  split
  · rfl
  · rename_i hfree
    rw [len_next] at h1
    have hk : k < g.fin + P.n := by
      rw [fin_next] at h2
      split at h2
      · exact h2
      · rename_i hw
        apply Nat.lt_of_not_le
        intro hge
        apply hfree
        show (decide (fiAct P s ≠ .wait) && (P.mask s.fin == k % P.n)) = true
        rw [h.p4, mask_ptr, show k = g.fin + P.n by omega, Nat.add_mod_right]
        simp [hw]
    have : (hit P s i (k % P.n)).acc = none := by
      show (accept s i).filter _ = none
      cases ha : accept s i with
      | none => rfl
      | some q =>
        rw [ha] at h1
        have h1 : g.reqs.length + 1 ≤ k := h1
        have : (P.mask s.start == k % P.n) = false := by
          rw [h.p1, mask_ptr, beq_eq_false_iff_ne]
          intro e
          have := mod_inj_of_window (n := P.n) (a := g.fin) (by omega) (by omega) (by omega) (by omega) e
          omega
        simp [Option.filter, this]
    rw [this]
    exact h.idle k (by omega) hk

theorem took_next (k : Nat) : (watch P s g i).took k = (g.took k || (s.txValid && i.txReady && g.own s.tx.tag == some k)) := rfl

theorem descs_cases (h : Inv P s g) (hl : Legal P g i) (k : Nat) :
    (watch P s g i).descs k = g.descs k ∨ ∃ d, eBeat P s g i k = some d ∧ (watch P s g i).descs k = g.descs k ++ [d] := by
  show g.descs k ++ (eBeat P s g i k).toList = _ ∨ _
  cases he : eBeat P s g i k with
  | none => left; exact List.append_nil _
  | some d => right; exact ⟨d, rfl, by show g.descs k ++ (eBeat P s g i k).toList = _; rw [he]; rfl⟩

theorem txn_next : (watch P s g i).txn = if txAct P s = .wait then g.txn else g.txn + 1 := rfl

theorem cpn_next : (watch P s g i).cpn = if cpAct P s i = .wait then g.cpn else g.cpn + 1 := rfl

theorem beat_eq (h : Inv P s g) (hl : Legal P g i) : beat P s i = if s.descReady then i.desc else none := by
  unfold beat
  cases hr : s.descReady with
  | false => rfl
  | true =>
    cases hd : i.desc with
    | none => rfl
    | some d =>
      obtain ⟨k, a1, a2, a3, _⟩ := desc_spec h hl hd
      have := h.le1
      have := h.le2
      have hact := (h.row k (by omega) a3).active
      show (if (at_ P s d.tid).active = true then some d else none) = some d
      unfold at_
      rw [← (h.own _ _ a1).1, mask_lt, hact]; rfl

theorem room_lt (h : Inv P s g) (hr : (s.start + 2 ^ (P.cl + 1) - s.fin) % 2 ^ (P.cl + 1) < P.n) : g.reqs.length < g.fin + P.n := by
  rw [h.p1, h.p4] at hr
  have := h.le1
  have := h.le2
  have := h.le3
  have h4 := h.le4
  have hn := n_pos P
  rw [two_n] at hr
  obtain ⟨m, hm⟩ : ∃ m, m = 2 * P.n := ⟨_, rfl⟩
  rw [← hm] at hr
  obtain ⟨d, hd⟩ : ∃ d, g.reqs.length = g.fin + d := ⟨g.reqs.length - g.fin, by omega⟩
  rw [hd] at hr ⊢
  have hb := Nat.mod_lt g.fin (show 0 < m by omega)
  have : ((g.fin + d) % m + m - g.fin % m) % m = d := by
    rw [Nat.add_mod, Nat.mod_eq_of_lt (show d < m by omega)]
    rcases Nat.lt_or_ge (g.fin % m + d) m with hc | hc
    · rw [Nat.mod_eq_of_lt hc, show g.fin % m + d + m - g.fin % m = d + m by omega, Nat.add_mod_right, Nat.mod_eq_of_lt (by omega)]
    · rw [Nat.mod_eq_sub_mod hc, Nat.mod_eq_of_lt (show g.fin % m + d - m < m by omega), show g.fin % m + d - m + m - g.fin % m = d by omega,
        Nat.mod_eq_of_lt (by omega)]
  rw [this] at hr
  omega

theorem oldt_next (h : Inv P s g) (hl : Legal P g i) (k : Nat) (hk : k < (watch P s g i).txn) :
    (watch P s g i).bad k = true ∨ ((watch P s g i).good k = true ∧ complete ((watch P s g i).descs k) = true ∧
      (watch P s g i).rep k = reads ((watch P s g i).descs k)) := by
  have key : g.bad k = true ∨ (g.good k = true ∧ complete (g.descs k) = true ∧ g.rep k = reads (g.descs k)) := by
    rw [txn_next] at hk
    obtain ⟨t1, t2⟩ := tx_spec h
    rcases act_cases (txAct P s) with ha | ha | ha
    · rw [ha] at hk; exact h.oldt k hk
    · rw [ha] at hk
      have hk : k < g.txn + 1 := hk
      rcases Nat.lt_or_ge k g.txn with hlt | hge
      · exact h.oldt k hlt
      · rw [show k = g.txn by omega]; exact Or.inl (t1 ha).2
    · rw [ha] at hk
      have hk : k < g.txn + 1 := hk
      rcases Nat.lt_or_ge k g.txn with hlt | hge
      · exact h.oldt k hlt
      · rw [show k = g.txn by omega]
        obtain ⟨_, u1, u2, u3, _⟩ := t2 ha
        exact Or.inr ⟨u1, u2, u3⟩
  rcases key with hb | ⟨h1, h2, h3⟩
  · exact Or.inl (bad_mono hl hb)
  · refine Or.inr ⟨good_mono hl h1, complete_mono h2, ?_⟩
    show g.rep k + (eFor g i.rstat k).toNat = reads (g.descs k ++ (eBeat P s g i k).toList)
    rw [beat_none h hl h2, done_none h hl h3, h3]
    show _ = reads (g.descs k ++ [])
    rw [List.append_nil]; rfl

theorem ts_mono {k : Nat} (hs : (g.ts k).isSome = true) : ((watch P s g i).ts k).isSome = true := by
  show (match eSent g i k with | some t => some t | none => g.ts k).isSome = true
  cases eSent g i k with
  | none => exact hs
  | some t => rfl

theorem step_inv (h : Inv P s g) (hl : Legal P g i) : Inv P (next P s i) (watch P s g i) := by
  have hle1 := h.le1
  have hle2 := h.le2
  have hle3 := h.le3
  have hle4 := h.le4
  have hn := n_pos P
  obtain ⟨tx1, tx2⟩ := tx_spec h
  obtain ⟨cp1, cp2⟩ := cp_spec (i := i) h
  obtain ⟨fi1, fi2⟩ := fi_spec h
  have hS : g.reqs.length ≤ (watch P s g i).reqs.length := by rw [len_next]; omega
  have htx : txAct P s ≠ .wait → g.txn < g.reqs.length := by
    intro hw; rcases act_cases (txAct P s) with ha | ha | ha
    · exact absurd ha hw
    · exact (tx1 ha).1
    · exact (tx2 ha).1
  have hcp : cpAct P s i ≠ .wait → g.cpn < g.txn := by
    intro hw; rcases act_cases (cpAct P s i) with ha | ha | ha
    · exact absurd ha hw
    · exact (cp1 ha).1
    · exact (cp2 ha).1
  have hfi : fiAct P s ≠ .wait → g.fin < g.cpn := by
    intro hw; rcases act_cases (fiAct P s) with ha | ha | ha
    · exact absurd ha hw
    · exact (fi1 ha).1
    · exact (fi2 ha).1
  have hcpn : g.cpn ≤ (watch P s g i).cpn := by rw [cpn_next]; split <;> omega
  have htxn : g.txn ≤ (watch P s g i).txn := by rw [txn_next]; split <;> omega
  constructor
  case le1 =>
    rw [fin_next]
    split
    · omega
    · rename_i hw; have := hfi hw; omega
  case le2 =>
    rw [cpn_next]
    split
    · omega
    · rename_i hw; have := hcp hw; omega
  case le3 =>
    rw [txn_next]
    split
    · omega
    · rename_i hw; have := htx hw; omega
  case le4 =>
    rw [len_next]
    have := fin_mono (P := P) (s := s) (g := g) (i := i)
    cases ha : accept s i with
    | none => show g.reqs.length + 0 ≤ _; omega
    | some q => have := h.rdy (accept_rdy ha); show g.reqs.length + 1 ≤ _; omega
  case p1 =>
    show (if (accept s i).isSome = true then inc P s.start else s.start) = _
    rw [len_next, h.p1]
    cases accept s i with
    | none => rfl
    | some q => exact inc_mod P _
  case p2 =>
    show (if txAct P s = .wait then s.txp else inc P s.txp) = _
    rw [txn_next, h.p2]
    split
    · rfl
    · exact inc_mod P _
  case p3 =>
    show (if cpAct P s i = .wait then s.cpp else inc P s.cpp) = _
    rw [cpn_next, h.p3]
    split
    · rfl
    · exact inc_mod P _
  case p4 =>
    show (if fiAct P s = .wait then s.fin else inc P s.fin) = _
    rw [fin_next, h.p4]
    split
    · rfl
    · exact inc_mod P _
  case row => exact row_next h hl
  case idle => exact idle_next h
  case cntF =>
    intro j
    show (if (hit P s i j).done = true then _ else _) < _
    split
    · exact Nat.mod_lt _ (Nat.two_pow_pos _)
    · exact h.cntF j
  case own =>
    intro t k hk
    have hk : upd? g.own ((accept s i).map fun _ => (P.mask s.start, some g.reqs.length)) t = some k := hk
    rw [len_next]
    cases ha : accept s i with
    | none => rw [ha] at hk; exact h.own t k hk
    | some q =>
      rw [ha] at hk
      have hk : upd g.own (P.mask s.start) (some g.reqs.length) t = some k := hk
      show _ ∧ k < g.reqs.length + 1
      by_cases ht : t = P.mask s.start
      · rw [ht, upd_same] at hk
        cases hk
        rw [ht, h.p1, mask_ptr]; exact ⟨rfl, by omega⟩
      · rw [upd_ne _ _ _ _ ht] at hk
        have := h.own t k hk
        exact ⟨this.1, by omega⟩
  case own' =>
    intro k h1 h2
    rw [len_next] at h2
    have hfm := fin_mono (P := P) (s := s) (g := g) (i := i)
    show upd? g.own ((accept s i).map fun _ => (P.mask s.start, some g.reqs.length)) (k % P.n) = some k
    cases ha : accept s i with
    | none => rw [ha] at h2; exact h.own' k (by omega) h2
    | some q =>
      rw [ha] at h2
      have h2 : k < g.reqs.length + 1 := h2
      have hroom := h.rdy (accept_rdy ha)
      show upd g.own (P.mask s.start) (some g.reqs.length) (k % P.n) = some k
      rw [h.p1, mask_ptr]
      rcases Nat.lt_or_ge k g.reqs.length with hlt | hge
      · rw [upd_ne]
        · exact h.own' k (by omega) hlt
        · intro e
          have := mod_inj_of_window (n := P.n) (a := g.fin) (by omega) (by omega) (by omega) (by omega) e
          omega
      · rw [show k = g.reqs.length by omega, upd_same]
  case fresh =>
    intro k hk
    have hk' : g.reqs.length ≤ k := by omega
    obtain ⟨f0, f8, f9, f10, f11⟩ := h.fresh k hk'
    have he := evs_fresh h hl hk'
    have hown : ∀ t, g.own t ≠ some k := by
      intro t ht; have := (h.own t k ht).2; omega
    unfold evs at he
    unfold view at f0 ⊢
    simp only [V.mk.injEq] at f0
    simp only [Ev.mk.injEq] at he
    obtain ⟨f1, f2, f3, f4, f5, f6, f7⟩ := f0
    obtain ⟨g1, g2, g3, g4, g5⟩ := he
    refine ⟨?_, ?_, ?_, ?_, ?_⟩
    · simp only [V.mk.injEq]
      refine ⟨?_, ?_, ?_, trivial, ?_, ?_, ?_⟩
      · exact List.getElem?_eq_none hk
      · show (match eDeq g i _ with | some d => some d | none => g.resp _) = _; rw [g1]; exact f2
      · show g.descs _ ++ (eBeat P s g i _).toList = _; rw [g2, f3]; rfl
      · show g.rep _ + _ = _; rw [g5, f5]; rfl
      · show (match eSent g i _ with | some t => some t | none => g.ts _) = _; rw [g3]; exact f6
      · show (g.cst _ || _) = _; rw [g4, f7]; rfl
    · show g.ops k ++ ((eBeat P s g i k).map (readOp P s)).toList = []
      rw [g2, f8]; rfl
    · rw [took_next, f9, beq_eq_false_iff_ne.mpr (hown _), Bool.and_false]; rfl
    · show (g.txs k || eFor g i.txStat k) = false
      rw [f10]
      cases hx : eFor g i.txStat k with
      | false => rfl
      | true => obtain ⟨t, _, h2⟩ := eFor_spec hx; exact absurd h2 (hown t)
    · show (g.cqTook k || (s.cqValid && i.cqReady && g.own s.cq.tag == some k)) = false
      rw [f11, beq_eq_false_iff_ne.mpr (hown _), Bool.and_false]; rfl
  case rdy =>
    intro hr
    have hr : readyNext P s i = true := hr
    unfold readyNext at hr
    have hfm := fin_mono (P := P) (s := s) (g := g) (i := i)
    rw [len_next]
    cases ha : accept s i with
    | some q => rw [ha] at hr; cases hr
    | none =>
      rw [ha] at hr
      simp only [Bool.and_eq_true, decide_eq_true_eq] at hr
      have := room_lt h hr.1.2
      show g.reqs.length + 0 < _
      omega
  case oldf =>
    intro k hk
    have key : g.bad k = true ∨ (g.good k = true ∧ g.cst k = true) := by
      rw [fin_next] at hk
      rcases act_cases (fiAct P s) with ha | ha | ha
      · rw [ha] at hk; exact h.oldf k hk
      · rw [ha] at hk
        have hk : k < g.fin + 1 := hk
        rcases Nat.lt_or_ge k g.fin with hlt | hge
        · exact h.oldf k hlt
        · rw [show k = g.fin by omega]; exact Or.inl (fi1 ha).2.1
      · rw [ha] at hk
        have hk : k < g.fin + 1 := hk
        rcases Nat.lt_or_ge k g.fin with hlt | hge
        · exact h.oldf k hlt
        · rw [show k = g.fin by omega]; exact Or.inr ⟨(fi2 ha).2.1, (fi2 ha).2.2.1⟩
    rcases key with hb | ⟨h1, h2⟩
    · exact Or.inl (bad_mono hl hb)
    · exact Or.inr ⟨good_mono hl h1, by show (g.cst k || _) = true; rw [h2]; rfl⟩
  case oldc =>
    intro k hk
    have key : g.bad k = true ∨ (g.good k = true ∧ (g.ts k).isSome = true) := by
      rw [cpn_next] at hk
      rcases act_cases (cpAct P s i) with ha | ha | ha
      · rw [ha] at hk; exact h.oldc k hk
      · rw [ha] at hk
        have hk : k < g.cpn + 1 := hk
        rcases Nat.lt_or_ge k g.cpn with hlt | hge
        · exact h.oldc k hlt
        · rw [show k = g.cpn by omega]; exact Or.inl (cp1 ha).2
      · rw [ha] at hk
        have hk : k < g.cpn + 1 := hk
        rcases Nat.lt_or_ge k g.cpn with hlt | hge
        · exact h.oldc k hlt
        · rw [show k = g.cpn by omega]; exact Or.inr ⟨(cp2 ha).2.1, (cp2 ha).2.2.1⟩
    rcases key with hb | ⟨h1, h2⟩
    · exact Or.inl (bad_mono hl hb)
    · exact Or.inr ⟨good_mono hl h1, ts_mono h2⟩
  case oldt => exact oldt_next h hl
  case gd =>
    intro k hk
    have key : g.good k = true ∧ ∀ j, j < k → g.bad j = true ∨ complete (g.descs j) = true := by
      rcases descs_cases h hl k with e | ⟨d, e, _⟩
      · rw [e] at hk; exact h.gd k hk
      · obtain ⟨_, _, _, _, b1, _, b2, _⟩ := eBeat_spec h hl e
        exact ⟨b1, b2⟩
    refine ⟨good_mono hl key.1, fun j hj => ?_⟩
    rcases key.2 j hj with hb | hb
    · exact Or.inl (bad_mono hl hb)
    · exact Or.inr (complete_mono hb)
  case opsd =>
    intro k
    show (g.ops k ++ ((eBeat P s g i k).map (readOp P s)).toList).map (·.data) = (g.descs k ++ (eBeat P s g i k).toList).map (·.data)
    rw [List.map_append, List.map_append, h.opsd k]
    congr 1
    cases eBeat P s g i k <;> rfl
  case tk =>
    intro k hk
    rw [took_next] at hk
    rcases (Bool.or_eq_true _ _).mp hk with hk | hk
    · have := h.tk k hk
      exact ⟨by omega, good_mono hl this.2⟩
    · simp only [Bool.and_eq_true, beq_iff_eq] at hk
      obtain ⟨k0, a1, a2, a3, a4, a5⟩ := h.ofT hk.1.1
      have : k0 = k := by
        have := h.own' k0 (by omega) (by omega)
        rw [← a5, hk.2] at this; cases this; rfl
      subst this
      exact ⟨by omega, good_mono hl a3⟩
  case tx =>
    intro k hk
    have hk : (g.txs k || eFor g i.txStat k) = true := hk
    have : g.took k = true := by
      rcases (Bool.or_eq_true _ _).mp hk with hk | hk
      · exact h.tx k hk
      · obtain ⟨t, t1, t2⟩ := eFor_spec hk
        obtain ⟨k0, a1, _, _, a4, _⟩ := txStat_spec h hl t1
        rw [t2] at a1; cases a1; exact a4
    rw [took_next, this]; rfl
  case tt =>
    intro k hk
    have : g.txs k = true := by
      have hk : (match eSent g i k with | some t => some t | none => g.ts k).isSome = true := hk
      cases he : eSent g i k with
      | none => rw [he] at hk; exact h.tt k hk
      | some t => exact (eSent_spec h hl he).2.2.1
    show (g.txs k || _) = true
    rw [this]; rfl
  case ck =>
    intro k hk
    have hk : (g.cqTook k || (s.cqValid && i.cqReady && g.own s.cq.tag == some k)) = true := hk
    rcases (Bool.or_eq_true _ _).mp hk with hk | hk
    · have := h.ck k hk
      exact ⟨by omega, good_mono hl this.2⟩
    · simp only [Bool.and_eq_true, beq_iff_eq] at hk
      obtain ⟨k0, a1, a2, a3, a4, a5⟩ := h.ofC hk.1.1
      have : k0 = k := by
        have := h.own' k0 (by omega) (by omega)
        rw [← a5, hk.2] at this; cases this; rfl
      subst this
      exact ⟨by omega, good_mono hl a3⟩
  case cs =>
    intro k hk
    have hk : (g.cst k || eFor g i.cstat k) = true := hk
    have : g.cqTook k = true := by
      rcases (Bool.or_eq_true _ _).mp hk with hk | hk
      · exact h.cs k hk
      · obtain ⟨t, t1, t2⟩ := eFor_spec hk
        obtain ⟨k0, a1, _, _, a4, _⟩ := cstat_spec h hl t1
        rw [t2] at a1; cases a1; exact a4
    show (g.cqTook k || _) = true
    rw [this]; rfl
  case ofT =>
    intro hv
    have hv : (if txAct P s = .go then true else s.txValid && !i.txReady) = true := hv
    by_cases hgo : txAct P s = .go
    · obtain ⟨u1, u2, u3, u4, u5, _⟩ := tx2 hgo
      refine ⟨g.txn, ?_, ?_, good_mono hl u2, ?_, ?_⟩
      · rw [cpn_next]; split
        · omega
        · rename_i hw; have := hcp hw; omega
      · rw [txn_next, hgo]; exact Nat.lt_succ_self _
      · rw [took_next, u5]
        cases ht : g.took g.txn with
        | false => rfl
        | true => have := (h.tk _ ht).1; omega
      · show (if txAct P s = .go then txOut P s else s.tx).tag = _
        rw [if_pos hgo]
        show P.mask s.txp = _
        rw [h.p2, mask_ptr]
    · rw [if_neg hgo, Bool.and_eq_true, Bool.not_eq_true'] at hv
      obtain ⟨k, a1, a2, a3, a4, a5⟩ := h.ofT hv.1
      refine ⟨k, ?_, by omega, good_mono hl a3, ?_, ?_⟩
      · rw [cpn_next]; split
        · exact a1
        · rename_i hw
          have hts : k ≠ g.cpn := by
            intro e
            subst e
            rcases act_cases (cpAct P s i) with ha | ha | ha
            · exact hw ha
            · rw [good_not_bad a3] at cp1; have := (cp1 ha).2; cases this
            · have := h.tx _ (h.tt _ (cp2 ha).2.2.1); rw [a4] at this; cases this
          omega
      · rw [took_next, a4, hv.2, Bool.and_false]; rfl
      · show (if txAct P s = .go then txOut P s else s.tx).tag = _
        rw [if_neg hgo]; exact a5
  case ofC =>
    intro hv
    have hv : (if cpAct P s i = .go then true else s.cqValid && !i.cqReady) = true := hv
    by_cases hgo : cpAct P s i = .go
    · obtain ⟨u1, u2, u3, u4⟩ := cp2 hgo
      refine ⟨g.cpn, ?_, ?_, good_mono hl u2, ?_, ?_⟩
      · rw [fin_next]; split
        · omega
        · rename_i hw; have := hfi hw; omega
      · rw [cpn_next, hgo]; exact Nat.lt_succ_self _
      · show (g.cqTook g.cpn || (s.cqValid && i.cqReady && g.own s.cq.tag == some g.cpn)) = false
        cases ht : g.cqTook g.cpn with
        | true => have := (h.ck _ ht).1; omega
        | false =>
          cases hq : (s.cqValid && i.cqReady && g.own s.cq.tag == some g.cpn) with
          | false => rfl
          | true =>
            simp only [Bool.and_eq_true, beq_iff_eq] at hq
            obtain ⟨k0, b1, b2, b3, b4, b5⟩ := h.ofC hq.1.1
            have := h.own' k0 (by omega) (by omega)
            rw [← b5, hq.2] at this; cases this; omega
      · show (if cpAct P s i = .go then cqOut P s else s.cq).tag = _
        rw [if_pos hgo]
        show P.mask s.cpp = _
        rw [h.p3, mask_ptr]
    · rw [if_neg hgo, Bool.and_eq_true, Bool.not_eq_true'] at hv
      obtain ⟨k, a1, a2, a3, a4, a5⟩ := h.ofC hv.1
      refine ⟨k, ?_, by omega, good_mono hl a3, ?_, ?_⟩
      · rw [fin_next]; split
        · exact a1
        · rename_i hw
          have hts : k ≠ g.fin := by
            intro e
            subst e
            rcases act_cases (fiAct P s) with ha | ha | ha
            · exact hw ha
            · rw [good_not_bad a3] at fi1; have := (fi1 ha).2.1; cases this
            · have := h.cs _ (fi2 ha).2.2.1; rw [a4] at this; cases this
          omega
      · show (g.cqTook k || (s.cqValid && i.cqReady && g.own s.cq.tag == some k)) = false
        rw [a4, hv.2, Bool.and_false]; rfl
      · show (if cpAct P s i = .go then cqOut P s else s.cq).tag = _
        rw [if_neg hgo]; exact a5
  case cur1 =>
    intro hd
    have hd : (match beat P s i with | some d => d.last | none => s.dStart) = true := hd
    show (match beat P s i with | some d => if d.last then 0 else lenNext P s d.data.length | none => s.dLen) = 0 ∧ _
    cases hb : beat P s i with
    | none =>
      rw [hb] at hd
      obtain ⟨c1, c2⟩ := h.cur1 hd
      refine ⟨c1, fun k hk => ?_⟩
      rcases descs_cases h hl k with e | ⟨d, e, _⟩
      · rw [e] at hk ⊢; exact c2 k hk
      · have := (eBeat_spec h hl e).1; rw [hb] at this; cases this
    | some d =>
      rw [hb] at hd
      have hd : d.last = true := hd
      refine ⟨by show (if d.last = true then 0 else _) = 0; rw [hd]; rfl, fun k hk => ?_⟩
      obtain ⟨k0, a1, a2, a3, a4, a5, a6, a7, a8, a9, a10⟩ := desc_spec h hl (beat_desc hb).1
      rcases descs_cases h hl k with e | ⟨d', e, e'⟩
      · rw [e] at hk ⊢
        cases hs : s.dStart with
        | true => exact (h.cur1 hs).2 k hk
        | false =>
          obtain ⟨k1, c1, c2, c3, c4⟩ := h.cur2 hs
          rcases c4 k hk with rfl | hc
          · -- the current packet gets this descriptor
            exfalso
            have hk0 : k0 = k := by
              have hne : g.descs k0 ≠ [] := by
                intro e; rw [hs, e] at a9; cases a9
              rcases c4 k0 hne with e' | e'
              · exact e'
              · rw [a5] at e'; cases e'
            subst hk0
            have : eBeat P s g i k0 = some d := by
              unfold eBeat; rw [hb]; simp [Option.filter, a1]
            have e2 : (watch P s g i).descs k0 = g.descs k0 ++ [d] := by
              show g.descs k0 ++ (eBeat P s g i k0).toList = _; rw [this]; rfl
            rw [e2] at e
            have := congrArg List.length e
            simp at this
          · exact hc
      · have := (eBeat_spec h hl e).1
        rw [hb] at this; cases this
        rw [e', complete_snoc, hd, Bool.or_true]
  case cur2 =>
    intro hd
    have hd : (match beat P s i with | some d => d.last | none => s.dStart) = false := hd
    show ∃ k, _ ∧ _ ∧ (match beat P s i with | some d => if d.last then 0 else lenNext P s d.data.length | none => s.dLen) = _ ∧ _
    cases hb : beat P s i with
    | none =>
      rw [hb] at hd
      obtain ⟨k, c1, c2, c3, c4⟩ := h.cur2 hd
      have hsame : ∀ k, (watch P s g i).descs k = g.descs k := by
        intro k
        rcases descs_cases h hl k with e | ⟨d, e, _⟩
        · exact e
        · have := (eBeat_spec h hl e).1; rw [hb] at this; cases this
      refine ⟨k, by rw [hsame]; exact c1, by rw [hsame]; exact c2, by rw [hsame]; exact c3, fun j => ?_⟩
      rw [hsame]; exact c4 j
    | some d =>
      rw [hb] at hd
      have hd : d.last = false := hd
      obtain ⟨k0, a1, a2, a3, a4, a5, a6, a7, a8, a9, a10⟩ := desc_spec h hl (beat_desc hb).1
      have hk0 : eBeat P s g i k0 = some d := by
        unfold eBeat; rw [hb]; simp [Option.filter, a1]
      have e2 : (watch P s g i).descs k0 = g.descs k0 ++ [d] := by
        show g.descs k0 ++ (eBeat P s g i k0).toList = _; rw [hk0]; rfl
      refine ⟨k0, by rw [e2]; simp, by rw [e2, complete_snoc, a5, hd]; rfl, ?_, fun j hj => ?_⟩
      · show (if d.last = true then 0 else lenNext P s d.data.length) = _
        rw [hd, e2, total_snoc]
        show lenNext P s d.data.length = _
        unfold lenNext
        rw [a10, if_neg (by omega)]
      · rcases descs_cases h hl j with e | ⟨d', e, _⟩
        · rw [e] at hj ⊢
          cases hs : s.dStart with
          | true => exact Or.inr ((h.cur1 hs).2 j hj)
          | false =>
            obtain ⟨k1, c1, c2, c3, c4⟩ := h.cur2 hs
            rcases c4 j hj with rfl | hc
            · left
              have hne : g.descs k0 ≠ [] := by
                intro e; rw [hs, e] at a9; cases a9
              rcases c4 k0 hne with e' | e'
              · exact e'.symm
              · rw [a5] at e'; cases e'
            · exact Or.inr hc
        · have := eBeat_spec h hl e
          left
          have h2 := this.2.1
          have h1 := this.1
          rw [hb] at h1; cases h1
          rw [a1] at h2; cases h2; rfl

/-! ### The packet buffer -/

structure Ring (P : Params) (s : S) (g : G) : Prop where
  wr : g.b.wr = s.wr
  rd : g.b.rd = s.rd
  len : g.b.len = s.dLen
  rdy : g.b.ready = s.descReady
  pkts : g.b.pkts = g.out.map g.pkt
  nodup : g.out.Nodup
  mem : ∀ k, k ∈ g.out ↔ (complete (g.descs k) = true ∧ g.txs k = false)
  cur0 : s.dStart = true → g.b.cur = []
  cur : ∀ k, g.descs k ≠ [] → complete (g.descs k) = false → g.b.cur = g.ops k ∧ g.place k = s.wr
  ring : ∃ w r, BufRing.Tx.Inv P.buf g.b w r
  wrt : ∀ k, g.txs k = false → g.rep k ≤ (g.ops k).countP (fun o => decide (o.data.length ≠ 0) && g.written o)

theorem ring_init (P : Params) : Ring P {} {} where
  wr := rfl
  rd := rfl
  len := rfl
  rdy := rfl
  pkts := rfl
  nodup := List.nodup_nil
  mem := fun k => by constructor
                     · intro h; cases h
                     · rintro ⟨h, _⟩; cases h
  cur0 := fun _ => rfl
  cur := fun k h => absurd rfl h
  ring := ⟨0, 0, BufRing.Tx.inv_start _⟩
  wrt := fun _ _ => Nat.le_refl _

theorem ring_take (h : Inv P s g) (hr : Ring P s g) (hl : Legal P g i) :
    BufRing.Tx.take g.b (ringIn i i.desc) = (beat P s i).map fun d => (d.data, d.last) := by
  unfold BufRing.Tx.take
  rw [beat_eq h hl, hr.rdy]
  cases s.descReady <;> rfl

theorem ring_legal (h : Inv P s g) (hr : Ring P s g) (hl : Legal P g i) : BufRing.Tx.Legal P.buf g.b (ringIn i i.desc) where
  beat := by
    intro d l hd
    have hd : (i.desc.map fun d => (d.data, d.last)) = some (d, l) := hd
    cases he : i.desc with
    | none => rw [he] at hd; cases hd
    | some x =>
      rw [he] at hd
      cases hd
      obtain ⟨k, _, _, _, _, _, _, a7, _, _, a10⟩ := desc_spec h hl he
      rw [hr.len, a10]; exact a7
  gap := by intro he; show i.desc.map _ = none; rw [hl.gap he]; rfl
  done := by
    intro hd
    have hd : i.txStat.isSome = true := hd
    obtain ⟨t, ht⟩ := Option.isSome_iff_exists.mp hd
    obtain ⟨k, _, _, _, h4⟩ := hl.txStat t ht
    rw [hr.pkts]
    intro e
    rw [List.map_eq_nil_iff.mp e] at h4; cases h4
  pokes := hl.pokes

theorem mark_mono (ws : List (Nat × Nat)) (a : Nat) : ∀ f : Nat → Bool, f a = true → BufRing.mark f ws a = true := by
  induction ws with
  | nil => intro f h; exact h
  | cons w ws ih =>
    intro f h
    show BufRing.mark (fun x => if x = w.1 then true else f x) ws a = true
    apply ih
    show (if a = w.1 then true else f a) = true
    rw [h]; split <;> rfl

theorem ops_nil (h : Inv P s g) {k : Nat} (hd : g.descs k = []) : g.ops k = [] := by
  have := h.opsd k
  rw [hd] at this
  exact List.map_eq_nil_iff.mp this

theorem descs_same (h : Inv P s g) (hl : Legal P g i) {k : Nat} (he : eBeat P s g i k = none) :
    (watch P s g i).descs k = g.descs k ∧ (watch P s g i).ops k = g.ops k ∧ (watch P s g i).place k = g.place k := by
  refine ⟨?_, ?_, ?_⟩
  · show g.descs k ++ (eBeat P s g i k).toList = _; rw [he]; exact List.append_nil _
  · show g.ops k ++ ((eBeat P s g i k).map _).toList = _; rw [he]; exact List.append_nil _
  · show (if (eBeat P s g i k).isSome && _ then _ else _) = _; rw [he]; rfl

/-- the owner of the descriptor of this cycle -/
theorem beat_owner (h : Inv P s g) (hl : Legal P g i) {d : Desc} (hb : beat P s i = some d) :
    ∃ k0, g.own d.tid = some k0 ∧ eBeat P s g i k0 = some d ∧ ∀ k, k ≠ k0 → eBeat P s g i k = none := by
  obtain ⟨k0, a1, _⟩ := desc_spec h hl (beat_desc hb).1
  refine ⟨k0, a1, by unfold eBeat; rw [hb]; simp [Option.filter, a1], fun k hk => ?_⟩
  unfold eBeat; rw [hb]
  simp only [Option.filter, a1]
  rw [if_neg]
  intro e
  have := beq_iff_eq.mp e
  cases this; exact hk rfl

theorem beat_nobody (hb : beat P s i = none) (k : Nat) : eBeat P s g i k = none := by unfold eBeat; rw [hb]; rfl

theorem txs_next (k : Nat) : (watch P s g i).txs k = (g.txs k || eFor g i.txStat k) := rfl

theorem txs_head (h : Inv P s g) (hl : Legal P g i) {t : Nat} (ht : i.txStat = some t) {k0 : Nat} (h0 : g.out.head? = some k0) (k : Nat) :
    eFor g i.txStat k = decide (k = k0) := by
  obtain ⟨k1, a1, _, _, a4⟩ := hl.txStat t ht
  rw [h0] at a4; cases a4
  unfold eFor; rw [ht]
  show (g.own t == some k) = _
  rw [a1]
  by_cases e : k = k0
  · subst e; simp
  · rw [decide_eq_false e]; simp; exact fun x => e x.symm

/-- the packets that stay in the buffer -/
def rest (g : G) (i : In) : List Nat := if i.txStat.isSome then g.out.tail else g.out

theorem rest_mem (h : Inv P s g) (hr : Ring P s g) (hl : Legal P g i) (k : Nat) :
    k ∈ rest g i ↔ (complete (g.descs k) = true ∧ (watch P s g i).txs k = false) := by
  unfold rest
  rw [txs_next]
  cases ht : i.txStat with
  | none =>
    show k ∈ g.out ↔ _
    have : eFor g none k = false := rfl
    rw [this, Bool.or_false]; exact hr.mem k
  | some t =>
    show k ∈ g.out.tail ↔ _
    obtain ⟨k0, a1, a2, a3, a4⟩ := hl.txStat t ht
    rw [← ht, txs_head h hl ht a4]
    have hm := hr.mem k
    have hnd := hr.nodup
    cases ho : g.out with
    | nil => rw [ho] at a4; cases a4
    | cons x xs =>
      rw [ho] at a4 hm hnd
      cases a4
      show k ∈ xs ↔ _
      rw [List.nodup_cons] at hnd
      constructor
      · intro hk
        have := hm.mp (List.mem_cons_of_mem _ hk)
        refine ⟨this.1, ?_⟩
        rw [this.2, decide_eq_false]; rfl
        intro e; subst e; exact hnd.1 hk
      · rintro ⟨h1, h2⟩
        rw [Bool.or_eq_false_iff] at h2
        have := hm.mpr ⟨h1, h2.1⟩
        rcases List.mem_cons.mp this with e | e
        · subst e; simp at h2
        · exact e

theorem out_next : (watch P s g i).out = rest g i ++
    (match beat P s i with | some d => if d.last then (g.own d.tid).toList else [] | none => []) := rfl

theorem rest_pkts (hr : Ring P s g) : (if (ringIn i i.desc).done then g.b.pkts.tail else g.b.pkts) = (rest g i).map g.pkt := by
  show (if i.txStat.isSome = true then g.b.pkts.tail else g.b.pkts) = _
  unfold rest
  rw [hr.pkts]
  split
  · rw [List.map_tail]
  · rfl

/-- the packet being read when a descriptor arrives -/
theorem cur_ops (h : Inv P s g) (hr : Ring P s g) (hl : Legal P g i) {k : Nat} {d : Desc} (he : eBeat P s g i k = some d) :
    g.b.cur = g.ops k ∧ (watch P s g i).place k = s.wr := by
  obtain ⟨b1, b2, b3, b4, b5, b6, b7, b8, b9, b10, b11⟩ := eBeat_spec h hl he
  show _ ∧ (if (eBeat P s g i k).isSome && (g.descs k).isEmpty then s.wr else g.place k) = _
  rw [he]
  cases hd : g.descs k with
  | nil =>
    rw [hd] at b10
    rw [hr.cur0 b10, ops_nil h hd]
    exact ⟨rfl, rfl⟩
  | cons x xs => exact hr.cur k (by rw [hd]; exact List.cons_ne_nil _ _) b6

/-- the reads in the buffer after a descriptor -/
theorem flat_next (h : Inv P s g) (hr : Ring P s g) (hl : Legal P g i) :
    (watch P s g i).b.flat = (((rest g i).map g.pkt).flatMap (·.ops) ++ g.b.cur) ++ ((beat P s i).map (readOp P s)).toList := by
  show (BufRing.Tx.step P.buf g.b (ringIn i i.desc)).pkts.flatMap (·.ops) ++ (BufRing.Tx.step P.buf g.b (ringIn i i.desc)).cur = _
  unfold BufRing.Tx.step
  simp only [rest_pkts hr, ring_take h hr hl]
  cases hb : beat P s i with
  | none => simp
  | some d =>
    have : BufRing.Tx.op P.buf g.b d.data = readOp P s d := by
      unfold BufRing.Tx.op readOp; rw [hr.wr, hr.len]
    cases hd : d.last with
    | true => simp [hd, this]
    | false => simp [hd, this]

/-- what was in the buffer stays there -/
theorem written_next (hg : BufRing.Good P.buf) (h : Inv P s g) (hr : Ring P s g) (hl : Legal P g i) {k : Nat} (hk : (watch P s g i).txs k = false)
    {o : BufRing.Op} (ho : o ∈ g.ops k) (hw : g.written o = true) : (watch P s g i).written o = true := by
  obtain ⟨w, r, hring⟩ := hr.ring
  obtain ⟨w', r', hring'⟩ := BufRing.Tx.step_inv hg hring (ring_legal h hr hl)
  have hap := BufRing.Tx.flat_apart hg hring'
  have hap : (watch P s g i).b.flat.Pairwise BufRing.Apart := hap
  rw [flat_next h hr hl] at hap
  have hmem : o ∈ ((rest g i).map g.pkt).flatMap (·.ops) ++ g.b.cur := by
    have hne : g.descs k ≠ [] := by intro e; rw [ops_nil h e] at ho; cases ho
    cases hc : complete (g.descs k) with
    | true =>
      apply List.mem_append_left
      exact List.mem_flatMap.mpr ⟨g.pkt k, List.mem_map.mpr ⟨k, (rest_mem h hr hl k).mpr ⟨hc, hk⟩, rfl⟩, ho⟩
    | false =>
      apply List.mem_append_right
      rw [(hr.cur k hne hc).1]; exact ho
  unfold G.written at hw ⊢
  rw [List.all_eq_true] at hw ⊢
  intro j hj
  have hw := hw j hj
  have hj := List.mem_range.mp hj
  show (match BufRing.Tx.take g.b (ringIn i i.desc) with
    | some (d, _) => fun a => if P.buf.off g.b.wr + g.b.len ≤ a ∧ a < P.buf.off g.b.wr + g.b.len + d.length then false
        else BufRing.mark g.b.full i.pokes a
    | none => BufRing.mark g.b.full i.pokes) (o.addr + j) = true
  rw [ring_take h hr hl]
  cases hb : beat P s i with
  | none => exact mark_mono _ _ _ hw
  | some d =>
    show (if P.buf.off g.b.wr + g.b.len ≤ o.addr + j ∧ o.addr + j < P.buf.off g.b.wr + g.b.len + d.data.length then false
        else BufRing.mark g.b.full i.pokes (o.addr + j)) = true
    rw [hb] at hap
    have := (List.pairwise_append.mp hap).2.2 o hmem (readOp P s d) (List.mem_singleton.mpr rfl) (o.addr + j)
    unfold readOp at this
    rw [← hr.wr, ← hr.len] at this
    rw [if_neg]
    · exact mark_mono _ _ _ hw
    · intro ⟨c1, c2⟩
      exact this ⟨by omega, by omega, c1, c2⟩

theorem ring_next (hg : BufRing.Good P.buf) (h : Inv P s g) (hr : Ring P s g) (hl : Legal P g i) : Ring P (next P s i) (watch P s g i) := by
  obtain ⟨w, r, hring⟩ := hr.ring
  have htake := ring_take h hr hl
  have hlen : ∀ n, BufRing.Tx.lenNext P.buf g.b n = lenNext P s n := by
    intro n; unfold BufRing.Tx.lenNext lenNext; rw [hr.len]
  have hop : ∀ d : Desc, BufRing.Tx.op P.buf g.b d.data = readOp P s d := by
    intro d; unfold BufRing.Tx.op readOp; rw [hr.wr, hr.len]
  have hown : ∀ {d : Desc}, beat P s i = some d → ∀ k, k ≠ (g.own d.tid).getD 0 → eBeat P s g i k = none := by
    intro d hb k hk
    obtain ⟨k0, a1, a2, a3⟩ := beat_owner h hl hb
    rw [a1] at hk; exact a3 k hk
  have hrest : ∀ k, k ∈ rest g i → eBeat P s g i k = none := by
    intro k hk
    have hc := ((rest_mem h hr hl k).mp hk).1
    exact beat_none h hl hc
  have hpk : ((rest g i).map (watch P s g i).pkt) = (rest g i).map g.pkt := by
    apply List.map_congr_left
    intro k hk
    obtain ⟨e1, e2, e3⟩ := descs_same h hl (hrest k hk)
    unfold G.pkt; rw [e1, e2, e3]
  constructor
  case wr =>
    show (match BufRing.Tx.take g.b (ringIn i i.desc) with
      | some (d, true) => BufRing.nextPtr P.buf g.b.wr (BufRing.Tx.lenNext P.buf g.b d.length) | _ => g.b.wr) =
      (match beat P s i with | some d => if d.last then BufRing.nextPtr P.buf s.wr (lenNext P s d.data.length) else s.wr | none => s.wr)
    rw [htake]
    cases beat P s i with
    | none => exact hr.wr
    | some d =>
      show (match (some (d.data, d.last) : Option (List Nat × Bool)) with
        | some (d, true) => BufRing.nextPtr P.buf g.b.wr (BufRing.Tx.lenNext P.buf g.b d.length) | _ => g.b.wr) =
        if d.last = true then BufRing.nextPtr P.buf s.wr (lenNext P s d.data.length) else s.wr
      cases d.last with
      | false => exact hr.wr
      | true => show BufRing.nextPtr P.buf g.b.wr _ = BufRing.nextPtr P.buf s.wr _; rw [hr.wr, hlen]
  case rd =>
    show (match i.txStat.isSome, g.b.pkts with | true, p :: _ => BufRing.nextPtr P.buf p.ptr p.len | _, _ => g.b.rd) =
      (match i.txStat with | some t => BufRing.nextPtr P.buf (at_ P s t).bufPtr (at_ P s t).len | none => s.rd)
    cases ht : i.txStat with
    | none => exact hr.rd
    | some t =>
      obtain ⟨k, a1, a2, a3, a4, a5, a6⟩ := txStat_spec h hl ht
      have hle := h.le1
      have hle3 := h.le3
      have fit := h.row k (by omega) (by omega)
      have hat : at_ P s t = s.row (k % P.n) := by
        unfold at_; rw [← (h.own _ _ a1).1, mask_lt]
      have hg := (h.tk k a4).2
      have hc : complete (g.descs k) = true := by
        rcases h.oldt k a3 with hb | hb
        · rw [good_not_bad hg] at hb; cases hb
        · exact hb.2.1
      rw [hr.pkts]
      cases ho : g.out with
      | nil => rw [ho] at a6; cases a6
      | cons x xs =>
        rw [ho] at a6; cases a6
        show BufRing.nextPtr P.buf (g.place k) (total (g.descs k)) = BufRing.nextPtr P.buf (at_ P s t).bufPtr (at_ P s t).len
        rw [hat]
        have hlen := fit.len hc
        cases hd : g.descs k with
        | nil => rw [hd] at hc; cases hc
        | cons d ds =>
          have := (fit.ctrl d ds hd).1
          rw [hlen, this, ← hd]; rfl
  case len =>
    show (match BufRing.Tx.take g.b (ringIn i i.desc) with
      | some (_, true) => 0 | some (d, false) => BufRing.Tx.lenNext P.buf g.b d.length | none => g.b.len) =
      (match beat P s i with | some d => if d.last then 0 else lenNext P s d.data.length | none => s.dLen)
    rw [htake]
    cases beat P s i with
    | none => exact hr.len
    | some d =>
      show (match (some (d.data, d.last) : Option (List Nat × Bool)) with
        | some (_, true) => 0 | some (d, false) => BufRing.Tx.lenNext P.buf g.b d.length | none => g.b.len) =
        if d.last = true then 0 else lenNext P s d.data.length
      cases d.last with
      | false => exact hlen _
      | true => rfl
  case rdy =>
    show (i.early && BufRing.room P.buf g.b.wr g.b.rd) = (i.early && BufRing.room P.buf s.wr s.rd)
    rw [hr.wr, hr.rd]
  case pkts =>
    rw [out_next, List.map_append, hpk]
    show (if (ringIn i i.desc).done then g.b.pkts.tail else g.b.pkts) ++ (match BufRing.Tx.take g.b (ringIn i i.desc) with
      | some (d, true) => [⟨g.b.wr, BufRing.Tx.lenNext P.buf g.b d.length, g.b.cur ++ [BufRing.Tx.op P.buf g.b d]⟩] | _ => []) = _
    rw [rest_pkts hr, htake]
    congr 1
    cases hb : beat P s i with
    | none => rfl
    | some d =>
      show (match (some (d.data, d.last) : Option (List Nat × Bool)) with
        | some (d, true) => [(⟨g.b.wr, BufRing.Tx.lenNext P.buf g.b d.length, g.b.cur ++ [BufRing.Tx.op P.buf g.b d]⟩ : BufRing.Pkt)] | _ => []) =
        (if d.last = true then (g.own d.tid).toList else []).map _
      cases hd : d.last with
      | false => rfl
      | true =>
        obtain ⟨k0, a1, a2, a3⟩ := beat_owner h hl hb
        obtain ⟨c1, c2⟩ := cur_ops h hr hl a2
        obtain ⟨b1, b2, b3, b4, b5, b6, b7, b8, b9, b10, b11⟩ := eBeat_spec h hl a2
        rw [a1]
        show [(⟨g.b.wr, BufRing.Tx.lenNext P.buf g.b d.data.length, g.b.cur ++ [BufRing.Tx.op P.buf g.b d.data]⟩ : BufRing.Pkt)] = [(watch P s g i).pkt k0]
        have e1 : (watch P s g i).descs k0 = g.descs k0 ++ [d] := by
          show g.descs k0 ++ (eBeat P s g i k0).toList = _; rw [a2]; rfl
        have e2 : (watch P s g i).ops k0 = g.ops k0 ++ [readOp P s d] := by
          show g.ops k0 ++ ((eBeat P s g i k0).map _).toList = _; rw [a2]; rfl
        unfold G.pkt
        rw [c2, e2, ← c1, hop, hlen, hr.wr]
        have e3 : (((watch P s g i).descs k0).map (·.data.length)).sum = lenNext P s d.data.length := by
          rw [e1]
          have := total_snoc (g.descs k0) d
          unfold total at this
          rw [this]
          unfold lenNext
          rw [b11, if_neg (by omega)]; rfl
        rw [e3]
  case nodup =>
    rw [out_next]
    have hrn : (rest g i).Nodup := by
      unfold rest
      split
      · exact List.Nodup.sublist (List.tail_sublist _) hr.nodup
      · exact hr.nodup
    cases hb : beat P s i with
    | none => rw [List.append_nil]; exact hrn
    | some d =>
      show (rest g i ++ if d.last = true then (g.own d.tid).toList else []).Nodup
      split
      · obtain ⟨k0, a1, a2, a3⟩ := beat_owner h hl hb
        rw [a1]
        refine List.nodup_append.mpr ⟨hrn, List.nodup_cons.mpr ⟨List.not_mem_nil, List.nodup_nil⟩, ?_⟩
        intro a ha b hb'
        have : b = k0 := List.mem_singleton.mp hb'
        subst this
        intro e
        subst e
        rw [hrest _ ha] at a2; cases a2
      · rw [List.append_nil]; exact hrn
  case mem =>
    intro k
    rw [out_next, List.mem_append, rest_mem h hr hl]
    cases hb : beat P s i with
    | none =>
      rw [(descs_same h hl (beat_nobody hb k)).1]
      simp
    | some d =>
      obtain ⟨k0, a1, a2, a3⟩ := beat_owner h hl hb
      obtain ⟨b1, b2, b3, b4, b5, b6, b7, b8, b9, b10, b11⟩ := eBeat_spec h hl a2
      by_cases hk : k = k0
      · subst hk
        have e1 : (watch P s g i).descs k = g.descs k ++ [d] := by
          show g.descs k ++ (eBeat P s g i k).toList = _; rw [a2]; rfl
        rw [e1, complete_snoc, b6]
        show (false = true ∧ _) ∨ k ∈ (if d.last = true then (g.own d.tid).toList else []) ↔ _
        rw [a1]
        have htx : (watch P s g i).txs k = false := by
          rw [txs_next]
          have : g.txs k = false := by
            cases hx : g.txs k with
            | false => rfl
            | true => have := (h.tk k (h.tx k hx)).1; omega
          rw [this]
          cases hx : eFor g i.txStat k with
          | false => rfl
          | true =>
            obtain ⟨t, t1, t2⟩ := eFor_spec hx
            obtain ⟨k1, u1, u2, u3, _⟩ := txStat_spec h hl t1
            rw [t2] at u1; cases u1; omega
        show (false = true ∧ _) ∨ k ∈ (if d.last = true then [k] else []) ↔ _
        rw [htx]
        cases d.last <;> simp
      · rw [(descs_same h hl (a3 k hk)).1]
        show _ ∨ k ∈ (if d.last = true then (g.own d.tid).toList else []) ↔ _
        rw [a1]
        show _ ∨ k ∈ (if d.last = true then [k0] else []) ↔ _
        constructor
        · rintro (hx | hx)
          · exact hx
          · exfalso
            split at hx
            · exact hk (List.mem_singleton.mp hx)
            · cases hx
        · exact Or.inl
  case cur0 =>
    intro hd
    have hd : (match beat P s i with | some d => d.last | none => s.dStart) = true := hd
    show (match BufRing.Tx.take g.b (ringIn i i.desc) with
      | some (_, true) => [] | some (d, false) => g.b.cur ++ [BufRing.Tx.op P.buf g.b d] | none => g.b.cur) = []
    rw [htake]
    cases hb : beat P s i with
    | none => rw [hb] at hd; exact hr.cur0 hd
    | some d =>
      rw [hb] at hd
      have hd : d.last = true := hd
      show (match (some (d.data, d.last) : Option (List Nat × Bool)) with
        | some (_, true) => [] | some (d, false) => g.b.cur ++ [BufRing.Tx.op P.buf g.b d] | none => g.b.cur) = []
      rw [hd]
  case cur =>
    intro k hn hc
    show (match BufRing.Tx.take g.b (ringIn i i.desc) with
      | some (_, true) => [] | some (d, false) => g.b.cur ++ [BufRing.Tx.op P.buf g.b d] | none => g.b.cur) = _ ∧
      _ = (match beat P s i with | some d => if d.last then BufRing.nextPtr P.buf s.wr (lenNext P s d.data.length) else s.wr | none => s.wr)
    rw [htake]
    cases hb : beat P s i with
    | none =>
      obtain ⟨e1, e2, e3⟩ := descs_same h hl (beat_nobody (g := g) hb k)
      rw [e1] at hn hc
      rw [e2, e3]; exact hr.cur k hn hc
    | some d =>
      obtain ⟨k0, a1, a2, a3⟩ := beat_owner h hl hb
      obtain ⟨b1, b2, b3, b4, b5, b6, b7, b8, b9, b10, b11⟩ := eBeat_spec h hl a2
      have e1 : (watch P s g i).descs k0 = g.descs k0 ++ [d] := by
        show g.descs k0 ++ (eBeat P s g i k0).toList = _; rw [a2]; rfl
      have hk : k = k0 := by
        apply Classical.byContradiction
        intro hk
        rw [(descs_same h hl (a3 k hk)).1] at hn hc
        cases hs : s.dStart with
        | true => have := (h.cur1 hs).2 k hn; rw [hc] at this; cases this
        | false =>
          rw [hs] at b10
          have hne : g.descs k0 ≠ [] := by intro e; rw [e] at b10; cases b10
          obtain ⟨k1, c1, c2, c3, c4⟩ := h.cur2 hs
          rcases c4 k hn with e | e
          · rcases c4 k0 hne with e' | e'
            · exact hk (e.trans e'.symm)
            · rw [b6] at e'; cases e'
          · rw [hc] at e; cases e
      subst hk
      rw [e1, complete_snoc, b6, Bool.false_or] at hc
      obtain ⟨c1, c2⟩ := cur_ops h hr hl a2
      show (match (some (d.data, d.last) : Option (List Nat × Bool)) with
        | some (_, true) => [] | some (d, false) => g.b.cur ++ [BufRing.Tx.op P.buf g.b d] | none => g.b.cur) = _ ∧
        _ = if d.last = true then _ else s.wr
      rw [hc, c2]
      refine ⟨?_, rfl⟩
      show g.b.cur ++ [BufRing.Tx.op P.buf g.b d.data] = g.ops k ++ ((eBeat P s g i k).map _).toList
      rw [a2, c1, hop]; rfl
  case ring => exact BufRing.Tx.step_inv hg hring (ring_legal h hr hl)
  case wrt =>
    intro k hk
    have hk0 : g.txs k = false := by
      have hk := hk
      rw [txs_next, Bool.or_eq_false_iff] at hk; exact hk.1
    have hmono : (g.ops k).countP (fun o => decide (o.data.length ≠ 0) && g.written o) ≤
        ((watch P s g i).ops k).countP (fun o => decide (o.data.length ≠ 0) && (watch P s g i).written o) := by
      show _ ≤ (g.ops k ++ _).countP _
      rw [List.countP_append]
      refine Nat.le_trans ?_ (Nat.le_add_right _ _)
      apply List.countP_mono_left
      intro o ho hx
      rw [Bool.and_eq_true] at hx ⊢
      exact ⟨hx.1, written_next hg h hr hl hk ho hx.2⟩
    have hwrt := hr.wrt k hk0
    show g.rep k + (eFor g i.rstat k).toNat ≤ _
    cases he : eFor g i.rstat k with
    | false => show g.rep k + 0 ≤ _; omega
    | true =>
      obtain ⟨t, t1, t2⟩ := eFor_spec he
      obtain ⟨k1, u1, u2, u3⟩ := hl.rstat t t1
      rw [t2] at u1; cases u1
      show g.rep k + 1 ≤ _; omega

end

end Corundum.TxEngine
