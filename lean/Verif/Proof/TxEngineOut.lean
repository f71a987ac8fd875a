import Verif.Proof.TxEngine

/-! The outputs of the transmit engine. -/
namespace Corundum.TxEngine
open Corundum.CplWrite Corundum.Driver

theorem shown_next {α : Type} {l exp : List α} {v rdy go : Bool} {x y : α} (h : l ++ shown v x = exp) (hgo : go = true → (v && !rdy) = false) :
    (if (v && rdy) = true then l ++ [x] else l) ++ shown (if go then true else v && !rdy) (if go then y else x) = exp ++ shown go y := by
  subst h
  unfold shown
  cases v <;> cases rdy <;> cases go <;> simp at hgo ⊢

theorem countP_add3 (f a b : Nat → Bool) (f' : Nat → Bool) (l : List Nat) (h : ∀ k ∈ l, (f' k).toNat + (a k).toNat + (b k).toNat = (f k).toNat) :
    l.countP f' + l.countP a + l.countP b = l.countP f := by
  induction l with
  | nil => rfl
  | cons k ks ih =>
    have h1 := h k List.mem_cons_self
    have h2 := ih fun j hj => h j (List.mem_cons_of_mem _ hj)
    simp only [List.countP_cons]
    have e : ∀ b : Bool, (if b = true then 1 else 0) = b.toNat := by intro b; cases b <;> rfl
    rw [e, e, e, e]
    omega

theorem countP_none (e : Nat → Bool) (n : Nat) (h : ∀ k, k < n → e k = false) : (List.range n).countP e = 0 := by
  rw [List.countP_eq_zero]
  intro k hk
  rw [h k (List.mem_range.mp hk)]; decide

theorem countP_one (e : Nat → Bool) (n k0 : Nat) (h0 : k0 < n) (h : ∀ k, k < n → e k = decide (k = k0)) : (List.range n).countP e = 1 := by
  have : ∀ m, m ≤ n → (List.range m).countP e = if k0 < m then 1 else 0 := by
    intro m
    induction m with
    | zero => intro _; rfl
    | succ m ih =>
      intro hm
      rw [List.range_succ, List.countP_append, ih (by omega), List.countP_singleton, h m (by omega)]
      by_cases e1 : m = k0
      · subst e1; simp
      · simp only [decide_eq_false e1]
        by_cases e2 : k0 < m
        · rw [if_pos e2, if_pos (show k0 < m + 1 by omega)]; rfl
        · rw [if_neg e2, if_neg (show ¬ k0 < m + 1 by omega)]; rfl
  rw [this n (Nat.le_refl _), if_pos h0]

structure Log (P : Params) (s : S) (g : G) : Prop where
  rq : s.reqReady = true → s.drValid = false ∧ s.count < P.maxReq
  fet : g.fetches ++ shown s.drValid (s.drQueue, s.drTag) = g.fetchOf P
  snt : g.sent ++ shown s.txValid s.tx = (List.range g.txn).filterMap (g.txOf P)
  csm : g.csums ++ shown s.csValid s.cs = if P.csum then (List.range g.txn).filterMap g.csOf else []
  cps : g.cpls ++ shown s.cqValid s.cq = (List.range g.cpn).filterMap (g.cplOf P)
  sts : g.pulses ++ shown s.stValid (s.stLen, s.stTag) = g.stat.map g.report
  fv : s.fValid = g.pend.isSome
  pd : ∀ k, g.pend = some k → k < g.fin ∧ g.good k = true ∧ s.fLen = total (g.descs k) ∧ s.fTag = (g.reqs[k]?.map (·.tag)).getD 0
  snd : g.stat.Nodup
  smem : ∀ k, k ∈ g.stat ↔ (g.bad k = true ∨ (g.good k = true ∧ k < g.fin ∧ g.pend ≠ some k))
  cnt : s.count = g.waiting
  few : s.count ≤ P.maxReq

theorem log_init (P : Params) : Log P {} {} where
  rq := nofun
  fet := rfl
  snt := rfl
  csm := by split <;> rfl
  cps := rfl
  sts := rfl
  fv := rfl
  pd := nofun
  snd := List.nodup_nil
  smem := by
    intro k
    constructor
    · intro h; cases h
    · rintro (h | ⟨h, _⟩) <;> cases h
  cnt := rfl
  few := Nat.zero_le _

section
variable {P : Params} {s : S} {g : G} {i : In}

theorem reqs_old {k : Nat} (hk : k < g.reqs.length) : (watch P s g i).reqs[k]? = g.reqs[k]? := by
  show (g.reqs ++ _)[k]? = _
  rw [List.getElem?_append_left hk]

theorem resp_old (h : Inv P s g) (hl : Legal P g i) {k : Nat} {r : DStat} (hk : g.resp k = some r) : (watch P s g i).resp k = some r := by
  show (match eDeq g i k with | some d => some d | none => g.resp k) = _
  cases he : eDeq g i k with
  | none => exact hk
  | some d => have := (eDeq_spec h hl he).2.2.2.2; rw [hk] at this; cases this

theorem good_some {k : Nat} (hk : g.good k = true) : ∃ r, g.resp k = some r ∧ r.ok = true := by
  unfold G.good at hk
  cases hr : g.resp k with
  | none => rw [hr] at hk; cases hk
  | some r => rw [hr] at hk; exact ⟨r, rfl, hk⟩

theorem bad_some {k : Nat} (hk : g.bad k = true) : ∃ r, g.resp k = some r ∧ r.ok = false := by
  unfold G.bad at hk
  cases hr : g.resp k with
  | none => rw [hr] at hk; cases hk
  | some r => rw [hr] at hk; exact ⟨r, rfl, by simpa using hk⟩

theorem resp_lt (h : Inv P s g) {k : Nat} {r : DStat} (hk : g.resp k = some r) : k < g.reqs.length := by
  apply Nat.lt_of_not_le
  intro hge
  have := (h.fresh k hge).1
  unfold view at this
  simp only [V.mk.injEq] at this
  rw [hk] at this; cases this.2.1

theorem good_old (h : Inv P s g) (hl : Legal P g i) {k : Nat} {r : DStat} (hk : g.resp k = some r) : (watch P s g i).good k = g.good k := by
  unfold G.good; rw [resp_old h hl hk, hk]

theorem bad_old (h : Inv P s g) (hl : Legal P g i) {k : Nat} {r : DStat} (hk : g.resp k = some r) : (watch P s g i).bad k = g.bad k := by
  unfold G.bad; rw [resp_old h hl hk, hk]

/-- a request past the transmit stage does not change -/
theorem frozen (h : Inv P s g) (hl : Legal P g i) {k : Nat} (hk : k < g.txn) :
    (watch P s g i).reqs[k]? = g.reqs[k]? ∧ (watch P s g i).resp k = g.resp k ∧ (watch P s g i).descs k = g.descs k ∧ (watch P s g i).place k = g.place k := by
  have hle := h.le3
  have hr : ∃ r, g.resp k = some r := by
    rcases h.oldt k hk with hb | hb
    · obtain ⟨r, hr, _⟩ := bad_some hb; exact ⟨r, hr⟩
    · obtain ⟨r, hr, _⟩ := good_some hb.1; exact ⟨r, hr⟩
  obtain ⟨r, hr⟩ := hr
  have he : eBeat P s g i k = none := by
    cases he : eBeat P s g i k with
    | none => rfl
    | some d => have := (eBeat_spec h hl he).2.2.1; omega
  obtain ⟨e1, _, e3⟩ := descs_same h hl he
  exact ⟨reqs_old (by omega), by rw [resp_old h hl hr, hr], e1, e3⟩

theorem ts_old (h : Inv P s g) (hl : Legal P g i) {k : Nat} (hk : k < g.cpn) : (watch P s g i).ts k = g.ts k := by
  show (match eSent g i k with | some d => some d | none => g.ts k) = _
  cases he : eSent g i k with
  | none => rfl
  | some d => have := (eSent_spec h hl he).1; omega

theorem txOf_old (h : Inv P s g) (hl : Legal P g i) {k : Nat} (hk : k < g.txn) : (watch P s g i).txOf P k = g.txOf P k := by
  obtain ⟨e1, e2, e3, e4⟩ := frozen h hl hk
  unfold G.txOf G.good; rw [e1, e2, e3, e4]

theorem csOf_old (h : Inv P s g) (hl : Legal P g i) {k : Nat} (hk : k < g.txn) : (watch P s g i).csOf k = g.csOf k := by
  obtain ⟨e1, e2, e3, e4⟩ := frozen h hl hk
  unfold G.csOf G.good; rw [e2, e3]

theorem cplOf_old (h : Inv P s g) (hl : Legal P g i) {k : Nat} (hk : k < g.cpn) : (watch P s g i).cplOf P k = g.cplOf P k := by
  have hle := h.le2
  obtain ⟨e1, e2, e3, e4⟩ := frozen h hl (show k < g.txn by omega)
  unfold G.cplOf; rw [e1, e2, e3, ts_old h hl hk]

theorem report_old (h : Inv P s g) (hl : Legal P g i) {k : Nat} (hk : g.bad k = true ∨ (g.good k = true ∧ k < g.fin)) :
    (watch P s g i).report k = g.report k := by
  have hle := h.le1
  have hle2 := h.le2
  unfold G.report
  rcases hk with hb | ⟨hb, hf⟩
  · obtain ⟨r, hr, hok⟩ := bad_some hb
    have hg : g.good k = false := by unfold G.good; rw [hr]; exact hok
    rw [good_old h hl hr, hg, reqs_old (resp_lt h hr)]; rfl
  · obtain ⟨r, hr, hok⟩ := good_some hb
    obtain ⟨e1, e2, e3, e4⟩ := frozen h hl (show k < g.txn by omega)
    rw [good_old h hl hr, e1, e3]

theorem filterMap_congr' {α β : Type} {f g : α → Option β} (l : List α) (h : ∀ a ∈ l, f a = g a) : l.filterMap f = l.filterMap g := by
  induction l with
  | nil => rfl
  | cons a l ih =>
    rw [List.filterMap_cons, List.filterMap_cons, h a List.mem_cons_self, ih fun b hb => h b (List.mem_cons_of_mem _ hb)]

theorem filterMap_step {α : Type} {f f' : Nat → Option α} {n : Nat} (h : ∀ k, k < n → f' k = f k) (go : Bool) :
    (List.range (n + go.toNat)).filterMap f' = (List.range n).filterMap f ++ (if go then (f' n).toList else []) := by
  cases go with
  | false =>
    show (List.range n).filterMap f' = _ ++ []
    rw [List.append_nil]
    exact filterMap_congr' _ fun k hk => h k (List.mem_range.mp hk)
  | true =>
    show (List.range (n + 1)).filterMap f' = _ ++ (f' n).toList
    rw [List.range_succ, List.filterMap_append, filterMap_congr' _ fun k hk => h k (List.mem_range.mp hk)]
    congr 1

theorem go_ne {a : Act} : (if a = .wait then 0 else 1) = (decide (a ≠ Act.wait)).toNat := by cases a <;> rfl

theorem tx_next_list (h : Inv P s g) (hl : Legal P g i) {α : Type} {f f' : Nat → Option α} (hf : ∀ k, k < g.txn → f' k = f k)
    (hb : txAct P s = .skip → f' g.txn = none) {y : α} (hy : txAct P s = .go → f' g.txn = some y) :
    (List.range (watch P s g i).txn).filterMap f' = (List.range g.txn).filterMap f ++ shown (decide (txAct P s = .go)) y := by
  have : (watch P s g i).txn = g.txn + (decide (txAct P s ≠ .wait)).toNat := by
    rw [txn_next]; cases txAct P s <;> rfl
  rw [this, filterMap_step hf]
  congr 1
  rcases act_cases (txAct P s) with ha | ha | ha
  · rw [ha]; rfl
  · rw [hb ha, ha]; rfl
  · rw [hy ha, ha]; rfl

theorem cp_next_list (h : Inv P s g) (hl : Legal P g i) {α : Type} {f f' : Nat → Option α} (hf : ∀ k, k < g.cpn → f' k = f k)
    (hb : cpAct P s i = .skip → f' g.cpn = none) {y : α} (hy : cpAct P s i = .go → f' g.cpn = some y) :
    (List.range (watch P s g i).cpn).filterMap f' = (List.range g.cpn).filterMap f ++ shown (decide (cpAct P s i = .go)) y := by
  have : (watch P s g i).cpn = g.cpn + (decide (cpAct P s i ≠ .wait)).toNat := by
    rw [cpn_next]; cases cpAct P s i <;> rfl
  rw [this, filterMap_step hf]
  congr 1
  rcases act_cases (cpAct P s i) with ha | ha | ha
  · rw [ha]; rfl
  · rw [hb ha, ha]; rfl
  · rw [hy ha, ha]; rfl

theorem bad_good {k : Nat} (hb : g.bad k = true) : g.good k = false := by
  obtain ⟨r, hr, hok⟩ := bad_some hb
  unfold G.good; rw [hr]; exact hok

/-- what the transmit stage puts out -/
theorem tx_go (h : Inv P s g) (hl : Legal P g i) (ha : txAct P s = .go) :
    (watch P s g i).txOf P g.txn = some (txOut P s) ∧ (P.csum = true → (watch P s g i).csOf g.txn = some (csOut P s)) := by
  obtain ⟨t1, t2, t3, t4, t5, t6⟩ := (tx_spec h).2 ha
  have hle := h.le1
  have hle2 := h.le2
  have fit := row_at h (k := g.txn) (by omega) t1
  have hrow : at_ P s s.txp = at_ P s (g.txn % 2 ^ (P.cl + 1)) := by rw [h.p2]
  obtain ⟨r, hr, hok⟩ := good_some t2
  obtain ⟨q, hq⟩ : ∃ q, g.reqs[g.txn]? = some q := ⟨g.reqs[g.txn], List.getElem?_eq_getElem t1⟩
  have he : eBeat P s g i g.txn = none := beat_none h hl t3
  obtain ⟨e1, _, e3⟩ := descs_same h hl he
  have hlen := fit.len t3
  have hreq := fit.req q hq
  constructor
  · unfold G.txOf
    rw [good_old h hl hr, t2, reqs_old t1, hq, e1, e3]
    show some _ = some _
    unfold txOut
    rw [hrow]
    cases hd : g.descs g.txn with
    | nil => rw [hd] at t3; cases t3
    | cons d ds =>
      have hc := fit.ctrl d ds hd
      have hlen : (at_ P s (g.txn % 2 ^ (P.cl + 1))).len = total (g.descs g.txn) := hlen
      have hb : (at_ P s (g.txn % 2 ^ (P.cl + 1))).bufPtr = g.place g.txn := hc.1
      simp only [hlen, hb, hreq.1, hreq.2.2, h.p2, mask_ptr, hd]
  · intro hcs
    unfold G.csOf
    rw [good_old h hl hr, t2, e1]
    show ((g.descs g.txn).head?.map _) = some _
    unfold csOut
    rw [hrow]
    cases hd : g.descs g.txn with
    | nil => rw [hd] at t3; cases t3
    | cons d ds =>
      obtain ⟨_, c2, c3, c4⟩ := fit.ctrl d ds hd
      rw [hcs] at c2 c3 c4
      have c2 : (at_ P s (g.txn % 2 ^ (P.cl + 1))).csStart = d.csStart % 128 := c2
      have c3 : (at_ P s (g.txn % 2 ^ (P.cl + 1))).csOff = d.csOff % 128 := c3
      have c4 : (at_ P s (g.txn % 2 ^ (P.cl + 1))).csEn = d.csEn := c4
      simp only [c2, c3, c4]
      show some _ = some _
      have : (d.csStart % 128 + d.csOff % 128) % 256 = d.csStart % 128 + d.csOff % 128 := by omega
      rw [this]

/-- what the completion stage puts out -/
theorem cp_go (h : Inv P s g) (hl : Legal P g i) (ha : cpAct P s i = .go) : (watch P s g i).cplOf P g.cpn = some (cqOut P s) := by
  obtain ⟨t1, t2, t3, t4⟩ := (cp_spec h).2 ha
  have hle := h.le1
  have hle3 := h.le3
  have fit := row_at h (k := g.cpn) (by omega) (by omega)
  have hrow : at_ P s s.cpp = at_ P s (g.cpn % 2 ^ (P.cl + 1)) := by rw [h.p3]
  obtain ⟨r, hr, hok⟩ := good_some t2
  obtain ⟨q, hq⟩ : ∃ q, g.reqs[g.cpn]? = some q := ⟨g.reqs[g.cpn]'(by omega), List.getElem?_eq_getElem (by omega)⟩
  obtain ⟨e1, e2, e3, e4⟩ := frozen h hl t1
  obtain ⟨t, ht⟩ := Option.isSome_iff_exists.mp t3
  have hc : complete (g.descs g.cpn) = true := by
    rcases h.oldt _ t1 with hb | hb
    · rw [bad_good hb] at t2; cases t2
    · exact hb.2.1
  have hts : (watch P s g i).ts g.cpn = some t := by
    show (match eSent g i g.cpn with | some d => some d | none => g.ts g.cpn) = _
    cases he : eSent g i g.cpn with
    | none => exact ht
    | some d => have := (eSent_spec h hl he).2.2.2; rw [ht] at this; cases this
  have hlen : (at_ P s (g.cpn % 2 ^ (P.cl + 1))).len = total (g.descs g.cpn) := fit.len hc
  obtain ⟨r1, r2, r3⟩ := fit.req q hq
  obtain ⟨u1, u2⟩ := fit.resp r hr
  unfold G.cplOf cqOut record
  rw [e1, e2, e3, hts, hq, hr, hrow]
  simp only [hok, if_true, u1, u2, r1, r3, hlen, h.p3, mask_ptr]
  cases hp : P.ptp with
  | false => rfl
  | true =>
    have : (at_ P s (g.cpn % 2 ^ (P.cl + 1))).ts = t := fit.ts t ht hp
    rw [this]

theorem fetch_next (hg : Log P s g) (h : Inv P s g) :
    (watch P s g i).fetches ++ shown (next P s i).drValid ((next P s i).drQueue, (next P s i).drTag) = (watch P s g i).fetchOf P := by
  have hf := hg.fet
  unfold G.fetchOf at hf ⊢
  show (if (s.drValid && i.drReady) = true then g.fetches ++ [(s.drQueue, s.drTag)] else g.fetches) ++
    shown (match accept s i with | some _ => true | none => s.drValid && !i.drReady)
      ((match accept s i with | some q => q.queue | none => s.drQueue), (match accept s i with | some _ => P.mask s.start | none => s.drTag)) =
    (g.reqs ++ (accept s i).toList).zipIdx.map _
  cases ha : accept s i with
  | none =>
    rw [show g.reqs ++ (none : Option Req).toList = g.reqs from List.append_nil _, ← hf]
    unfold shown
    cases s.drValid <;> cases i.drReady <;> simp
  | some q =>
    have hv := (hg.rq (accept_rdy ha)).1
    rw [hv] at hf ⊢
    rw [List.zipIdx_append, List.map_append, ← hf]
    unfold shown
    rw [h.p1, mask_ptr]
    simp

theorem early_spec (h : Inv P s g) (hl : Legal P g i) :
    (∀ t, early P s i = some t → ∃ d k, i.dstat = some d ∧ d.ok = false ∧ g.own d.tag = some k ∧ g.resp k = none ∧ k < g.reqs.length ∧ g.txn ≤ k ∧
      t = (g.reqs[k]?.map (·.tag)).getD 0) ∧
    (early P s i = none → ∀ d, i.dstat = some d → d.ok = true) := by
  have hle := h.le1
  have hle2 := h.le2
  constructor
  · intro t ht
    unfold early at ht
    cases hd : i.dstat with
    | none => rw [hd] at ht; cases ht
    | some d =>
      rw [hd] at ht
      obtain ⟨k, a1, a2, a3, a4⟩ := deq_spec h hl hd
      have ht : (if d.ok = true then none else some (at_ P s d.tag).tag) = some t := ht
      cases hok : d.ok with
      | true => rw [hok] at ht; cases ht
      | false =>
        rw [hok] at ht
        cases ht
        refine ⟨d, k, rfl, hok, a1, a4, a3, a2, ?_⟩
        have hq : g.reqs[k]? = some (g.reqs[k]'a3) := List.getElem?_eq_getElem a3
        have hat : at_ P s d.tag = s.row (k % P.n) := by
          unfold at_; rw [← (h.own _ _ a1).1, mask_lt]
        rw [hat, ((h.row k (by omega) a3).req _ hq).2.1, hq]; rfl
  · intro hn d hd
    unfold early at hn
    rw [hd] at hn
    have hn : (if d.ok = true then none else some (at_ P s d.tag).tag) = none := hn
    cases hok : d.ok with
    | true => rfl
    | false => rw [hok] at hn; cases hn

/-- which requests turn out to have no descriptor -/
theorem bad_next (h : Inv P s g) (hl : Legal P g i) (k : Nat) :
    (watch P s g i).bad k = (g.bad k || ((early P s i).isSome && decide (i.dstat.bind (fun d => g.own d.tag) = some k))) := by
  obtain ⟨e1, e2⟩ := early_spec h hl
  cases he : eDeq g i k with
  | none =>
    have : (watch P s g i).bad k = g.bad k := by
      show ((match eDeq g i k with | some d => some d | none => g.resp k).any fun r : DStat => !r.ok) = _
      rw [he]; rfl
    rw [this]
    cases hd : i.dstat with
    | none => simp
    | some d =>
      have : g.own d.tag ≠ some k := by
        intro e
        unfold eDeq at he
        rw [hd] at he
        simp [Option.filter, e] at he
      show _ = (g.bad k || ((early P s i).isSome && decide (g.own d.tag = some k)))
      rw [decide_eq_false this, Bool.and_false, Bool.or_false]
  | some d =>
    obtain ⟨f1, f2, f3, f4, f5⟩ := eDeq_spec h hl he
    have h1 : (watch P s g i).bad k = !d.ok := by
      show ((match eDeq g i k with | some d => some d | none => g.resp k).any fun r : DStat => !r.ok) = _
      rw [he]; rfl
    have h2 : g.bad k = false := by unfold G.bad; rw [f5]; rfl
    rw [h1, h2, f1]
    show (!d.ok) = (false || ((early P s i).isSome && decide (g.own d.tag = some k)))
    rw [decide_eq_true f2, Bool.and_true, Bool.false_or]
    cases hx : early P s i with
    | none => rw [e2 hx d f1]; rfl
    | some t =>
      obtain ⟨d', k', g1, g2, _⟩ := e1 t hx
      rw [f1] at g1; cases g1; rw [g2]; rfl

theorem complete_next (h : Inv P s g) (hl : Legal P g i) (k : Nat) :
    complete ((watch P s g i).descs k) = (complete (g.descs k) || (eBeat P s g i k).any (·.last)) := by
  show complete (g.descs k ++ (eBeat P s g i k).toList) = _
  cases eBeat P s g i k with
  | none => rw [Option.toList_none, List.append_nil]; simp
  | some d => exact complete_snoc _ _

theorem complete_resp (h : Inv P s g) {k : Nat} (hc : complete (g.descs k) = true) : g.good k = true := by
  apply (h.gd k _).1
  intro e; rw [e] at hc; cases hc

theorem waiting_next (h : Inv P s g) (hl : Legal P g i) :
    (watch P s g i).waiting + (early P s i).isSome.toNat + ((beat P s i).any (·.last)).toNat = g.waiting + (accept s i).isSome.toNat := by
  obtain ⟨e1, e2⟩ := early_spec h hl
  unfold G.waiting
  rw [len_next]
  have hold : (List.range g.reqs.length).countP (fun k => !(watch P s g i).bad k && !complete ((watch P s g i).descs k)) +
      (List.range g.reqs.length).countP (fun k => (early P s i).isSome && decide (i.dstat.bind (fun d => g.own d.tag) = some k)) +
      (List.range g.reqs.length).countP (fun k => (eBeat P s g i k).any (·.last)) =
      (List.range g.reqs.length).countP (fun k => !g.bad k && !complete (g.descs k)) := by
    apply countP_add3
    intro k hk
    simp only [bad_next h hl, complete_next h hl]
    cases ha : ((early P s i).isSome && decide (i.dstat.bind (fun d => g.own d.tag) = some k)) with
    | true =>
      rw [Bool.and_eq_true, decide_eq_true_eq] at ha
      obtain ⟨t, ht⟩ := Option.isSome_iff_exists.mp ha.1
      obtain ⟨d, k', g1, g2, g3, g4, g5, g6⟩ := e1 t ht
      rw [g1] at ha
      have hk' : k' = k := by
        have := ha.2
        have : g.own d.tag = some k := this
        rw [g3] at this; cases this; rfl
      subst hk'
      have hb : g.bad k' = false := by unfold G.bad; rw [g4]; rfl
      have hng : g.good k' = false := by unfold G.good; rw [g4]; rfl
      have hc : complete (g.descs k') = false := by
        cases hx : complete (g.descs k') with
        | false => rfl
        | true => rw [complete_resp h hx] at hng; cases hng
      have hbt : eBeat P s g i k' = none := by
        cases hx : eBeat P s g i k' with
        | none => rfl
        | some x => rw [(eBeat_spec h hl hx).2.2.2.2.1] at hng; cases hng
      rw [hb, hc, hbt]; rfl
    | false =>
      cases hx : eBeat P s g i k with
      | none => simp
      | some d =>
        obtain ⟨b1, b2, b3, b4, b5, b6, _⟩ := eBeat_spec h hl hx
        rw [good_not_bad b5, b6]
        cases hd : d.last <;> simp [hd]
  have he : (List.range g.reqs.length).countP (fun k => (early P s i).isSome && decide (i.dstat.bind (fun d => g.own d.tag) = some k)) =
      (early P s i).isSome.toNat := by
    cases hx : early P s i with
    | none => exact countP_none _ _ fun k _ => rfl
    | some t =>
      obtain ⟨d, k', g1, g2, g3, g4, g5, g6⟩ := e1 t hx
      refine countP_one _ _ k' g5 fun k _ => ?_
      rw [g1]
      show (true && decide (g.own d.tag = some k)) = _
      rw [g3, Bool.true_and]
      apply decide_eq_decide.mpr
      constructor
      · intro e; cases e; rfl
      · intro e; rw [e]
  have hb : (List.range g.reqs.length).countP (fun k => (eBeat P s g i k).any (·.last)) = ((beat P s i).any (·.last)).toNat := by
    cases hx : beat P s i with
    | none => exact countP_none _ _ fun k _ => by rw [beat_nobody hx]; rfl
    | some d =>
      obtain ⟨k0, a1, a2, a3⟩ := beat_owner h hl hx
      show _ = d.last.toNat
      cases hd : d.last with
      | false =>
        refine countP_none _ _ fun k _ => ?_
        by_cases e : k = k0
        · rw [e, a2]; exact hd
        · rw [a3 k e]; rfl
      | true =>
        refine countP_one _ _ k0 (eBeat_spec h hl a2).2.2.2.1 fun k _ => ?_
        by_cases e : k = k0
        · rw [e, a2, decide_eq_true rfl]; exact hd
        · rw [a3 k e, decide_eq_false e]; rfl
  rw [he, hb] at hold
  cases ha : accept s i with
  | none => exact hold
  | some q =>
    show (List.range (g.reqs.length + 1)).countP _ + _ + _ = _ + 1
    rw [List.range_succ, List.countP_append, List.countP_singleton]
    have hfr := evs_fresh h hl (Nat.le_refl g.reqs.length)
    have hv := (h.fresh g.reqs.length (Nat.le_refl _)).1
    unfold evs at hfr
    simp only [Ev.mk.injEq] at hfr
    unfold view at hv
    simp only [V.mk.injEq] at hv
    have h1 : (watch P s g i).bad g.reqs.length = false := by
      show ((match eDeq g i g.reqs.length with | some d => some d | none => g.resp g.reqs.length).any fun r : DStat => !r.ok) = _
      rw [hfr.1, hv.2.1]; rfl
    have h2 : complete ((watch P s g i).descs g.reqs.length) = false := by
      rw [complete_next h hl, hfr.2.1, hv.2.2.1]; rfl
    rw [h1, h2]
    show _ + 1 + _ + _ = _
    omega

theorem good_next_new (h : Inv P s g) (hl : Legal P g i) {k : Nat} (hk : k < g.txn) : (watch P s g i).good k = g.good k := by
  obtain ⟨_, e2, _⟩ := frozen h hl hk
  unfold G.good; rw [e2]

theorem report_fin (h : Inv P s g) (hl : Legal P g i) (ha : fiAct P s = .go) :
    (watch P s g i).good g.fin = true ∧ (at_ P s s.fin).len = total ((watch P s g i).descs g.fin) ∧
    (at_ P s s.fin).tag = ((watch P s g i).reqs[g.fin]?.map (·.tag)).getD 0 := by
  obtain ⟨t1, t2, t3, t4⟩ := (fi_spec h).2 ha
  have hle := h.le2
  have hle3 := h.le3
  have fit := row_at h (k := g.fin) (by omega) (by omega)
  rw [← h.p4] at fit
  obtain ⟨e1, e2, e3, e4⟩ := frozen h hl (show g.fin < g.txn by omega)
  have hq : g.reqs[g.fin]? = some (g.reqs[g.fin]'(by omega)) := List.getElem?_eq_getElem (by omega)
  have hc : complete (g.descs g.fin) = true := by
    rcases h.oldt g.fin (by omega) with hb | hb
    · rw [bad_good hb] at t2; cases t2
    · exact hb.2.1
  refine ⟨by rw [good_next_new h hl (by omega)]; exact t2, by rw [e3]; exact fit.len hc, ?_⟩
  rw [e1, hq, (fit.req _ hq).2.1]; rfl

/-- the statuses -/
theorem stat_next (hg : Log P s g) (h : Inv P s g) (hl : Legal P g i) :
    ((watch P s g i).pulses ++ shown (next P s i).stValid ((next P s i).stLen, (next P s i).stTag) = (watch P s g i).stat.map (watch P s g i).report) ∧
    (next P s i).fValid = (watch P s g i).pend.isSome ∧
    (∀ k, (watch P s g i).pend = some k → k < (watch P s g i).fin ∧ (watch P s g i).good k = true ∧ (next P s i).fLen = total ((watch P s g i).descs k) ∧
      (next P s i).fTag = ((watch P s g i).reqs[k]?.map (·.tag)).getD 0) ∧
    (watch P s g i).stat.Nodup ∧
    (∀ k, k ∈ (watch P s g i).stat ↔ ((watch P s g i).bad k = true ∨
      ((watch P s g i).good k = true ∧ k < (watch P s g i).fin ∧ (watch P s g i).pend ≠ some k))) := by
  obtain ⟨e1, e2⟩ := early_spec h hl
  have hle1 := h.le1
  have hle2 := h.le2
  obtain ⟨fi1, fi2⟩ := fi_spec h
  -- the older statuses
  have hold : g.pulses ++ shown s.stValid (s.stLen, s.stTag) = g.stat.map (watch P s g i).report := by
    rw [hg.sts]
    apply List.map_congr_left
    intro k hk
    refine (report_old h hl ?_).symm
    rcases (hg.smem k).mp hk with hb | hb
    · exact Or.inl hb
    · exact Or.inr ⟨hb.1, hb.2.1⟩
  have hpul : (watch P s g i).pulses = g.pulses ++ shown s.stValid (s.stLen, s.stTag) := by
    show (if s.stValid = true then _ else _) = _
    unfold shown
    cases s.stValid
    · exact (List.append_nil _).symm
    · rfl
  have hstat : (watch P s g i).stat = g.stat ++ (statNext P s g i).toList := rfl
  have hgood : ∀ k, k < g.fin → (watch P s g i).good k = g.good k := fun k hk => good_next_new h hl (by omega)
  have hfin := fin_next (P := P) (s := s) (g := g) (i := i)
  -- good and finished requests
  have hpd : ∀ k, g.pend = some k → k < g.fin ∧ (watch P s g i).good k = true ∧ s.fLen = total ((watch P s g i).descs k) ∧
      s.fTag = ((watch P s g i).reqs[k]?.map (·.tag)).getD 0 := by
    intro k hk
    obtain ⟨p1, p2, p3, p4⟩ := hg.pd k hk
    obtain ⟨f1, f2, f3, f4⟩ := frozen h hl (show k < g.txn by omega)
    exact ⟨p1, by rw [hgood k p1]; exact p2, by rw [f3]; exact p3, by rw [f1]; exact p4⟩
  have hng : ∀ {k}, g.resp k = none → g.good k = false := by intro k hk; unfold G.good; rw [hk]; rfl
  rw [hpul, hold, hstat, List.map_append]
  cases hx : early P s i with
  | some t =>
    obtain ⟨d, k0, g1, g2, g3, g4, g5, g6, g7⟩ := e1 t hx
    have hsn : statNext P s g i = some k0 := by
      unfold statNext; rw [hx, g1]; exact g3
    have hb0 : (watch P s g i).bad k0 = true := by
      rw [bad_next h hl, hx, g1]
      show (_ || (true && decide (g.own d.tag = some k0))) = true
      rw [g3]; simp
    have hbn : ∀ k, (watch P s g i).bad k = true ↔ (g.bad k = true ∨ k = k0) := by
      intro k
      rw [bad_next h hl, hx, g1]
      show (_ || (true && decide (g.own d.tag = some k))) = true ↔ _
      rw [g3]
      simp only [Bool.true_and, Bool.or_eq_true, decide_eq_true_eq, Option.some.injEq]
      constructor
      · rintro (a | a)
        · exact Or.inl a
        · exact Or.inr a.symm
      · rintro (a | a)
        · exact Or.inl a
        · exact Or.inr a.symm
    have hn0 : k0 ∉ g.stat := by
      intro hk
      rcases (hg.smem k0).mp hk with hb | hb
      · unfold G.bad at hb; rw [g4] at hb; cases hb
      · rw [hng g4] at hb; cases hb.1
    have hpe : (watch P s g i).pend = if s.fValid then g.pend else if fiAct P s = .go then some g.fin else none := by
      show (if (early P s i).isSome then _ else none) = _
      rw [hx]; rfl
    have hfl : (next P s i).fLen = if fiAct P s = .go then (at_ P s s.fin).len else s.fLen := rfl
    have hft : (next P s i).fTag = if fiAct P s = .go then (at_ P s s.fin).tag else s.fTag := rfl
    refine ⟨?_, ?_, ?_, ?_, ?_⟩
    · rw [hsn]
      show g.stat.map (watch P s g i).report ++ shown ((early P s i).isSome || s.fValid || decide (fiAct P s = .go))
        ((match early P s i with | some _ => 0 | none => if s.fValid then s.fLen else if fiAct P s = Act.go then (at_ P s s.fin).len else s.stLen),
         (match early P s i with | some t => t | none => if s.fValid then s.fTag else if fiAct P s = Act.go then (at_ P s s.fin).tag else s.stTag)) = _
      rw [hx]
      show g.stat.map (watch P s g i).report ++ [(0, t)] = g.stat.map _ ++ [(watch P s g i).report k0]
      congr 2
      unfold G.report
      rw [bad_good hb0, reqs_old g5, g7]; rfl
    · show ((s.fValid || decide (fiAct P s = .go)) && (early P s i).isSome) = _
      rw [hpe, hx, hg.fv]
      cases hp : g.pend with
      | some k => rfl
      | none =>
        show (decide (fiAct P s = .go) && true) = (if fiAct P s = .go then some g.fin else none).isSome
        by_cases ha : fiAct P s = .go
        · rw [if_pos ha, decide_eq_true ha]; rfl
        · rw [if_neg ha, decide_eq_false ha]; rfl
    · intro k hk
      rw [hpe] at hk
      rw [hfl, hft, hfin]
      cases hv : s.fValid with
      | true =>
        rw [hv] at hk
        have hk : g.pend = some k := hk
        have hnw : fiAct P s ≠ .go := by intro ha; have := (fi2 ha).2.2.2; rw [hv] at this; cases this
        obtain ⟨p1, p2, p3, p4⟩ := hpd k hk
        rw [if_neg hnw, if_neg hnw]
        exact ⟨by split <;> omega, p2, p3, p4⟩
      | false =>
        rw [hv] at hk
        have hk : (if fiAct P s = .go then some g.fin else none) = some k := hk
        by_cases ha : fiAct P s = .go
        · rw [if_pos ha] at hk
          cases hk
          rw [if_pos ha, if_pos ha, ha]
          obtain ⟨r1, r2, r3⟩ := report_fin h hl ha
          exact ⟨Nat.lt_succ_self _, r1, r2, r3⟩
        · rw [if_neg ha] at hk; cases hk
    · rw [hsn]
      refine List.nodup_append.mpr ⟨hg.snd, List.nodup_cons.mpr ⟨List.not_mem_nil, List.nodup_nil⟩, ?_⟩
      intro a ha b hb
      have : b = k0 := List.mem_singleton.mp hb
      subst this
      intro e; subst e; exact hn0 ha
    · intro k
      rw [hsn, List.mem_append, hbn, hpe, hfin]
      show k ∈ g.stat ∨ k ∈ [k0] ↔ _
      rw [List.mem_singleton, hg.smem k]
      cases hv : s.fValid with
      | true =>
        have hnw : fiAct P s ≠ .go := by intro ha; have := (fi2 ha).2.2.2; rw [hv] at this; cases this
        have hns : fiAct P s ≠ .skip := by intro ha; have := (fi1 ha).2.2; rw [hv] at this; cases this
        have hw : fiAct P s = .wait := by
          rcases act_cases (fiAct P s) with ha | ha | ha
          · exact ha
          · exact absurd ha hns
          · exact absurd ha hnw
        rw [hw]
        show _ ↔ (_ ∨ _) ∨ (_ ∧ k < g.fin ∧ g.pend ≠ some k)
        constructor
        · rintro ((a | ⟨a1, a2, a3⟩) | a)
          · exact Or.inl (Or.inl a)
          · exact Or.inr ⟨by rw [hgood k a2]; exact a1, a2, a3⟩
          · exact Or.inl (Or.inr a)
        · rintro ((a | a) | ⟨a1, a2, a3⟩)
          · exact Or.inl (Or.inl a)
          · exact Or.inr a
          · exact Or.inl (Or.inr ⟨by rw [← hgood k a2]; exact a1, a2, a3⟩)
      | false =>
        have hp : g.pend = none := by
          have := hg.fv; rw [hv] at this
          cases hp : g.pend with
          | none => rfl
          | some x => rw [hp] at this; cases this
        rw [hp]
        rcases act_cases (fiAct P s) with ha | ha | ha
        · rw [ha]
          show _ ↔ (_ ∨ _) ∨ (_ ∧ k < g.fin ∧ none ≠ some k)
          constructor
          · rintro ((a | ⟨a1, a2, a3⟩) | a)
            · exact Or.inl (Or.inl a)
            · exact Or.inr ⟨by rw [hgood k a2]; exact a1, a2, a3⟩
            · exact Or.inl (Or.inr a)
          · rintro ((a | a) | ⟨a1, a2, a3⟩)
            · exact Or.inl (Or.inl a)
            · exact Or.inr a
            · exact Or.inl (Or.inr ⟨by rw [← hgood k a2]; exact a1, a2, a3⟩)
        · rw [ha]
          show _ ↔ (_ ∨ _) ∨ (_ ∧ k < g.fin + 1 ∧ none ≠ some k)
          constructor
          · rintro ((a | ⟨a1, a2, a3⟩) | a)
            · exact Or.inl (Or.inl a)
            · exact Or.inr ⟨by rw [hgood k a2]; exact a1, by omega, a3⟩
            · exact Or.inl (Or.inr a)
          · rintro ((a | a) | ⟨a1, a2, a3⟩)
            · exact Or.inl (Or.inl a)
            · exact Or.inr a
            · have hk : k < g.fin := by
                apply Classical.byContradiction
                intro hge
                have : k = g.fin := by omega
                subst this
                have := bad_good (bad_mono (s := s) hl (fi1 ha).2.1)
                rw [a1] at this; cases this
              exact Or.inl (Or.inr ⟨by rw [← hgood k hk]; exact a1, hk, a3⟩)
        · rw [ha]
          show _ ↔ (_ ∨ _) ∨ (_ ∧ k < g.fin + 1 ∧ some g.fin ≠ some k)
          constructor
          · rintro ((a | ⟨a1, a2, a3⟩) | a)
            · exact Or.inl (Or.inl a)
            · exact Or.inr ⟨by rw [hgood k a2]; exact a1, by omega, by intro e; cases e; omega⟩
            · exact Or.inl (Or.inr a)
          · rintro ((a | a) | ⟨a1, a2, a3⟩)
            · exact Or.inl (Or.inl a)
            · exact Or.inr a
            · have hk : k < g.fin := by
                have : k ≠ g.fin := by intro e; exact a3 (by rw [e])
                omega
              exact Or.inl (Or.inr ⟨by rw [← hgood k hk]; exact a1, hk, nofun⟩)
  | none =>
    have hbn : ∀ k, (watch P s g i).bad k = g.bad k := by
      intro k; rw [bad_next h hl, hx]; simp
    have hsn : statNext P s g i = if s.fValid then g.pend else if fiAct P s = .go then some g.fin else none := by
      unfold statNext; rw [hx]
    have hpe : (watch P s g i).pend = none := by
      show (if (early P s i).isSome then _ else none) = _
      rw [hx]; rfl
    have hshow : shown (next P s i).stValid ((next P s i).stLen, (next P s i).stTag) =
        shown (s.fValid || decide (fiAct P s = .go)) ((if s.fValid then s.fLen else if fiAct P s = Act.go then (at_ P s s.fin).len else s.stLen),
          (if s.fValid then s.fTag else if fiAct P s = Act.go then (at_ P s s.fin).tag else s.stTag)) := by
      show shown ((early P s i).isSome || s.fValid || decide (fiAct P s = .go))
        ((match early P s i with | some _ => 0 | none => if s.fValid then s.fLen else if fiAct P s = Act.go then (at_ P s s.fin).len else s.stLen),
         (match early P s i with | some t => t | none => if s.fValid then s.fTag else if fiAct P s = Act.go then (at_ P s s.fin).tag else s.stTag)) = _
      rw [hx]; rfl
    rw [hpe, hshow]
    refine ⟨?_, ?_, nofun, ?_, ?_⟩
    · congr 1
      rw [hsn]
      cases hv : s.fValid with
      | true =>
        have := hg.fv; rw [hv] at this
        cases hp : g.pend with
        | none => rw [hp] at this; cases this
        | some k =>
          obtain ⟨p1, p2, p3, p4⟩ := hpd k hp
          show [(s.fLen, s.fTag)] = [(watch P s g i).report k]
          unfold G.report
          rw [p2, p3, p4]; rfl
      | false =>
        by_cases ha : fiAct P s = .go
        · obtain ⟨r1, r2, r3⟩ := report_fin h hl ha
          simp only [ha, Bool.false_eq_true, if_false, if_true, decide_true, Bool.or_true]
          show [(_, _)] = [(watch P s g i).report g.fin]
          unfold G.report
          rw [r1, r2, r3]; rfl
        · simp only [ha, Bool.false_eq_true, if_false, decide_false, Bool.or_false]; rfl
    · show ((s.fValid || decide (fiAct P s = .go)) && (early P s i).isSome) = _
      rw [hx]; exact Bool.and_false _
    · cases hs : statNext P s g i with
      | none => rw [Option.toList_none, List.append_nil]; exact hg.snd
      | some k0 =>
        have hn0 : k0 ∉ g.stat := by
          intro hk
          rw [hsn] at hs
          cases hv : s.fValid with
          | true =>
            rw [hv] at hs
            have hs : g.pend = some k0 := hs
            rcases (hg.smem k0).mp hk with hb | hb
            · have := (hg.pd k0 hs).2.1; rw [bad_good hb] at this; cases this
            · exact hb.2.2 hs
          | false =>
            rw [hv] at hs
            have hs : (if fiAct P s = .go then some g.fin else none) = some k0 := hs
            by_cases ha : fiAct P s = .go
            · rw [if_pos ha] at hs
              cases hs
              rcases (hg.smem g.fin).mp hk with hb | hb
              · have := (fi2 ha).2.1; rw [bad_good hb] at this; cases this
              · have := hb.2.1; omega
            · rw [if_neg ha] at hs; cases hs
        refine List.nodup_append.mpr ⟨hg.snd, List.nodup_cons.mpr ⟨List.not_mem_nil, List.nodup_nil⟩, ?_⟩
        intro a ha b hb
        have : b = k0 := List.mem_singleton.mp hb
        subst this
        intro e; subst e; exact hn0 ha
    · intro k
      rw [List.mem_append, hbn, hfin, hg.smem k, hsn]
      cases hv : s.fValid with
      | true =>
        have hnw : fiAct P s ≠ .go := by intro ha; have := (fi2 ha).2.2.2; rw [hv] at this; cases this
        have hns : fiAct P s ≠ .skip := by intro ha; have := (fi1 ha).2.2; rw [hv] at this; cases this
        have hw : fiAct P s = .wait := by
          rcases act_cases (fiAct P s) with ha | ha | ha
          · exact ha
          · exact absurd ha hns
          · exact absurd ha hnw
        rw [hw]
        show _ ∨ k ∈ g.pend.toList ↔ _ ∨ (_ ∧ k < g.fin ∧ none ≠ some k)
        have := hg.fv; rw [hv] at this
        cases hp : g.pend with
        | none => rw [hp] at this; cases this
        | some k0 =>
          obtain ⟨p1, p2, _⟩ := hg.pd k0 hp
          show _ ∨ k ∈ [k0] ↔ _
          rw [List.mem_singleton]
          constructor
          · rintro ((a | ⟨a1, a2, a3⟩) | a)
            · exact Or.inl a
            · exact Or.inr ⟨by rw [hgood k a2]; exact a1, a2, nofun⟩
            · subst a; exact Or.inr ⟨by rw [hgood k p1]; exact p2, p1, nofun⟩
          · rintro (a | ⟨a1, a2, a3⟩)
            · exact Or.inl (Or.inl a)
            · by_cases e : k = k0
              · exact Or.inr e
              · exact Or.inl (Or.inr ⟨by rw [← hgood k a2]; exact a1, a2, by intro e'; cases e'; exact e rfl⟩)
      | false =>
        have hp : g.pend = none := by
          have := hg.fv; rw [hv] at this
          cases hp : g.pend with
          | none => rfl
          | some x => rw [hp] at this; cases this
        rw [hp]
        show _ ∨ k ∈ (if fiAct P s = .go then some g.fin else none).toList ↔ _
        rcases act_cases (fiAct P s) with ha | ha | ha
        · rw [ha]
          show _ ∨ k ∈ [] ↔ _ ∨ (_ ∧ k < g.fin ∧ none ≠ some k)
          constructor
          · rintro ((a | ⟨a1, a2, a3⟩) | a)
            · exact Or.inl a
            · exact Or.inr ⟨by rw [hgood k a2]; exact a1, a2, a3⟩
            · cases a
          · rintro (a | ⟨a1, a2, a3⟩)
            · exact Or.inl (Or.inl a)
            · exact Or.inl (Or.inr ⟨by rw [← hgood k a2]; exact a1, a2, a3⟩)
        · rw [ha]
          show _ ∨ k ∈ [] ↔ _ ∨ (_ ∧ k < g.fin + 1 ∧ none ≠ some k)
          constructor
          · rintro ((a | ⟨a1, a2, a3⟩) | a)
            · exact Or.inl a
            · exact Or.inr ⟨by rw [hgood k a2]; exact a1, by omega, a3⟩
            · cases a
          · rintro (a | ⟨a1, a2, a3⟩)
            · exact Or.inl (Or.inl a)
            · have hk : k < g.fin := by
                apply Classical.byContradiction
                intro hge
                have : k = g.fin := by omega
                subst this
                have := bad_good (bad_mono (s := s) hl (fi1 ha).2.1)
                rw [a1] at this; cases this
              exact Or.inl (Or.inr ⟨by rw [← hgood k hk]; exact a1, hk, a3⟩)
        · rw [ha]
          show _ ∨ k ∈ [g.fin] ↔ _ ∨ (_ ∧ k < g.fin + 1 ∧ none ≠ some k)
          rw [List.mem_singleton]
          constructor
          · rintro ((a | ⟨a1, a2, a3⟩) | a)
            · exact Or.inl a
            · exact Or.inr ⟨by rw [hgood k a2]; exact a1, by omega, a3⟩
            · subst a; exact Or.inr ⟨good_mono hl (fi2 ha).2.1, by omega, nofun⟩
          · rintro (a | ⟨a1, a2, a3⟩)
            · exact Or.inl (Or.inl a)
            · by_cases e : k = g.fin
              · exact Or.inr e
              · have hk : k < g.fin := by omega
                exact Or.inl (Or.inr ⟨by rw [← hgood k hk]; exact a1, hk, nofun⟩)

theorem count_next (hg : Log P s g) (h : Inv P s g) (hl : Legal P g i) : (next P s i).count = (watch P s g i).waiting := by
  have := waiting_next h hl
  show s.count + (accept s i).isSome.toNat - (early P s i).isSome.toNat - ((beat P s i).any (·.last)).toNat = _
  rw [hg.cnt]; omega

theorem log_next (hg : Log P s g) (h : Inv P s g) (hl : Legal P g i) : Log P (next P s i) (watch P s g i) := by
  obtain ⟨tx1, tx2⟩ := tx_spec h
  obtain ⟨cp1, cp2⟩ := cp_spec (i := i) h
  obtain ⟨s1, s2, s3, s4, s5⟩ := stat_next hg h hl
  constructor
  case rq =>
    intro hr
    have hr : readyNext P s i = true := hr
    unfold readyNext at hr
    cases ha : accept s i with
    | some q => rw [ha] at hr; cases hr
    | none =>
      rw [ha] at hr
      simp only [Bool.and_eq_true, decide_eq_true_eq] at hr
      constructor
      · show (match accept s i with | some _ => true | none => s.drValid && !i.drReady) = false
        rw [ha]
        have := hr.2
        show (s.drValid && !i.drReady) = false
        revert this
        cases s.drValid <;> cases i.drReady <;> simp
      · show s.count + (accept s i).isSome.toNat - _ - _ < _
        rw [ha]
        have := hr.1.1.1.2
        show s.count + 0 - _ - _ < _
        omega
  case fet => exact fetch_next hg h
  case snt =>
    rw [tx_next_list h hl (fun k hk => txOf_old h hl hk) (y := txOut P s) ?_ fun ha => (tx_go h hl ha).1]
    · have := shown_next (v := s.txValid) (rdy := i.txReady) (go := decide (txAct P s = .go)) (y := txOut P s) hg.snt (by
        intro ha
        rw [(tx2 (of_decide_eq_true ha)).2.2.2.2.1]; rfl)
      simp only [decide_eq_true_eq] at this; exact this
    · intro ha
      unfold G.txOf
      rw [bad_good (bad_mono hl (tx1 ha).2)]; rfl
  case csm =>
    cases hc : P.csum with
    | false =>
      have hcs := hg.csm
      rw [hc] at hcs
      have hcs : g.csums ++ shown s.csValid s.cs = [] := hcs
      have e1 := (List.append_eq_nil_iff.mp hcs).1
      have e2 : s.csValid = false := by
        have := (List.append_eq_nil_iff.mp hcs).2
        unfold shown at this
        cases hv : s.csValid with
        | false => rfl
        | true => rw [hv] at this; cases this
      show (if (s.csValid && i.csReady) = true then _ else g.csums) ++ shown (if (decide (txAct P s = .go) && P.csum) = true then true else s.csValid && !i.csReady) _ = []
      rw [e1, e2, hc, Bool.and_false]; rfl
    | true =>
      have hcs := hg.csm
      rw [hc] at hcs
      have hcs : g.csums ++ shown s.csValid s.cs = (List.range g.txn).filterMap g.csOf := hcs
      show _ = (List.range (watch P s g i).txn).filterMap (watch P s g i).csOf
      rw [tx_next_list h hl (fun k hk => csOf_old h hl hk) (y := csOut P s) ?_ fun ha => (tx_go h hl ha).2 hc]
      · have := shown_next (v := s.csValid) (rdy := i.csReady) (go := decide (txAct P s = .go)) (y := csOut P s) hcs (by
          intro ha
          rcases (tx2 (of_decide_eq_true ha)).2.2.2.2.2 with e | e
          · rw [e]; rfl
          · rw [hc] at e; cases e)
        show (if (s.csValid && i.csReady) = true then g.csums ++ [s.cs] else g.csums) ++
          shown (if (decide (txAct P s = .go) && P.csum) = true then true else s.csValid && !i.csReady)
            (if (decide (txAct P s = .go) && P.csum) = true then csOut P s else s.cs) = _
        rw [hc, Bool.and_true]; exact this
      · intro ha
        unfold G.csOf
        rw [bad_good (bad_mono hl (tx1 ha).2)]; rfl
  case cps =>
    rw [cp_next_list h hl (fun k hk => cplOf_old h hl hk) (y := cqOut P s) ?_ fun ha => cp_go h hl ha]
    · have := shown_next (v := s.cqValid) (rdy := i.cqReady) (go := decide (cpAct P s i = .go)) (y := cqOut P s) hg.cps (by
        intro ha
        exact (cp2 (of_decide_eq_true ha)).2.2.2)
      simp only [decide_eq_true_eq] at this; exact this
    · intro ha
      obtain ⟨r, hr, hok⟩ := bad_some (bad_mono hl (cp1 ha).2)
      unfold G.cplOf
      rw [hr]
      generalize (watch P s g i).reqs[g.cpn]? = a
      generalize (watch P s g i).ts g.cpn = b
      cases a <;> cases b <;> simp [hok]
  case sts => exact s1
  case fv => exact s2
  case pd => exact s3
  case snd => exact s4
  case smem => exact s5
  case cnt => exact count_next hg h hl
  case few =>
    show s.count + (accept s i).isSome.toNat - _ - _ ≤ _
    have hf := hg.few
    cases ha : accept s i with
    | none => show s.count + 0 - _ - _ ≤ _; omega
    | some q => have := (hg.rq (accept_rdy ha)).2; show s.count + 1 - _ - _ ≤ _; omega

end

/-- everything -/
structure All (P : Params) (x : Sys) : Prop where
  inv : Inv P x.s x.g
  log : Log P x.s x.g
  ring : BufRing.Good P.buf → Ring P x.s x.g

theorem all_init (P : Params) : All P {} := ⟨inv_init P, log_init P, fun _ => ring_init P⟩

theorem all_step {P : Params} {x : Sys} {i : In} (h : All P x) (hl : Legal P x.g i) : All P (step P x i) :=
  ⟨step_inv h.inv hl, log_next h.log h.inv hl, fun hg => ring_next hg h.inv (h.ring hg) hl⟩

theorem all_run {P : Params} (is : List In) : ∀ {x : Sys}, All P x → LegalRun P x is → All P (run P x is) := by
  induction is with
  | nil => intro x h _; exact h
  | cons i is ih => intro x h hl; exact ih (all_step h hl.1) hl.2

end Corundum.TxEngine
