import Verif.Proof.RxEngineStep

/-! The outputs of the receive engine, and its packet buffer. -/
namespace Corundum.RxEngine
open Corundum.TxEngine (DStat Act Cpl shown shown_next countP_add3 countP_none countP_one filterMap_congr' filterMap_step act_cases)

structure Log (P : Params) (s : S) (g : G) : Prop where
  fet : g.fetches ++ shown s.drValid (s.drQueue, s.drTag) = (List.range g.dqn).filterMap (g.fetchOf P)
  cps : g.cpls ++ shown s.cqValid s.cq = (List.range g.cpn).filterMap (g.cplOf P)
  sts : g.pulses ++ shown s.stValid (s.stLen, s.stTag) = (List.range g.fin).map g.report
  sm : g.sums = (List.range g.csn).filterMap g.csum
  cnt : s.count = g.waiting
  few : s.count ≤ P.maxReq

theorem log_init (P : Params) (m : Nat) : Log P (init P m).s (init P m).g where
  fet := rfl
  cps := rfl
  sts := rfl
  sm := rfl
  cnt := rfl
  few := Nat.zero_le _

section
variable {P : Params} {m : Nat} {s : S} {g : G} {i : In}

theorem reqs_old {k : Nat} (hk : k < g.reqs.length) : (watch P s g i).reqs[k]? = g.reqs[k]? := by
  show (g.reqs ++ _)[k]? = _
  rw [List.getElem?_append_left hk]

theorem rx_same (h : Inv P m s g) (hl : Legal P m g i) {k : Nat} (hk : k < g.dqn) : (watch P s g i).rx k = g.rx k := by
  obtain ⟨x, hx⟩ := Option.ne_none_iff_exists'.mp (h.mr k (h.oldq k hk))
  rw [rx_old h hl hx, hx]

theorem map_same (h : Inv P m s g) (hl : Legal P m g i) {k : Nat} (hk : k < g.dqn) : (watch P s g i).map k = g.map k := by
  obtain ⟨x, hx⟩ := Option.ne_none_iff_exists'.mp (h.oldq k hk)
  rw [map_old h hl hx, hx]

theorem resp_same (h : Inv P m s g) (hl : Legal P m g i) {k : Nat} (hk : k < g.cpn) : (watch P s g i).resp k = g.resp k := by
  rcases h.oldc k hk with hb | hb
  · obtain ⟨r, hr, _⟩ := bad_some hb; rw [resp_old h hl hr, hr]
  · obtain ⟨r, hr, _⟩ := good_some hb.1; rw [resp_old h hl hr, hr]

theorem sum_none (h : Inv P m s g) {k : Nat} (hk : k ≠ g.csn ∨ P.csum = false) : eSum s g i k = none := by
  cases he : eSum s g i k with
  | none => rfl
  | some c =>
    obtain ⟨a1, a2, _⟩ := eSum_spec he
    rcases hk with hk | hk
    · exact absurd a2 hk
    · have := (h.csr a1).1; rw [hk] at this; cases this

theorem csum_same (h : Inv P m s g) {k : Nat} (hk : k ≠ g.csn ∨ P.csum = false) : (watch P s g i).csum k = g.csum k := by
  show (match eSum s g i k with | some d => some d | none => g.csum k) = _
  rw [sum_none h hk]

theorem cplOf_old (h : Inv P m s g) (hl : Legal P m g i) {k : Nat} (hk : k < g.cpn) : (watch P s g i).cplOf P k = g.cplOf P k := by
  have hle2 := h.le2
  unfold G.cplOf
  rw [map_same h hl (by omega), rx_same h hl (by omega), resp_same h hl hk, csum_same h]
  cases hc : P.csum with
  | false => exact Or.inr rfl
  | true => have := h.le5 hc; left; omega

theorem report_old (h : Inv P m s g) (hl : Legal P m g i) {k : Nat} (hk : k < g.cpn) : (watch P s g i).report k = g.report k := by
  have hle2 := h.le2
  have hle3 := h.le3
  unfold G.report G.good
  rw [rx_same h hl (by omega), resp_same h hl hk, reqs_old (by omega)]

theorem cp_next_list {α : Type} {f f' : Nat → Option α} (hf : ∀ k, k < g.cpn → f' k = f k)
    (hb : cpAct P s i = .skip → f' g.cpn = none) {y : α} (hy : cpAct P s i = .go → f' g.cpn = some y) :
    (List.range (watch P s g i).cpn).filterMap f' = (List.range g.cpn).filterMap f ++ shown (decide (cpAct P s i = .go)) y := by
  have : (watch P s g i).cpn = g.cpn + (decide (cpAct P s i ≠ .wait)).toNat := by
    rw [cpn_next]; cases cpAct P s i <;> rfl
  rw [this, filterMap_step hf]
  congr 1
  rcases act_cases (cpAct P s i) with ha | ha | ha
  · rw [ha]; rfl
  · rw [hb ha, ha]; rfl
  · rw [hy ha, ha]; rfl

theorem cp_go (h : Inv P m s g) (hl : Legal P m g i) (ha : cpAct P s i = .go) : (watch P s g i).cplOf P g.cpn = some (cqOut P s) := by
  obtain ⟨t1, t2, t3, t4, _⟩ := (cp_spec h).2 ha
  have hle := h.le1
  have hle3 := h.le3
  have fit := row_at h (k := g.cpn) (by omega) (by omega)
  have hrow : at_ P s s.cpp = at_ P s (g.cpn % 2 ^ (P.cl + 1)) := by rw [h.p3]
  obtain ⟨r, hr, hok⟩ := good_some t3
  obtain ⟨x, hx⟩ := Option.ne_none_iff_exists'.mp (h.mr _ (h.oldq _ t1))
  obtain ⟨q, hq⟩ := Option.ne_none_iff_exists'.mp (h.oldq _ t1)
  obtain ⟨r1, r2, r3, r4, r5⟩ := fit.rx x hx
  have u0 : (at_ P s (g.cpn % 2 ^ (P.cl + 1))).queue = q := fit.map q hq
  obtain ⟨u1, u2⟩ := fit.resp r hr
  have hcs : (watch P s g i).csum g.cpn = g.csum g.cpn := by
    apply csum_same h
    cases hc : P.csum with
    | false => exact Or.inr rfl
    | true => have := t2 hc; left; omega
  unfold G.cplOf cqOut record
  rw [map_old h hl hq, resp_old h hl hr, rx_old h hl hx, hcs, hrow]
  simp only [hok, if_true, u0, u1, u2, r1, r2, r3, r4, r5, h.p3, mask_ptr]
  cases hc : P.csum with
  | false => rfl
  | true =>
    rcases h.olds _ (t2 hc) with hb | hb
    · rw [bad_good hb] at t3; cases t3
    · obtain ⟨c, hc'⟩ := Option.ne_none_iff_exists'.mp hb
      have : (at_ P s (g.cpn % 2 ^ (P.cl + 1))).csum = c := fit.csum c hc'
      rw [this, hc']
      rfl

theorem fetch_next (hg : Log P s g) (h : Inv P m s g) (hl : Legal P m g i) :
    (watch P s g i).fetches ++ shown (next P s i).drValid ((next P s i).drQueue, (next P s i).drTag) =
      (List.range (watch P s g i).dqn).filterMap ((watch P s g i).fetchOf P) := by
  have hn : (watch P s g i).dqn = g.dqn + (dqGo P s).toNat := by rw [dqn_next]; cases dqGo P s <;> rfl
  have hold : ∀ k, k < g.dqn → (watch P s g i).fetchOf P k = g.fetchOf P k := by
    intro k hk; unfold G.fetchOf; rw [map_same h hl hk]
  rw [hn, filterMap_step hold]
  have key := shown_next (v := s.drValid) (rdy := i.drReady) (go := dqGo P s) (y := ((at_ P s s.dqp).queue, P.mask s.dqp)) hg.fet (by
    intro hd; rw [(dq_spec h hd).2.2.1]; rfl)
  show (if (s.drValid && i.drReady) = true then g.fetches ++ [(s.drQueue, s.drTag)] else g.fetches) ++
    shown (if dqGo P s = true then true else s.drValid && !i.drReady)
      ((if dqGo P s = true then (at_ P s s.dqp).queue else s.drQueue), (if dqGo P s = true then P.mask s.dqp else s.drTag)) = _
  cases hd : dqGo P s with
  | false => rw [hd] at key; exact key
  | true =>
    rw [hd] at key
    obtain ⟨d1, d2, _⟩ := dq_spec h hd
    obtain ⟨q, hq⟩ := Option.ne_none_iff_exists'.mp d2
    have hle1 := h.le1
    have hle2 := h.le2
    have fit := row_at h (k := g.dqn) (by omega) d1
    have hv : (watch P s g i).fetchOf P g.dqn = some ((at_ P s s.dqp).queue, P.mask s.dqp) := by
      unfold G.fetchOf
      rw [map_old h hl hq, h.p2, mask_ptr, fit.map q hq]; rfl
    simp only [if_true] at key ⊢
    rw [hv, key]
    rfl

theorem stat_next (hg : Log P s g) (h : Inv P m s g) (hl : Legal P m g i) :
    (watch P s g i).pulses ++ shown (next P s i).stValid ((next P s i).stLen, (next P s i).stTag) =
      (List.range (watch P s g i).fin).map (watch P s g i).report := by
  have hle1 := h.le1
  have hle2 := h.le2
  have hle3 := h.le3
  obtain ⟨fi1, fi2⟩ := fi_spec h
  have hp : (watch P s g i).pulses = (List.range g.fin).map g.report := by
    rw [← hg.sts]
    show (if s.stValid = true then g.pulses ++ [(s.stLen, s.stTag)] else g.pulses) = _
    unfold shown
    cases s.stValid <;> simp
  have hold : (List.range g.fin).map g.report = (List.range g.fin).map (watch P s g i).report := by
    apply List.map_congr_left
    intro k hk
    have := List.mem_range.mp hk
    rw [report_old h hl (by omega)]
  rw [hp, hold]
  show _ ++ shown (decide (fiAct P s ≠ .wait)) ((match fiAct P s with | .wait => s.stLen | .skip => 0 | .go => (at_ P s s.fin).len),
    (if fiAct P s = .wait then s.stTag else (at_ P s s.fin).tag)) = _
  rw [fin_next]
  have hrow : g.fin < g.cpn → Fit P (view g g.fin) (at_ P s s.fin) := by
    intro hlt; rw [h.p4]; exact row_at h (Nat.le_refl _) (by omega)
  have htag : g.fin < g.cpn → (at_ P s s.fin).tag = (g.reqs[g.fin]?).getD 0 := by
    intro hlt
    obtain ⟨q, hq⟩ : ∃ q, g.reqs[g.fin]? = some q := ⟨g.reqs[g.fin]'(by omega), List.getElem?_eq_getElem (by omega)⟩
    rw [(hrow hlt).req q hq, hq]; rfl
  rcases act_cases (fiAct P s) with ha | ha | ha
  · rw [ha]; show _ ++ [] = _; rw [List.append_nil]; rfl
  · obtain ⟨f1, f2⟩ := fi1 ha
    rw [ha]
    show _ ++ [(0, (at_ P s s.fin).tag)] = (List.range (g.fin + 1)).map _
    rw [List.range_succ, List.map_append]
    congr 1
    rw [htag f1]
    show _ = [(watch P s g i).report g.fin]
    rw [report_old h hl f1]
    unfold G.report
    rw [bad_good f2]; rfl
  · obtain ⟨f1, f2, f3⟩ := fi2 ha
    rw [ha]
    show _ ++ [((at_ P s s.fin).len, (at_ P s s.fin).tag)] = (List.range (g.fin + 1)).map _
    rw [List.range_succ, List.map_append]
    congr 1
    obtain ⟨x, hx⟩ := Option.ne_none_iff_exists'.mp (h.mr g.fin (h.oldq _ (by omega)))
    rw [htag f1, ((hrow f1).rx x hx).1]
    show _ = [(watch P s g i).report g.fin]
    rw [report_old h hl f1]
    unfold G.report
    rw [f2, hx]; rfl

theorem sums_next (hg : Log P s g) (h : Inv P m s g) : (watch P s g i).sums = (List.range (watch P s g i).csn).filterMap (watch P s g i).csum := by
  obtain ⟨cs1, cs2, cs3, cs4⟩ := cs_spec (i := i) h
  have hn : (watch P s g i).csn = g.csn + (decide (csAct P s i ≠ .wait)).toNat := by rw [csn_next]; cases csAct P s i <;> rfl
  rw [hn, filterMap_step (f := g.csum) (fun k hk => csum_same h (Or.inl (by omega)))]
  rw [← hg.sm]
  show (if s.csReady = true then g.sums ++ i.csum.toList else g.sums) = _
  have hc : (watch P s g i).csum g.csn = if s.csReady = true then i.csum else none := by
    show (match eSum s g i g.csn with | some d => some d | none => g.csum g.csn) = _
    unfold eSum
    rw [h.csf _ (Nat.le_refl _)]
    cases s.csReady <;> cases i.csum <;> simp
  rw [hc]
  cases hr : s.csReady with
  | false => simp
  | true =>
    rcases act_cases (csAct P s i) with ha | ha | ha
    · rw [cs3 ha hr, ha]; simp
    · rw [ha]; simp
    · rw [ha]; simp

/-! ### Descriptor fetches under way -/

theorem bad_next (h : Inv P m s g) (hl : Legal P m g i) (k : Nat) :
    (watch P s g i).bad k = (g.bad k || ((i.dstat.any fun d => !d.ok) && decide (i.dstat.bind (fun d => g.own d.tag) = some k))) := by
  cases he : eDeq g i k with
  | none =>
    have : (watch P s g i).bad k = g.bad k := by
      show ((match eDeq g i k with | some d => some d | none => g.resp k).any fun r : DStat => !r.ok) = _
      rw [he]; rfl
    rw [this]
    cases hd : i.dstat with
    | none => simp
    | some d =>
      have : g.own d.tag ≠ some k := by
        intro e
        unfold eDeq at he
        rw [hd] at he
        simp [Option.filter, e] at he
      show _ = (g.bad k || ((!d.ok) && decide (g.own d.tag = some k)))
      rw [decide_eq_false this, Bool.and_false, Bool.or_false]
  | some d =>
    obtain ⟨f1, f2, f3, f4, f5, f6⟩ := eDeq_spec h hl he
    have h1 : (watch P s g i).bad k = !d.ok := by
      show ((match eDeq g i k with | some d => some d | none => g.resp k).any fun r : DStat => !r.ok) = _
      rw [he]; rfl
    have h2 : g.bad k = false := by unfold G.bad; rw [f6]; rfl
    rw [h1, h2, f1]
    show (!d.ok) = (false || ((!d.ok) && decide (g.own d.tag = some k)))
    rw [decide_eq_true f2, Bool.and_true, Bool.false_or]

theorem complete_next (k : Nat) : complete ((watch P s g i).descs k) = (complete (g.descs k) || (eBeat P s g i k).any (·.last)) := by
  show complete (g.descs k ++ (eBeat P s g i k).toList) = _
  cases eBeat P s g i k with
  | none => rw [Option.toList_none, List.append_nil]; simp
  | some d => exact complete_snoc _ _

theorem complete_resp (h : Inv P m s g) {k : Nat} (hc : complete (g.descs k) = true) : g.good k = true := by
  apply h.gd k
  intro e; rw [e] at hc; cases hc

theorem beat_owner (h : Inv P m s g) (hl : Legal P m g i) {d : Desc} (hb : beat P s i = some d) :
    ∃ k0, g.own d.tid = some k0 ∧ eBeat P s g i k0 = some d ∧ ∀ k, k ≠ k0 → eBeat P s g i k = none := by
  obtain ⟨_, k0, a1, _⟩ := desc_spec h hl (beat_desc hb).1
  refine ⟨k0, a1, by unfold eBeat; rw [hb]; simp [Option.filter, a1], fun k hk => ?_⟩
  unfold eBeat; rw [hb]
  simp only [Option.filter, a1]
  rw [if_neg]
  intro e
  have := beq_iff_eq.mp e
  cases this; exact hk rfl

theorem waiting_next (h : Inv P m s g) (hl : Legal P m g i) :
    (watch P s g i).waiting + (i.dstat.any fun d => !d.ok).toNat + ((beat P s i).any (·.last)).toNat = g.waiting + (dqGo P s).toNat := by
  unfold G.waiting
  have hle3 := h.le3
  have hold : (List.range g.dqn).countP (fun k => !(watch P s g i).bad k && !complete ((watch P s g i).descs k)) +
      (List.range g.dqn).countP (fun k => (i.dstat.any fun d => !d.ok) && decide (i.dstat.bind (fun d => g.own d.tag) = some k)) +
      (List.range g.dqn).countP (fun k => (eBeat P s g i k).any (·.last)) =
      (List.range g.dqn).countP (fun k => !g.bad k && !complete (g.descs k)) := by
    apply countP_add3
    intro k hk
    simp only [bad_next h hl, complete_next]
    cases ha : ((i.dstat.any fun d => !d.ok) && decide (i.dstat.bind (fun d => g.own d.tag) = some k)) with
    | true =>
      rw [Bool.and_eq_true, decide_eq_true_eq] at ha
      cases hd : i.dstat with
      | none => rw [hd] at ha; cases ha.2
      | some d =>
        rw [hd] at ha
        obtain ⟨k', g3, _, _, g5, g4⟩ := deq_spec h hl hd
        have hk' : k' = k := by
          have : g.own d.tag = some k := ha.2
          rw [g3] at this; cases this; rfl
        subst hk'
        have hb : g.bad k' = false := by unfold G.bad; rw [g4]; rfl
        have hng : g.good k' = false := by unfold G.good; rw [g4]; rfl
        have hc : complete (g.descs k') = false := by
          cases hx : complete (g.descs k') with
          | false => rfl
          | true => rw [complete_resp h hx] at hng; cases hng
        have hbt : eBeat P s g i k' = none := by
          cases hx : eBeat P s g i k' with
          | none => rfl
          | some x => rw [(eBeat_spec h hl hx).2.2.2.2.2.1] at hng; cases hng
        rw [hb, hc, hbt]; rfl
    | false =>
      cases hx : eBeat P s g i k with
      | none => simp
      | some d =>
        obtain ⟨_, _, _, _, _, b5, b6, _⟩ := eBeat_spec h hl hx
        rw [good_not_bad b5, b6]
        cases hd : d.last <;> simp [hd]
  have he : (List.range g.dqn).countP (fun k => (i.dstat.any fun d => !d.ok) && decide (i.dstat.bind (fun d => g.own d.tag) = some k)) =
      (i.dstat.any fun d => !d.ok).toNat := by
    cases hx : i.dstat with
    | none => exact countP_none _ _ fun k _ => rfl
    | some d =>
      obtain ⟨k', g3, _, g5, _⟩ := deq_spec h hl hx
      show (List.range g.dqn).countP (fun k => (!d.ok) && decide (g.own d.tag = some k)) = (!d.ok).toNat
      cases hok : d.ok with
      | true => exact countP_none _ _ fun k _ => rfl
      | false =>
        refine countP_one _ _ k' g5 fun k _ => ?_
        show (true && decide (g.own d.tag = some k)) = _
        rw [g3, Bool.true_and]
        apply decide_eq_decide.mpr
        constructor
        · intro e; cases e; rfl
        · intro e; rw [e]
  have hb : (List.range g.dqn).countP (fun k => (eBeat P s g i k).any (·.last)) = ((beat P s i).any (·.last)).toNat := by
    cases hx : beat P s i with
    | none => exact countP_none _ _ fun k _ => by unfold eBeat; rw [hx]; rfl
    | some d =>
      obtain ⟨k0, a1, a2, a3⟩ := beat_owner h hl hx
      show _ = d.last.toNat
      cases hd : d.last with
      | false =>
        refine countP_none _ _ fun k _ => ?_
        by_cases e : k = k0
        · rw [e, a2]; exact hd
        · rw [a3 k e]; rfl
      | true =>
        have hg := (eBeat_spec h hl a2).2.2.2.2.2.1
        obtain ⟨r, hr, _⟩ := good_some hg
        refine countP_one _ _ k0 (h.rq k0 (by rw [hr]; simp)) fun k _ => ?_
        by_cases e : k = k0
        · rw [e, a2, decide_eq_true rfl]; exact hd
        · rw [a3 k e, decide_eq_false e]; rfl
  rw [he, hb] at hold
  rw [dqn_next]
  cases ha : dqGo P s with
  | false => exact hold
  | true =>
    show (List.range (g.dqn + 1)).countP _ + _ + _ = _ + 1
    rw [List.range_succ, List.countP_append, List.countP_singleton]
    have hr : g.resp g.dqn = none := by
      cases hr : g.resp g.dqn with
      | none => rfl
      | some r => have := h.rq g.dqn (by rw [hr]; simp); omega
    have h1 : (watch P s g i).bad g.dqn = false := by
      show ((match eDeq g i g.dqn with | some d => some d | none => g.resp g.dqn).any fun r : DStat => !r.ok) = _
      cases hx : eDeq g i g.dqn with
      | none => rw [hr]; rfl
      | some d => have := (eDeq_spec h hl hx).2.2.2.1; omega
    have h2 : complete ((watch P s g i).descs g.dqn) = false := by
      have hng : g.good g.dqn = false := by unfold G.good; rw [hr]; rfl
      have hd : g.descs g.dqn = [] := by
        apply Classical.byContradiction
        intro hne
        rw [h.gd _ hne] at hng; cases hng
      have hbt : eBeat P s g i g.dqn = none := by
        cases hx : eBeat P s g i g.dqn with
        | none => rfl
        | some x => rw [(eBeat_spec h hl hx).2.2.2.2.2.1] at hng; cases hng
      rw [complete_next, hd, hbt]; rfl
    rw [h1, h2]
    show _ + 1 + _ + _ = _
    omega

theorem count_next (hg : Log P s g) (h : Inv P m s g) (hl : Legal P m g i) : (next P s i).count = (watch P s g i).waiting := by
  have := waiting_next h hl
  show s.count + (dqGo P s).toNat - (i.dstat.any fun d => d.error || d.empty).toNat - ((beat P s i).any (·.last)).toNat = _
  rw [show (fun d : TxEngine.DStat => d.error || d.empty) = fun d => !d.ok from funext fun d => (Bool.not_not _).symm]
  rw [hg.cnt]; omega

theorem log_next (hg : Log P s g) (h : Inv P m s g) (hl : Legal P m g i) : Log P (next P s i) (watch P s g i) := by
  obtain ⟨cp1, cp2⟩ := cp_spec (i := i) h
  constructor
  case fet => exact fetch_next hg h hl
  case cps =>
    rw [cp_next_list (fun k hk => cplOf_old h hl hk) (y := cqOut P s) ?_ fun ha => cp_go h hl ha]
    · have := shown_next (v := s.cqValid) (rdy := i.cqReady) (go := decide (cpAct P s i = .go)) (y := cqOut P s) hg.cps (by
        intro ha
        exact (cp2 (of_decide_eq_true ha)).2.2.2.2)
      simp only [decide_eq_true_eq] at this; exact this
    · intro ha
      obtain ⟨r, hr, hok⟩ := bad_some (bad_mono h hl (cp1 ha).2.2)
      unfold G.cplOf
      rw [hr]
      generalize (watch P s g i).map g.cpn = a
      generalize (watch P s g i).rx g.cpn = b
      cases a <;> cases b <;> simp [hok]
  case sts => exact stat_next hg h hl
  case sm => exact sums_next hg h
  case cnt => exact count_next hg h hl
  case few =>
    show s.count + (dqGo P s).toNat - _ - _ ≤ _
    have hf := hg.few
    cases ha : dqGo P s with
    | false => show s.count + 0 - _ - _ ≤ _; omega
    | true => have := (dq_spec h ha).2.2.2; show s.count + 1 - _ - _ ≤ _; omega

/-! ### The packet buffer -/

end

structure Ring (P : Params) (m : Nat) (s : S) (g : G) : Prop where
  wr : g.b.wr = s.wr
  rd : g.b.rd = s.rd
  rdy : g.b.ready = s.reqReady
  bufs : g.b.bufs = (List.range (g.reqs.length - g.cpn)).map fun j => (g.place (g.cpn + j), min m P.buf.max)
  ring : ∃ w r, BufRing.Rx.Inv P.buf (min m P.buf.max) g.b w r
  fit : ∀ k, k < g.reqs.length → P.buf.off (g.place k) + min m P.buf.max ≤ P.buf.size
  data : ∀ k x, g.cpn ≤ k → g.rx k = some x → BufRing.read g.ram (P.buf.off (g.place k)) x.len = g.data k

theorem ring_init (P : Params) (m : Nat) : Ring P m (init P m).s (init P m).g where
  wr := rfl
  rd := rfl
  rdy := rfl
  bufs := rfl
  ring := ⟨0, 0, BufRing.Rx.inv_start _ _⟩
  fit := fun k h => absurd h (Nat.not_lt_zero _)
  data := fun k x _ h => by cases h

section
variable {P : Params} {m : Nat} {s : S} {g : G} {i : In}

/-- packets not yet given up have separate buffers -/
theorem apart (hG : Good P) (hr : Ring P m s g) {j k : Nat} (hj : g.cpn ≤ j) (hjk : j < k) (hk : k < g.reqs.length) :
    ∀ a, ¬ (P.buf.off (g.place j) ≤ a ∧ a < P.buf.off (g.place j) + min m P.buf.max ∧ P.buf.off (g.place k) ≤ a ∧
      a < P.buf.off (g.place k) + min m P.buf.max) := by
  obtain ⟨w, r, hi⟩ := hr.ring
  have hp := (BufRing.Rx.bufs_apart hG.buf (Nat.min_le_right _ _) hi).1
  rw [hr.bufs, List.map_map, List.pairwise_iff_getElem] at hp
  have := hp (j - g.cpn) (k - g.cpn) (by simp; omega) (by simp; omega) (by omega)
  simp only [List.getElem_map, List.getElem_range, Function.comp] at this
  rw [show g.cpn + (j - g.cpn) = j by omega, show g.cpn + (k - g.cpn) = k by omega] at this
  intro a
  have := this a
  simp only [BufRing.Rx.asOp, List.length_replicate] at this
  exact this

theorem read_congr {f f' : Nat → Nat} {a n : Nat} (h : ∀ x, a ≤ x → x < a + n → f' x = f x) : BufRing.read f' a n = BufRing.read f a n := by
  unfold BufRing.read
  apply List.map_congr_left
  intro j hj
  have := List.mem_range.mp hj
  exact h _ (by omega) (by omega)

theorem rx_lt (h : Inv P m s g) {k : Nat} {x : RStat} (hx : g.rx k = some x) : k < g.reqs.length := by
  apply Nat.lt_of_not_le
  intro hge
  have := (h.fresh k hge).1
  unfold view at this
  simp only [V.mk.injEq] at this
  rw [hx] at this; cases this.2.2.1

theorem order_at (h : Inv P m s g) {k : Nat} {o : RxDesc} (ho : g.rxs[k]? = some o) :
    k < g.reqs.length ∧ o = ⟨P.buf.off (g.place k), min m P.buf.max, k % P.n⟩ := by
  have ho' : (g.rxOf P m)[k]? = some o := by
    rw [← h.rxs, List.getElem?_append_left (List.getElem?_eq_some_iff.mp ho).1, ho]
  unfold G.rxOf at ho'
  rw [List.getElem?_map] at ho'
  rcases Nat.lt_or_ge k g.reqs.length with hlt | hge
  · rw [List.getElem?_range hlt] at ho'
    cases ho'; exact ⟨hlt, rfl⟩
  · rw [List.getElem?_eq_none (by simpa using hge)] at ho'; cases ho'

theorem ring_next (hG : Good P) (h : Inv P m s g) (hr : Ring P m s g) (hl : Legal P m g i) : Ring P m (next P s i) (watch P s g i) := by
  have hle1 := h.le1
  have hle2 := h.le2
  have hle3 := h.le3
  obtain ⟨cp1, cp2⟩ := cp_spec (i := i) h
  have hcp : cpAct P s i ≠ .wait → g.cpn < g.dqn := by
    intro hw; rcases act_cases (cpAct P s i) with ha | ha | ha
    · exact absurd ha hw
    · exact (cp1 ha).1
    · exact (cp2 ha).1
  have hgo : (g.b.ready && i.req.isSome) = (accept s i).isSome := by
    rw [hr.rdy]; unfold accept; cases s.reqReady <;> simp
  have hne : cpAct P s i ≠ .wait → g.b.bufs = (g.place g.cpn, min m P.buf.max) :: (List.range (g.reqs.length - (g.cpn + 1))).map
      fun j => (g.place (g.cpn + 1 + j), min m P.buf.max) := by
    intro hw
    have := hcp hw
    rw [hr.bufs, show g.reqs.length - g.cpn = (g.reqs.length - (g.cpn + 1)) + 1 by omega, List.range_succ_eq_map, List.map_cons, List.map_map]
    congr 1
    apply List.map_congr_left
    intro j _
    show (g.place (g.cpn + (j + 1)), _) = _
    rw [show g.cpn + (j + 1) = g.cpn + 1 + j by omega]
  have hbl : BufRing.Rx.Legal (min m P.buf.max) g.b (ringIn P s i) := by
    refine ⟨h.mtu, fun hd => ?_⟩
    have hd : decide (cpAct P s i ≠ .wait) = true := hd
    rw [hne (of_decide_eq_true hd)]; simp
  obtain ⟨w, r, hi⟩ := hr.ring
  have hi' := BufRing.Rx.step_inv hG.buf (Nat.min_le_right m P.buf.max) hi hbl
  have hbufs : (watch P s g i).b.bufs =
      (List.range ((watch P s g i).reqs.length - (watch P s g i).cpn)).map fun j => ((watch P s g i).place ((watch P s g i).cpn + j), min m P.buf.max) := by
    show (if decide (cpAct P s i ≠ .wait) = true then g.b.bufs.tail else g.b.bufs) ++ (if (g.b.ready && i.req.isSome) = true then [(g.b.wr, s.mtu)] else []) = _
    have htail : (if decide (cpAct P s i ≠ .wait) = true then g.b.bufs.tail else g.b.bufs) =
        (List.range (g.reqs.length - (watch P s g i).cpn)).map fun j => (g.place ((watch P s g i).cpn + j), min m P.buf.max) := by
      rw [cpn_next]
      by_cases hw : cpAct P s i = .wait
      · rw [if_neg (by simp [hw]), if_pos hw, hr.bufs]
      · rw [if_pos (by simp [hw]), if_neg hw, hne hw]; rfl
    rw [htail, hgo, hr.wr, h.mtu, len_next]
    have hcn : (watch P s g i).cpn ≤ g.reqs.length := by
      rw [cpn_next]
      split
      · omega
      · rename_i hw; have := hcp hw; omega
    have hpl : (List.range (g.reqs.length - (watch P s g i).cpn)).map (fun j => (g.place ((watch P s g i).cpn + j), min m P.buf.max)) =
        (List.range (g.reqs.length - (watch P s g i).cpn)).map (fun j => ((watch P s g i).place ((watch P s g i).cpn + j), min m P.buf.max)) := by
      apply List.map_congr_left
      intro j hj
      have := List.mem_range.mp hj
      rw [place_old (by omega)]
    rw [hpl]
    cases ha : accept s i with
    | none => exact List.append_nil _
    | some q =>
      show _ ++ [(s.wr, min m P.buf.max)] = (List.range (g.reqs.length + 1 - _)).map _
      rw [show g.reqs.length + 1 - (watch P s g i).cpn = (g.reqs.length - (watch P s g i).cpn) + 1 by omega, List.range_succ, List.map_append]
      congr 1
      have : (watch P s g i).place g.reqs.length = s.wr := by
        show (if ((accept s i).isSome && g.reqs.length == g.reqs.length) = true then s.wr else g.place _) = _
        rw [ha]; simp
      simp only [List.map_cons, List.map_nil]
      rw [show (watch P s g i).cpn + (g.reqs.length - (watch P s g i).cpn) = g.reqs.length by omega, this]
  constructor
  case wr =>
    show (if (g.b.ready && i.req.isSome) = true then BufRing.nextPtr P.buf g.b.wr s.mtu else g.b.wr) =
      (match accept s i with | some _ => BufRing.nextPtr P.buf s.wr s.mtu | none => s.wr)
    rw [hgo, hr.wr]
    cases accept s i <;> rfl
  case rd =>
    show (match decide (cpAct P s i ≠ .wait), g.b.bufs with | true, b :: _ => BufRing.nextPtr P.buf b.1 s.mtu | _, _ => g.b.rd) =
      (if cpAct P s i = .wait then s.rd else BufRing.nextPtr P.buf (at_ P s s.cpp).bufPtr s.mtu)
    by_cases hw : cpAct P s i = .wait
    · rw [if_pos hw, hw]; exact hr.rd
    · rw [if_neg hw, decide_eq_true hw, hne hw]
      have hlt := hcp hw
      have fit := row_at h (k := g.cpn) hle1 (by omega)
      rw [h.p3, fit.buf]; rfl
  case rdy =>
    show (if (g.b.ready && i.req.isSome) = true then false else readyIn P s i && BufRing.room P.buf g.b.wr g.b.rd) =
      (match accept s i with | some _ => false | none => readyIn P s i && BufRing.room P.buf s.wr s.rd)
    rw [hgo, hr.wr, hr.rd]
    cases accept s i <;> rfl
  case bufs => exact hbufs
  case ring => exact hi'
  case fit =>
    intro k hk
    rcases Nat.lt_or_ge k g.reqs.length with hlt | hge
    · rw [place_old hlt]; exact hr.fit k hlt
    · obtain ⟨w', r', hi'⟩ := hi'
      have hb := (BufRing.Rx.bufs_apart hG.buf (Nat.min_le_right _ _) hi').2 ((watch P s g i).place k, min m P.buf.max) (by
        show _ ∈ (watch P s g i).b.bufs
        rw [hbufs, List.mem_map]
        have hcn : (watch P s g i).cpn ≤ g.reqs.length := by
          rw [cpn_next]
          split
          · omega
          · rename_i hw; have := hcp hw; omega
        refine ⟨k - (watch P s g i).cpn, List.mem_range.mpr (by omega), ?_⟩
        rw [show (watch P s g i).cpn + (k - (watch P s g i).cpn) = k by omega])
      exact hb.2
  case data =>
    intro k x hk hx
    have hk : g.cpn ≤ k := by
      have : g.cpn ≤ (watch P s g i).cpn := by rw [cpn_next]; split <;> omega
      omega
    show BufRing.read (BufRing.fill g.ram i.pokes) _ x.len =
      (match eRx g i k with | some r => BufRing.read (BufRing.fill g.ram i.pokes) (P.buf.off (g.place k)) r.len | none => g.data k)
    have hx : (match eRx g i k with | some d => some d | none => g.rx k) = some x := hx
    cases he : eRx g i k with
    | some y =>
      rw [he] at hx; cases hx
      rw [place_old (eRx_spec h hl he).2.2.2.1]
    | none =>
      rw [he] at hx
      have hx : g.rx k = some x := hx
      have hlt := rx_lt h hx
      rw [place_old hlt]
      show _ = g.data k
      rw [← hr.data k x hk hx]
      apply read_congr
      intro a h1 h2
      rcases BufRing.fill_spec i.pokes a g.ram with ⟨p, hp, e1, _⟩ | ⟨_, e2⟩
      · exfalso
        obtain ⟨j, o, ho, hn, a1, a2⟩ := hl.pokes p hp
        obtain ⟨hj, rfl⟩ := order_at h ho
        rw [e1] at a1 a2
        have hxl := h.rl k x hx
        have hjc : g.cpn ≤ j := by
          apply Nat.le_of_not_lt
          intro hlt
          exact h.mr j (h.oldq j (by omega)) hn
        have hjk : j ≠ k := by intro e; subst e; rw [hx] at hn; cases hn
        simp only at a1 a2
        rcases Nat.lt_or_ge j k with hlt2 | hge2
        · exact apart hG hr hjc hlt2 hlt a ⟨a1, a2, h1, by omega⟩
        · exact apart hG hr hk (by omega) hj a ⟨h1, by omega, a1, a2⟩
      · exact e2

end

/-- everything -/
structure All (P : Params) (m : Nat) (x : Sys) : Prop where
  inv : Inv P m x.s x.g
  log : Log P x.s x.g
  ring : Ring P m x.s x.g

theorem all_init (P : Params) (m : Nat) : All P m (init P m) := ⟨inv_init P m, log_init P m, ring_init P m⟩

theorem all_step {P : Params} {m : Nat} (hG : Good P) {x : Sys} {i : In} (h : All P m x) (hl : Legal P m x.g i) : All P m (step P x i) :=
  ⟨step_inv hG h.inv hl, log_next h.log h.inv hl, ring_next hG h.inv h.ring hl⟩

theorem all_run {P : Params} {m : Nat} (hG : Good P) (is : List In) : ∀ {x : Sys}, All P m x → LegalRun P m x is → All P m (run P x is) := by
  induction is with
  | nil => intro x h _; exact h
  | cons i is ih => rintro x h ⟨h1, h2⟩; exact ih (all_step hG h h1) h2

/-! ### Checksums -/

structure PInv (g : G) : Prop where
  len : g.sums.length = g.csn
  bad : ∀ k, g.bad k = true → k < g.csn
  sum : ∀ k, k < g.csn → g.csum k = g.sums[k]?

theorem pinv_step {P : Params} {m : Nat} {x : Sys} {i : In} (h : Inv P m x.s x.g) (hp : PInv x.g) (hl : Legal P m x.g i) (hq : Prompt x.g i) :
    PInv (step P x i).g := by
  obtain ⟨s, g⟩ := x
  simp only at h hp hl hq
  show PInv (watch P s g i)
  obtain ⟨cs1, cs2, cs3, cs4⟩ := cs_spec (i := i) h
  have hnoskip : csAct P s i ≠ .skip := by
    intro ha
    have := hp.bad _ (cs1 ha).2.2
    omega
  have hcsn : g.csn ≤ (watch P s g i).csn := by rw [csn_next]; split <;> omega
  have hbad : ∀ k, (watch P s g i).bad k = true → k < g.csn := by
    intro k hk
    rw [bad_next h hl] at hk
    rcases (Bool.or_eq_true _ _).mp hk with hk | hk
    · exact hp.bad k hk
    · rw [Bool.and_eq_true, decide_eq_true_eq] at hk
      cases hd : i.dstat with
      | none => rw [hd] at hk; cases hk.2
      | some d =>
        rw [hd] at hk
        have h1 : (!d.ok) = true := hk.1
        have h2 : g.own d.tag = some k := hk.2
        obtain ⟨k', a1, a2⟩ := hq d hd (by simpa using h1)
        rw [h2] at a1; cases a1
        rw [hp.len] at a2; exact a2
  have hwait : csAct P s i = .wait → (watch P s g i).sums = g.sums := by
    intro ha
    show (if s.csReady = true then g.sums ++ i.csum.toList else g.sums) = _
    cases hr : s.csReady with
    | false => rfl
    | true => rw [cs3 ha hr]; exact List.append_nil _
  refine ⟨?_, fun k hk => by have := hbad k hk; omega, ?_⟩
  · rw [csn_next]
    rcases act_cases (csAct P s i) with ha | ha | ha
    · rw [hwait ha, ha]; exact hp.len
    · exact absurd ha hnoskip
    · obtain ⟨_, _, c1, c2⟩ := cs2 ha
      obtain ⟨c, hc⟩ := Option.isSome_iff_exists.mp c2
      rw [ha]
      show (if s.csReady = true then g.sums ++ i.csum.toList else g.sums).length = g.csn + 1
      rw [c1, hc, if_pos rfl, List.length_append, hp.len]; rfl
  · intro k hk
    rw [csn_next] at hk
    rcases act_cases (csAct P s i) with ha | ha | ha
    · rw [ha] at hk
      have hk : k < g.csn := hk
      rw [csum_same h (Or.inl (by omega)), hwait ha]; exact hp.sum k hk
    · exact absurd ha hnoskip
    · obtain ⟨_, _, c1, c2⟩ := cs2 ha
      obtain ⟨c, hc⟩ := Option.isSome_iff_exists.mp c2
      rw [ha] at hk
      have hk : k < g.csn + 1 := hk
      show _ = (if s.csReady = true then g.sums ++ i.csum.toList else g.sums)[k]?
      rw [c1, hc, if_pos rfl]
      rcases Nat.lt_or_ge k g.csn with hlt | hge
      · rw [csum_same h (Or.inl (by omega)), hp.sum k hlt, List.getElem?_append_left (by rw [hp.len]; exact hlt)]
      · have : k = g.csn := by omega
        subst this
        rw [List.getElem?_append_right (by rw [hp.len]; exact Nat.le_refl _), hp.len, Nat.sub_self]
        have he : eSum s g i g.csn = some c := by unfold eSum; rw [c1, hc]; simp
        show (match eSum s g i g.csn with | some d => some d | none => g.csum _) = _
        rw [he]; rfl

theorem pinv_run {P : Params} {m : Nat} (hG : Good P) (is : List In) : ∀ {x : Sys}, Inv P m x.s x.g → PInv x.g → LegalRun P m x is → PromptRun P x is →
    PInv (run P x is).g := by
  induction is with
  | nil => intro x _ h _ _; exact h
  | cons i is ih => rintro x h hp ⟨h1, h2⟩ ⟨q1, q2⟩; exact ih (step_inv hG h h1) (pinv_step h hp h1 q1) h2 q2

theorem pinv_init (P : Params) (m : Nat) : PInv (init P m).g := ⟨rfl, fun k h => (by cases h), fun k h => absurd h (Nat.not_lt_zero _)⟩

end Corundum.RxEngine
