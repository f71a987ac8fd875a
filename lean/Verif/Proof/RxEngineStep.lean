import Verif.Proof.RxEngine

/-! One clock edge of the receive engine. -/
namespace Corundum.RxEngine
open Corundum.Driver (mod_inj_of_window)
open Corundum.CplWrite (upd upd? upd_same upd_ne updo_ne updo_some)
open Corundum.TxEngine (DStat Act Cpl shown filter_congr filter_some act_cases)

section
variable {P : Params} {m : Nat} {s : S} {g : G} {i : In}

theorem took_old {k : Nat} (h : Inv P m s g) (hk : g.cqTook k = false) (ht : (watch P s g i).cqTook k = true) :
    s.cqValid = true ∧ g.fin ≤ k ∧ k < g.cpn ∧ g.good k = true := by
  have ht : (g.cqTook k || (s.cqValid && i.cqReady && g.own s.cq.tag == some k)) = true := ht
  rw [hk, Bool.false_or] at ht
  simp only [Bool.and_eq_true, beq_iff_eq] at ht
  obtain ⟨k0, a1, a2, a3, a4, a5⟩ := h.ofC ht.1.1
  have hle2 := h.le2
  have hle3 := h.le3
  have : k0 = k := by
    have := h.own' k0 a1 (by omega)
    rw [← a5, ht.2] at this; cases this; rfl
  subst this
  exact ⟨ht.1.1, a1, a2, a3⟩

theorem total_nil : total [] = 0 := rfl

theorem bind_toList {α β : Type} (f : α → Option β) {o : Option α} {d : α} (h : o = some d) : (o.bind f).toList = (f d).toList := by subst h; rfl

theorem bind_none {α β : Type} (f : α → Option β) {o : Option α} (h : o = none) : (o.bind f).toList = [] := by subst h; rfl

theorem len_some {o : Option RStat} {x : RStat} (h : o = some x) : (o.map (·.len)).getD 0 = x.len := by subst h; rfl

/-- the arithmetic of a descriptor -/
theorem beat_len (hG : Good P) (h : Inv P m s g) (hl : Legal P m g i) {k : Nat} {d : Desc} (he : eBeat P s g i k = some d) :
    ∃ x, g.rx k = some x ∧ x.len ≤ P.buf.max ∧
      (s.dDone = false → total (g.descs k) ≤ x.len ∧ left P s d = x.len - total (g.descs k) ∧ s.dLen = total (g.descs k)) ∧
      (s.dDone = true → x.len ≤ total (g.descs k)) ∧ (at_ P s d.tid).bufPtr = g.place k ∧ (at_ P s d.tid).active = true := by
  obtain ⟨b1, b2, b3, b4, b5, b6, b7, b8, x, hx, hxl, c1, c2⟩ := eBeat_spec h hl he
  have hle1 := h.le1
  have hfit : Fit P (view g k) (at_ P s d.tid) := by
    have e := (h.own _ _ b2).1
    unfold at_
    rw [← e, mask_lt]
    exact h.row k (by omega) b5
  refine ⟨x, hx, by omega, ?_, ?_, hfit.buf, hfit.active⟩
  · intro hd
    have hlen : (at_ P s d.tid).len = x.len := (hfit.rx x hx).1
    have ht : total (g.descs k) ≤ x.len := by
      rw [hd] at c1
      cases hk : g.descs k with
      | nil => exact Nat.zero_le _
      | cons a as =>
        rw [hk] at c1
        simp at c1
        omega
    refine ⟨ht, ?_, c2 hd⟩
    unfold left
    rw [hlen, c2 hd]
    have h1 : x.len < 2 ^ P.lw := by have := hG.max; omega
    have h2 : 2 ^ P.lw ≤ 2 ^ 32 := Nat.pow_le_pow_right (by omega) hG.lw
    generalize total (g.descs k) = t at *
    omega
  · intro hd
    rw [hd] at c1
    cases hk : g.descs k with
    | nil => rw [hk] at c1; cases c1
    | cons a as =>
      rw [hk] at c1
      simp at c1
      exact c1

theorem ops_next (hG : Good P) (h : Inv P m s g) (hl : Legal P m g i) {k : Nat} {d : Desc} (he : eBeat P s g i k = some d) :
    ∃ x, g.rx k = some x ∧ (writeOp P s d).toList =
      (if min d.len (x.len - total (g.descs k)) = 0 then [] else
        [⟨d.addr, P.buf.off (g.place k) + min (total (g.descs k)) x.len, min d.len (x.len - total (g.descs k))⟩]) := by
  obtain ⟨x, hx, hm, c1, c2, hb, _⟩ := beat_len hG h hl he
  have hdl : d.len < 2 ^ 32 := (eBeat_spec h hl he).2.2.1
  refine ⟨x, hx, ?_⟩
  unfold writeOp
  cases hd : s.dDone with
  | true =>
    have := c2 hd
    rw [if_pos (show min d.len (x.len - total (g.descs k)) = 0 by omega)]
    simp
  | false =>
    obtain ⟨t1, t2, t3⟩ := c1 hd
    have hlt : x.len < 2 ^ P.lw := by have := hG.max; omega
    have hw : wrLen P s d = min d.len (x.len - total (g.descs k)) := by
      unfold wrLen
      rw [t2]
      split
      · rw [Nat.mod_eq_of_lt (by omega)]; omega
      · rw [Nat.mod_eq_of_lt (by omega)]; omega
    rw [hw, hb, t3]
    by_cases h0 : min d.len (x.len - total (g.descs k)) = 0
    · rw [if_pos h0, h0]; rfl
    · rw [if_neg h0, show min (total (g.descs k)) x.len = total (g.descs k) by omega]
      simp [h0]

theorem step_inv (hG : Good P) (h : Inv P m s g) (hl : Legal P m g i) : Inv P m (next P s i) (watch P s g i) := by
  have hle1 := h.le1
  have hle2 := h.le2
  have hle3 := h.le3
  have hle4 := h.le4
  have hle6 := h.le6
  have hn := n_pos P
  obtain ⟨cs1, cs2, cs3, cs4⟩ := cs_spec (i := i) h
  obtain ⟨cp1, cp2⟩ := cp_spec (i := i) h
  obtain ⟨fi1, fi2⟩ := fi_spec h
  have hS : g.reqs.length ≤ (watch P s g i).reqs.length := by rw [len_next]; omega
  have hcs : csAct P s i ≠ .wait → g.csn < g.reqs.length := by
    intro hw; rcases act_cases (csAct P s i) with ha | ha | ha
    · exact absurd ha hw
    · exact (cs1 ha).2.1
    · exact (cs2 ha).2.1
  have hcp : cpAct P s i ≠ .wait → g.cpn < g.dqn ∧ (P.csum = true → g.cpn < g.csn) := by
    intro hw; rcases act_cases (cpAct P s i) with ha | ha | ha
    · exact absurd ha hw
    · exact ⟨(cp1 ha).1, (cp1 ha).2.1⟩
    · exact ⟨(cp2 ha).1, (cp2 ha).2.1⟩
  have hfi : fiAct P s ≠ .wait → g.fin < g.cpn := by
    intro hw; rcases act_cases (fiAct P s) with ha | ha | ha
    · exact absurd ha hw
    · exact (fi1 ha).1
    · exact (fi2 ha).1
  have hcpn : g.cpn ≤ (watch P s g i).cpn := by rw [cpn_next]; split <;> omega
  have hcsn : g.csn ≤ (watch P s g i).csn := by rw [csn_next]; split <;> omega
  have hdqn : g.dqn ≤ (watch P s g i).dqn := by rw [dqn_next]; split <;> omega
  have hpl : (watch P s g i).pulses.length = g.fin := by
    have := h.pul
    show (if s.stValid = true then g.pulses ++ [(s.stLen, s.stTag)] else g.pulses).length = _
    cases hv : s.stValid <;> rw [hv] at this
    · exact this
    · rw [if_pos rfl, List.length_append]; exact this
  have hbk : ∀ k, eBeat P s g i k = none → (watch P s g i).descs k = g.descs k := by
    intro k he; show g.descs k ++ (eBeat P s g i k).toList = _; rw [he]; exact List.append_nil _
  have hbs : ∀ k d, eBeat P s g i k = some d → (watch P s g i).descs k = g.descs k ++ [d] := by
    intro k d he; show g.descs k ++ (eBeat P s g i k).toList = _; rw [he]; rfl
  constructor
  case le1 =>
    rw [fin_next]
    split
    · omega
    · rename_i hw; have := hfi hw; omega
  case le2 =>
    rw [cpn_next]
    split
    · omega
    · rename_i hw; have := (hcp hw).1; omega
  case le3 =>
    rw [dqn_next]
    split
    · rename_i hw; have := (dq_spec h hw).1; omega
    · omega
  case le4 =>
    rw [len_next]
    have := fin_mono (P := P) (s := s) (g := g) (i := i)
    cases ha : accept s i with
    | none => show g.reqs.length + 0 ≤ _; omega
    | some q => have := room_fin h (accept_rdy ha); show g.reqs.length + 1 ≤ _; omega
  case le5 =>
    intro hc
    have := h.le5 hc
    rw [cpn_next]
    split
    · omega
    · rename_i hw; have := (hcp hw).2 hc; omega
  case le6 =>
    rw [csn_next]
    split
    · omega
    · rename_i hw; have := hcs hw; omega
  case p1 =>
    show (if (accept s i).isSome = true then inc P s.start else s.start) = _
    rw [len_next, h.p1]
    cases accept s i with
    | none => rfl
    | some q => exact inc_mod P _
  case p2 =>
    show (if dqGo P s = true then inc P s.dqp else s.dqp) = _
    rw [dqn_next, h.p2]
    split
    · exact inc_mod P _
    · rfl
  case p3 =>
    show (if cpAct P s i = .wait then s.cpp else inc P s.cpp) = _
    rw [cpn_next, h.p3]
    split
    · rfl
    · exact inc_mod P _
  case p4 =>
    show (if fiAct P s = .wait then s.fin else inc P s.fin) = _
    rw [fin_next, h.p4]
    split
    · rfl
    · exact inc_mod P _
  case p5 =>
    show (if csAct P s i = .wait then s.csp else inc P s.csp) = _
    rw [csn_next, h.p5]
    split
    · rfl
    · exact inc_mod P _
  case mtu =>
    show mtuNext P i.mtu = _
    rw [mtuNext_eq, hl.mtu]
  case row => exact row_next h hl
  case idle => exact idle_next h
  case own =>
    intro t k hk
    have hk : upd? g.own ((accept s i).map fun _ => (P.mask s.start, some g.reqs.length)) t = some k := hk
    rw [len_next]
    cases ha : accept s i with
    | none => rw [ha] at hk; exact h.own t k hk
    | some q =>
      rw [ha] at hk
      have hk : upd g.own (P.mask s.start) (some g.reqs.length) t = some k := hk
      show _ ∧ k < g.reqs.length + 1
      by_cases ht : t = P.mask s.start
      · rw [ht, upd_same] at hk
        cases hk
        rw [ht, h.p1, mask_ptr]; exact ⟨rfl, by omega⟩
      · rw [upd_ne _ _ _ _ ht] at hk
        have := h.own t k hk
        exact ⟨this.1, by omega⟩
  case own' =>
    intro k h1 h2
    rw [len_next] at h2
    have hfm := fin_mono (P := P) (s := s) (g := g) (i := i)
    show upd? g.own ((accept s i).map fun _ => (P.mask s.start, some g.reqs.length)) (k % P.n) = some k
    cases ha : accept s i with
    | none => rw [ha] at h2; exact h.own' k (by omega) h2
    | some q =>
      rw [ha] at h2
      have h2 : k < g.reqs.length + 1 := h2
      have hroom := room_fin h (accept_rdy ha)
      show upd g.own (P.mask s.start) (some g.reqs.length) (k % P.n) = some k
      rw [h.p1, mask_ptr]
      rcases Nat.lt_or_ge k g.reqs.length with hlt | hge
      · rw [upd_ne]
        · exact h.own' k (by omega) hlt
        · intro e
          have := mod_inj_of_window (n := P.n) (a := g.fin) (by omega) (by omega) (by omega) (by omega) e
          omega
      · rw [show k = g.reqs.length by omega, upd_same]
  case fresh =>
    intro k hk
    have hk' : g.reqs.length ≤ k := by omega
    obtain ⟨f0, f9, f10, f11⟩ := h.fresh k hk'
    obtain ⟨he, hb⟩ := evs_fresh h hl hk'
    have hown : ∀ t, g.own t ≠ some k := by
      intro t ht; have := (h.own t k ht).2; omega
    unfold evs at he
    unfold view at f0 ⊢
    simp only [V.mk.injEq] at f0
    simp only [Ev.mk.injEq] at he
    obtain ⟨f1, f2, f3, f4, f5, f6, f7, f8⟩ := f0
    obtain ⟨g1, g2, g3, g4, g5, g6⟩ := he
    refine ⟨?_, ?_, ?_, ?_⟩
    · simp only [V.mk.injEq]
      refine ⟨?_, trivial, ?_, ?_, ?_, ?_, ?_, ?_⟩
      · exact List.getElem?_eq_none hk
      · show (match eRx g i _ with | some d => some d | none => g.rx _) = _; rw [g1]; exact f3
      · show (match eMap g i _ with | some d => some d | none => g.map _) = _; rw [g2]; exact f4
      · show (match eDeq g i _ with | some d => some d | none => g.resp _) = _; rw [g3]; exact f5
      · show g.rep _ + _ = _; rw [g4, f6]; rfl
      · show (match eSum s g i _ with | some t => some t | none => g.csum _) = _; rw [g5]; exact f7
      · show (g.cst _ || _) = _; rw [g6, f8]; rfl
    · rw [hbk k hb, f9]
    · show g.ops k ++ ((eBeat P s g i k).bind (writeOp P s)).toList = []
      rw [hb, f10]; rfl
    · show (g.cqTook k || (s.cqValid && i.cqReady && g.own s.cq.tag == some k)) = false
      rw [f11, beq_eq_false_iff_ne.mpr (hown _), Bool.and_false]; rfl
  case pul =>
    rw [hpl]
    show g.fin + (decide (fiAct P s ≠ .wait)).toNat = _
    rw [fin_next]
    split
    · rename_i hw; rw [hw]; rfl
    · rename_i hw; rw [decide_eq_true hw]; rfl
  case rdy =>
    intro hr
    rw [hpl, len_next]
    have hr : (match accept s i with | some _ => false | none => readyIn P s i && BufRing.room P.buf s.wr s.rd) = true := hr
    show _ ∧ (match accept s i with | some _ => true | none => s.rxValid && !i.rxReady) = false
    cases ha : accept s i with
    | some q => rw [ha] at hr; cases hr
    | none =>
      rw [ha] at hr
      unfold readyIn at hr
      simp only [Bool.and_eq_true, decide_eq_true_eq] at hr
      obtain ⟨⟨⟨_, hroom⟩, hv⟩, _⟩ := hr
      refine ⟨?_, ?_⟩
      · have := room_lt h hroom
        show g.reqs.length + 0 < _
        omega
      · show (s.rxValid && !i.rxReady) = false
        cases hv1 : s.rxValid <;> cases hv2 : i.rxReady <;> rw [hv1, hv2] at hv <;> first | rfl | cases hv
  case rxs =>
    have hold : ∀ k, k < g.reqs.length → (watch P s g i).place k = g.place k := fun k hk => place_old hk
    have hrange : (watch P s g i).rxOf P m = g.rxOf P m ++ shown (accept s i).isSome (rxOut P s) := by
      unfold G.rxOf
      rw [len_next]
      cases ha : accept s i with
      | none =>
        show (List.range (g.reqs.length + 0)).map _ = _ ++ []
        rw [List.append_nil, Nat.add_zero]
        apply List.map_congr_left
        intro k hk
        rw [hold k (List.mem_range.mp hk)]
      | some q =>
        show (List.range (g.reqs.length + 1)).map _ = _ ++ [_]
        rw [List.range_succ, List.map_append]
        congr 1
        · apply List.map_congr_left
          intro k hk
          rw [hold k (List.mem_range.mp hk)]
        · have : (watch P s g i).place g.reqs.length = s.wr := by
            show (if ((accept s i).isSome && g.reqs.length == g.reqs.length) = true then s.wr else g.place _) = _
            rw [ha]; simp
          simp only [List.map_cons, List.map_nil, this]
          unfold rxOut
          rw [h.mtu, h.p1, mask_ptr]
    rw [hrange]
    have key := Corundum.TxEngine.shown_next (rdy := i.rxReady) (go := (accept s i).isSome) (y := rxOut P s) h.rxs (by
      intro hgo
      obtain ⟨q, hq⟩ := Option.isSome_iff_exists.mp hgo
      rw [(h.rdy (accept_rdy hq)).2]; rfl)
    rw [← key]
    show (if (s.rxValid && i.rxReady) = true then g.rxs ++ [s.rx] else g.rxs) ++
      shown (match accept s i with | some _ => true | none => s.rxValid && !i.rxReady) (match accept s i with | some _ => rxOut P s | none => s.rx) = _
    cases accept s i <;> rfl
  case fe =>
    have := h.fe
    show (if (s.drValid && i.drReady) = true then g.fetches ++ [(s.drQueue, s.drTag)] else g.fetches).length +
      (if dqGo P s = true then true else s.drValid && !i.drReady).toNat = _
    rw [dqn_next]
    cases hd : dqGo P s with
    | true =>
      have hv := (dq_spec h hd).2.2.1
      rw [hv] at this ⊢
      have : g.fetches.length + 0 = g.dqn := this
      show g.fetches.length + 1 = g.dqn + 1
      omega
    | false =>
      cases hv : s.drValid <;> cases hr : i.drReady <;> rw [hv] at this
      · exact this
      · exact this
      · exact this
      · show (g.fetches ++ [_]).length + 0 = g.dqn
        rw [List.length_append]; exact this
  case mr =>
    intro k hk
    have hrx : g.rx k ≠ none := by
      have hk : (match eMap g i k with | some d => some d | none => g.map k) ≠ none := hk
      cases he : eMap g i k with
      | none => rw [he] at hk; exact h.mr k hk
      | some q => exact (eMap_spec h hl he).2.2.1
    obtain ⟨x, hx⟩ := Option.ne_none_iff_exists'.mp hrx
    rw [rx_old h hl hx]; simp
  case rl =>
    intro k x hx
    have hx : (match eRx g i k with | some d => some d | none => g.rx k) = some x := hx
    cases he : eRx g i k with
    | none => rw [he] at hx; exact h.rl k x hx
    | some y =>
      rw [he] at hx; cases hx
      exact (eRx_spec h hl he).2.2.2.2.2
  case oldq =>
    intro k hk
    have hm : g.map k ≠ none := by
      rw [dqn_next] at hk
      cases hd : dqGo P s with
      | false => rw [hd] at hk; exact h.oldq k hk
      | true =>
        rw [hd] at hk
        have hk : k < g.dqn + 1 := hk
        rcases Nat.lt_or_ge k g.dqn with hlt | hge
        · exact h.oldq k hlt
        · rw [show k = g.dqn by omega]; exact (dq_spec h hd).2.1
    obtain ⟨q, hq⟩ := Option.ne_none_iff_exists'.mp hm
    rw [map_old h hl hq]; simp
  case rq =>
    intro k hk
    have hk : (match eDeq g i k with | some d => some d | none => g.resp k) ≠ none := hk
    cases he : eDeq g i k with
    | none => rw [he] at hk; have := h.rq k hk; omega
    | some d => have := (eDeq_spec h hl he).2.2.2.1; omega
  case gd =>
    intro k hk
    apply good_mono h hl
    cases he : eBeat P s g i k with
    | none => rw [hbk k he] at hk; exact h.gd k hk
    | some d => exact (eBeat_spec h hl he).2.2.2.2.2.1
  case rp =>
    intro k hk
    apply complete_mono
    have hk : 0 < g.rep k + (eFor g i.wstat k).toNat := hk
    cases he : eFor g i.wstat k with
    | false => rw [he] at hk; exact h.rp k hk
    | true =>
      obtain ⟨t, h1, h2⟩ := eFor_spec he
      obtain ⟨k0, a1, _, _, _, a2⟩ := wstat_spec h hl h1
      rw [h2] at a1; cases a1; exact a2
  case olds =>
    intro k hk
    rw [csn_next] at hk
    have hold : ∀ k, k < g.csn → (watch P s g i).bad k = true ∨ (watch P s g i).csum k ≠ none := by
      intro k hk
      rcases h.olds k hk with hb | hb
      · exact Or.inl (bad_mono h hl hb)
      · obtain ⟨c, hc⟩ := Option.ne_none_iff_exists'.mp hb
        right; rw [csum_old h hc]; simp
    rcases act_cases (csAct P s i) with ha | ha | ha
    · rw [ha] at hk; exact hold k hk
    · rw [ha] at hk
      have hk : k < g.csn + 1 := hk
      rcases Nat.lt_or_ge k g.csn with hlt | hge
      · exact hold k hlt
      · rw [show k = g.csn by omega]; exact Or.inl (bad_mono h hl (cs1 ha).2.2)
    · rw [ha] at hk
      have hk : k < g.csn + 1 := hk
      rcases Nat.lt_or_ge k g.csn with hlt | hge
      · exact hold k hlt
      · rw [show k = g.csn by omega]
        right
        obtain ⟨_, _, c1, c2⟩ := cs2 ha
        obtain ⟨c, hc⟩ := Option.isSome_iff_exists.mp c2
        have : eSum s g i g.csn = some c := by unfold eSum; rw [c1, hc]; simp
        show (match eSum s g i g.csn with | some d => some d | none => g.csum _) ≠ none
        rw [this]; simp
  case csf =>
    intro k hk
    rw [csn_next] at hk
    show (match eSum s g i k with | some d => some d | none => g.csum k) = none
    cases he : eSum s g i k with
    | none =>
      apply h.csf k
      split at hk <;> omega
    | some c =>
      obtain ⟨a1, a2, a3⟩ := eSum_spec he
      have hw : csAct P s i ≠ .wait := by
        intro hw
        have := cs3 hw a1
        rw [a3] at this; cases this
      rw [if_neg hw] at hk
      omega
  case csr =>
    intro hr
    have hr : ((at_ P s s.csp).active && decide (s.csp ≠ s.start) && P.csum && decide (csAct P s i = .wait)) = true := hr
    rw [Bool.and_eq_true] at hr
    have h1 := cs4 (by simpa using hr.1)
    have hw : csAct P s i = .wait := of_decide_eq_true hr.2
    rw [csn_next, if_pos hw]
    refine ⟨?_, by omega⟩
    have := hr.1
    rw [Bool.and_eq_true] at this
    exact this.2
  case oldc =>
    intro k hk
    have key : g.bad k = true ∨ (g.good k = true ∧ 0 < g.rep k) := by
      rw [cpn_next] at hk
      rcases act_cases (cpAct P s i) with ha | ha | ha
      · rw [ha] at hk; exact h.oldc k hk
      · rw [ha] at hk
        have hk : k < g.cpn + 1 := hk
        rcases Nat.lt_or_ge k g.cpn with hlt | hge
        · exact h.oldc k hlt
        · rw [show k = g.cpn by omega]; exact Or.inl (cp1 ha).2.2
      · rw [ha] at hk
        have hk : k < g.cpn + 1 := hk
        rcases Nat.lt_or_ge k g.cpn with hlt | hge
        · exact h.oldc k hlt
        · rw [show k = g.cpn by omega]; exact Or.inr ⟨(cp2 ha).2.2.1, (cp2 ha).2.2.2.1⟩
    rcases key with hb | ⟨h1, h2⟩
    · exact Or.inl (bad_mono h hl hb)
    · refine Or.inr ⟨good_mono h hl h1, ?_⟩
      show 0 < g.rep k + _
      omega
  case oldf =>
    intro k hk
    have key : g.bad k = true ∨ (g.good k = true ∧ g.cst k = true) := by
      rw [fin_next] at hk
      rcases act_cases (fiAct P s) with ha | ha | ha
      · rw [ha] at hk; exact h.oldf k hk
      · rw [ha] at hk
        have hk : k < g.fin + 1 := hk
        rcases Nat.lt_or_ge k g.fin with hlt | hge
        · exact h.oldf k hlt
        · rw [show k = g.fin by omega]; exact Or.inl (fi1 ha).2
      · rw [ha] at hk
        have hk : k < g.fin + 1 := hk
        rcases Nat.lt_or_ge k g.fin with hlt | hge
        · exact h.oldf k hlt
        · rw [show k = g.fin by omega]; exact Or.inr (fi2 ha).2
    rcases key with hb | ⟨h1, h2⟩
    · exact Or.inl (bad_mono h hl hb)
    · exact Or.inr ⟨good_mono h hl h1, by show (g.cst k || _) = true; rw [h2]; rfl⟩
  case ck =>
    intro k hk
    cases ht : g.cqTook k with
    | true =>
      have := h.ck k ht
      exact ⟨by omega, good_mono h hl this.2⟩
    | false =>
      obtain ⟨_, _, a1, a2⟩ := took_old h ht hk
      exact ⟨by omega, good_mono h hl a2⟩
  case cs =>
    intro k hk
    have hk : (g.cst k || eFor g i.cstat k) = true := hk
    have : g.cqTook k = true := by
      rcases (Bool.or_eq_true _ _).mp hk with hk | hk
      · exact h.cs k hk
      · obtain ⟨t, h1, h2⟩ := eFor_spec hk
        obtain ⟨k0, a1, _, _, a2, _⟩ := cstat_spec h hl h1
        rw [h2] at a1; cases a1; exact a2
    show (g.cqTook k || _) = true
    rw [this]; rfl
  case ofC =>
    intro hv
    have hv : (if cpAct P s i = .go then true else s.cqValid && !i.cqReady) = true := hv
    show ∃ k, _ ∧ _ ∧ _ ∧ _ ∧ (if cpAct P s i = .go then cqOut P s else s.cq).tag = _
    by_cases ha : cpAct P s i = .go
    · obtain ⟨c1, _, c2, c3, c4⟩ := cp2 ha
      refine ⟨g.cpn, ?_, ?_, good_mono h hl c2, ?_, ?_⟩
      · rw [fin_next]
        split
        · omega
        · rename_i hw; have := hfi hw; omega
      · rw [cpn_next, ha]; show _ < g.cpn + 1; omega
      · cases ht : (watch P s g i).cqTook g.cpn with
        | false => rfl
        | true =>
          cases ht0 : g.cqTook g.cpn with
          | true => have := (h.ck _ ht0).1; omega
          | false => have := (took_old h ht0 ht).2.2.1; omega
      · rw [if_pos ha]
        show P.mask s.cpp = _
        rw [h.p3, mask_ptr]
    · rw [if_neg ha] at hv
      rw [Bool.and_eq_true] at hv
      obtain ⟨k, a1, a2, a3, a4, a5⟩ := h.ofC hv.1
      refine ⟨k, ?_, by omega, good_mono h hl a3, ?_, by rw [if_neg ha]; exact a5⟩
      · rw [fin_next]
        rcases act_cases (fiAct P s) with hb | hb | hb
        · rw [hb]; exact a1
        · rw [hb]
          show g.fin + 1 ≤ k
          rcases Nat.lt_or_ge g.fin k with hlt | hge
          · exact hlt
          · have : k = g.fin := by omega
            have h2 := (fi1 hb).2
            rw [← this, good_not_bad a3] at h2; cases h2
        · rw [hb]
          show g.fin + 1 ≤ k
          rcases Nat.lt_or_ge g.fin k with hlt | hge
          · exact hlt
          · have : k = g.fin := by omega
            have h2 := h.cs _ (fi2 hb).2.2
            rw [← this, a4] at h2; cases h2
      · show (g.cqTook k || (s.cqValid && i.cqReady && g.own s.cq.tag == some k)) = false
        have : i.cqReady = false := by simpa using hv.2
        rw [a4, this]; simp
  case cur1 =>
    intro hall
    simp only [next]
    cases hb : beat P s i with
    | none =>
      apply h.cur1
      intro k
      have he : eBeat P s g i k = none := by unfold eBeat; rw [hb]; rfl
      rw [← hbk k he]; exact hall k
    | some d =>
      cases hd : d.last with
      | true => simp only [hd, if_true, and_self]
      | false =>
        exfalso
        obtain ⟨_, k, a1, _, _, _, a2, _⟩ := desc_spec h hl (beat_desc hb).1
        have he : eBeat P s g i k = some d := by unfold eBeat; rw [hb]; simp [Option.filter, a1]
        have := hall k
        rw [hbs k d he] at this
        rcases this with h1 | h1
        · simp at h1
        · rw [complete_snoc, a2, hd] at h1; cases h1
  case cur2 =>
    intro k hk hc
    cases hb : beat P s i with
    | none =>
      have he : ∀ k, eBeat P s g i k = none := fun k => by unfold eBeat; rw [hb]; rfl
      rw [hbk k (he k)] at hk hc
      obtain ⟨c1, x, hx, c2, c3⟩ := h.cur2 k hk hc
      refine ⟨fun j hj => by rw [hbk j (he j)]; exact c1 j hj, x, rx_old h hl hx, ?_⟩
      rw [hbk k (he k)]
      simp only [next, hb]
      exact ⟨c2, c3⟩
    | some d =>
      obtain ⟨hdl, k0, a1, _, _, _, a2, a3, _⟩ := desc_spec h hl (beat_desc hb).1
      have hne : ∀ j, j ≠ k0 → eBeat P s g i j = none := by
        intro j hj; unfold eBeat; rw [hb]; simp [Option.filter, a1, Ne.symm hj]
      have he : eBeat P s g i k0 = some d := by unfold eBeat; rw [hb]; simp [Option.filter, a1]
      have hkk : k = k0 := by
        apply Classical.byContradiction
        intro hkk
        rw [hbk k (hne k hkk)] at hk hc
        rcases a3 k hkk with h1 | h1
        · exact hk h1
        · rw [h1] at hc; cases hc
      subst hkk
      obtain ⟨x, hx, hxm, c1, c2, _⟩ := beat_len hG h hl he
      rw [hbs k d he, complete_snoc, a2, Bool.false_or] at hc
      refine ⟨fun j hj => by rw [hbk j (hne j hj)]; exact a3 j hj, x, rx_old h hl hx, ?_⟩
      rw [hbs k d he, total_snoc]
      simp only [next, hb, hc, Bool.false_eq_true, if_false]
      unfold doneNext
      cases hd : s.dDone with
      | true =>
        have := c2 hd
        rw [decide_eq_true (by omega)]
        rw [ite_self]
        exact ⟨rfl, fun e => by cases e⟩
      | false =>
        obtain ⟨t1, t2, t3⟩ := c1 hd
        rw [t2, t3]
        have hlt : x.len < 2 ^ P.lw := by have := hG.max; omega
        split
        · refine ⟨?_, fun _ => Nat.mod_eq_of_lt (by omega)⟩
          rw [decide_eq_false (by omega)]
        · refine ⟨?_, fun e => by cases e⟩
          rw [decide_eq_true (by omega)]
  case opsE =>
    intro k
    show g.ops k ++ ((eBeat P s g i k).bind (writeOp P s)).toList = _
    cases he : eBeat P s g i k with
    | none =>
      rw [hbk k he, bind_none (writeOp P s) rfl, List.append_nil, h.opsE k]
      cases hd : g.descs k with
      | nil => simp only [carve]
      | cons a as =>
        obtain ⟨r, hr, _⟩ := good_some (h.gd k (by rw [hd]; simp))
        obtain ⟨x, hx⟩ := resp_rx h (k := k) (by rw [hr]; simp)
        have hlt := h.rq k (by rw [hr]; simp)
        rw [rx_old h hl hx, hx, place_old (by omega)]
    | some d =>
      obtain ⟨x, hx, hw⟩ := ops_next hG h hl he
      have hlt := (eBeat_spec h hl he).2.2.2.2.1
      rw [hbs k d he, carve_snoc, len_some (rx_old h hl hx), place_old hlt, h.opsE k, len_some hx, bind_toList (writeOp P s) rfl, hw]

end

end Corundum.RxEngine
