import Verif.Proof.DescFetch

/-!
C68: the descriptor fetch engine (desc_fetch.v) passes every request to its queue manager, reports every response once, fetches every
granted block to its own slot of the descriptor RAM, commits it and sends it out only after the fetch has finished, in the order the grants
came.
-/
namespace Corundum.DescFetch
open Corundum.CplWrite (ix ix')

/-- **C68 (requests).**  The requests taken by the queue managers, followed by the one on offer, are the accepted requests, in order, each on its own port, with its
queue number and tag. -/
theorem C68_asks (P : Params) (hG : Good P) (is : List In) (hl : LegalRun P {} is) :
    let x := run P {} is
    x.g.asks ++ offered P x.s.eqValid (fun p => (p, x.s.eqQueue, x.s.eqTag)) = x.g.reqs.map fun q => (q.sel, q.queue, q.tag) :=
  (inv_run hG is (inv_init P) hl).ask

/-- **C68 (status).**  A request status is shown with every response handed over, in the same cycle, and says what the response says; no request is answered
twice, and a response carries the tag of its request and comes from its port. -/
theorem C68_status (P : Params) (hG : Good P) (is : List In) (hl : LegalRun P {} is) :
    let x := run P {} is
    x.g.pulses = x.g.handed.map (fun y => statOf y.2.2) ∧ (x.g.handed.map (·.1)).Nodup ∧
    (∀ k p r, (k, p, r) ∈ x.g.handed → ∃ q : Req, x.g.reqs[k]? = some q ∧ q.sel = p ∧ q.tag = r.tag) := by
  have h := inv_run hG is (inv_init P) hl
  have hc := han_run hG is (inv_init P) (han_init P) hl
  refine ⟨pulse_len h hc, ?_, fun k p r hm => ?_⟩
  · have := h.ord
    rw [← hc.eq, List.map_append] at this
    exact (List.nodup_append.mp this).1
  · obtain ⟨q, q1, q2, q3, _⟩ := h.usd k p r (by rw [← hc.eq]; exact List.mem_append_left _ hm)
    exact ⟨q, q1, q2, q3⟩

/-- C68: the responses used so far are those handed over, and at most one more: the one whose `ready` is shown. -/
theorem C68_used (P : Params) (hG : Good P) (is : List In) (hl : LegalRun P {} is) :
    let x := run P {} is
    x.g.used = x.g.handed ++ (List.range P.ports).filterMap (fun p => if x.s.respReady p then (x.g.held p).map fun y => (y.1, p, y.2) else none) ∧
    x.g.used.length ≤ x.g.handed.length + 1 := by
  have h := inv_run hG is (inv_init P) hl
  have hc := han_run hG is (inv_init P) (han_init P) hl
  refine ⟨hc.eq.symm, ?_⟩
  have h1 := congrArg List.length h.pul
  have h2 := congrArg List.length (pulse_len h hc)
  rw [List.length_append, List.length_map] at h1
  rw [List.length_map] at h2
  have : (shown (run P {} is).s.stValid (run P {} is).s.st).length ≤ 1 := by unfold shown; split <;> simp
  omega

/-- **C68 (fetch).**  The fetches taken by the DMA engine, followed by the one on offer, are one for every granted block, in the order of the grants: from the
address the queue manager gave, of the size of the block, to slot `k % DESC_TABLE_SIZE` of the descriptor RAM. -/
theorem C68_fetch (P : Params) (hG : Good P) (is : List In) (hl : LegalRun P {} is) :
    let x := run P {} is
    x.g.dmas ++ shown x.s.dValid x.s.d = x.g.grants.mapIdx (fun k y => fetchOf P k y.2) :=
  (inv_run hG is (inv_init P) hl).dm

/-- C68: a block fits into its slot, the slot is within the descriptor RAM, and blocks that are not over yet have different slots. -/
theorem C68_slots (P : Params) (hG : Good P) (is : List In) (hl : LegalRun P {} is) :
    let x := run P {} is
    (∀ (k p : Nat) (r : Resp), x.g.grants[k]? = some (p, r) → (fetchOf P k r).len ≤ P.slot ∧ (fetchOf P k r).ram + (fetchOf P k r).len ≤ P.n * P.slot) ∧
    (∀ (k j p q : Nat) (r t : Resp), x.g.fin ≤ k → k < j → x.g.grants[k]? = some (p, r) → x.g.grants[j]? = some (q, t) →
      (fetchOf P k r).ram + (fetchOf P k r).len ≤ (fetchOf P j t).ram ∨ (fetchOf P j t).ram + (fetchOf P j t).len ≤ (fetchOf P k r).ram) := by
  have h := inv_run hG is (inv_init P) hl
  have hfit : ∀ (k p : Nat) (r : Resp), (run P {} is).g.grants[k]? = some (p, r) → (fetchOf P k r).len ≤ P.slot := by
    intro k p r hk
    obtain ⟨_, k0, hu⟩ := grant_used hk
    obtain ⟨q, _, _, _, hb⟩ := h.usd _ _ _ hu
    exact (len_fit hG hb).2.2
  have hn := n_pos P
  refine ⟨fun k p r hk => ⟨hfit k p r hk, ?_⟩, fun k j p q r t hf hkj hk hj => ?_⟩
  · have h1 := hfit k p r hk
    have h2 := Nat.mod_lt k hn
    have := Nat.mul_le_mul_right P.slot (show k % P.n + 1 ≤ P.n from h2)
    rw [Nat.add_mul] at this
    show k % P.n * P.slot + _ ≤ _
    omega
  · have h1 := hfit k p r hk
    have h2 := hfit j q t hj
    have h3 := h.le3
    have h4 := ix hj
    have hne : k % P.n ≠ j % P.n := by
      intro e
      have := Corundum.Driver.mod_inj_of_window (n := P.n) (a := (run P {} is).g.fin) hf (by omega) (by omega) (by omega) e
      omega
    show k % P.n * P.slot + _ ≤ j % P.n * P.slot ∨ j % P.n * P.slot + _ ≤ k % P.n * P.slot
    rcases Nat.lt_or_ge (k % P.n) (j % P.n) with hlt | hge
    · left
      have := Nat.mul_le_mul_right P.slot (show k % P.n + 1 ≤ j % P.n from hlt)
      rw [Nat.add_mul] at this
      omega
    · right
      have := Nat.mul_le_mul_right P.slot (show j % P.n + 1 ≤ k % P.n by omega)
      rw [Nat.add_mul] at this
      omega

/-- **C68 (send).**  The reads taken by the stream client, followed by the one on offer, are for the first `rdn` granted blocks, in order: the same bytes of the
descriptor RAM the block was fetched to, under the tag of the request; each of these blocks has been fetched. -/
theorem C68_reads (P : Params) (hG : Good P) (is : List In) (hl : LegalRun P {} is) :
    let x := run P {} is
    x.g.reads ++ shown x.s.rValid x.s.r = (x.g.grants.take x.g.rdn).mapIdx (fun k y => readOf P k y.2) ∧
    x.g.rdn ≤ x.g.grants.length ∧ (∀ k, k < x.g.rdn → x.g.got k = true) := by
  have h := inv_run hG is (inv_init P) hl
  exact ⟨h.rd, h.le2, h.oldr⟩

/-- **C68 (data).**  From the moment the DMA engine reports a fetch finished until the stream client reports its read finished, the bytes of the read are the
bytes the DMA engine had written: no other fetch touches them. -/
theorem C68_data (P : Params) (hG : Good P) (is : List In) (hl : LegalRun P {} is) (k : Nat) (d : Dma) :
    let x := run P {} is
    x.g.dmas[k]? = some d → x.g.got k = true → x.g.sent k = false →
    BufRing.read x.g.ram d.ram d.len = x.g.data k ∧
    (∀ r, x.g.reads[k]? = some r → r.ram = d.ram ∧ r.len = d.len) := by
  intro x hd hg hs
  have h := inv_run hG is (inv_init P) hl
  have hf : x.g.fin ≤ k := by
    apply Nat.le_of_not_lt
    intro hlt
    have := h.oldf k hlt
    rw [hs] at this; cases this
  refine ⟨h.data k d hf hg hd, fun r hr => ?_⟩
  obtain ⟨p, y, g1, g2, _⟩ := dma_at h hd
  obtain ⟨p', y', g1', g2', _⟩ := read_at h hr
  rw [g1] at g1'
  cases g1'
  rw [g2, g2']
  exact ⟨rfl, rfl⟩

/-- **C68 (commit).**  If the queue managers take commits when they are offered (as `queue_manager` does), or there is only one port, the dequeue operations
committed, followed by the one on offer, are those of the blocks being sent, in order, each on its port with its operation tag. -/
theorem C68_commit (P : Params) (hG : Good P) (is : List In) (hl : LegalRun P {} is) (hp : PromptRun P {} is) :
    let x := run P {} is
    x.g.commits ++ offered P x.s.coValid (fun p => (p, x.s.coTag)) = (x.g.grants.take x.g.rdn).map (fun y => (y.1, y.2.opTag)) :=
  com_run hG is (inv_init P) (com_init P) hl hp

/-- C68: at most `DESC_TABLE_SIZE` requests are neither refused nor sent out. -/
theorem C68_limit (P : Params) (hG : Good P) (is : List In) (hl : LegalRun P {} is) :
    let g := (run P {} is).g
    g.reqs.length ≤ g.fin + (g.used.countP fun y => !y.2.2.ok) + P.n ∧ g.fin + (g.used.countP fun y => !y.2.2.ok) ≤ g.reqs.length ∧
    (∀ k, k < g.fin → g.sent k = true) := by
  have h := inv_run hG is (inv_init P) hl
  have h1 := h.cnt
  have h2 := h.cle
  exact ⟨by omega, by omega, h.oldf⟩

/-- **C68 (no waiting for slots).**  A response on offer is used in the same cycle, or an earlier one of a lower port is, unless a fetch is on offer to the DMA engine:
there is always a slot for it. -/
theorem C68_responds (P : Params) (hG : Good P) (is : List In) (hl : LegalRun P {} is) (i : In) (p k : Nat) (r : Resp) :
    let x := run P {} is
    Legal P x.g i → p < P.ports → i.resp p = some (k, r) → x.s.respReady p = false → x.s.dValid = false →
    ∃ p' k' r', p' ≤ p ∧ i.resp p' = some (k', r') ∧ (step P x i).g.used = x.g.used ++ [(k', p', r')] ∧ (step P x i).s.respReady p' = true := by
  intro x hi hp hr hy hd
  have h := inv_run hG is (inv_init P) hl
  have hpr := proc_room h hi hp hr hy
  have hd' : (run P {} is).s.dValid = false := hd
  rw [hd'] at hpr
  simp only [Bool.false_eq_true, if_false] at hpr
  have hsome : (enc P x.s i).isSome = true := by
    unfold enc
    rw [List.isSome_findSome?, List.any_eq_true]
    exact ⟨p, List.mem_range.mpr hp, by rw [hr, hy]; rfl⟩
  cases he : enc P x.s i with
  | none => rw [he] at hsome; cases hsome
  | some y =>
    obtain ⟨p', k', r'⟩ := y
    obtain ⟨e1, e2, e3⟩ := enc_spec he
    have hpr' : proc P x.s i = some (p', k', r') := hpr.trans he
    refine ⟨p', k', r', ?_, e2, ?_, ?_⟩
    · apply Nat.le_of_not_lt
      intro hlt
      unfold enc at he
      obtain ⟨l1, a, l2, h1, h2, h3⟩ := List.findSome?_eq_some_iff.mp he
      have hap : a = p' := by
        cases hra : i.resp a with
        | none => rw [hra] at h2; cases h2
        | some z =>
          rw [hra] at h2
          cases hya : x.s.respReady a with
          | true => rw [hya] at h2; cases h2
          | false => rw [hya] at h2; simp at h2; exact h2.1
      have hlen : l1.length = a := by
        have hb : l1.length < P.ports := by
          have := congrArg List.length h1
          rw [List.length_range, List.length_append, List.length_cons] at this
          omega
        have := congrArg (·[l1.length]?) h1
        simp only [List.getElem?_append_right (Nat.le_refl _), Nat.sub_self, List.getElem?_cons_zero, List.getElem?_range hb] at this
        exact Option.some.inj this
      have hm : p ∈ l1 := by
        have hb : p < l1.length := by omega
        have := congrArg (·[p]?) h1
        simp only [List.getElem?_append_left hb, List.getElem?_range hp] at this
        exact List.mem_of_getElem? this.symm
      have := h3 p hm
      rw [hr, hy] at this
      cases this
    · show x.g.used ++ _ = _
      rw [hpr']; rfl
    · show (match proc P x.s i with | some (p, _) => fun q => decide (q = p) | none => fun _ => false) p' = true
      rw [hpr']; simp

/-- **C68 (accepts).**  When the engine is enabled, fewer than `DESC_TABLE_SIZE` requests are in the works, and no request waits for its queue manager,
a request is accepted in the next cycle, unless one is accepted in this one. -/
theorem C68_accepts (P : Params) (hG : Good P) (is : List In) (hl : LegalRun P {} is) (i : In) :
    let x := run P {} is
    i.enable = true → x.g.reqs.length < x.g.fin + (x.g.used.countP fun y => !y.2.2.ok) + P.n →
    (∀ p, p < P.ports → x.s.eqValid p = true → i.askReady p = true) → (x.s.reqReady = false ∨ i.req = none) →
    (step P x i).s.reqReady = true := by
  intro x he hc hq ha
  have h := inv_run hG is (inv_init P) hl
  have ha' : accept x.s i = none := by
    unfold accept
    rcases ha with ha | ha
    · rw [ha]; rfl
    · rw [ha]; split <;> rfl
  show readyNext P x.s i = true
  unfold readyNext
  rw [ha']
  have h1 : x.s.count + x.g.fin + (x.g.used.countP fun x => !x.2.2.ok) = x.g.reqs.length := h.cnt
  have h2 : x.g.used.length ≤ x.g.reqs.length := used_le h
  have h3 := ulen x.g
  have hr : room P x.s = true := (room_eq h).trans (decide_eq_true (show x.g.grants.length < x.g.fin + P.n by omega))
  rw [he, hr, decide_eq_true (show x.s.count < P.n by omega)]
  simp only [Bool.true_and, Bool.or_eq_true, Bool.not_eq_true']
  cases hv : P.any x.s.eqValid with
  | false => exact Or.inl rfl
  | true =>
    right
    obtain ⟨p, hp, hv⟩ := (any_true _ _).mp hv
    exact (any_true _ _).mpr ⟨p, hp, by rw [hv, hq p hp hv]; rfl⟩

/-- **C68 (no deadlock).**  When nothing is on offer, every request has been answered, every fetch reported and every read reported, then the engine is moving
(a block is started or finished at this clock edge), or all blocks have been sent out and all requests are over. -/
theorem C68_no_deadlock (P : Params) (hG : Good P) (is : List In) (hl : LegalRun P {} is) (i : In) :
    let x := run P {} is
    (∀ p, x.s.eqValid p = false) → x.s.dValid = false → (∀ p, x.s.coValid p = false) → x.s.rValid = false →
    (∀ k, k < x.g.asks.length → x.g.answered k = true) → (∀ k, k < x.g.dmas.length → x.g.got k = true) → (∀ k, k < x.g.reads.length → x.g.sent k = true) →
    (step P x i).g.rdn = x.g.rdn + 1 ∨ (step P x i).g.fin = x.g.fin + 1 ∨
    (x.g.fin = x.g.grants.length ∧ x.g.rdn = x.g.grants.length ∧ x.g.used.length = x.g.reqs.length ∧ x.g.reqs.length = x.g.fin + (x.g.used.countP fun y => !y.2.2.ok)) := by
  intro x he hd hc hr ha hg hs
  have h := inv_run hG is (inv_init P) hl
  have h1 : x.g.fin ≤ x.g.rdn := h.le1
  have h2 : x.g.rdn ≤ x.g.grants.length := h.le2
  have hdl : x.g.dmas.length + x.s.dValid.toNat = x.g.grants.length := dlen h
  have hrl : x.g.reads.length + x.s.rValid.toNat = x.g.rdn := rlen h
  rw [hd] at hdl
  rw [hr] at hrl
  have hdl : x.g.dmas.length + 0 = x.g.grants.length := hdl
  have hrl : x.g.reads.length + 0 = x.g.rdn := hrl
  rcases Nat.lt_or_ge x.g.rdn x.g.grants.length with hlt | hge
  · left
    obtain ⟨⟨p, r⟩, hgr⟩ := ix' hlt
    have : readGo P x.s = true := by
      rw [readGo_eq h hgr]
      show (x.g.got x.g.rdn && !x.s.coValid p && !x.s.rValid) = true
      rw [hg _ (by omega), hc p, hr]; rfl
    show (if readGo P x.s then x.g.rdn + 1 else x.g.rdn) = _
    rw [this]; rfl
  rcases Nat.lt_or_ge x.g.fin x.g.grants.length with hlt | hge'
  · right; left
    have : finGo P x.s = true := by
      rw [finGo_eq h hlt]
      exact hs _ (show x.g.fin < _ by omega)
    show (if finGo P x.s then x.g.fin + 1 else x.g.fin) = _
    rw [this]; rfl
  · right; right
    have hask := congrArg List.length h.ask
    have hno : offered P x.s.eqValid (fun p => (p, x.s.eqQueue, x.s.eqTag)) = [] := cold x.s.eqValid _ _ fun p _ => he p
    have hask : (x.g.asks ++ offered P x.s.eqValid (fun p => (p, x.s.eqQueue, x.s.eqTag))).length = _ := hask
    rw [hno, List.append_nil, List.length_map] at hask
    have hask : x.g.asks.length = x.g.reqs.length := hask
    have hle : x.g.used.length ≤ x.g.reqs.length := used_le h
    have hall : x.g.reqs.length ≤ x.g.used.length := by
      have := Sched.nodup_length_le (x.g.used.length) (l := (List.range x.g.reqs.length).map fun k => (x.g.used.map (·.1)).idxOf k) ?_ ?_
      · rwa [List.length_map, List.length_range] at this
      · rw [List.nodup_iff_pairwise_ne, List.pairwise_map]
        apply List.Pairwise.imp_of_mem _ List.nodup_range
        intro a b ha' hb' hab e
        have ha' := List.mem_range.mp ha'
        have hb' := List.mem_range.mp hb'
        obtain ⟨p, r, hm⟩ := h.ans a (ha a (by omega))
        have hma : a ∈ x.g.used.map (·.1) := List.mem_map.mpr ⟨_, hm, rfl⟩
        obtain ⟨p', r', hm'⟩ := h.ans b (ha b (by omega))
        have hmb : b ∈ x.g.used.map (·.1) := List.mem_map.mpr ⟨_, hm', rfl⟩
        have e1 : (x.g.used.map (·.1))[(x.g.used.map (·.1)).idxOf a]? = some a := by
          rw [List.getElem?_eq_getElem (List.idxOf_lt_length_of_mem hma), List.getElem_idxOf]
        have e2 : (x.g.used.map (·.1))[(x.g.used.map (·.1)).idxOf b]? = some b := by
          rw [List.getElem?_eq_getElem (List.idxOf_lt_length_of_mem hmb), List.getElem_idxOf]
        have e : (x.g.used.map (·.1)).idxOf a = (x.g.used.map (·.1)).idxOf b := e
        rw [e, e2] at e1
        exact hab (Option.some.inj e1).symm
      · intro k hk
        obtain ⟨a, ha', rfl⟩ := List.mem_map.mp hk
        have ha' := List.mem_range.mp ha'
        obtain ⟨p, r, hm⟩ := h.ans a (ha a (by omega))
        have hma : a ∈ x.g.used.map (·.1) := List.mem_map.mpr ⟨_, hm, rfl⟩
        have := List.idxOf_lt_length_of_mem hma
        rwa [List.length_map] at this
    have hu := ulen x.g
    exact ⟨by omega, by omega, by omega, by omega⟩

/-! ### Concrete runs -/

def legalB (P : Params) (g : G) (i : In) : Bool :=
  (match i.req with | some q => decide (q.sel < P.ports) | none => true) &&
  (List.range P.ports).all (fun p =>
    (match i.resp p with
      | some (k, r) => (match g.reqs[k]? with
        | some q => q.sel == p && q.tag == r.tag && decide (r.blk < 2 ^ P.lbw) && decide (k < g.asks.length) && !g.answered k
        | none => false)
      | none => true) &&
    (match g.held p with | some y => i.resp p == some y | none => true)) &&
  (match i.fstat with | some (t, k) => (match g.dmas[k]? with | some d => d.tag == t && !g.got k | none => false) | none => true) &&
  (match i.rstat with | some (t, k) => (match g.reads[k]? with | some d => d.tag == t && !g.sent k | none => false) | none => true) &&
  i.pokes.all fun w => (List.range g.dmas.length).any fun k =>
    match g.dmas[k]? with | some d => !g.got k && decide (d.ram ≤ w.1) && decide (w.1 < d.ram + d.len) | none => false

theorem legal_of {P : Params} {g : G} {i : In} (h : legalB P g i = true) : Legal P g i := by
  unfold legalB at h
  rw [Bool.and_eq_true, Bool.and_eq_true, Bool.and_eq_true, Bool.and_eq_true, List.all_eq_true, List.all_eq_true] at h
  obtain ⟨⟨⟨⟨h1, h2⟩, h3⟩, h4⟩, h5⟩ := h
  refine ⟨fun q hq => ?_, fun p hp k r hr => ?_, fun p hp y hy => ?_, fun t k ht => ?_, fun t k ht => ?_, fun w hw => ?_⟩
  · rw [hq] at h1; exact of_decide_eq_true h1
  · have := h2 p (List.mem_range.mpr hp)
    rw [Bool.and_eq_true, hr] at this
    obtain ⟨a, _⟩ := this
    dsimp only at a
    cases hq : g.reqs[k]? with
    | none => rw [hq] at a; cases a
    | some q =>
      rw [hq] at a
      simp only [Bool.and_eq_true, beq_iff_eq, Bool.not_eq_true', decide_eq_true_eq] at a
      exact ⟨q, rfl, a.1.1.1.1, a.1.1.1.2, a.1.1.2, a.1.2, a.2⟩
  · have := h2 p (List.mem_range.mpr hp)
    rw [Bool.and_eq_true, hy] at this
    exact beq_iff_eq.mp this.2
  · rw [ht] at h3
    dsimp only at h3
    cases ho : g.dmas[k]? with
    | none => rw [ho] at h3; cases h3
    | some d =>
      rw [ho] at h3
      simp only [Bool.and_eq_true, Bool.not_eq_true', beq_iff_eq] at h3
      exact ⟨d, rfl, h3.1, h3.2⟩
  · rw [ht] at h4
    dsimp only at h4
    cases ho : g.reads[k]? with
    | none => rw [ho] at h4; cases h4
    | some d =>
      rw [ho] at h4
      simp only [Bool.and_eq_true, Bool.not_eq_true', beq_iff_eq] at h4
      exact ⟨d, rfl, h4.1, h4.2⟩
  · have := h5 w hw
    rw [List.any_eq_true] at this
    obtain ⟨k, _, hk⟩ := this
    cases ho : g.dmas[k]? with
    | none => rw [ho] at hk; cases hk
    | some d =>
      rw [ho] at hk
      simp only [Bool.and_eq_true, Bool.not_eq_true', decide_eq_true_eq] at hk
      exact ⟨k, d, ho, hk.1.1, hk.1.2, hk.2⟩

def legalRunB (P : Params) : Sys → List In → Bool
  | _, [] => true
  | x, i :: is => legalB P x.g i && legalRunB P (step P x i) is

theorem legalRun_of {P : Params} (is : List In) : ∀ x, legalRunB P x is = true → LegalRun P x is := by
  induction is with
  | nil => intro _ _; trivial
  | cons i is ih =>
    intro x h
    rw [legalRunB, Bool.and_eq_true] at h
    exact ⟨legal_of h.1, ih _ h.2⟩

def promptRunB (P : Params) : Sys → List In → Bool
  | _, [] => true
  | x, i :: is => (decide (P.ports = 1) || (List.range P.ports).all fun p => !x.s.coValid p || i.commitReady p) && promptRunB P (step P x i) is

theorem promptRun_of {P : Params} (is : List In) : ∀ x, promptRunB P x is = true → PromptRun P x is := by
  induction is with
  | nil => intro _ _; trivial
  | cons i is ih =>
    intro x h
    rw [promptRunB, Bool.and_eq_true, Bool.or_eq_true, decide_eq_true_eq, List.all_eq_true] at h
    refine ⟨?_, ih _ h.2⟩
    rcases h.1 with h1 | h1
    · exact Or.inl h1
    · right
      intro p hp hv
      have := h1 p (List.mem_range.mpr hp)
      rw [hv] at this
      simpa using this

/-- two ports, a table of two, blocks of at most two descriptors of two bytes -/
def exP : Params := ⟨2, 1, 1, 1, 16⟩

theorem exGood : Good exP := ⟨by decide, by decide⟩

def exAt (p : Nat) (x : Nat × Resp) (q : Nat) : Option (Nat × Resp) := if q = p then some x else none

def exR0 : Resp := ⟨10, 3, 0x1000, 1, 7, 100, 5, false, false⟩
def exR1 : Resp := ⟨11, 4, 0x2000, 0, 8, 101, 6, false, false⟩
def exR2 : Resp := ⟨12, 9, 0x3000, 0, 8, 102, 6, true, false⟩

/-- Two requests on two ports; both are granted, the second fetch finishes first; a third request finds its queue empty. -/
def exRun : List In :=
  let on : Nat → Bool := fun _ => true
  [{}, { req := some ⟨0, 10, 100⟩ }, { askReady := on }, { req := some ⟨1, 11, 101⟩ }, { askReady := on }, { resp := exAt 0 (0, exR0) }, { resp := exAt 0 (0, exR0), dmaReady := true },
   { resp := exAt 1 (1, exR1), pokes := [(0, 1), (1, 2)] }, { resp := exAt 1 (1, exR1), dmaReady := true }, { pokes := [(2, 3), (4, 21), (5, 22)] }, { fstat := some (1, 1) },
   { pokes := [(3, 4)], fstat := some (0, 0) }, {}, { commitReady := on, rdReady := true }, {}, { commitReady := on, rdReady := true, rstat := some (0, 0) }, {},
   { rstat := some (1, 1) }, {}, {}, { req := some ⟨1, 12, 102⟩ }, { askReady := on }, { resp := exAt 1 (2, exR2) }, { resp := exAt 1 (2, exR2) }, {}]

set_option maxRecDepth 100000 in
/-- The run is legal and prompt; both blocks are fetched, committed and sent in the order of their grants, and the empty queue is reported. -/
example : LegalRun exP {} exRun ∧ PromptRun exP {} exRun ∧ (run exP {} exRun).g.dmas = [⟨0x1000, 0, 4, 0⟩, ⟨0x2000, 4, 2, 1⟩] ∧
    (run exP {} exRun).g.commits = [(0, 5), (1, 6)] ∧ (run exP {} exRun).g.reads = [⟨0, 4, 0, 100⟩, ⟨4, 2, 1, 101⟩] ∧
    (run exP {} exRun).g.data 0 = [1, 2, 3, 4] ∧ (run exP {} exRun).g.data 1 = [21, 22] ∧ (run exP {} exRun).g.fin = 2 ∧
    (run exP {} exRun).g.pulses = [⟨10, 3, 7, 100, false, false⟩, ⟨11, 4, 8, 101, false, false⟩, ⟨12, 9, 8, 102, true, false⟩] :=
  ⟨legalRun_of _ _ (by decide), promptRun_of _ _ (by decide), by decide, by decide, by decide, by decide, by decide, by decide, by decide⟩

/-- The same requests, but port 0 does not take its commit at once. -/
def exLate : List In :=
  let on : Nat → Bool := fun _ => true
  exRun.take 12 ++ [({} : In), { rdReady := true }, ({} : In), { commitReady := on, rdReady := true }, { commitReady := on }, { commitReady := on }]

set_option maxRecDepth 100000 in
/-- **C68 (lost commit).**  With two ports, a commit that is not taken at once is overwritten by the next one for another port, and lost: the engine
checks only the port of the new commit. -/
theorem C68_lost_commit : ∃ is, LegalRun exP {} is ∧ (run exP {} is).g.rdn = 2 ∧ (run exP {} is).g.grants.map (fun y => (y.1, y.2.opTag)) = [(0, 5), (1, 6)] ∧
    (run exP {} is).g.commits = [(1, 6)] ∧ ∀ p, p < 2 → (run exP {} is).s.coValid p = false :=
  ⟨exLate, legalRun_of _ _ (by decide), by decide, by decide, by decide, by decide⟩

/-- descriptors of 16 bytes in blocks of at most 128: the RAM and the DMA length allow for it -/
def bigP : Params := ⟨1, 1, 4, 3, 16⟩

def bigR : Resp := ⟨10, 3, 0x1000, 4, 7, 100, 5, false, false⟩

def bigRun : List In :=
  let on : Nat → Bool := fun _ => true
  [{}, { req := some ⟨0, 10, 100⟩ }, { askReady := on }, { resp := exAt 0 (0, bigR) }, { resp := exAt 0 (0, bigR), dmaReady := true }, { fstat := some (0, 0) }, {}, { rdReady := true }]

set_option maxRecDepth 100000 in
/-- **C68 (long blocks).**  The length of the read is kept in eight bits: a block of 256 bytes is fetched, and a read of no bytes is issued for it. -/
theorem C68_long_block : ∃ is, LegalRun bigP {} is ∧ 2 ^ bigP.shift < 2 ^ bigP.lw ∧ (run bigP {} is).g.dmas = [⟨0x1000, 0, 256, 0⟩] ∧
    (run bigP {} is).g.reads = [⟨0, 0, 0, 100⟩] :=
  ⟨bigRun, legalRun_of _ _ (by decide), by decide, by decide, by decide⟩

end Corundum.DescFetch
