import Verif.Proof.CplWrite

/-!
C64: the completion write engine (cpl_write.v) writes every granted completion to the address its queue manager gave, with the phase
bit inserted, and commits the entry only after the write has finished, in request order; every request gets one status.
-/
namespace Corundum.CplWrite

/-- **C64 (enqueue).**  An enqueue request is offered for exactly the accepted requests that no queue manager has taken, there is at most one of
them, it is the last one, and it goes to the port of the request with its queue number. -/
theorem C64_enqueue (P : Params) (is : List In) (hl : LegalRun P {} is) :
    let x := run P {} is
    (∀ p, x.s.eqValid p = true → ∃ (k : Nat) (q : Req), x.g.reqs[k]? = some q ∧ x.g.taken k = false ∧ q.sel = p) ∧
    (∀ (k : Nat) (q : Req), x.g.reqs[k]? = some q → x.g.taken k = false →
      k + 1 = x.g.reqs.length ∧ (∀ p, x.s.eqValid p = decide (p = q.sel)) ∧ x.s.eqQueue = q.queue ∧ x.g.own x.s.eqTag = some k) := by
  have h := inv_run is {} (inv_init P) hl
  refine ⟨fun p hp => ?_, fun k q hq ht => ?_⟩
  · obtain ⟨k, h1, h2⟩ := h.eq2 p hp
    obtain ⟨q, hq⟩ := ix' (show k < (run P {} is).g.reqs.length by omega)
    refine ⟨k, q, hq, h2, ?_⟩
    rw [(h.eq1 k q hq h2).2.1] at hp
    exact (of_decide_eq_true hp).symm
  · obtain ⟨h1, h2, h3, h4⟩ := h.eq1 k q hq ht
    refine ⟨h1, h2, h4, ?_⟩
    rw [h3]
    refine (h.row k q ?_ hq).own
    rcases Nat.lt_or_ge k (run P {} is).g.fin with hk | hk
    · obtain ⟨_, r, hr, _⟩ := h.old k hk
      rw [h.rt k r hr] at ht; cases ht
    · exact hk

/-- C64: at most `DESC_TABLE_SIZE` requests are in flight, and no two of them share a tag. -/
theorem C64_in_flight (P : Params) (is : List In) (hl : LegalRun P {} is) :
    let g := (run P {} is).g
    g.fin ≤ g.reqs.length ∧ g.reqs.length ≤ g.fin + P.n ∧
      ∀ k, g.fin ≤ k → k < g.reqs.length → ∀ t, g.own t = some k ↔ t = k % P.n := by
  have h := inv_run is {} (inv_init P) hl
  refine ⟨h.le1, h.le2, fun k h1 h2 t => ⟨fun ht => (h.own t k ht).1.symm, ?_⟩⟩
  rintro rfl
  obtain ⟨q, hq⟩ := ix' h2
  exact (h.row k q h1 hq).own

/-- **C64 (write).**  Writes are offered to the DMA engine for exactly the granted requests whose write it has not taken, with the address granted by
the queue manager, the completion size, and the address of the request's slot in the table. -/
theorem C64_write (P : Params) (is : List In) (hl : LegalRun P {} is) :
    let x := run P {} is
    (x.s.dValid = true → ∃ (k : Nat) (r : Resp), x.g.resp k = some r ∧ r.ok = true ∧ x.g.dtaken k = false) ∧
    (∀ (k : Nat) (r : Resp), x.g.resp k = some r → r.ok = true → x.g.dtaken k = false →
      x.s.dValid = true ∧ x.g.own x.s.dTag = some k ∧ x.s.dAddr = r.addr ∧ x.s.dLen = P.cplSize ∧ x.s.dRam = x.s.dTag * 2 ^ P.ramShift) ∧
    (∀ k, x.g.dtaken k = true → ∃ r, x.g.resp k = some r ∧ r.ok = true) := by
  have h := inv_run is {} (inv_init P) hl
  refine ⟨h.d2, fun k r hr ho hd => ?_, h.dt⟩
  obtain ⟨d1, d2, d3, d4, d5⟩ := h.d1 k r hr ho hd
  obtain ⟨q, hq⟩ := ix' (lt_of_resp h hr)
  refine ⟨d1, ?_, d3, d4, by rw [d5, d2, Nat.shiftLeft_eq]⟩
  rw [d2]
  refine (h.row k q ?_ hq).own
  rcases Nat.lt_or_ge k (run P {} is).g.fin with hk | hk
  · obtain ⟨_, r', hr', hw⟩ := h.old k hk
    rw [hr, Option.some.injEq] at hr'; subst hr'
    have := h.wr k (hw ho)
    rw [hd] at this; cases this
  · exact hk

/-- **C64 (contents).**  From the moment the write is offered until the DMA engine reports it finished, the request's slot reads as the completion of
that request with its phase bit: the slot is not reused while the DMA engine may still read it. -/
theorem C64_contents (P : Params) (is : List In) (hl : LegalRun P {} is) (k : Nat) (q : Req) (r : Resp)
    (hq : (run P {} is).g.reqs[k]? = some q) (hr : (run P {} is).g.resp k = some r) (ho : r.ok = true)
    (hw : (run P {} is).g.wrote k = false) : ramWord P (run P {} is).s (k % P.n) = word P r.phase q.data := by
  have h := inv_run is {} (inv_init P) hl
  have hk : (run P {} is).g.fin ≤ k := by
    rcases Nat.lt_or_ge k (run P {} is).g.fin with hk | hk
    · obtain ⟨_, r', hr', hw'⟩ := h.old k hk
      rw [hr, Option.some.injEq] at hr'; subst hr'
      rw [hw' ho] at hw; cases hw
    · exact hk
  have hrow := h.row k q hk hq
  unfold ramWord word
  rw [(hrow.resp r hr).1, hrow.data]

/-- **C64 (commit).**  The commits taken and offered are, in request order, those of the granted ones among the first `fin` requests, each with the
port and operation tag of its response; each of those requests has its response handed over and its write finished. -/
theorem C64_commit (P : Params) (is : List In) (hl : LegalRun P {} is) :
    let x := run P {} is
    x.g.commits ++ offered P x.s = (List.range x.g.fin).filterMap (due x.g) ∧
      ∀ k, k < x.g.fin → x.g.answered k = true ∧ ∃ r, x.g.resp k = some r ∧ (r.ok = true → x.g.wrote k = true ∧ x.g.dtaken k = true) := by
  have h := inv_run is {} (inv_init P) hl
  refine ⟨h.com, fun k hk => ?_⟩
  obtain ⟨h1, r, h2, h3⟩ := h.old k hk
  exact ⟨h1, r, h2, fun ho => ⟨h3 ho, h.wr k (h3 ho)⟩⟩

/-- **C64 (status).**  The status pulses are, in the order the responses were used, one per answered request, with the request's tag and the response's flags. -/
theorem C64_status (P : Params) (is : List In) (hl : LegalRun P {} is) :
    let x := run P {} is
    (x.g.pulses ++ pulse x.s).map some = x.g.order.map (report x.g) ∧ x.g.order.Nodup ∧
      ∀ k, k ∈ x.g.order ↔ (x.g.resp k).isSome = true := by
  have h := inv_run is {} (inv_init P) hl
  exact ⟨h.pul, h.ord.1, h.ord.2⟩

/-- C64: a response is used as soon as no write is waiting and one is offered that is not just being handed over. -/
theorem C64_response_used (P : Params) (s : S) (i : In) (hd : s.dValid = false) (p : Nat) (hp : p < P.ports) (r : Resp) (hr : i.resp p = some r)
    (hn : s.respReady p = false) :
    ∃ p' r', p' ≤ p ∧ i.resp p' = some r' ∧ (∀ x, (next P s i).respReady x = decide (x = p')) ∧ (next P s i).stValid = true := by
  have hx : ∃ x, proc P s i = some x ∧ x.1 ≤ p ∧ i.resp x.1 = some x.2 := by
    unfold proc enc
    rw [hd]
    simp only [Bool.false_eq_true, if_false]
    cases hf : (List.range P.ports).findSome? (fun p => match i.resp p with
      | some r => if s.respReady p then none else some (p, r)
      | none => none) with
    | none =>
      rw [List.findSome?_eq_none_iff] at hf
      have := hf p (List.mem_range.mpr hp)
      rw [hr, hn] at this; simp at this
    | some x =>
      refine ⟨x, rfl, ?_⟩
      obtain ⟨l1, a, l2, h1, h2, h3⟩ := List.findSome?_eq_some_iff.mp hf
      have hxa : x.1 = a ∧ i.resp a = some x.2 := by
        cases hra : i.resp a with
        | none => rw [hra] at h2; simp at h2
        | some ra =>
          rw [hra] at h2
          cases hb : s.respReady a with
          | true => rw [hb] at h2; simp at h2
          | false => rw [hb] at h2; simp at h2; rw [← h2]; exact ⟨rfl, rfl⟩
      refine ⟨?_, by rw [hxa.1]; exact hxa.2⟩
      rw [hxa.1]
      rcases Nat.lt_or_ge p a with hlt | hge
      · exfalso
        have hpm : p ∈ l1 := by
          have hs : (List.range P.ports).Pairwise (· < ·) := List.pairwise_lt_range
          have hm : p ∈ l1 ++ a :: l2 := by rw [← h1]; exact List.mem_range.mpr hp
          rw [h1, List.pairwise_append] at hs
          rcases List.mem_append.mp hm with hm | hm
          · exact hm
          · rcases List.mem_cons.mp hm with hm | hm
            · omega
            · have := (List.pairwise_cons.mp hs.2.1).1 p hm; omega
        have := h3 p hpm
        rw [hr, hn] at this; simp at this
      · exact hge
  obtain ⟨⟨p', r'⟩, h1, h2, h3⟩ := hx
  refine ⟨p', r', h2, h3, fun x => ?_, ?_⟩
  · show (match proc P s i with | some (p, _) => fun q => decide (q = p) | none => fun _ => false) x = _
    rw [h1]
  · show (proc P s i).isSome = true
    rw [h1]; rfl

/-- **C64 (progress).**  The oldest request in flight is never stuck in the engine: it waits for a queue manager to take it or to answer, for the DMA
engine to take or finish its write, or for an earlier commit to be taken; otherwise it retires at the next clock edge whatever the inputs. -/
theorem C64_progress (P : Params) (is : List In) (hl : LegalRun P {} is) (q : Req)
    (hq : (run P {} is).g.reqs[(run P {} is).g.fin]? = some q) :
    let x := run P {} is
    (x.g.taken x.g.fin = false ∧ x.s.eqValid q.sel = true) ∨
    (x.g.taken x.g.fin = true ∧ x.g.resp x.g.fin = none) ∨
    (∃ r, x.g.resp x.g.fin = some r ∧ r.ok = true ∧
      ((x.g.dtaken x.g.fin = false ∧ x.s.dValid = true) ∨ (x.g.dtaken x.g.fin = true ∧ x.g.wrote x.g.fin = false) ∨
        (x.g.wrote x.g.fin = true ∧ ∃ p, p < P.ports ∧ x.s.coValid p = true))) ∨
    ∀ i, (step P x i).g.fin = x.g.fin + 1 := by
  have h := inv_run is {} (inv_init P) hl
  intro x
  have hrow : Row P x.s x.g x.g.fin q := h.row _ q (Nat.le_refl _) hq
  have hb : headBusy P x.s = true := by
    rw [head_busy (s := x.s) (g := x.g) h, decide_eq_true_iff]; exact ix hq
  have hm : P.mask x.s.finish = x.g.fin % P.n := by rw [show x.s.finish = _ from h.fp, mask_ptr]
  have hgo : (drop P x.s || commit P x.s) = true → ∀ i, (step P x i).g.fin = x.g.fin + 1 := by
    intro he i
    show (if drop P x.s || commit P x.s then x.g.fin + 1 else x.g.fin) = _
    rw [he, if_pos rfl]
  cases ht : x.g.taken x.g.fin with
  | false =>
    left
    refine ⟨rfl, ?_⟩
    have := (h.eq1 _ q hq ht).2.1 q.sel
    rw [show x.s.eqValid q.sel = _ from this]; simp
  | true =>
    cases hr : x.g.resp x.g.fin with
    | none => right; left; exact ⟨rfl, rfl⟩
    | some r =>
      right; right
      have hinv := hrow.inv
      rw [hr] at hinv
      simp only [Option.any_some] at hinv
      cases ho : r.ok with
      | false =>
        right
        refine hgo ?_
        unfold drop
        rw [hb, hm, hinv, ho]; rfl
      | true =>
        cases hd : x.g.dtaken x.g.fin with
        | false => left; exact ⟨r, rfl, ho, Or.inl ⟨rfl, (h.d1 _ r hr ho hd).valid⟩⟩
        | true =>
          cases hw : x.g.wrote x.g.fin with
          | false => left; exact ⟨r, rfl, ho, Or.inr (Or.inl ⟨rfl, rfl⟩)⟩
          | true =>
            cases hc : P.any x.s.coValid with
            | true => left; exact ⟨r, rfl, ho, Or.inr (Or.inr ⟨rfl, (any_true _ _).mp hc⟩)⟩
            | false =>
              right
              refine hgo ?_
              unfold commit
              rw [hb, hm, hinv, ho, hrow.done, hw, hc]; simp

theorem ptr_diff {a b m : Nat} (h : b ≤ a) (hm : a < b + m) : (a % m + m - b % m) % m = a - b := by
  obtain ⟨d, rfl⟩ : ∃ d, a = b + d := ⟨a - b, by omega⟩
  have hb := Nat.mod_lt b (show 0 < m by omega)
  rw [Nat.add_sub_cancel_left, Nat.add_mod, Nat.mod_eq_of_lt (show d < m by omega)]
  rcases Nat.lt_or_ge (b % m + d) m with hc | hc
  · rw [Nat.mod_eq_of_lt hc, show b % m + d + m - b % m = d + m by omega, Nat.add_mod_right, Nat.mod_eq_of_lt (by omega)]
  · rw [Nat.mod_eq_sub_mod hc, Nat.mod_eq_of_lt (show b % m + d - m < m by omega), show b % m + d - m + m - b % m = d by omega,
      Nat.mod_eq_of_lt (by omega)]

/-- C64: the input is ready in the cycle after the next one whenever the engine is enabled, a slot is free and no enqueue request is waiting. -/
theorem C64_accepts (P : Params) (is : List In) (hl : LegalRun P {} is) (i : In) (he : i.enable = true)
    (hf : (run P {} is).g.reqs.length < (run P {} is).g.fin + P.n) (hr : (run P {} is).s.reqReady = false)
    (hq : ∀ p, p < P.ports → (run P {} is).s.eqValid p = false) : (step P (run P {} is) i).s.reqReady = true := by
  have h := inv_run is {} (inv_init P) hl
  show readyNext P (run P {} is).s i = true
  unfold readyNext accept
  rw [hr]
  simp only [Bool.false_eq_true, if_false]
  rw [he, (any_false _ _).mpr hq]
  have h1 := h.le1
  have ha : (run P {} is).s.active (P.mask (run P {} is).s.start) = false := by
    rw [h.sp, mask_ptr, Bool.eq_false_iff]
    intro hc
    obtain ⟨k, k1, k2, k3⟩ := (h.act _).mp hc
    have := Driver.mod_inj_of_window (n := P.n) (a := (run P {} is).g.fin) h1 (by omega) k1 (by omega) k3.symm
    omega
  rw [ha]
  simp only [Bool.not_false, Bool.true_and, Bool.and_true, Bool.true_or, decide_eq_true_eq]
  rw [h.sp, h.fp]
  rw [two_n, ptr_diff h1 (by have := n_pos P; omega)]
  omega

/-! ### A concrete run -/

/-- `Legal`, as a check -/
def legalB (P : Params) (g : G) (i : In) : Bool :=
  (match i.req with | some q => decide (q.sel < P.ports) | none => true) &&
  (List.range P.ports).all (fun p =>
    (match i.resp p with
      | some r => (match g.own r.tag with
        | some k => (match g.reqs[k]? with | some q => q.sel == p && g.taken k && !g.answered k | none => false)
        | none => false)
      | none => true) &&
    (match g.held p with | some r => i.resp p == some r | none => true)) &&
  (match i.status with
    | some t => (match g.own t with | some k => g.dtaken k && !g.wrote k | none => false)
    | none => true)

theorem legal_of {P : Params} {g : G} {i : In} (h : legalB P g i = true) : Legal P g i := by
  unfold legalB at h
  rw [Bool.and_eq_true, Bool.and_eq_true, List.all_eq_true] at h
  obtain ⟨⟨h1, h2⟩, h3⟩ := h
  refine ⟨fun q hq => ?_, fun p hp r hr => ?_, fun p hp r hr => ?_, fun t ht => ?_⟩
  · rw [hq] at h1; exact of_decide_eq_true h1
  · have := h2 p (List.mem_range.mpr hp)
    rw [Bool.and_eq_true, hr] at this
    obtain ⟨a, _⟩ := this
    dsimp only at a
    cases ho : g.own r.tag with
    | none => rw [ho] at a; cases a
    | some k =>
      rw [ho] at a
      dsimp only at a
      cases hq : g.reqs[k]? with
      | none => rw [hq] at a; cases a
      | some q =>
        rw [hq] at a
        simp only [Bool.and_eq_true, beq_iff_eq, Bool.not_eq_true'] at a
        exact ⟨k, q, rfl, hq, a.1.1, a.1.2, a.2⟩
  · have := h2 p (List.mem_range.mpr hp)
    rw [Bool.and_eq_true, hr] at this
    exact beq_iff_eq.mp this.2
  · rw [ht] at h3
    dsimp only at h3
    cases ho : g.own t with
    | none => rw [ho] at h3; cases h3
    | some k =>
      rw [ho] at h3
      simp only [Bool.and_eq_true, Bool.not_eq_true'] at h3
      exact ⟨k, rfl, h3.1, h3.2⟩

def legalRunB (P : Params) : Sys → List In → Bool
  | _, [] => true
  | x, i :: is => legalB P x.g i && legalRunB P (step P x i) is

theorem legalRun_of {P : Params} (is : List In) : ∀ x, legalRunB P x is = true → LegalRun P x is := by
  induction is with
  | nil => intro _ _; trivial
  | cons i is ih =>
    intro x h
    rw [legalRunB, Bool.and_eq_true] at h
    exact ⟨legal_of h.1, ih _ h.2⟩

def exP : Params := ⟨2, 1, 4, 3⟩

def exReq (sel queue tag data : Nat) : Option Req := some ⟨sel, queue, tag, data⟩

/-- Three requests on two ports with a table of two: the second queue is full; the third request waits for a slot. -/
def exRun : List In :=
  let on : Nat → Bool := fun _ => true
  let at' : Nat → Resp → Nat → Option Resp := fun p r q => if q = p then some r else none
  let r0 : Resp := ⟨true, 0x1000, 0, 5, false, false⟩
  let r1 : Resp := ⟨false, 0x2000, 1, 6, true, false⟩
  let r2 : Resp := ⟨false, 0x3000, 0, 7, false, false⟩
  [{}, { req := exReq 0 10 100 0x12345678 }, { enqReady := on }, { req := exReq 1 11 101 0x1 },
   { enqReady := on }, { resp := at' 1 r1 }, { resp := at' 1 r1 }, { resp := at' 0 r0 }, { resp := at' 0 r0, dmaReady := true },
   {}, { status := some 0 }, {}, { req := exReq 1 12 102 0x87654321, commitReady := on },
   { req := exReq 1 12 102 0x87654321, enqReady := on }, { enqReady := on }, { resp := at' 1 r2 }, { resp := at' 1 r2 }, { dmaReady := true }, { status := some 0 },
   {}, {}]

/-- The run is legal; the full queue is reported and its request is not committed; the table slot of the third request is reused. -/
example : LegalRun exP {} exRun ∧ (run exP {} exRun).g.pulses = [(101, true, false), (100, false, false), (102, false, false)] ∧
    (run exP {} exRun).g.commits = [(0, 5)] ∧ offered exP (run exP {} exRun).s = [(1, 7)] ∧ (run exP {} exRun).g.fin = 3 ∧
    ramWord exP (run exP {} exRun).s 0 = 0x07654321 :=
  ⟨legalRun_of _ _ (by decide), by decide, by decide, by decide, by decide, by decide⟩

/-- While the write of the first request is under way its slot reads as the completion with the phase bit set. -/
example : (run exP {} (exRun.take 10)).g.dtaken 0 = true ∧ (run exP {} (exRun.take 10)).g.wrote 0 = false ∧
    ramWord exP (run exP {} (exRun.take 10)).s 0 = 0x92345678 ∧ (run exP {} (exRun.take 8)).s.dAddr = 0x1000 := by decide

end Corundum.CplWrite
