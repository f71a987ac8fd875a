import Verif.Spec.CplWrite
import Verif.Proof.Driver

namespace Corundum.CplWrite
open Corundum.Driver (mod_inj_of_window)

theorem mask_eq (P : Params) (x : Nat) : P.mask x = x % P.n := Nat.and_two_pow_sub_one_eq_mod x P.cl

theorem n_pos (P : Params) : 0 < P.n := Nat.two_pow_pos _

theorem two_n (P : Params) : 2 ^ (P.cl + 1) = 2 * P.n := by unfold Params.n; rw [Nat.pow_succ, Nat.mul_comm]

theorem mask_ptr (P : Params) (x : Nat) : P.mask (x % 2 ^ (P.cl + 1)) = x % P.n := by
  rw [mask_eq, two_n, Nat.mod_mul_left_mod]

theorem mask_lt (P : Params) (x : Nat) : P.mask (x % P.n) = x % P.n := by rw [mask_eq, Nat.mod_mod]

theorem upd_same {α : Type} (f : Nat → α) (k : Nat) (v : α) : upd f k v k = v := if_pos rfl

theorem upd_ne {α : Type} (f : Nat → α) (k j : Nat) (v : α) (h : j ≠ k) : upd f k v j = f j := if_neg h

theorem updo_ne {α : Type} (f : Nat → α) (o : Option (Nat × α)) (j : Nat) (h : ∀ k v, o = some (k, v) → j ≠ k) : upd? f o j = f j := by
  cases o with
  | none => rfl
  | some kv => exact upd_ne _ _ _ _ (h kv.1 kv.2 rfl)

theorem updo_some {α : Type} (f : Nat → α) (k : Nat) (v : α) : upd? f (some (k, v)) k = v := upd_same _ _ _

theorem any_true (P : Params) (v : Nat → Bool) : P.any v = true ↔ ∃ p, p < P.ports ∧ v p = true := by
  unfold Params.any; simp [List.any_eq_true]

theorem any_false (P : Params) (v : Nat → Bool) : P.any v = false ↔ ∀ p, p < P.ports → v p = false := by
  unfold Params.any; simp [List.any_eq_false]

/-! ### Invariant -/

/-- the table slot of a request in flight -/
structure Row (P : Params) (s : S) (g : G) (k : Nat) (q : Req) : Prop where
  sel : s.sel (k % P.n) = q.sel
  tag : s.tag (k % P.n) = q.tag
  data : s.data (k % P.n) = q.data
  inv : s.invalid (k % P.n) = (g.resp k).any fun r => !r.ok
  done : s.done (k % P.n) = g.wrote k
  resp : ∀ r, g.resp k = some r → s.phase (k % P.n) = r.phase ∧ s.opTag (k % P.n) = r.opTag
  own : g.own (k % P.n) = some k

/-- the write offered to the DMA engine -/
structure Desc (P : Params) (s : S) (k : Nat) (r : Resp) : Prop where
  valid : s.dValid = true
  tag : s.dTag = k % P.n
  addr : s.dAddr = r.addr
  len : s.dLen = P.cplSize
  ram : s.dRam = (k % P.n) <<< P.ramShift

structure Inv (P : Params) (s : S) (g : G) : Prop where
  le1 : g.fin ≤ g.reqs.length
  le2 : g.reqs.length ≤ g.fin + P.n
  sp : s.start = g.reqs.length % 2 ^ (P.cl + 1)
  fp : s.finish = g.fin % 2 ^ (P.cl + 1)
  act : ∀ j, s.active j = true ↔ ∃ k, g.fin ≤ k ∧ k < g.reqs.length ∧ k % P.n = j
  own : ∀ j k, g.own j = some k → k % P.n = j ∧ k < g.reqs.length
  row : ∀ (k : Nat) (q : Req), g.fin ≤ k → g.reqs[k]? = some q → Row P s g k q
  selok : ∀ (k : Nat) (q : Req), g.reqs[k]? = some q → q.sel < P.ports
  fresh : ∀ k, g.reqs.length ≤ k →
    g.taken k = false ∧ g.resp k = none ∧ g.answered k = false ∧ g.dtaken k = false ∧ g.wrote k = false
  old : ∀ k, k < g.fin → g.answered k = true ∧ ∃ r, g.resp k = some r ∧ (r.ok = true → g.wrote k = true)
  eq1 : ∀ (k : Nat) (q : Req), g.reqs[k]? = some q → g.taken k = false →
    k + 1 = g.reqs.length ∧ (∀ p, s.eqValid p = decide (p = q.sel)) ∧ s.eqTag = k % P.n ∧ s.eqQueue = q.queue
  eq2 : ∀ p, s.eqValid p = true → ∃ k, k + 1 = g.reqs.length ∧ g.taken k = false
  rdy : s.reqReady = true → (∀ p, p < P.ports → s.eqValid p = false) ∧ g.reqs.length < g.fin + P.n
  rt : ∀ k r, g.resp k = some r → g.taken k = true
  ans : ∀ k, g.answered k = true → (g.resp k).isSome = true
  wait : ∀ (k : Nat) (q : Req) (r : Resp), g.reqs[k]? = some q → g.resp k = some r →
    g.answered k = true ∨ (s.respReady q.sel = true ∧ g.held q.sel = some r ∧ r.tag = k % P.n)
  rr : ∀ p, s.respReady p = true → ∃ (k : Nat) (q : Req) (r : Resp), g.reqs[k]? = some q ∧ q.sel = p ∧ g.resp k = some r ∧ g.held p = some r ∧
    g.own r.tag = some k
  d1 : ∀ (k : Nat) (r : Resp), g.resp k = some r → r.ok = true → g.dtaken k = false → Desc P s k r
  d2 : s.dValid = true → ∃ k r, g.resp k = some r ∧ r.ok = true ∧ g.dtaken k = false
  dt : ∀ k, g.dtaken k = true → ∃ r, g.resp k = some r ∧ r.ok = true
  wr : ∀ k, g.wrote k = true → g.dtaken k = true
  co : (∀ p, s.coValid p = false) ∨ ∃ p0, p0 < P.ports ∧ ∀ p, s.coValid p = decide (p = p0)
  com : g.commits ++ offered P s = (List.range g.fin).filterMap (due g)
  ord : g.order.Nodup ∧ ∀ k, k ∈ g.order ↔ (g.resp k).isSome = true
  pul : (g.pulses ++ pulse s).map some = g.order.map (report g)

theorem filterMap_none {α β : Type} (l : List α) (f : α → Option β) (h : ∀ a ∈ l, f a = none) : l.filterMap f = [] := by
  induction l with
  | nil => rfl
  | cons a l ih => rw [List.filterMap_cons, h a (by simp)]; exact ih fun b hb => h b (by simp [hb])

theorem inv_init (P : Params) : Inv P {} {} := by
  refine ⟨Nat.le_refl _, Nat.zero_le _, (Nat.zero_mod _).symm, (Nat.zero_mod _).symm, ?_, ?_, ?_, ?_, ?_, ?_, ?_, ?_, ?_, ?_, ?_, ?_, ?_, ?_,
    ?_, ?_, ?_, ?_, ?_, ?_, ?_⟩
  all_goals try simp
  · unfold offered
    rw [filterMap_none _ _ (by intro a _; rfl)]
  · rfl

/-! ### What happens in a step -/

theorem ix {α : Type} {l : List α} {k : Nat} {q : α} (h : l[k]? = some q) : k < l.length := (List.getElem?_eq_some_iff.mp h).1

theorem ix' {α : Type} {l : List α} {k : Nat} (h : k < l.length) : ∃ q, l[k]? = some q := ⟨l[k], List.getElem?_eq_getElem h⟩

theorem head_busy {P : Params} {s : S} {g : G} (h : Inv P s g) : headBusy P s = decide (g.fin < g.reqs.length) := by
  unfold headBusy
  rw [h.fp, mask_ptr, ← h.fp]
  by_cases hl : g.fin < g.reqs.length
  · rw [decide_eq_true hl, (h.act _).mpr ⟨g.fin, Nat.le_refl _, hl, rfl⟩, Bool.true_and, decide_eq_true_iff]
    rw [h.fp, h.sp, two_n]
    intro e
    have := n_pos P
    have := h.le2
    have := mod_inj_of_window (n := 2 * P.n) (a := g.fin) (Nat.le_refl _) (by omega) (by omega) (by omega) e
    omega
  · have e : g.reqs.length = g.fin := Nat.le_antisymm (Nat.not_lt.mp hl) h.le1
    rw [decide_eq_false hl, h.fp, h.sp, e]; simp

/-- a response being used -/
theorem proc_spec {P : Params} {s : S} {g : G} {i : In} (h : Inv P s g) (hl : Legal P g i) {p : Nat} {r : Resp}
    (e : proc P s i = some (p, r)) :
    ∃ k q, g.own r.tag = some k ∧ g.reqs[k]? = some q ∧ q.sel = p ∧ p < P.ports ∧ g.resp k = none ∧ g.taken k = true ∧
      g.answered k = false ∧ g.fin ≤ k ∧ r.tag = k % P.n ∧ i.resp p = some r ∧ s.respReady p = false ∧ s.dValid = false := by
  unfold proc at e
  split at e
  · simp at e
  · rename_i hd
    unfold enc at e
    obtain ⟨p', hp', e2⟩ := List.exists_of_findSome?_eq_some e
    rw [List.mem_range] at hp'
    split at e2
    · rename_i r' hr'
      split at e2
      · simp at e2
      · rename_i hrr
        rw [Option.some.injEq, Prod.mk.injEq] at e2
        obtain ⟨rfl, rfl⟩ := e2
        obtain ⟨k, q, k1, k2, k3, k4, k5⟩ := hl.resp p' hp' r' hr'
        refine ⟨k, q, k1, k2, k3, hp', ?_, k4, k5, ?_, ((h.own _ _ k1).1).symm, hr', by simpa using hrr, by simpa using hd⟩
        · cases e3 : g.resp k with
          | none => rfl
          | some r2 =>
            exfalso
            rcases h.wait k q r2 k2 e3 with h1 | ⟨h1, _⟩
            · rw [k5] at h1; simp at h1
            · rw [k3] at h1; exact hrr h1
        · rcases Nat.lt_or_ge k g.fin with h1 | h1
          · have := (h.old k h1).1; rw [k5] at this; simp at this
          · exact h1
    · simp at e2

theorem status_spec {P : Params} {s : S} {g : G} {i : In} (h : Inv P s g) (hl : Legal P g i) {t : Nat} (e : i.status = some t) :
    ∃ k, g.own t = some k ∧ t = k % P.n ∧ g.dtaken k = true ∧ g.wrote k = false ∧ g.fin ≤ k ∧ k < g.reqs.length := by
  obtain ⟨k, k1, k2, k3⟩ := hl.status t e
  obtain ⟨o1, o2⟩ := h.own _ _ k1
  refine ⟨k, k1, o1.symm, k2, k3, ?_, o2⟩
  rcases Nat.lt_or_ge k g.fin with h1 | h1
  · exfalso
    obtain ⟨_, r, e1, e2⟩ := h.old k h1
    obtain ⟨r', e3, e4⟩ := h.dt k k2
    rw [e1, Option.some.injEq] at e3; subst e3
    rw [e2 e4] at k3; simp at k3
  · exact h1

theorem accept_spec {P : Params} {s : S} {g : G} {i : In} (h : Inv P s g) (hl : Legal P g i) {q : Req} (e : accept s i = some q) :
    q.sel < P.ports ∧ g.reqs.length < g.fin + P.n ∧ ∀ p, p < P.ports → s.eqValid p = false := by
  unfold accept at e
  split at e
  · rename_i hr
    exact ⟨hl.req q e, (h.rdy hr).2, (h.rdy hr).1⟩
  · simp at e

/-- retiring -/
theorem fin_spec {P : Params} {s : S} {g : G} (h : Inv P s g) (e : (drop P s || commit P s) = true) :
    ∃ q r, g.reqs[g.fin]? = some q ∧ g.resp g.fin = some r ∧ (r.ok = true → g.wrote g.fin = true) ∧
      (commit P s = r.ok) ∧ (r.ok = true → (∀ p, p < P.ports → s.coValid p = false) ∧ s.sel (P.mask s.finish) = q.sel ∧
        s.opTag (P.mask s.finish) = r.opTag) := by
  have hb : headBusy P s = true := by
    rw [Bool.or_eq_true] at e
    rcases e with e | e
    · unfold drop at e; simp at e; exact e.1
    · unfold commit at e; simp at e; exact e.1.1.1
  have hlt : g.fin < g.reqs.length := by rw [head_busy h] at hb; simpa using hb
  obtain ⟨q, hq⟩ := ix' hlt
  have hrow := h.row _ q (Nat.le_refl _) hq
  have hm : P.mask s.finish = g.fin % P.n := by rw [h.fp, mask_ptr]
  have hd : drop P s = s.invalid (g.fin % P.n) := by unfold drop; rw [hb, hm]; rfl
  have hc : commit P s = (!s.invalid (g.fin % P.n) && s.done (g.fin % P.n) && !P.any s.coValid) := by
    unfold commit; rw [hb, hm]; rfl
  cases hr : g.resp g.fin with
  | none =>
    exfalso
    have hw : g.wrote g.fin = false := by
      cases hw : g.wrote g.fin with
      | false => rfl
      | true => obtain ⟨r, e1, _⟩ := h.dt _ (h.wr _ hw); rw [hr] at e1; simp at e1
    rw [hd, hc, hrow.inv, hrow.done, hr, hw] at e
    simp at e
  | some r =>
    refine ⟨q, r, hq, rfl, ?_, ?_, ?_⟩
    · intro hok
      rw [hd, hc, hrow.inv, hrow.done, hr] at e
      simp [hok] at e
      exact e.1
    · rw [hd, hc, hrow.inv, hrow.done, hr] at e
      rw [hc, hrow.inv, hrow.done, hr]
      cases hok : r.ok
      · simp [hok]
      · simpa [hok] using e
    · intro hok
      rw [hd, hc, hrow.inv, hrow.done, hr] at e
      simp [hok] at e
      refine ⟨(any_false P s.coValid).mp e.2, by rw [hm]; exact hrow.sel, by rw [hm]; exact (hrow.resp r hr).2⟩

theorem reqs_spec (P : Params) (s : S) (g : G) (i : In) (k : Nat) (q : Req) :
    (watch P s g i).reqs[k]? = some q ↔ g.reqs[k]? = some q ∨ (k = g.reqs.length ∧ accept s i = some q) := by
  show (match accept s i with | some q => g.reqs ++ [q] | none => g.reqs)[k]? = some q ↔ _
  cases ha : accept s i with
  | none => simp
  | some q' =>
    simp only [Option.some.injEq]
    rcases Nat.lt_trichotomy k g.reqs.length with h | h | h
    · rw [List.getElem?_append_left h]
      constructor
      · exact Or.inl
      · rintro (h1 | ⟨h1, _⟩)
        · exact h1
        · omega
    · subst h
      rw [List.getElem?_append_right (Nat.le_refl _), Nat.sub_self, List.getElem?_eq_none (Nat.le_refl _)]
      simp
    · rw [List.getElem?_eq_none (by simp; omega), List.getElem?_eq_none (by omega)]
      constructor
      · intro h1; simp at h1
      · rintro (h1 | ⟨h1, _⟩)
        · simp at h1
        · omega

theorem len_spec (P : Params) (s : S) (g : G) (i : In) :
    (watch P s g i).reqs.length = g.reqs.length + (accept s i).isSome.toNat := by
  show (match accept s i with | some q => g.reqs ++ [q] | none => g.reqs).length = _
  cases accept s i <;> simp

theorem resp_cases {P : Params} {s : S} {g : G} {i : In} (h : Inv P s g) (hl : Legal P g i) (k : Nat) :
    ((watch P s g i).resp k = g.resp k ∧ ∀ p r, proc P s i = some (p, r) → r.tag ≠ k % P.n ∨ k < g.fin ∨ g.reqs.length ≤ k) ∨
    ∃ p r q, proc P s i = some (p, r) ∧ g.own r.tag = some k ∧ (watch P s g i).resp k = some r ∧ g.reqs[k]? = some q ∧ q.sel = p ∧
      p < P.ports ∧ g.resp k = none ∧ g.taken k = true ∧ g.answered k = false ∧ g.fin ≤ k ∧ r.tag = k % P.n ∧ i.resp p = some r ∧
      s.respReady p = false ∧ s.dValid = false := by
  have e : (watch P s g i).resp = match proc P s i with
    | some (_, r) => (match g.own r.tag with | some k => upd g.resp k (some r) | none => g.resp) | none => g.resp := rfl
  cases hp : proc P s i with
  | none => left; rw [e, hp]; simp
  | some x =>
    obtain ⟨p, r⟩ := x
    obtain ⟨k1, q, h1, h2, h3, h4, h5, h6, h7, h8, h9, h10, h11, h12⟩ := proc_spec h hl hp
    rw [hp] at e; simp only [h1] at e
    by_cases hk : k = k1
    · subst hk
      right
      exact ⟨p, r, q, rfl, h1, by rw [e, upd_same], h2, h3, h4, h5, h6, h7, h8, h9, h10, h11, h12⟩
    · left
      refine ⟨by rw [e, upd_ne _ _ _ _ hk], ?_⟩
      intro p' r' e'
      rw [Option.some.injEq, Prod.mk.injEq] at e'
      obtain ⟨rfl, rfl⟩ := e'
      rcases Nat.lt_or_ge k g.fin with h | h13
      · exact Or.inr (Or.inl h)
      · rcases Nat.lt_or_ge k g.reqs.length with h14 | h
        · left
          intro ht
          rw [h9] at ht
          have := ix h2
          have := h.le2
          exact hk (mod_inj_of_window (n := P.n) (a := g.fin) h13 (by omega) h8 (by omega) ht.symm)
        · exact Or.inr (Or.inr h)

theorem resp_keep {P : Params} {s : S} {g : G} {i : In} (h : Inv P s g) (hl : Legal P g i) {k : Nat} {r : Resp}
    (e : g.resp k = some r) : (watch P s g i).resp k = some r := by
  rcases resp_cases h hl k with ⟨h1, _⟩ | ⟨_, _, _, _, _, _, _, _, _, h1, _⟩
  · rw [h1, e]
  · rw [e] at h1; simp at h1

/-- the enqueue request on offer -/
theorem eq_own {P : Params} {s : S} {g : G} (h : Inv P s g) {p : Nat} (e : s.eqValid p = true) :
    ∃ k q, k + 1 = g.reqs.length ∧ g.taken k = false ∧ g.own s.eqTag = some k ∧ g.reqs[k]? = some q ∧ g.fin ≤ k ∧ p = q.sel := by
  obtain ⟨k, k1, k2⟩ := h.eq2 p e
  obtain ⟨q, hq⟩ := ix' (show k < g.reqs.length by omega)
  obtain ⟨_, e2, e3, _⟩ := h.eq1 k q hq k2
  have hf : g.fin ≤ k := by
    rcases Nat.lt_or_ge k g.fin with h1 | h1
    · obtain ⟨_, r, e1, _⟩ := h.old k h1
      rw [h.rt k r e1] at k2; simp at k2
    · exact h1
  refine ⟨k, q, k1, k2, ?_, hq, hf, ?_⟩
  · rw [e3]; exact (h.row k q hf hq).own
  · rw [e2] at e; simpa using e

theorem taken_spec {P : Params} {s : S} {g : G} {i : In} (h : Inv P s g) (k : Nat) :
    (watch P s g i).taken k = true ↔ g.taken k = true ∨ ∃ p, p < P.ports ∧ s.eqValid p = true ∧ i.enqReady p = true ∧ k + 1 = g.reqs.length := by
  show (g.taken k || (P.any (fun p => s.eqValid p && i.enqReady p) && g.own s.eqTag == some k)) = true ↔ _
  rw [Bool.or_eq_true, Bool.and_eq_true, any_true, beq_iff_eq]
  constructor
  · rintro (h1 | ⟨⟨p, p1, p2⟩, h2⟩)
    · exact Or.inl h1
    · rw [Bool.and_eq_true] at p2
      obtain ⟨k', q, k1, k2, k3, _⟩ := eq_own h p2.1
      rw [k3, Option.some.injEq] at h2; subst h2
      exact Or.inr ⟨p, p1, p2.1, p2.2, k1⟩
  · rintro (h1 | ⟨p, p1, p2, p3, h2⟩)
    · exact Or.inl h1
    · obtain ⟨k', q, k1, k2, k3, _⟩ := eq_own h p2
      have : k' = k := by omega
      subst this
      exact Or.inr ⟨⟨p, p1, by rw [p2, p3]; rfl⟩, k3⟩

/-- the write on offer -/
theorem d_own {P : Params} {s : S} {g : G} (h : Inv P s g) (e : s.dValid = true) :
    ∃ k r, g.resp k = some r ∧ r.ok = true ∧ g.dtaken k = false ∧ Desc P s k r ∧ g.own s.dTag = some k ∧ g.fin ≤ k ∧ k < g.reqs.length := by
  obtain ⟨k, r, k1, k2, k3⟩ := h.d2 e
  have hf : g.fin ≤ k := by
    rcases Nat.lt_or_ge k g.fin with h1 | h1
    · obtain ⟨_, r', e1, e2⟩ := h.old k h1
      rw [k1, Option.some.injEq] at e1; subst e1
      rw [h.wr k (e2 k2)] at k3; simp at k3
    · exact h1
  have hlt : k < g.reqs.length := by
    rcases Nat.lt_or_ge k g.reqs.length with h1 | h1
    · exact h1
    · rw [(h.fresh k h1).2.1] at k1; simp at k1
  obtain ⟨q, hq⟩ := ix' hlt
  have hd := h.d1 k r k1 k2 k3
  exact ⟨k, r, k1, k2, k3, hd, by rw [hd.tag]; exact (h.row k q hf hq).own, hf, hlt⟩

theorem dtaken_spec {P : Params} {s : S} {g : G} {i : In} (h : Inv P s g) (k : Nat) :
    (watch P s g i).dtaken k = true ↔ g.dtaken k = true ∨ (s.dValid = true ∧ i.dmaReady = true ∧ ∃ r, g.resp k = some r ∧ r.ok = true ∧ g.dtaken k = false) := by
  show (g.dtaken k || (s.dValid && i.dmaReady && g.own s.dTag == some k)) = true ↔ _
  rw [Bool.or_eq_true, Bool.and_eq_true, Bool.and_eq_true, beq_iff_eq]
  constructor
  · rintro (h1 | ⟨⟨h1, h2⟩, h3⟩)
    · exact Or.inl h1
    · obtain ⟨k', r, k1, k2, k3, _, k5, _⟩ := d_own h h1
      rw [k5, Option.some.injEq] at h3; subst h3
      exact Or.inr ⟨h1, h2, r, k1, k2, k3⟩
  · rintro (h1 | ⟨h1, h2, r, h3, h4, h5⟩)
    · exact Or.inl h1
    · obtain ⟨k', r', k1, k2, k3, k4, k5, k6, k7⟩ := d_own h h1
      have hd := h.d1 k r h3 h4 h5
      right
      refine ⟨⟨h1, h2⟩, ?_⟩
      have hlt : k < g.reqs.length := by
        rcases Nat.lt_or_ge k g.reqs.length with h1 | h1
        · exact h1
        · rw [(h.fresh k h1).2.1] at h3; simp at h3
      have hf : g.fin ≤ k := by
        rcases Nat.lt_or_ge k g.fin with h1 | h1
        · obtain ⟨_, r', e1, e2⟩ := h.old k h1
          rw [h3, Option.some.injEq] at e1; subst e1
          rw [h.wr k (e2 h4)] at h5; simp at h5
        · exact h1
      obtain ⟨q, hq⟩ := ix' hlt
      rw [hd.tag]; exact (h.row k q hf hq).own

theorem wrote_spec {P : Params} {s : S} {g : G} {i : In} (k : Nat) :
    (watch P s g i).wrote k = true ↔ g.wrote k = true ∨ ∃ t, i.status = some t ∧ g.own t = some k := by
  show (g.wrote k || (match i.status with | some t => g.own t == some k | none => false)) = true ↔ _
  rw [Bool.or_eq_true]
  cases i.status <;> simp

theorem answered_spec {P : Params} {s : S} {g : G} {i : In} (h : Inv P s g) (hl : Legal P g i) (k : Nat) :
    (watch P s g i).answered k = true ↔ g.answered k = true ∨
      ∃ q r, g.reqs[k]? = some q ∧ g.resp k = some r ∧ s.respReady q.sel = true ∧ g.held q.sel = some r ∧ g.own r.tag = some k := by
  show (g.answered k || P.any fun p => s.respReady p && (match i.resp p with | some r => g.own r.tag == some k | none => false)) = true ↔ _
  rw [Bool.or_eq_true, any_true]
  constructor
  · rintro (h1 | ⟨p, p1, p2⟩)
    · exact Or.inl h1
    · rw [Bool.and_eq_true] at p2
      obtain ⟨k', q, r, e1, e2, e3, e4, e5⟩ := h.rr p p2.1
      rw [hl.hold p p1 r e4] at p2
      simp only [e5, beq_iff_eq, Option.some.injEq] at p2
      obtain ⟨p2, rfl⟩ := p2
      right; subst e2
      exact ⟨q, r, e1, e3, p2, e4, e5⟩
  · rintro (h1 | ⟨q, r, e1, e2, e3, e4, e5⟩)
    · exact Or.inl h1
    · right
      have hp := h.selok k q e1
      exact ⟨q.sel, hp, by rw [e3, hl.hold _ hp r e4]; simp [e5]⟩

theorem fin_eq (P : Params) (s : S) (g : G) (i : In) :
    (watch P s g i).fin = if drop P s || commit P s then g.fin + 1 else g.fin := rfl

/-! ### Lists -/

theorem filterMap_eq {α β : Type} (l : List α) (f g : α → Option β) (h : ∀ a ∈ l, f a = g a) : l.filterMap f = l.filterMap g := by
  induction l with
  | nil => rfl
  | cons a l ih => rw [List.filterMap_cons, List.filterMap_cons, h a (by simp), ih fun b hb => h b (by simp [hb])]

theorem hot (v : Nat → Bool) (c p0 : Nat) : ∀ (n : Nat), (∀ p, p < n → v p = decide (p = p0)) →
    (List.range n).filterMap (fun p => if v p then some (p, c) else none) = if p0 < n then [(p0, c)] else []
  | 0, _ => rfl
  | n + 1, h => by
    rw [List.range_succ, List.filterMap_append, hot v c p0 n fun p hp => h p (by omega)]
    by_cases e : p0 = n
    · subst e; simp [h p0 (by omega)]
    · have : v n = false := by rw [h n (by omega)]; simp; omega
      have e2 : [n].filterMap (fun p => if v p then some (p, c) else none) = [] := by simp [this]
      rw [e2, List.append_nil]
      by_cases h2 : p0 < n
      · rw [if_pos h2, if_pos (show p0 < n + 1 by omega)]
      · rw [if_neg h2, if_neg (show ¬ p0 < n + 1 by omega)]

theorem cold (v : Nat → Bool) (c : Nat) (n : Nat) (h : ∀ p, p < n → v p = false) :
    (List.range n).filterMap (fun p => if v p then some (p, c) else none) = [] :=
  filterMap_none _ _ fun p hp => by rw [h p (List.mem_range.mp hp)]; rfl

theorem due_keep {P : Params} {s : S} {g : G} {i : In} (h : Inv P s g) (hl : Legal P g i) {k : Nat} {r : Resp} {q : Req}
    (hq : g.reqs[k]? = some q) (e : g.resp k = some r) : due (watch P s g i) k = due g k ∧ report (watch P s g i) k = report g k := by
  have h1 : (watch P s g i).reqs[k]? = some q := (reqs_spec P s g i k q).mpr (Or.inl hq)
  have h2 := resp_keep h hl e
  unfold due report
  rw [h1, h2, hq, e]; exact ⟨rfl, rfl⟩

theorem lt_of_resp {P : Params} {s : S} {g : G} (h : Inv P s g) {k : Nat} {r : Resp} (e : g.resp k = some r) : k < g.reqs.length := by
  rcases Nat.lt_or_ge k g.reqs.length with h1 | h1
  · exact h1
  · rw [(h.fresh k h1).2.1] at e; simp at e

theorem acc_slot {P : Params} {s : S} {g : G} {i : In} (h : Inv P s g) (hl : Legal P g i) {k : Nat} (h1 : g.fin ≤ k)
    (h2 : k < g.reqs.length) {q : Req} (e : accept s i = some q) : k % P.n ≠ P.mask s.start := by
  rw [h.sp, mask_ptr]
  intro he
  have := (accept_spec h hl e).2.1
  have := mod_inj_of_window (n := P.n) (a := g.fin) h1 (by omega) h.le1 (by omega) he
  omega

theorem acc_keep {α : Type} {P : Params} {s : S} {g : G} {i : In} (h : Inv P s g) (hl : Legal P g i) {k : Nat} (h1 : g.fin ≤ k)
    (h2 : k < g.reqs.length) (f : Nat → α) (v : Req → α) :
    upd? f ((accept s i).map fun q => (P.mask s.start, v q)) (k % P.n) = f (k % P.n) := by
  refine updo_ne _ _ _ ?_
  intro k' v' e
  cases ha : accept s i with
  | none => rw [ha] at e; simp at e
  | some q =>
    rw [ha] at e; simp at e
    rw [← e.1]; exact acc_slot h hl h1 h2 ha

theorem proc_slot {P : Params} {s : S} {g : G} {i : In} (h : Inv P s g) (hl : Legal P g i) {p : Nat} {r : Resp}
    (e : proc P s i = some (p, r)) : P.mask r.tag = r.tag := by
  obtain ⟨k, q, _, _, _, _, _, _, _, _, h9, _⟩ := proc_spec h hl e
  rw [h9, mask_lt]

theorem status_slot {P : Params} {s : S} {g : G} {i : In} (h : Inv P s g) (hl : Legal P g i) {t : Nat}
    (e : i.status = some t) : P.mask t = t := by
  obtain ⟨k, _, h9, _⟩ := status_spec h hl e
  rw [h9, mask_lt]

/-- slot of the request after the last -/
theorem new_slot {P : Params} {s : S} {g : G} {i : In} (h : Inv P s g) (hl : Legal P g i) {q : Req} (e : accept s i = some q)
    {k : Nat} (h1 : g.fin ≤ k) (h2 : k < g.reqs.length) : g.reqs.length % P.n ≠ k % P.n := by
  have := acc_slot h hl h1 h2 e
  rw [h.sp, mask_ptr] at this
  exact fun h => this h.symm

theorem row_old {P : Params} {s : S} {g : G} {i : In} (h : Inv P s g) (hl : Legal P g i) {k : Nat} {q : Req} (h1 : g.fin ≤ k)
    (hq : g.reqs[k]? = some q) : Row P (next P s i) (watch P s g i) k q := by
  have h2 := ix hq
  obtain ⟨r1, r2, r3, r4, r5, r6, r7⟩ := h.row k q h1 hq
  have hproc : (watch P s g i).resp k = g.resp k → (∀ p r, proc P s i = some (p, r) → r.tag ≠ k % P.n) →
      ∀ {α : Type} (f : Nat → α) (v : Nat × Resp → α), upd? f ((proc P s i).map fun x => (P.mask x.2.tag, v x)) (k % P.n) = f (k % P.n) := by
    intro _ hne α f v
    refine updo_ne _ _ _ ?_
    intro k' v' e
    cases hp : proc P s i with
    | none => rw [hp] at e; simp at e
    | some x =>
      rw [hp] at e; simp at e
      rw [← e.1, proc_slot h hl (p := x.1) (r := x.2) hp]
      exact fun h => hne x.1 x.2 hp h.symm
  have hinv : (next P s i).invalid (k % P.n) = ((watch P s g i).resp k).any (fun r => !r.ok) ∧
      ∀ r, (watch P s g i).resp k = some r → (next P s i).phase (k % P.n) = r.phase ∧ (next P s i).opTag (k % P.n) = r.opTag := by
    rcases resp_cases h hl k with ⟨e1, e2⟩ | ⟨p, r, q', e1, e2, e3, e4, e5, e6, e7, e8, e9, e10, e11, e12⟩
    · have e2' : ∀ p r, proc P s i = some (p, r) → r.tag ≠ k % P.n := by
        intro p r e
        rcases e2 p r e with h3 | h3 | h3
        · exact h3
        · omega
        · omega
      rw [e1]
      refine ⟨?_, ?_⟩
      · show upd? (upd? s.invalid _) _ (k % P.n) = _
        rw [hproc e1 e2', acc_keep h hl h1 h2 s.invalid (fun _ => false), r4]
      · intro r hr
        refine ⟨?_, ?_⟩
        · show upd? s.phase _ (k % P.n) = _
          rw [hproc e1 e2']; exact (r6 r hr).1
        · show upd? s.opTag _ (k % P.n) = _
          rw [hproc e1 e2']; exact (r6 r hr).2
    · have em : P.mask r.tag = k % P.n := by rw [proc_slot h hl e1, e11]
      rw [e3]
      refine ⟨?_, ?_⟩
      · show upd? (upd? s.invalid _) ((proc P s i).map fun x => (P.mask x.2.tag, !x.2.ok)) (k % P.n) = _
        rw [e1]
        simp only [Option.map_some, em]
        rw [updo_some]; rfl
      · intro r' hr
        rw [Option.some.injEq] at hr; subst hr
        refine ⟨?_, ?_⟩
        · show upd? s.phase ((proc P s i).map fun x => (P.mask x.2.tag, x.2.phase)) (k % P.n) = _
          rw [e1]; simp only [Option.map_some, em]; exact updo_some _ _ _
        · show upd? s.opTag ((proc P s i).map fun x => (P.mask x.2.tag, x.2.opTag)) (k % P.n) = _
          rw [e1]; simp only [Option.map_some, em]; exact updo_some _ _ _
  refine ⟨?_, ?_, ?_, hinv.1, ?_, hinv.2, ?_⟩
  · show upd? s.sel ((accept s i).map fun q => (P.mask s.start, q.sel)) (k % P.n) = _
    rw [acc_keep h hl h1 h2 s.sel Req.sel]; exact r1
  · show upd? s.tag ((accept s i).map fun q => (P.mask s.start, q.tag)) (k % P.n) = _
    rw [acc_keep h hl h1 h2 s.tag Req.tag]; exact r2
  · show upd? s.data ((accept s i).map fun q => (P.mask s.start, q.data)) (k % P.n) = _
    rw [acc_keep h hl h1 h2 s.data Req.data]; exact r3
  · show upd? (upd? s.done ((accept s i).map fun _ => (P.mask s.start, false))) (i.status.map fun t => (P.mask t, true)) (k % P.n) = _
    rw [Bool.eq_iff_iff, wrote_spec]
    cases hs : i.status with
    | none =>
      simp only [Option.map_none, reduceCtorEq, false_and, exists_false, or_false]
      show upd? s.done _ (k % P.n) = true ↔ _
      rw [acc_keep h hl h1 h2 s.done (fun _ => false), r5]
    | some t =>
      obtain ⟨k', t1, t2, t3, t4, t5, t6⟩ := status_spec h hl hs
      simp only [Option.map_some, Option.some.injEq, exists_eq_left', status_slot h hl hs]
      by_cases hk : k = k'
      · subst hk
        rw [t2, updo_some, r7]; simp
      · have hne : k % P.n ≠ t := by
          rw [t2]; intro he
          have := h.le2
          exact hk (mod_inj_of_window (n := P.n) (a := g.fin) h1 (by omega) t5 (by omega) he)
        rw [updo_ne _ _ _ (by intro a b e; rw [Option.some.injEq, Prod.mk.injEq] at e; rw [← e.1]; exact hne),
          acc_keep h hl h1 h2 s.done (fun _ => false), r5, t1]
        simp only [Option.some.injEq]
        constructor
        · exact Or.inl
        · rintro (h3 | h3)
          · exact h3
          · exact absurd h3.symm hk
  · show upd? g.own ((accept s i).map fun _ => (P.mask s.start, some g.reqs.length)) (k % P.n) = _
    rw [acc_keep h hl h1 h2 g.own (fun _ => some g.reqs.length)]; exact r7

theorem row_new {P : Params} {s : S} {g : G} {i : In} (h : Inv P s g) (hl : Legal P g i) {q : Req} (ha : accept s i = some q) :
    Row P (next P s i) (watch P s g i) g.reqs.length q := by
  have hm : P.mask s.start = g.reqs.length % P.n := by rw [h.sp, mask_ptr]
  have hr : (watch P s g i).resp g.reqs.length = none := by
    rcases resp_cases h hl g.reqs.length with ⟨e1, _⟩ | ⟨p, r, q', e1, e2, e3, e4, _⟩
    · rw [e1]; exact (h.fresh _ (Nat.le_refl _)).2.1
    · have := ix e4; omega
  have hw : (watch P s g i).wrote g.reqs.length = false := by
    rw [Bool.eq_false_iff]
    intro hc
    rcases wrote_spec _ |>.mp hc with h1 | ⟨t, _, h1⟩
    · rw [(h.fresh _ (Nat.le_refl _)).2.2.2.2] at h1; simp at h1
    · have := (h.own _ _ h1).2; omega
  refine ⟨?_, ?_, ?_, ?_, ?_, ?_, ?_⟩
  · show upd? s.sel ((accept s i).map fun q => (P.mask s.start, q.sel)) _ = _
    rw [ha, hm]; exact updo_some _ _ _
  · show upd? s.tag ((accept s i).map fun q => (P.mask s.start, q.tag)) _ = _
    rw [ha, hm]; exact updo_some _ _ _
  · show upd? s.data ((accept s i).map fun q => (P.mask s.start, q.data)) _ = _
    rw [ha, hm]; exact updo_some _ _ _
  · rw [hr]
    show upd? (upd? s.invalid ((accept s i).map fun _ => (P.mask s.start, false))) ((proc P s i).map fun x => (P.mask x.2.tag, !x.2.ok)) _ = false
    rw [updo_ne]
    · rw [ha, hm]; exact updo_some _ _ _
    · intro k' v' e
      cases hp : proc P s i with
      | none => rw [hp] at e; simp at e
      | some x =>
        rw [hp] at e; simp at e
        obtain ⟨k, q2, h1, h2, h3, h4, h5, h6, h7, h8, h9, h10, h11, h12⟩ := proc_spec h hl (p := x.1) (r := x.2) hp
        rw [← e.1, h9, mask_lt]
        exact new_slot h hl ha h8 (ix h2)
  · rw [hw]
    show upd? (upd? s.done ((accept s i).map fun _ => (P.mask s.start, false))) (i.status.map fun t => (P.mask t, true)) _ = false
    rw [updo_ne]
    · rw [ha, hm]; exact updo_some _ _ _
    · intro k' v' e
      cases hp : i.status with
      | none => rw [hp] at e; simp at e
      | some t =>
        rw [hp] at e; simp at e
        obtain ⟨k, t1, t2, t3, t4, t5, t6⟩ := status_spec h hl hp
        rw [← e.1, t2, mask_lt]
        exact new_slot h hl ha t5 t6
  · intro r e; rw [hr] at e; simp at e
  · show upd? g.own ((accept s i).map fun _ => (P.mask s.start, some g.reqs.length)) _ = _
    rw [ha, hm]; exact updo_some _ _ _

theorem fin_step {P : Params} {s : S} {g : G} (h : Inv P s g) (i : In) :
    (watch P s g i).fin = g.fin ∧ (drop P s || commit P s) = false ∨
    (watch P s g i).fin = g.fin + 1 ∧ (drop P s || commit P s) = true ∧ g.fin < g.reqs.length := by
  rw [fin_eq]
  cases e : (drop P s || commit P s) with
  | false => exact Or.inl ⟨rfl, rfl⟩
  | true =>
    obtain ⟨q, _, hq, _⟩ := fin_spec h e
    exact Or.inr ⟨rfl, rfl, ix hq⟩

theorem act_step {P : Params} {s : S} {g : G} {i : In} (h : Inv P s g) (hl : Legal P g i) (j : Nat) :
    (next P s i).active j = true ↔ ∃ k, (watch P s g i).fin ≤ k ∧ k < (watch P s g i).reqs.length ∧ k % P.n = j := by
  have hms : P.mask s.start = g.reqs.length % P.n := by rw [h.sp, mask_ptr]
  have hmf : P.mask s.finish = g.fin % P.n := by rw [h.fp, mask_ptr]
  have h1 : ∀ j, upd? s.active ((accept s i).map fun _ => (P.mask s.start, true)) j = true ↔
      ∃ k, g.fin ≤ k ∧ k < (watch P s g i).reqs.length ∧ k % P.n = j := by
    intro j
    rw [len_spec]
    cases ha : accept s i with
    | none => exact h.act j
    | some q =>
      simp only [Option.map_some, hms, Option.isSome_some, Bool.toNat_true]
      by_cases hj : j = g.reqs.length % P.n
      · subst hj
        rw [updo_some]
        simp only [true_iff]
        exact ⟨g.reqs.length, h.le1, by omega, rfl⟩
      · rw [updo_ne _ _ _ (by intro a b e; rw [Option.some.injEq, Prod.mk.injEq] at e; rw [← e.1]; exact hj), h.act]
        constructor
        · rintro ⟨k, k1, k2, k3⟩; exact ⟨k, k1, by omega, k3⟩
        · rintro ⟨k, k1, k2, k3⟩
          refine ⟨k, k1, ?_, k3⟩
          rcases Nat.lt_or_ge k g.reqs.length with hh | hh
          · exact hh
          · have : k = g.reqs.length := by omega
            subst this; exact absurd k3.symm hj
  show (if drop P s || commit P s then upd (upd? s.active ((accept s i).map fun _ => (P.mask s.start, true))) (P.mask s.finish) false
    else upd? s.active ((accept s i).map fun _ => (P.mask s.start, true))) j = true ↔ _
  rcases fin_step h i with ⟨f1, f2⟩ | ⟨f1, f2, f3⟩
  · rw [f2, f1]
    simp only [Bool.false_eq_true, if_false]
    exact h1 j
  · rw [f2, f1, hmf]
    simp only [if_true]
    by_cases hj : j = g.fin % P.n
    · subst hj
      rw [upd_same]
      simp only [Bool.false_eq_true, false_iff]
      rintro ⟨k, k1, k2, k3⟩
      have h4 : (watch P s g i).reqs.length ≤ g.fin + P.n := by
        rw [len_spec]
        cases ha : accept s i with
        | none => exact h.le2
        | some q => have := (accept_spec h hl ha).2.1; simp; omega
      have := mod_inj_of_window (n := P.n) (a := g.fin) (b := k) (c := g.fin) (by omega) (by omega) (Nat.le_refl _) (by omega) k3
      omega
    · rw [upd_ne _ _ _ _ hj, h1]
      constructor
      · rintro ⟨k, k1, k2, k3⟩
        refine ⟨k, ?_, k2, k3⟩
        rcases Nat.lt_or_ge g.fin k with hh | hh
        · exact hh
        · have : k = g.fin := by omega
          subst this; exact absurd k3.symm hj
      · rintro ⟨k, k1, k2, k3⟩; exact ⟨k, by omega, k2, k3⟩

theorem eqv_step {P : Params} {s : S} {g : G} {i : In} (h : Inv P s g) (hl : Legal P g i) :
    (∀ k q, (watch P s g i).reqs[k]? = some q → (watch P s g i).taken k = false →
      k + 1 = (watch P s g i).reqs.length ∧ (∀ p, (next P s i).eqValid p = decide (p = q.sel)) ∧ (next P s i).eqTag = k % P.n ∧
        (next P s i).eqQueue = q.queue) ∧
    ∀ p, (next P s i).eqValid p = true → ∃ k, k + 1 = (watch P s g i).reqs.length ∧ (watch P s g i).taken k = false := by
  have e1 : (next P s i).eqValid = match accept s i with | some q => fun p => decide (p = q.sel) | none => fun p => s.eqValid p && !i.enqReady p := rfl
  have e2 : (next P s i).eqTag = match accept s i with | some _ => P.mask s.start | none => s.eqTag := rfl
  have e3 : (next P s i).eqQueue = match accept s i with | some q => q.queue | none => s.eqQueue := rfl
  have hlen := len_spec P s g i
  cases ha : accept s i with
  | some q0 =>
    rw [ha] at e1 e2 e3 hlen
    simp only [Option.isSome_some, Bool.toNat_true] at hlen
    have hv := (accept_spec h hl ha).2.2
    have htk : ∀ k q, g.reqs[k]? = some q → g.taken k = true := by
      intro k q hq
      cases ht : g.taken k with
      | true => rfl
      | false =>
        have h1 := (h.eq1 k q hq ht).2.1 q.sel
        rw [hv _ (h.selok k q hq)] at h1; simp at h1
    have hnew : (watch P s g i).taken g.reqs.length = false := by
      rw [Bool.eq_false_iff]; intro hc
      rcases (taken_spec h _).mp hc with h1 | ⟨p, p1, p2, _⟩
      · rw [(h.fresh _ (Nat.le_refl _)).1] at h1; simp at h1
      · rw [hv p p1] at p2; simp at p2
    refine ⟨?_, ?_⟩
    · intro k q hq ht
      rcases (reqs_spec P s g i k q).mp hq with h1 | ⟨rfl, h1⟩
      · have : (watch P s g i).taken k = true := (taken_spec h k).mpr (Or.inl (htk k q h1))
        rw [this] at ht; simp at ht
      · rw [ha, Option.some.injEq] at h1; subst h1
        refine ⟨by omega, fun p => by rw [e1], ?_, e3⟩
        rw [e2]; show P.mask s.start = _; rw [h.sp, mask_ptr]
    · intro p _
      exact ⟨g.reqs.length, by omega, hnew⟩
  | none =>
    rw [ha] at e1 e2 e3 hlen
    simp only [Option.isSome_none, Bool.toNat_false, Nat.add_zero] at hlen
    refine ⟨?_, ?_⟩
    · intro k q hq ht
      rcases (reqs_spec P s g i k q).mp hq with h1 | ⟨rfl, h1⟩
      · have ht0 : g.taken k = false := by
          cases h2 : g.taken k with
          | false => rfl
          | true => rw [(taken_spec h k).mpr (Or.inl h2)] at ht; simp at ht
        obtain ⟨a1, a2, a3, a4⟩ := h.eq1 k q h1 ht0
        refine ⟨by omega, ?_, by rw [e2]; exact a3, by rw [e3]; exact a4⟩
        intro p
        rw [e1]
        show (s.eqValid p && !i.enqReady p) = _
        rw [a2]
        by_cases hp : p = q.sel
        · subst hp
          cases hr : i.enqReady q.sel with
          | false => simp
          | true =>
            rw [(taken_spec h k).mpr (Or.inr ⟨q.sel, h.selok k q h1, by rw [a2]; simp, hr, a1⟩)] at ht; simp at ht
        · simp [hp]
      · rw [ha] at h1; simp at h1
    · intro p hp
      rw [e1] at hp
      simp only [Bool.and_eq_true, Bool.not_eq_true'] at hp
      obtain ⟨k, q, k1, k2, k3, k4, k5, k6⟩ := eq_own h hp.1
      refine ⟨k, by omega, ?_⟩
      rw [Bool.eq_false_iff]; intro hc
      rcases (taken_spec h k).mp hc with h1 | ⟨p', p1, p2, p3, _⟩
      · rw [k2] at h1; simp at h1
      · have a2 := (h.eq1 k q k4 k2).2.1
        have : p' = p := by
          have b1 := a2 p'; rw [p2] at b1
          have b2 := a2 p; rw [hp.1] at b2
          simp at b1 b2; omega
        subst this
        rw [hp.2] at p3; simp at p3

theorem rdy_step {P : Params} {s : S} {g : G} {i : In} (h : Inv P s g) (hr : (next P s i).reqReady = true) :
    (∀ p, p < P.ports → (next P s i).eqValid p = false) ∧ (watch P s g i).reqs.length < (watch P s g i).fin + P.n := by
  replace hr : readyNext P s i = true := hr
  have e1 : (next P s i).eqValid = match accept s i with | some q => fun p => decide (p = q.sel) | none => fun p => s.eqValid p && !i.enqReady p := rfl
  have hlen := len_spec P s g i
  unfold readyNext at hr
  cases ha : accept s i with
  | some q => rw [ha] at hr; simp at hr
  | none =>
    rw [ha] at hr e1 hlen
    simp only [Option.isSome_none, Bool.toNat_false, Nat.add_zero] at hlen
    simp only [Bool.and_eq_true, decide_eq_true_eq] at hr
    obtain ⟨⟨⟨_, _⟩, hsz⟩, hv⟩ := hr
    refine ⟨?_, ?_⟩
    · intro p hp
      rw [e1]
      show (s.eqValid p && !i.enqReady p) = false
      rw [Bool.or_eq_true] at hv
      rcases hv with hv | hv
      · rw [Bool.not_eq_true', any_false] at hv
        rw [hv p hp]; rfl
      · rw [any_true] at hv
        obtain ⟨p', p1, p2⟩ := hv
        rw [Bool.and_eq_true] at p2
        obtain ⟨k, q, k1, k2, k3, k4, k5, k6⟩ := eq_own h p2.1
        have a2 := (h.eq1 k q k4 k2).2.1
        rw [a2]
        by_cases hpp : p = q.sel
        · rw [hpp, ← k6, p2.2]; simp
        · simp [hpp]
    · rw [hlen]
      have hf : g.fin ≤ (watch P s g i).fin := by
        rcases fin_step h i with ⟨f1, _⟩ | ⟨f1, _⟩ <;> omega
      have : g.reqs.length < g.fin + P.n := by
        rw [h.sp, h.fp, two_n] at hsz
        have h2 := h.le2
        have h1 := h.le1
        have hn := n_pos P
        rcases Nat.lt_or_ge g.reqs.length (g.fin + P.n) with hh | hh
        · exact hh
        · exfalso
          have he : g.reqs.length = g.fin + P.n := by omega
          rw [he] at hsz
          have hx := Nat.mod_lt g.fin (show 0 < 2 * P.n by omega)
          have key : ((g.fin + P.n) % (2 * P.n) + 2 * P.n - g.fin % (2 * P.n)) % (2 * P.n) = P.n := by
            rw [Nat.add_mod, Nat.mod_eq_of_lt (show P.n < 2 * P.n by omega)]
            generalize g.fin % (2 * P.n) = a at hx
            rcases Nat.lt_or_ge (a + P.n) (2 * P.n) with hh | hh
            · rw [Nat.mod_eq_of_lt hh, show a + P.n + 2 * P.n - a = P.n + 2 * P.n by omega, Nat.add_mod_right, Nat.mod_eq_of_lt (by omega)]
            · rw [Nat.mod_eq_sub_mod hh, Nat.mod_eq_of_lt (show a + P.n - 2 * P.n < 2 * P.n by omega),
                show a + P.n - 2 * P.n + 2 * P.n - a = P.n by omega, Nat.mod_eq_of_lt (by omega)]
          rw [key] at hsz
          omega
      omega

theorem d_step {P : Params} {s : S} {g : G} {i : In} (h : Inv P s g) (hl : Legal P g i) :
    (∀ k r, (watch P s g i).resp k = some r → r.ok = true → (watch P s g i).dtaken k = false → Desc P (next P s i) k r) ∧
    ((next P s i).dValid = true → ∃ k r, (watch P s g i).resp k = some r ∧ r.ok = true ∧ (watch P s g i).dtaken k = false) := by
  have e1 : (next P s i).dValid = match proc P s i with | some (_, r) => if r.ok then true else s.dValid && !i.dmaReady | none => s.dValid && !i.dmaReady := rfl
  have e2 : (next P s i).dTag = match proc P s i with | some (_, r) => P.mask r.tag | none => s.dTag := rfl
  have e3 : (next P s i).dAddr = match proc P s i with | some (_, r) => r.addr | none => s.dAddr := rfl
  have e4 : (next P s i).dLen = match proc P s i with | some _ => P.cplSize | none => s.dLen := rfl
  have e5 : (next P s i).dRam = match proc P s i with | some (_, r) => P.mask r.tag <<< P.ramShift | none => s.dRam := rfl
  cases hp : proc P s i with
  | some x =>
    obtain ⟨p, r0⟩ := x
    rw [hp] at e1 e2 e3 e4 e5
    simp only at e1 e2 e3 e4 e5
    obtain ⟨k0, q, h1, h2, h3, h4, h5, h6, h7, h8, h9, h10, h11, h12⟩ := proc_spec h hl hp
    have hdt0 : (watch P s g i).dtaken k0 = false := by
      rw [Bool.eq_false_iff]; intro hc
      rcases (dtaken_spec h k0).mp hc with a | ⟨a, _⟩
      · obtain ⟨r, a1, _⟩ := h.dt k0 a; rw [h5] at a1; simp at a1
      · rw [h12] at a; simp at a
    have hr0 : (watch P s g i).resp k0 = some r0 := by
      rcases resp_cases h hl k0 with ⟨a1, a2⟩ | ⟨p', r', q', a1, a2, a3, _⟩
      · rcases a2 p r0 hp with b | b | b
        · exact absurd h9 b
        · omega
        · have := ix h2; omega
      · rw [hp, Option.some.injEq, Prod.mk.injEq] at a1
        rw [a3, ← a1.2]
    refine ⟨?_, ?_⟩
    · intro k r hr hok hd
      by_cases hk : k = k0
      · subst hk
        rw [hr0, Option.some.injEq] at hr; subst hr
        have hm : P.mask r0.tag = k % P.n := by rw [h9, mask_lt]
        exact ⟨by rw [e1, hok]; rfl, by rw [e2, hm], e3, e4, by rw [e5, hm]⟩
      · exfalso
        rcases resp_cases h hl k with ⟨a1, a2⟩ | ⟨p', r', q', a1, a2, _⟩
        · rw [a1] at hr
          have hdk : g.dtaken k = false := by
            cases hh : g.dtaken k with
            | false => rfl
            | true => rw [(dtaken_spec h k).mpr (Or.inl hh)] at hd; simp at hd
          have := (h.d1 k r hr hok hdk).valid
          rw [h12] at this; simp at this
        · rw [hp, Option.some.injEq, Prod.mk.injEq] at a1
          rw [← a1.2, h1, Option.some.injEq] at a2
          exact hk a2.symm
    · intro hv
      rw [e1, h12] at hv
      refine ⟨k0, r0, hr0, ?_, hdt0⟩
      cases hok : r0.ok with
      | true => rfl
      | false => rw [hok] at hv; simp at hv
  | none =>
    rw [hp] at e1 e2 e3 e4 e5
    simp only at e1 e2 e3 e4 e5
    have hre : ∀ k, (watch P s g i).resp k = g.resp k := by
      intro k
      rcases resp_cases h hl k with ⟨a1, _⟩ | ⟨_, _, _, a1, _⟩
      · exact a1
      · rw [hp] at a1; simp at a1
    refine ⟨?_, ?_⟩
    · intro k r hr hok hd
      rw [hre] at hr
      have hdk : g.dtaken k = false := by
        cases hh : g.dtaken k with
        | false => rfl
        | true => rw [(dtaken_spec h k).mpr (Or.inl hh)] at hd; simp at hd
      have hdd := h.d1 k r hr hok hdk
      have hrd : i.dmaReady = false := by
        cases hh : i.dmaReady with
        | false => rfl
        | true => rw [(dtaken_spec h k).mpr (Or.inr ⟨hdd.valid, hh, r, hr, hok, hdk⟩)] at hd; simp at hd
      exact ⟨by rw [e1, hdd.valid, hrd]; rfl, by rw [e2]; exact hdd.tag, by rw [e3]; exact hdd.addr, by rw [e4]; exact hdd.len, by rw [e5]; exact hdd.ram⟩
    · intro hv
      rw [e1, Bool.and_eq_true, Bool.not_eq_true'] at hv
      obtain ⟨k, r, k1, k2, k3, _⟩ := d_own h hv.1
      refine ⟨k, r, by rw [hre]; exact k1, k2, ?_⟩
      rw [Bool.eq_false_iff]; intro hc
      rcases (dtaken_spec h k).mp hc with a | ⟨_, a, _⟩
      · rw [k3] at a; simp at a
      · rw [hv.2] at a; simp at a

theorem wait_step {P : Params} {s : S} {g : G} {i : In} (h : Inv P s g) (hl : Legal P g i) :
    (∀ (k : Nat) (q : Req) (r : Resp), (watch P s g i).reqs[k]? = some q → (watch P s g i).resp k = some r →
      (watch P s g i).answered k = true ∨
        ((next P s i).respReady q.sel = true ∧ (watch P s g i).held q.sel = some r ∧ r.tag = k % P.n)) ∧
    (∀ p, (next P s i).respReady p = true → ∃ (k : Nat) (q : Req) (r : Resp), (watch P s g i).reqs[k]? = some q ∧ q.sel = p ∧
      (watch P s g i).resp k = some r ∧ (watch P s g i).held p = some r ∧ (watch P s g i).own r.tag = some k) := by
  have e1 : (next P s i).respReady = match proc P s i with | some (p, _) => fun q => decide (q = p) | none => fun _ => false := rfl
  have e2 : ∀ p, (watch P s g i).held p = if s.respReady p then none else i.resp p := fun _ => rfl
  refine ⟨?_, ?_⟩
  · intro k q r hq hr
    rcases resp_cases h hl k with ⟨a1, _⟩ | ⟨p, r', q', a1, a2, a3, a4, a5, a6, a7, a8, a9, a10, a11, a12, a13, a14⟩
    · rw [a1] at hr
      left
      have hq' : g.reqs[k]? = some q := by
        rcases (reqs_spec P s g i k q).mp hq with hh | ⟨rfl, _⟩
        · exact hh
        · have := lt_of_resp h hr; omega
      rw [answered_spec h hl]
      rcases h.wait k q r hq' hr with hh | ⟨b1, b2, b3⟩
      · exact Or.inl hh
      · cases hans : g.answered k with
        | true => exact Or.inl rfl
        | false =>
          have hf : g.fin ≤ k := by
            rcases Nat.lt_or_ge k g.fin with hh | hh
            · have := (h.old k hh).1; rw [hans] at this; simp at this
            · exact hh
          exact Or.inr ⟨q, r, hq', hr, b1, b2, by rw [b3]; exact (h.row k q hf hq').own⟩
    · rw [a3, Option.some.injEq] at hr; subst hr
      have hqq : q = q' := by
        rcases (reqs_spec P s g i k q).mp hq with hh | ⟨rfl, _⟩
        · rw [a4, Option.some.injEq] at hh; exact hh.symm
        · have := ix a4; omega
      subst hqq
      right
      refine ⟨by rw [e1, a1, a5]; simp, ?_, a11⟩
      rw [e2, a5, a13, a12]; rfl
  · intro p hp
    rw [e1] at hp
    cases hpr : proc P s i with
    | none => rw [hpr] at hp; simp at hp
    | some x =>
      obtain ⟨p0, r0⟩ := x
      rw [hpr] at hp
      simp only [decide_eq_true_eq] at hp
      subst hp
      obtain ⟨k0, q, h1, h2, h3, h4, h5, h6, h7, h8, h9, h10, h11, h12⟩ := proc_spec h hl hpr
      have hr0 : (watch P s g i).resp k0 = some r0 := by
        rcases resp_cases h hl k0 with ⟨a1, a2⟩ | ⟨p', r', q', a1, a2, a3, _⟩
        · rcases a2 p r0 hpr with b | b | b
          · exact absurd h9 b
          · omega
          · have := ix h2; omega
        · rw [hpr, Option.some.injEq, Prod.mk.injEq] at a1
          rw [a3, ← a1.2]
      refine ⟨k0, q, r0, (reqs_spec P s g i k0 q).mpr (Or.inl h2), h3, hr0, by rw [e2, h11, h10]; rfl, ?_⟩
      show upd? g.own ((accept s i).map fun _ => (P.mask s.start, some g.reqs.length)) r0.tag = _
      rw [h9, acc_keep h hl h8 (ix h2) g.own (fun _ => some g.reqs.length), ← h9]; exact h1

theorem com_step {P : Params} {s : S} {g : G} {i : In} (h : Inv P s g) (hl : Legal P g i) :
    ((∀ p, (next P s i).coValid p = false) ∨ ∃ p0, p0 < P.ports ∧ ∀ p, (next P s i).coValid p = decide (p = p0)) ∧
    (watch P s g i).commits ++ offered P (next P s i) = (List.range (watch P s g i).fin).filterMap (due (watch P s g i)) := by
  have e1 : (next P s i).coValid = if commit P s then fun p => decide (p = s.sel (P.mask s.finish)) else fun p => s.coValid p && !i.commitReady p := rfl
  have e2 : (next P s i).coTag = if commit P s then s.opTag (P.mask s.finish) else s.coTag := rfl
  have e3 : (watch P s g i).commits = g.commits ++ commitsTaken P s i := rfl
  have hold : (List.range g.fin).filterMap (due (watch P s g i)) = (List.range g.fin).filterMap (due g) := by
    refine filterMap_eq _ _ _ fun k hk => ?_
    obtain ⟨_, r, hr, _⟩ := h.old k (List.mem_range.mp hk)
    obtain ⟨q, hq⟩ := ix' (lt_of_resp h hr)
    exact (due_keep h hl hq hr).1
  cases hc : commit P s with
  | true =>
    obtain ⟨q, r, f1, f2, f3, f4, f5⟩ := fin_spec h (by rw [hc, Bool.or_true])
    have hok : r.ok = true := by rw [← f4, hc]
    obtain ⟨g1, g2, g3⟩ := f5 hok
    rw [hc] at e1 e2
    simp only [if_true] at e1 e2
    have hs := h.selok _ q f1
    refine ⟨Or.inr ⟨q.sel, hs, fun p => by rw [e1, g2]⟩, ?_⟩
    have o1 : offered P s = [] := by unfold offered; exact cold _ _ _ g1
    have o2 : commitsTaken P s i = [] := by
      unfold commitsTaken; exact cold (fun p => s.coValid p && i.commitReady p) _ _ fun p hp => by rw [g1 p hp]; rfl
    have o3 : offered P (next P s i) = [(q.sel, r.opTag)] := by
      unfold offered
      rw [hot _ _ q.sel _ (fun p _ => by rw [e1, g2]), if_pos hs, e2, g3]
    have hcom := h.com
    rw [o1, List.append_nil] at hcom
    rw [e3, o2, List.append_nil, o3, hcom, fin_eq, hc, Bool.or_true, if_pos rfl, List.range_succ, List.filterMap_append, hold]
    congr 1
    have hd : due (watch P s g i) g.fin = some (q.sel, r.opTag) := by
      rw [(due_keep h hl f1 f2).1]; unfold due; rw [f1, f2]; simp [hok]
    rw [List.filterMap_cons, hd]; rfl
  | false =>
    rw [hc] at e1 e2
    simp only [Bool.false_eq_true, if_false] at e1 e2
    have hsum : commitsTaken P s i ++ offered P (next P s i) = offered P s := by
      unfold commitsTaken offered
      rw [e1, e2]
      rcases h.co with hco | ⟨p0, p1, hco⟩
      · rw [cold (fun p => s.coValid p && i.commitReady p) _ _ (fun p _ => by rw [hco]; rfl), cold _ _ _ (fun p _ => by rw [hco]; rfl),
          cold _ _ _ (fun p _ => hco p)]; rfl
      · rw [hot s.coValid _ p0 _ (fun p _ => hco p), if_pos p1]
        cases hr : i.commitReady p0 with
        | true =>
          rw [hot (fun p => s.coValid p && i.commitReady p) _ p0 _ ?_, if_pos p1, cold _ _ _ ?_]; rfl
          · intro p _; rw [hco]
            by_cases hp : p = p0
            · subst hp; rw [hr]; simp
            · simp [hp]
          · intro p _; rw [hco]
            by_cases hp : p = p0
            · subst hp; rw [hr]; simp
            · simp [hp]
        | false =>
          rw [cold (fun p => s.coValid p && i.commitReady p) _ _ ?_, hot _ _ p0 _ ?_, if_pos p1]; rfl
          · intro p _; rw [hco]
            by_cases hp : p = p0
            · subst hp; rw [hr]; simp
            · simp [hp]
          · intro p _; rw [hco]
            by_cases hp : p = p0
            · subst hp; rw [hr]; simp
            · simp [hp]
    refine ⟨?_, ?_⟩
    · rcases h.co with hco | ⟨p0, p1, hco⟩
      · left; intro p; rw [e1]; show (s.coValid p && _) = _; rw [hco]; rfl
      · cases hr : i.commitReady p0 with
        | true =>
          left; intro p; rw [e1]; show (s.coValid p && !i.commitReady p) = _; rw [hco]
          by_cases hp : p = p0
          · subst hp; rw [hr]; simp
          · simp [hp]
        | false =>
          right
          refine ⟨p0, p1, fun p => ?_⟩
          rw [e1]; show (s.coValid p && !i.commitReady p) = _; rw [hco]
          by_cases hp : p = p0
          · subst hp; rw [hr]; simp
          · simp [hp]
    · rw [e3, List.append_assoc, hsum, h.com]
      rcases fin_step h i with ⟨f1, _⟩ | ⟨f1, f2, _⟩
      · rw [f1, hold]
      · obtain ⟨q, r, f3, f4, f5, f6, _⟩ := fin_spec h f2
        rw [f1, List.range_succ, List.filterMap_append, hold]
        have hd : due (watch P s g i) g.fin = none := by
          rw [(due_keep h hl f3 f4).1]; unfold due; rw [f3, f4]; simp [← f6, hc]
        rw [List.filterMap_cons, hd]; simp

theorem ord_step {P : Params} {s : S} {g : G} {i : In} (h : Inv P s g) (hl : Legal P g i) :
    ((watch P s g i).order.Nodup ∧ ∀ k, k ∈ (watch P s g i).order ↔ ((watch P s g i).resp k).isSome = true) ∧
    ((watch P s g i).pulses ++ pulse (next P s i)).map some = (watch P s g i).order.map (report (watch P s g i)) := by
  have e1 : (watch P s g i).order = match proc P s i with
    | some (_, r) => (match g.own r.tag with | some k => g.order ++ [k] | none => g.order) | none => g.order := rfl
  have e2 : (watch P s g i).pulses = g.pulses ++ pulse s := by
    show (if s.stValid then g.pulses ++ [(s.stTag, s.stFull, s.stError)] else g.pulses) = _
    unfold pulse; cases s.stValid <;> simp
  have e3 : pulse (next P s i) = match proc P s i with | some (_, r) => [(s.tag (P.mask r.tag), r.full, r.error)] | none => [] := by
    unfold pulse
    show (if (proc P s i).isSome then [((match proc P s i with | some (_, r) => s.tag (P.mask r.tag) | none => s.stTag),
      (match proc P s i with | some (_, r) => r.full | none => s.stFull), (match proc P s i with | some (_, r) => r.error | none => s.stError))] else []) = _
    cases proc P s i <;> rfl
  have hrep : g.order.map (report (watch P s g i)) = g.order.map (report g) := by
    refine List.map_congr_left fun k hk => ?_
    obtain ⟨r, hr⟩ := Option.isSome_iff_exists.mp ((h.ord.2 k).mp hk)
    obtain ⟨q, hq⟩ := ix' (lt_of_resp h hr)
    exact (due_keep h hl hq hr).2
  cases hp : proc P s i with
  | none =>
    rw [hp] at e1 e3
    simp only at e1 e3
    refine ⟨⟨by rw [e1]; exact h.ord.1, ?_⟩, ?_⟩
    · intro k
      rw [e1, h.ord.2]
      rcases resp_cases h hl k with ⟨a1, _⟩ | ⟨_, _, _, a1, _⟩
      · rw [a1]
      · rw [hp] at a1; simp at a1
    · rw [e2, e3, e1, List.append_nil, h.pul, hrep]
  | some x =>
    obtain ⟨p, r0⟩ := x
    obtain ⟨k0, q, h1, h2, h3, h4, h5, h6, h7, h8, h9, h10, h11, h12⟩ := proc_spec h hl hp
    rw [hp] at e1 e3
    simp only [h1] at e1 e3
    have hr0 : (watch P s g i).resp k0 = some r0 := by
      rcases resp_cases h hl k0 with ⟨a1, a2⟩ | ⟨p', r', q', a1, a2, a3, _⟩
      · rcases a2 p r0 hp with b | b | b
        · exact absurd h9 b
        · omega
        · have := ix h2; omega
      · rw [hp, Option.some.injEq, Prod.mk.injEq] at a1
        rw [a3, ← a1.2]
    refine ⟨⟨?_, ?_⟩, ?_⟩
    · rw [e1, List.nodup_append]
      refine ⟨h.ord.1, by simp, ?_⟩
      intro a ha b hb
      rw [List.mem_singleton] at hb; subst hb
      intro e; subst e
      have := (h.ord.2 a).mp ha
      rw [h5] at this; simp at this
    · intro k
      rw [e1, List.mem_append, List.mem_singleton, h.ord.2]
      rcases resp_cases h hl k with ⟨a1, a2⟩ | ⟨p', r', q', a1, a2, a3, a4, a5, a6, a7, _⟩
      · rw [a1]
        constructor
        · rintro (b | rfl)
          · exact b
          · exfalso
            rw [hr0, h5] at a1; simp at a1
        · exact Or.inl
      · have hk : k = k0 := by
          rw [hp, Option.some.injEq, Prod.mk.injEq] at a1
          rw [← a1.2, h1, Option.some.injEq] at a2; exact a2.symm
        rw [a3]; simp [hk]
    · rw [e2, e3, e1, List.map_append, h.pul, List.map_append, hrep]
      congr 1
      have : report (watch P s g i) k0 = some (q.tag, r0.full, r0.error) := by
        unfold report; rw [(reqs_spec P s g i k0 q).mpr (Or.inl h2), hr0]
      rw [List.map_singleton, List.map_singleton, this, h9, mask_lt, (h.row k0 q h8 h2).tag]

theorem inv_step {P : Params} {s : S} {g : G} {i : In} (h : Inv P s g) (hl : Legal P g i) : Inv P (next P s i) (watch P s g i) := by
  have hlen := len_spec P s g i
  have hfin := fin_step h i
  have hle2 : (watch P s g i).reqs.length ≤ g.fin + P.n := by
    rw [hlen]
    cases ha : accept s i with
    | none => exact h.le2
    | some q => have := (accept_spec h hl ha).2.1; simp; omega
  have hfle : g.fin ≤ (watch P s g i).fin := by rcases hfin with ⟨f, _⟩ | ⟨f, _⟩ <;> omega
  have hresp_lt : ∀ k, (∃ r, (watch P s g i).resp k = some r) → k < g.reqs.length := by
    rintro k ⟨r, hr⟩
    rcases resp_cases h hl k with ⟨a1, _⟩ | ⟨p, r', q', a1, a2, a3, a4, _⟩
    · rw [a1] at hr; exact lt_of_resp h hr
    · exact ix a4
  have htk : ∀ k, g.taken k = true → (watch P s g i).taken k = true := fun k hk => (taken_spec h k).mpr (Or.inl hk)
  refine ⟨?_, ?_, ?_, ?_, act_step h hl, ?_, ?_, ?_, ?_, ?_, (eqv_step h hl).1, (eqv_step h hl).2, rdy_step h, ?_, ?_, (wait_step h hl).1,
    (wait_step h hl).2, (d_step h hl).1, (d_step h hl).2, ?_, ?_, (com_step h hl).1, (com_step h hl).2, (ord_step h hl).1, (ord_step h hl).2⟩
  · have := h.le1
    rw [hlen]
    rcases hfin with ⟨f, _⟩ | ⟨f, _, f3⟩ <;> omega
  · omega
  · show (if (accept s i).isSome then (s.start + 1) % 2 ^ (P.cl + 1) else s.start) = _
    rw [hlen]
    cases ha : accept s i with
    | none => exact h.sp
    | some q => rw [if_pos (show (some q).isSome = true from rfl), h.sp, Nat.mod_add_mod]; rfl
  · show (if drop P s || commit P s then (s.finish + 1) % 2 ^ (P.cl + 1) else s.finish) = _
    rcases hfin with ⟨f1, f2⟩ | ⟨f1, f2, _⟩
    · rw [f1, f2]; exact h.fp
    · rw [f1, f2, if_pos rfl, h.fp, Nat.mod_add_mod]
  · intro j k e
    replace e : upd? g.own ((accept s i).map fun _ => (P.mask s.start, some g.reqs.length)) j = some k := e
    rw [hlen]
    cases ha : accept s i with
    | none =>
      rw [ha] at e
      exact ⟨(h.own j k e).1, Nat.lt_of_lt_of_le (h.own j k e).2 (Nat.le_add_right _ _)⟩
    | some q =>
      rw [ha] at e
      simp only [Option.map_some] at e
      by_cases hj : j = P.mask s.start
      · subst hj
        rw [updo_some, Option.some.injEq] at e; subst e
        rw [h.sp, mask_ptr]
        exact ⟨rfl, by simp⟩
      · rw [updo_ne _ _ _ (by intro a b e; rw [Option.some.injEq, Prod.mk.injEq] at e; rw [← e.1]; exact hj)] at e
        exact ⟨(h.own j k e).1, Nat.lt_of_lt_of_le (h.own j k e).2 (Nat.le_add_right _ _)⟩
  · intro k q hk hq
    rcases (reqs_spec P s g i k q).mp hq with h1 | ⟨rfl, h1⟩
    · exact row_old h hl (by omega) h1
    · exact row_new h hl h1
  · intro k q hq
    rcases (reqs_spec P s g i k q).mp hq with h1 | ⟨rfl, h1⟩
    · exact h.selok k q h1
    · exact (accept_spec h hl h1).1
  · intro k hk
    have hk' : g.reqs.length ≤ k := by omega
    obtain ⟨a1, a2, a3, a4, a5⟩ := h.fresh k hk'
    refine ⟨?_, ?_, ?_, ?_, ?_⟩
    · rw [Bool.eq_false_iff]; intro hc
      rcases (taken_spec h k).mp hc with b | ⟨_, _, _, _, b⟩
      · rw [a1] at b; simp at b
      · omega
    · cases hr : (watch P s g i).resp k with
      | none => rfl
      | some r => have := hresp_lt k ⟨r, hr⟩; omega
    · rw [Bool.eq_false_iff]; intro hc
      rcases (answered_spec h hl k).mp hc with b | ⟨q, r, b, _⟩
      · rw [a3] at b; simp at b
      · have := ix b; omega
    · rw [Bool.eq_false_iff]; intro hc
      rcases (dtaken_spec h k).mp hc with b | ⟨_, _, r, b, _⟩
      · rw [a4] at b; simp at b
      · rw [a2] at b; simp at b
    · rw [Bool.eq_false_iff]; intro hc
      rcases (wrote_spec k).mp hc with b | ⟨t, _, b⟩
      · rw [a5] at b; simp at b
      · have := (h.own t k b).2; omega
  · intro k hk
    rcases Nat.lt_or_ge k g.fin with hk' | hk'
    · obtain ⟨a1, r, a2, a3⟩ := h.old k hk'
      exact ⟨(answered_spec h hl k).mpr (Or.inl a1), r, resp_keep h hl a2, fun ho => (wrote_spec k).mpr (Or.inl (a3 ho))⟩
    · rcases hfin with ⟨f, _⟩ | ⟨f, f2, _⟩
      · omega
      · have : k = g.fin := by omega
        subst this
        obtain ⟨q, r, f3, f4, f5, _⟩ := fin_spec h f2
        refine ⟨?_, r, resp_keep h hl f4, fun ho => (wrote_spec _).mpr (Or.inl (f5 ho))⟩
        rw [answered_spec h hl]
        rcases h.wait _ q r f3 f4 with hh | ⟨b1, b2, b3⟩
        · exact Or.inl hh
        · exact Or.inr ⟨q, r, f3, f4, b1, b2, by rw [b3]; exact (h.row _ q (Nat.le_refl _) f3).own⟩
  · intro k r hr
    rcases resp_cases h hl k with ⟨a1, _⟩ | ⟨p, r', q', a1, a2, a3, a4, a5, a6, a7, a8, _⟩
    · rw [a1] at hr; exact htk k (h.rt k r hr)
    · exact htk k a8
  · intro k hk
    rcases (answered_spec h hl k).mp hk with b | ⟨q, r, _, b, _⟩
    · obtain ⟨r, hr⟩ := Option.isSome_iff_exists.mp (h.ans k b)
      rw [resp_keep h hl hr]; rfl
    · rw [resp_keep h hl b]; rfl
  · intro k hk
    rcases (dtaken_spec h k).mp hk with b | ⟨_, _, r, b1, b2, _⟩
    · obtain ⟨r, b1, b2⟩ := h.dt k b
      exact ⟨r, resp_keep h hl b1, b2⟩
    · exact ⟨r, resp_keep h hl b1, b2⟩
  · intro k hk
    rw [dtaken_spec h]
    rcases (wrote_spec k).mp hk with b | ⟨t, t1, t2⟩
    · exact Or.inl (h.wr k b)
    · obtain ⟨k', a1, _, a3, _⟩ := status_spec h hl t1
      rw [t2, Option.some.injEq] at a1; subst a1
      exact Or.inl a3

theorem inv_run {P : Params} (is : List In) : ∀ (x : Sys), Inv P x.s x.g → LegalRun P x is → Inv P (run P x is).s (run P x is).g := by
  induction is with
  | nil => intro x h _; exact h
  | cons i is ih => intro x h hl; exact ih _ (inv_step h hl.1) hl.2

end Corundum.CplWrite
