import Verif.Proof.QueueManager
/-! Facts about traces accepted by the reference queue manager. -/
namespace Corundum.QueueManager
open Spec

/-- the request succeeded -/
def okResp (r : Resp) : Bool := !r.err && !r.empty

/-- pointers of the successful dequeues of queue `q`, in order -/
def okPtrs (q : Nat) : List Ev → List Nat
  | [] => []
  | .req q' _ r :: es => if q' = q ∧ okResp r = true then r.ptr :: okPtrs q es else okPtrs q es
  | _ :: es => okPtrs q es

/-- a command word written to a command register -/
def isCmd (reg : Nat) : Prop := 2 ≤ reg ∧ reg ≤ 4
instance (reg : Nat) : Decidable (isCmd reg) := by unfold isCmd; infer_instance

/-- producer pointer of `q` according to the register writes alone -/
def prodOf (q : Nat) (init : Nat) : List Ev → Nat
  | [] => init
  | .wr q' reg data _ _ :: es => prodOf q (if q' = q ∧ isCmd reg ∧ data / 2 ^ 16 = 0x8080 then data % 2 ^ 16 else init) es
  | _ :: es => prodOf q init es

/-- enable state of `q` according to the register writes alone -/
def enOf (q : Nat) (init : Bool) : List Ev → Bool
  | [] => init
  | .wr q' reg data _ _ :: es => enOf q (if q' = q ∧ isCmd reg ∧ data / 2 ^ 8 = 0x400001 then data % 2 == 1 else init) es
  | _ :: es => enOf q init es

/-- no "set consumer pointer" command to `q` -/
def noConsWrite (q : Nat) (es : List Ev) : Prop :=
  ∀ reg data strb db, Ev.wr q reg data strb db ∈ es → isCmd reg → data / 2 ^ 16 ≠ 0x8090
/-- no "set producer pointer" command to `q` -/
def noProdWrite (q : Nat) (es : List Ev) : Prop :=
  ∀ reg data strb db, Ev.wr q reg data strb db ∈ es → isCmd reg → data / 2 ^ 16 ≠ 0x8080
/-- no enable/disable command to `q` -/
def noEnWrite (q : Nat) (es : List Ev) : Prop :=
  ∀ reg data strb db, Ev.wr q reg data strb db ∈ es → isCmd reg → data / 2 ^ 8 ≠ 0x400001

theorem write_prod (c : Queue) (reg data strb : Nat) :
    (write c reg data strb).prod = if isCmd reg ∧ data / 2 ^ 16 = 0x8080 then data % 2 ^ 16 else c.prod := by
  unfold write isCmd
  by_cases h0 : reg = 0
  · subst h0; simp; split <;> rfl
  by_cases h1 : reg = 1
  · subst h1; simp; split <;> rfl
  simp only [if_neg h0, if_neg h1]
  by_cases h2 : 2 ≤ reg ∧ reg ≤ 4
  · rw [if_pos h2]
    simp only [h2, and_self, true_and]
    by_cases c1 : data / 2 ^ 16 = 0x8002
    · rw [if_pos c1, if_neg (show ¬ data / 2 ^ 16 = 0x8080 by omega)]; split <;> rfl
    · rw [if_neg c1]
      by_cases c2 : data / 2 ^ 24 = 0xC0
      · rw [if_pos c2, if_neg (show ¬ data / 2 ^ 16 = 0x8080 by omega)]; split <;> rfl
      · rw [if_neg c2]
        by_cases c3 : data / 2 ^ 16 = 0x8080
        · rw [if_pos c3, if_pos c3]
        · rw [if_neg c3, if_neg c3]
          split
          · split <;> rfl
          · split <;> rfl
  · rw [if_neg h2, if_neg (fun h => h2 h.1)]

theorem write_en (c : Queue) (reg data strb : Nat) :
    (write c reg data strb).en = if isCmd reg ∧ data / 2 ^ 8 = 0x400001 then data % 2 == 1 else c.en := by
  unfold write isCmd
  by_cases h0 : reg = 0
  · subst h0; simp; split <;> rfl
  by_cases h1 : reg = 1
  · subst h1; simp; split <;> rfl
  simp only [if_neg h0, if_neg h1]
  by_cases h2 : 2 ≤ reg ∧ reg ≤ 4
  · rw [if_pos h2]
    simp only [h2, and_self, true_and]
    by_cases c1 : data / 2 ^ 16 = 0x8002
    · rw [if_pos c1, if_neg (show ¬ data / 2 ^ 8 = 0x400001 by omega)]; split <;> rfl
    · rw [if_neg c1]
      by_cases c2 : data / 2 ^ 24 = 0xC0
      · rw [if_pos c2, if_neg (show ¬ data / 2 ^ 8 = 0x400001 by omega)]; split <;> rfl
      · rw [if_neg c2]
        by_cases c3 : data / 2 ^ 16 = 0x8080
        · rw [if_pos c3, if_neg (show ¬ data / 2 ^ 8 = 0x400001 by omega)]
        · rw [if_neg c3]
          by_cases c4 : data / 2 ^ 16 = 0x8090
          · rw [if_pos c4, if_neg (show ¬ data / 2 ^ 8 = 0x400001 by omega)]; split <;> rfl
          · rw [if_neg c4]; split <;> rfl
  · rw [if_neg h2, if_neg (fun h => h2 h.1)]

theorem write_cons (c : Queue) (reg data strb : Nat) (h : c.en = true ∨ (isCmd reg → data / 2 ^ 16 ≠ 0x8090)) :
    (write c reg data strb).cons = c.cons := by
  unfold isCmd at h
  unfold write
  by_cases h0 : reg = 0
  · subst h0; simp; split <;> rfl
  by_cases h1 : reg = 1
  · subst h1; simp; split <;> rfl
  simp only [if_neg h0, if_neg h1]
  by_cases h2 : 2 ≤ reg ∧ reg ≤ 4
  · rw [if_pos h2]
    split
    · split <;> rfl
    · split
      · split <;> rfl
      · split
        · rfl
        · split
          · rename_i c4
            rcases h with h | h
            · rw [h]; rfl
            · exact absurd c4 (h h2)
          · split <;> rfl
  · rw [if_neg h2]

/-- configuration fields of an enabled queue survive every write -/
theorem write_cfg (c : Queue) (reg data strb : Nat) (h : c.en = true) :
    (write c reg data strb).cons = c.cons ∧ (write c reg data strb).baseLo = c.baseLo ∧ (write c reg data strb).baseHi = c.baseHi ∧
    (write c reg data strb).logSize = c.logSize ∧ (write c reg data strb).logBlock = c.logBlock ∧ (write c reg data strb).cplq = c.cplq := by
  unfold write
  simp only [h, if_true]
  repeat' split
  all_goals simp

theorem next_setQ (a : A) (q q' : Nat) (c : Queue) (hc : q' = q → c.cons = (a.qs q).cons) : next (setQ a q' c) q = next a q := by
  unfold next
  have : opsOf (setQ a q' c) q = opsOf a q := rfl
  rw [this]
  cases (opsOf a q).getLast? with
  | some o => rfl
  | none =>
    simp only [setQ]
    split
    · rename_i h; exact hc h.symm
    · rfl

theorem next_commit (a : A) (q tag : Nat) :
    next { a with ops := a.ops.map (fun o => if o.tag = tag then { o with done := true } else o) } q = next a q := by
  unfold next opsOf
  have hm : ∀ l : List AOp, (l.map (fun o => if o.tag = tag then { o with done := true } else o)).filter (fun o => o.q == q) =
      (l.filter (fun o => o.q == q)).map (fun o => if o.tag = tag then { o with done := true } else o) := by
    intro l
    induction l with
    | nil => rfl
    | cons x l ih =>
      have : (if x.tag = tag then { x with done := true } else x).q = x.q := by split <;> rfl
      rw [List.map_cons]
      by_cases hx : x.q = q
      · rw [List.filter_cons_of_pos (by simpa [this] using hx), List.filter_cons_of_pos (by simpa using hx), List.map_cons, ih]
      · rw [List.filter_cons_of_neg (by simpa [this] using hx), List.filter_cons_of_neg (by simpa using hx), ih]
  simp only
  rw [hm, List.getLast?_map]
  cases (a.ops.filter (fun o => o.q == q)).getLast? with
  | none => rfl
  | some o => simp only [Option.map_some]; split <;> rfl

theorem getLast?_cons_ne {α} (x : α) {l : List α} (h : l ≠ []) : (x :: l).getLast? = l.getLast? := by
  cases l with
  | nil => exact absurd rfl h
  | cons y l => simp [List.getLast?_cons]

theorem next_retire (a : A) (q : Nat) (o : AOp) (rest : List AOp) (ho : a.ops = o :: rest) :
    next { setQ a o.q { a.qs o.q with cons := o.ptr } with ops := rest } q = next a q := by
  unfold next opsOf
  simp only [ho]
  by_cases hq : o.q = q
  · rw [List.filter_cons_of_pos (by simpa using hq)]
    by_cases hr : rest.filter (fun o => o.q == q) = []
    · rw [hr]; simp [setQ, hq]
    · rw [getLast?_cons_ne _ hr]
      cases hl : (rest.filter (fun o => o.q == q)).getLast? with
      | none => simp at hl; exact absurd (List.filter_eq_nil_iff.mpr (fun x hx => by simpa using hl x hx)) hr
      | some x => rfl
  · rw [List.filter_cons_of_neg (by simpa using hq)]
    cases (rest.filter (fun o => o.q == q)).getLast? with
    | none => simp [setQ, Ne.symm hq]
    | some x => rfl

theorem accept_wr {p a q reg data strb db a'} (h : accept p a (.wr q reg data strb db) = some a') :
    setQ a q (write (a.qs q) reg data strb) = a' ∧ db = (if isProd reg data ∧ (a.qs q).en = true then some q else none) := by
  simp only [accept] at h
  by_cases hc : db = (if isProd reg data ∧ (a.qs q).en = true then some q else none)
  · rw [if_pos hc] at h; exact ⟨Option.some.inj h, hc⟩
  · rw [if_neg hc] at h; cases h

/-- effect of one accepted event on `next`, the registers -/
theorem accept_next {p a e a'} (h : accept p a e = some a') (q : Nat)
    (hc : (a.qs q).en = true ∨ noConsWrite q [e]) :
    okPtrs q [e] = [] ∧ next a' q = next a q ∨
    okPtrs q [e] = [next a q] ∧ next a' q = (next a q + 1) % 2 ^ 16 ∧ next a q ≠ (a.qs q).prod := by
  cases e with
  | wr q' reg data strb db =>
    left
    refine ⟨rfl, ?_⟩
    rw [← (accept_wr h).1]
    apply next_setQ
    rintro rfl
    apply write_cons
    rcases hc with hc | hc
    · exact .inl hc
    · exact .inr (fun hr => hc reg data strb db (by simp) hr)
  | rd q' reg v =>
    left
    simp only [accept] at h
    split at h
    · injection h with h; rw [← h]; exact ⟨rfl, rfl⟩
    · cases h
  | req q' tag r =>
    simp only [accept] at h
    split at h
    · rename_i hr
      split at h
      · rename_i he
        left
        injection h with h
        refine ⟨?_, by rw [← h]⟩
        simp only [okPtrs]
        rw [if_neg]
        rintro ⟨_, ho⟩
        unfold okResp at ho
        cases h1 : r.err <;> cases h2 : r.empty <;> simp_all
      · rename_i he
        split at h
        · injection h with h
          by_cases hq : q' = q
          · right
            subst hq
            have hok : okResp r = true := by
              unfold okResp
              cases h1 : r.err <;> cases h2 : r.empty <;> simp_all
            have hp : r.ptr = next a q' := by rw [hr]; rfl
            refine ⟨by simp only [okPtrs]; rw [if_pos ⟨trivial, hok⟩, hp], ?_, ?_⟩
            · rw [← h]
              unfold next opsOf
              simp only [List.filter_append]
              rw [List.filter_cons_of_pos (by simp), List.filter_nil, List.getLast?_concat]
              simp only
              rw [hp]; rfl
            · intro hne
              have h1 : r.err = false := by unfold okResp at hok; cases h1 : r.err <;> simp_all
              have h2 : r.empty = false := by unfold okResp at hok; cases h2 : r.empty <;> simp_all
              rw [hr] at h1 h2
              simp only [resp] at h1 h2
              cases hen : (a.qs q').en <;> simp_all
          · left
            refine ⟨by simp only [okPtrs]; rw [if_neg (fun hh => hq hh.1)], ?_⟩
            rw [← h]
            unfold next opsOf
            simp only [List.filter_append]
            rw [List.filter_cons_of_neg (by simpa using hq), List.filter_nil, List.append_nil]
        · cases h
    · cases h
  | commit tag =>
    left
    simp only [accept, Option.some.injEq] at h
    rw [← h]
    exact ⟨rfl, next_commit a q tag⟩
  | retire q' =>
    left
    simp only [accept] at h
    split at h
    · rename_i o rest ho
      split at h
      · rename_i hc'
        injection h with h
        rw [← h, ← hc'.1]
        exact ⟨rfl, next_retire a q o rest ho⟩
      · cases h
    · cases h

theorem accept_regs {p a e a'} (h : accept p a e = some a') (q : Nat) :
    (a'.qs q).prod = prodOf q (a.qs q).prod [e] ∧ (a'.qs q).en = enOf q (a.qs q).en [e] := by
  cases e with
  | wr q' reg data strb db =>
    rw [← (accept_wr h).1]
    simp only [prodOf, enOf, setQ]
    by_cases hq : q = q'
    · subst hq
      simp only [if_true, true_and]
      exact ⟨write_prod _ _ _ _, write_en _ _ _ _⟩
    · have hq' : ¬ q' = q := fun e => hq e.symm
      simp [hq, hq']
  | rd q' reg v =>
    simp only [accept] at h
    split at h
    · injection h with h; rw [← h]; exact ⟨rfl, rfl⟩
    · cases h
  | req q' tag r =>
    simp only [accept] at h
    split at h
    · split at h
      · injection h with h; rw [← h]; exact ⟨rfl, rfl⟩
      · split at h
        · injection h with h; rw [← h]; exact ⟨rfl, rfl⟩
        · cases h
    · cases h
  | commit tag =>
    simp only [accept, Option.some.injEq] at h
    rw [← h]; exact ⟨rfl, rfl⟩
  | retire q' =>
    simp only [accept] at h
    split at h
    · split at h
      · injection h with h
        rw [← h]
        simp only [setQ, prodOf, enOf]
        split <;> simp_all
      · cases h
    · cases h

theorem runA_cons {p a e es a'} (h : runA p a (e :: es) = some a') : ∃ a1, accept p a e = some a1 ∧ runA p a1 es = some a' := by
  simp only [runA] at h
  cases ha : accept p a e with
  | none => rw [ha] at h; cases h
  | some a1 => rw [ha] at h; exact ⟨a1, rfl, h⟩

theorem runA_split {p a e1 e2 a'} (h : runA p a (e1 ++ e2) = some a') : ∃ a1, runA p a e1 = some a1 ∧ runA p a1 e2 = some a' := by
  rw [runA_append] at h
  cases ha : runA p a e1 with
  | none => rw [ha] at h; cases h
  | some a1 => rw [ha] at h; exact ⟨a1, rfl, h⟩

theorem okPtrs_cons (q : Nat) (e : Ev) (es : List Ev) : okPtrs q (e :: es) = okPtrs q [e] ++ okPtrs q es := by
  cases e with
  | req q' t r => simp only [okPtrs]; split <;> simp
  | _ => rfl

theorem prodOf_cons (q n : Nat) (e : Ev) (es : List Ev) : prodOf q n (e :: es) = prodOf q (prodOf q n [e]) es := by
  cases e <;> rfl
theorem enOf_cons (q : Nat) (n : Bool) (e : Ev) (es : List Ev) : enOf q n (e :: es) = enOf q (enOf q n [e]) es := by
  cases e <;> rfl

theorem run_regs {p : Params} : ∀ (es : List Ev) {a a'}, runA p a es = some a' → ∀ q,
    (a'.qs q).prod = prodOf q (a.qs q).prod es ∧ (a'.qs q).en = enOf q (a.qs q).en es
  | [], a, a', h, q => by simp only [runA, Option.some.injEq] at h; rw [← h]; exact ⟨rfl, rfl⟩
  | e :: es, a, a', h, q => by
    obtain ⟨a1, h1, h2⟩ := runA_cons h
    obtain ⟨i1, i2⟩ := run_regs es h2 q
    obtain ⟨j1, j2⟩ := accept_regs h1 q
    rw [prodOf_cons, enOf_cons, ← j1, ← j2]
    exact ⟨i1, i2⟩

theorem noEn_en {q : Nat} : ∀ {es : List Ev} {b : Bool}, noEnWrite q es → enOf q b es = b
  | [], b, _ => rfl
  | e :: es, b, h => by
    rw [enOf_cons]
    have h' : noEnWrite q es := fun reg data strb db hm => h reg data strb db (by simp [hm])
    have : enOf q b [e] = b := by
      cases e with
      | wr q' reg data strb db =>
        simp only [enOf]
        rw [if_neg]
        rintro ⟨rfl, hc, hd⟩
        exact h reg data strb db (by simp) hc hd
      | _ => rfl
    rw [this]; exact noEn_en h'

/-- consecutive pointers over a stretch of the trace -/
theorem run_ptrs {p : Params} (q : Nat) : ∀ (es : List Ev) {a a'}, runA p a es = some a' → next a q < 2 ^ 16 →
    ((a.qs q).en = true ∧ noEnWrite q es ∨ noConsWrite q es) →
    okPtrs q es = (List.range (okPtrs q es).length).map (fun k => (next a q + k) % 2 ^ 16) ∧
    next a' q = (next a q + (okPtrs q es).length) % 2 ^ 16
  | [], a, a', h, hn, _ => by
    simp only [runA, Option.some.injEq] at h
    rw [← h]; simp [okPtrs, Nat.mod_eq_of_lt hn]
  | e :: es, a, a', h, hn, hc => by
    obtain ⟨a1, h1, h2⟩ := runA_cons h
    have hc1 : (a.qs q).en = true ∨ noConsWrite q [e] := by
      rcases hc with hc | hc
      · exact .inl hc.1
      · right; intro reg data strb db hm
        simp only [List.mem_singleton] at hm
        exact hc reg data strb db (by simp [hm])
    have hc2 : (a1.qs q).en = true ∧ noEnWrite q es ∨ noConsWrite q es := by
      rcases hc with hc | hc
      · left
        refine ⟨?_, fun reg data strb db hm => hc.2 reg data strb db (by simp [hm])⟩
        rw [(accept_regs h1 q).2, noEn_en (fun reg data strb db hm => hc.2 reg data strb db (by
          simp only [List.mem_singleton] at hm; simp [hm]))]
        exact hc.1
      · exact .inr (fun reg data strb db hm => hc reg data strb db (by simp [hm]))
    rw [okPtrs_cons]
    rcases accept_next h1 q hc1 with ⟨e1, e2⟩ | ⟨e1, e2, _⟩
    · rw [e1, List.nil_append, ← e2]
      exact run_ptrs q es h2 (by rw [e2]; exact hn) hc2
    · obtain ⟨i1, i2⟩ := run_ptrs q es h2 (by rw [e2]; exact Nat.mod_lt _ (by omega)) hc2
      rw [e1]
      have hlen : ([next a q] ++ okPtrs q es).length = (okPtrs q es).length + 1 := by simp
      rw [hlen, List.range_succ_eq_map, List.map_cons, List.map_map]
      refine ⟨?_, ?_⟩
      · rw [List.singleton_append]
        congr 1
        · rw [Nat.add_zero, Nat.mod_eq_of_lt hn]
        · conv => lhs; rw [i1]
          apply List.map_congr_left
          intro k _
          simp only [Function.comp, e2]
          rw [Nat.mod_add_mod]; congr 1; omega
      · rw [i2, e2, Nat.mod_add_mod]; congr 1; omega

/-- never past the producer: the number of successes is bounded by the distance to the producer pointer -/
theorem run_bound {p : Params} (q : Nat) : ∀ (es : List Ev) {a a'}, runA p a es = some a' → next a q < 2 ^ 16 → (a.qs q).prod < 2 ^ 16 →
    ((a.qs q).en = true ∧ noEnWrite q es ∨ noConsWrite q es) → noProdWrite q es →
    (okPtrs q es).length ≤ ((a.qs q).prod + 2 ^ 16 - next a q) % 2 ^ 16
  | [], a, a', _, _, _, _, _ => by simp [okPtrs]
  | e :: es, a, a', h, hn, hp, hc, hw => by
    obtain ⟨a1, h1, h2⟩ := runA_cons h
    have hc1 : (a.qs q).en = true ∨ noConsWrite q [e] := by
      rcases hc with hc | hc
      · exact .inl hc.1
      · right; intro reg data strb db hm
        simp only [List.mem_singleton] at hm
        exact hc reg data strb db (by simp [hm])
    have hc2 : (a1.qs q).en = true ∧ noEnWrite q es ∨ noConsWrite q es := by
      rcases hc with hc | hc
      · left
        refine ⟨?_, fun reg data strb db hm => hc.2 reg data strb db (by simp [hm])⟩
        rw [(accept_regs h1 q).2, noEn_en (fun reg data strb db hm => hc.2 reg data strb db (by
          simp only [List.mem_singleton] at hm; simp [hm]))]
        exact hc.1
      · exact .inr (fun reg data strb db hm => hc reg data strb db (by simp [hm]))
    have hpr : (a1.qs q).prod = (a.qs q).prod := by
      rw [(accept_regs h1 q).1]
      cases e with
      | wr q' reg data strb db =>
        simp only [prodOf]
        rw [if_neg]
        rintro ⟨rfl, hcm, hd⟩
        exact hw reg data strb db (by simp) hcm hd
      | _ => rfl
    have hw2 : noProdWrite q es := fun reg data strb db hm => hw reg data strb db (by simp [hm])
    rw [okPtrs_cons]
    rcases accept_next h1 q hc1 with ⟨e1, e2⟩ | ⟨e1, e2, e3⟩
    · rw [e1, List.nil_append, ← e2, ← hpr]
      exact run_bound q es h2 (by rw [e2]; exact hn) (by rw [hpr]; exact hp) hc2 hw2
    · have hl1 : next a1 q < 2 ^ 16 := by rw [e2]; exact Nat.mod_lt _ (by omega)
      have := run_bound q es h2 hl1 (by rw [hpr]; exact hp) hc2 hw2
      rw [hpr] at this
      rw [e1, List.length_append, List.length_singleton]
      omega

/-! ### ordering of retirements -/

/-- number of successful dequeues in a trace -/
def okCount : List Ev → Nat
  | [] => 0
  | .req _ _ r :: es => (if okResp r = true then 1 else 0) + okCount es
  | _ :: es => okCount es

def retCount : List Ev → Nat
  | [] => 0
  | .retire _ :: es => 1 + retCount es
  | _ :: es => retCount es

theorem okCount_append : ∀ (x y : List Ev), okCount (x ++ y) = okCount x + okCount y
  | [], y => by simp [okCount]
  | e :: x, y => by cases e <;> simp [okCount, okCount_append x y]; omega
theorem retCount_append : ∀ (x y : List Ev), retCount (x ++ y) = retCount x + retCount y
  | [], y => by simp [retCount]
  | e :: x, y => by cases e <;> simp [retCount, retCount_append x y]; omega

/-- op `o` is the `n`-th operation started in the trace, and if done it was committed afterwards -/
def Origin (es : List Ev) (n : Nat) (o : AOp) : Prop :=
  ∃ f0 tag r f1, es = f0 ++ Ev.req o.q tag r :: f1 ∧ okResp r = true ∧ okCount f0 = n ∧ r.opTag = o.tag ∧
    o.ptr = (r.ptr + 1) % 2 ^ 16 ∧ (o.done = true → Ev.commit o.tag ∈ f1)

theorem Origin.append {es n o} (h : Origin es n o) (e : List Ev) : Origin (es ++ e) n o := by
  obtain ⟨f0, tag, r, f1, h1, h2, h3, h4, h5, h6⟩ := h
  exact ⟨f0, tag, r, f1 ++ e, by rw [h1]; simp, h2, h3, h4, h5, fun hd => List.mem_append_left _ (h6 hd)⟩

structure TInv (es : List Ev) (a : A) : Prop where
  cnt : okCount es = retCount es + a.ops.length
  org : ∀ j (h : j < a.ops.length), Origin es (retCount es + j) a.ops[j]

theorem tinv_step {p es a e a'} (h : TInv es a) (ha : accept p a e = some a') : TInv (es ++ [e]) a' := by
  obtain ⟨h1, h2⟩ := h
  cases e with
  | wr q' reg data strb db =>
    have ha := (accept_wr ha).1
    subst ha
    refine ⟨by rw [okCount_append, retCount_append]; simpa [okCount, retCount, setQ] using h1, ?_⟩
    intro j hj
    rw [retCount_append]
    exact (h2 j hj).append _
  | rd q' reg v =>
    simp only [accept] at ha
    split at ha
    · injection ha with ha
      subst ha
      refine ⟨by rw [okCount_append, retCount_append]; simpa [okCount, retCount] using h1, ?_⟩
      intro j hj
      rw [retCount_append]
      exact (h2 j hj).append _
    · cases ha
  | req q' tag r =>
    simp only [accept] at ha
    split at ha
    · split at ha
      · rename_i he
        injection ha with ha
        subst ha
        have hok : okResp r = false := by unfold okResp; cases h1 : r.err <;> cases h2 : r.empty <;> simp_all
        refine ⟨by rw [okCount_append, retCount_append]; simpa [okCount, retCount, hok] using h1, ?_⟩
        intro j hj
        rw [retCount_append]
        exact (h2 j hj).append _
      · rename_i he
        split at ha
        · injection ha with ha
          subst ha
          have hok : okResp r = true := by unfold okResp; cases h1 : r.err <;> cases h2 : r.empty <;> simp_all
          refine ⟨by rw [okCount_append, retCount_append]; simp [okCount, retCount, hok]; omega, ?_⟩
          intro j hj
          rw [retCount_append]
          simp only [List.length_append, List.length_singleton] at hj
          by_cases hjl : j < a.ops.length
          · simp only [List.getElem_append_left hjl]
            exact (h2 j hjl).append _
          · have : j = a.ops.length := by omega
            subst this
            simp only [List.getElem_concat_length]
            exact ⟨es, tag, r, [], rfl, hok, by simp [retCount]; omega, rfl, rfl, by simp⟩
        · cases ha
    · cases ha
  | commit tag =>
    simp only [accept, Option.some.injEq] at ha
    subst ha
    refine ⟨by rw [okCount_append, retCount_append]; simpa [okCount, retCount] using h1, ?_⟩
    intro j hj
    rw [retCount_append]
    simp only [List.length_map] at hj
    obtain ⟨f0, tg, r, f1, g1, g2, g3, g4, g5, g6⟩ := h2 j hj
    simp only [List.getElem_map]
    by_cases ht : a.ops[j].tag = tag
    · rw [if_pos ht]
      exact ⟨f0, tg, r, f1 ++ [.commit tag], by rw [g1]; simp, g2, by simpa [retCount] using g3, g4, g5, fun _ => by simp [ht]⟩
    · rw [if_neg ht]
      exact ⟨f0, tg, r, f1 ++ [.commit tag], by rw [g1]; simp, g2, by simpa [retCount] using g3, g4, g5,
        fun hd => List.mem_append_left _ (g6 hd)⟩
  | retire q' =>
    simp only [accept] at ha
    split at ha
    · rename_i o rest ho
      split at ha
      · injection ha with ha
        subst ha
        refine ⟨?_, ?_⟩
        · rw [okCount_append, retCount_append]
          rw [ho] at h1
          simp [okCount, retCount] at h1 ⊢; omega
        · intro j hj
          simp only at hj
          rw [retCount_append]
          have hlen : a.ops.length = rest.length + 1 := by rw [ho]; rfl
          have := (h2 (j + 1) (by omega)).append [Ev.retire q']
          simp only [ho, List.getElem_cons_succ] at this
          have he : retCount es + retCount [Ev.retire q'] + j = retCount es + (j + 1) := by simp [retCount]; omega
          rw [he]
          exact this
      · cases ha
    · cases ha

theorem tinv_run {p : Params} : ∀ (e2 e1 : List Ev) {a a'}, TInv e1 a → runA p a e2 = some a' → TInv (e1 ++ e2) a'
  | [], e1, a, a', h, hr => by simp only [runA, Option.some.injEq] at hr; subst hr; simpa using h
  | e :: e2, e1, a, a', h, hr => by
    obtain ⟨a1, h1, h2⟩ := runA_cons hr
    have := tinv_run e2 (e1 ++ [e]) (tinv_step h h1) h2
    simpa using this

theorem tinv_init : TInv [] A.init := ⟨rfl, fun j h => by simp [A.init] at h⟩

end Corundum.QueueManager
