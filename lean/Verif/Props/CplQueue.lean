import Verif.Proof.CplPipe
import Verif.Proof.CplBus
/-! C14, C15 — completion queue manager: property theorems.  `run p (init P) is` is any execution of the cycle-level
model from power-up: `P` pipeline stages, any inputs `is` in every cycle.  The second component is the trace of what
the final stage did. -/
namespace Corundum.CplQueue
open Spec

theorem init_ne (P : Nat) (hP : 1 ≤ P) : (init P).pipe ≠ [] := by
  intro e; have := congrArg List.length e; simp [init] at this; omega

/-- C14 (and basis of C15): every trace of the pipelined completion queue manager is a trace of the atomic reference
machine `Spec.accept`. -/
theorem C14_refines_atomic (p : Params) (hcl : p.cl ≤ 8) (P : Nat) (hP : 1 ≤ P) (is : List In) :
    ∃ a, runA p A.init (run p (init P) is).2 = some a := by
  obtain ⟨a, _, _, h, _, _⟩ := run_spec hcl is (inv_init p P) (init_ne P hP)
  exact ⟨a, h⟩

theorem accepted (p : Params) (hcl : p.cl ≤ 8) (P : Nat) (hP : 1 ≤ P) (is : List In) (e1 e2 : List Ev)
    (h : (run p (init P) is).2 = e1 ++ e2) : ∃ a1 a2, runA p A.init e1 = some a1 ∧ runA p a1 e2 = some a2 := by
  obtain ⟨a, ha⟩ := C14_refines_atomic p hcl P hP is
  rw [h] at ha
  obtain ⟨a1, h1, h2⟩ := runA_split ha
  exact ⟨a1, a, h1, h2⟩

structure Bounds (a : A) : Prop where
  ptr : ∀ o ∈ a.ops, o.ptr < 2 ^ 16
  prod : ∀ q, (a.qs q).prod < 2 ^ 16
  cons : ∀ q, (a.qs q).cons < 2 ^ 16
  size : ∀ q, (a.qs q).logSize < 16

theorem write_bounds (c : Queue) (reg data strb : Nat) (h1 : c.prod < 2 ^ 16) (h2 : c.cons < 2 ^ 16) (h3 : c.logSize < 16) :
    (write c reg data strb).prod < 2 ^ 16 ∧ (write c reg data strb).cons < 2 ^ 16 ∧ (write c reg data strb).logSize < 16 := by
  unfold write
  repeat' split
  all_goals exact ⟨by first | exact h1 | (simp only; omega), by first | exact h2 | (simp only; omega), by first | exact h3 | (simp only; omega)⟩

theorem accept_bounds {p a e a'} (hb : Bounds a) (h : accept p a e = some a') : Bounds a' := by
  cases e with
  | wr q' reg data strb db =>
    rw [← (accept_wr h).1]
    have hw := write_bounds (a.qs q') reg data strb (hb.prod q') (hb.cons q') (hb.size q')
    refine ⟨hb.ptr, ?_, ?_, ?_⟩ <;> intro q <;> simp only [setQ] <;> split
    · exact hw.1
    · exact hb.prod q
    · exact hw.2.1
    · exact hb.cons q
    · exact hw.2.2
    · exact hb.size q
  | rd q' reg v => simp only [accept] at h; split at h <;> simp at h; rw [← h]; exact hb
  | req q' t r =>
    simp only [accept] at h
    split at h
    · split at h
      · simp at h; rw [← h]; exact hb
      · split at h
        · simp only [Option.some.injEq] at h; rw [← h]
          refine ⟨?_, hb.prod, hb.cons, hb.size⟩
          intro o ho
          simp only [List.mem_append, List.mem_singleton] at ho
          rcases ho with ho | ho
          · exact hb.ptr o ho
          · subst ho; simp only; omega
        · cases h
    · cases h
  | commit t =>
    simp only [accept, Option.some.injEq] at h; rw [← h]
    refine ⟨?_, hb.prod, hb.cons, hb.size⟩
    intro o ho
    obtain ⟨o', ho', rfl⟩ := List.mem_map.mp ho
    have := hb.ptr o' ho'
    split <;> exact this
  | retire q' ev' =>
    simp only [accept] at h
    split at h
    · rename_i o rest ho
      split at h
      · simp only [Option.some.injEq] at h; rw [← h]
        refine ⟨fun x hx => hb.ptr x (by rw [ho]; simp [hx]), ?_, ?_, ?_⟩ <;> intro q <;> simp only [setQ] <;> split
        · exact hb.ptr o (by rw [ho]; simp)
        · exact hb.prod q
        · exact hb.cons q'
        · exact hb.cons q
        · exact hb.size q'
        · exact hb.size q
      · cases h
    · cases h

theorem run_bounds {p : Params} : ∀ (es : List Ev) {a a'}, Bounds a → runA p a es = some a' → Bounds a'
  | [], a, a', hb, h => by simp only [runA, Option.some.injEq] at h; rw [← h]; exact hb
  | e :: es, a, a', hb, h => by
    obtain ⟨a1, h1, h2⟩ := runA_cons h
    exact run_bounds es (accept_bounds hb h1) h2

theorem init_bounds : Bounds A.init := ⟨by simp [A.init], fun q => by simp [A.init], fun q => by simp [A.init], fun q => by simp [A.init]⟩

theorem next_lt16 {a : A} (h : Bounds a) (q : Nat) : next a q < 2 ^ 16 := by
  unfold next
  cases hl : (opsOf a q).getLast? with
  | none => exact h.prod q
  | some o => exact h.ptr o ((List.mem_filter.mp (List.mem_of_getLast? hl)).1)

/-- C14: the answer to every enqueue request is determined by the writes that precede it: error exactly when the queue
is disabled; `full` exactly when it is enabled and the distance from the consumer pointer last written by the host to
the granted pointer has reached the ring size.  Hence a granted entry is always less than a ring size ahead of the
host's consumer pointer. -/
theorem C14_grant_within_ring (p : Params) (hcl : p.cl ≤ 8) (P : Nat) (hP : 1 ≤ P) (is : List In) (e1 e2 : List Ev) (q tag : Nat) (r : Resp)
    (h : (run p (init P) is).2 = e1 ++ .req q tag r :: e2) :
    ∃ a1, runA p A.init e1 = some a1 ∧ r.q = q ∧ r.tag = tag ∧ r.err = !(enOf q false e1) ∧
      (r.full = true ↔ enOf q false e1 = true ∧ 2 ^ (a1.qs q).logSize ≤ (r.ptr + 2 ^ 16 - consOf q 0 e1) % 2 ^ 16) ∧
      (okResp r = true → (r.ptr + 2 ^ 16 - consOf q 0 e1) % 2 ^ 16 < 2 ^ (a1.qs q).logSize) := by
  obtain ⟨a1, a2, h1, h2⟩ := accepted p hcl P hP is _ _ h
  obtain ⟨a3, h3, _⟩ := runA_cons h2
  have hr : r = resp p a1 q tag := by
    simp only [accept] at h3
    split at h3
    · assumption
    · cases h3
  obtain ⟨g1, g2⟩ := run_regs e1 h1 q
  have g1 : (a1.qs q).cons = consOf q 0 e1 := g1
  have g2 : (a1.qs q).en = enOf q false e1 := g2
  have hfull : r.full = ((enOf q false e1) && decide (2 ^ (a1.qs q).logSize ≤ (r.ptr + 2 ^ 16 - consOf q 0 e1) % 2 ^ 16)) := by
    rw [hr]; simp only [resp]; rw [g1, g2]; rfl
  have herr : r.err = !(enOf q false e1) := by rw [hr]; simp only [resp]; rw [g2]
  refine ⟨a1, h1, by rw [hr]; rfl, by rw [hr]; rfl, herr, ?_, ?_⟩
  · rw [hfull]; simp
  · intro hok
    unfold okResp at hok
    rw [hfull, herr] at hok
    cases he : enOf q false e1 with
    | false => rw [he] at hok; simp at hok
    | true => rw [he] at hok; simp at hok; omega

/-- C14: granted pointers are consecutive over any stretch in which the queue is enabled throughout (or the host does
not write the producer pointer). -/
theorem C14_consecutive (p : Params) (hcl : p.cl ≤ 8) (P : Nat) (hP : 1 ≤ P) (is : List In) (e1 e2 e3 : List Ev)
    (h : (run p (init P) is).2 = e1 ++ e2 ++ e3) (q : Nat)
    (hc : enOf q false e1 = true ∧ noEnWrite q e2 ∨ noProdWrite q e2) :
    ∃ a1, runA p A.init e1 = some a1 ∧
      okPtrs q e2 = (List.range (okPtrs q e2).length).map (fun k => (next a1 q + k) % 2 ^ 16) := by
  rw [List.append_assoc] at h
  obtain ⟨a1, a2, h1, h2⟩ := accepted p hcl P hP is e1 (e2 ++ e3) h
  obtain ⟨a3, h3, _⟩ := runA_split h2
  refine ⟨a1, h1, (run_ptrs q e2 h3 (next_lt16 (run_bounds _ init_bounds h1) q) ?_).1⟩
  rcases hc with ⟨hc, hn⟩ | hc
  · exact .inl ⟨by rw [(run_regs e1 h1 q).2]; exact hc, hn⟩
  · exact .inr hc

/-- C14: since power-up, if the host never writes the producer pointer of `q`, the k-th grant carries pointer k. -/
theorem C14_from_power_up (p : Params) (hcl : p.cl ≤ 8) (P : Nat) (hP : 1 ≤ P) (is : List In) (q : Nat)
    (hc : noProdWrite q (run p (init P) is).2) :
    okPtrs q (run p (init P) is).2 = (List.range (okPtrs q (run p (init P) is).2).length).map (fun k => k % 2 ^ 16) := by
  obtain ⟨a1, h1, h2⟩ := C14_consecutive p hcl P hP is [] (run p (init P) is).2 [] (by simp) q (.inr hc)
  simp only [runA, Option.some.injEq] at h1
  have : next a1 q = 0 := by rw [← h1]; rfl
  rw [this] at h2
  simpa using h2

/-- C14: as long as the host does not move its consumer pointer, at most the free space of the ring is granted. -/
theorem C14_bounded_by_free_space (p : Params) (hcl : p.cl ≤ 8) (P : Nat) (hP : 1 ≤ P) (is : List In) (e1 e2 e3 : List Ev)
    (h : (run p (init P) is).2 = e1 ++ e2 ++ e3) (q : Nat) (hen : enOf q false e1 = true) (hne : noEnWrite q e2) (hnc : noConsWrite q e2) :
    ∃ a1, runA p A.init e1 = some a1 ∧
      ((next a1 q + 2 ^ 16 - consOf q 0 e1) % 2 ^ 16 ≤ 2 ^ (a1.qs q).logSize →
        (okPtrs q e2).length + (next a1 q + 2 ^ 16 - consOf q 0 e1) % 2 ^ 16 ≤ 2 ^ (a1.qs q).logSize) := by
  rw [List.append_assoc] at h
  obtain ⟨a1, a2, h1, h2⟩ := accepted p hcl P hP is e1 (e2 ++ e3) h
  obtain ⟨a3, h3, _⟩ := runA_split h2
  have hb := run_bounds _ init_bounds h1
  obtain ⟨g1, g2⟩ := run_regs e1 h1 q
  have g1 : (a1.qs q).cons = consOf q 0 e1 := g1
  refine ⟨a1, h1, ?_⟩
  rw [← g1]
  exact run_bound q e2 h3 (hb.size q) (hb.cons q) (by rw [g2]; exact hen) hne hnc

/-- C14 (no overwrite): if a grant `y` reuses the ring slot of an earlier grant `x ≠ y` (pointers equal modulo the ring
size), then at the time of `y` the host's consumer pointer is past `x`: the distance from it to `y` is smaller than the
distance from `x` to `y`. -/
theorem C14_no_overwrite (p : Params) (hcl : p.cl ≤ 8) (P : Nat) (hP : 1 ≤ P) (is : List In) (e1 e2 : List Ev) (q tag : Nat) (r : Resp)
    (h : (run p (init P) is).2 = e1 ++ .req q tag r :: e2) (hok : okResp r = true) (x : Nat) (hx : x < 2 ^ 16) (hne : x ≠ r.ptr) :
    ∃ a1, runA p A.init e1 = some a1 ∧ (x % 2 ^ (a1.qs q).logSize = r.ptr % 2 ^ (a1.qs q).logSize →
      (r.ptr + 2 ^ 16 - consOf q 0 e1) % 2 ^ 16 < (r.ptr + 2 ^ 16 - x) % 2 ^ 16) := by
  obtain ⟨a1, g0, _, _, _, _, g⟩ := C14_grant_within_ring p hcl P hP is e1 e2 q tag r h
  have hb := run_bounds _ init_bounds g0
  have hls := hb.size q
  have hlt : r.ptr < 2 ^ 16 := by
    obtain ⟨b1, b2, k1, k2⟩ := accepted p hcl P hP is _ _ h
    obtain ⟨b3, k3, _⟩ := runA_cons k2
    have hr : r = resp p b1 q tag := by
      simp only [accept] at k3
      split at k3
      · assumption
      · cases k3
    rw [hr]
    exact next_lt16 (run_bounds _ init_bounds k1) q
  refine ⟨a1, g0, fun he => Nat.lt_of_lt_of_le (g hok) ?_⟩
  -- a nonzero multiple of the ring size
  generalize (a1.qs q).logSize = k at he hls
  generalize r.ptr = y at *
  have hdvd : 2 ^ k ∣ 2 ^ 16 := Nat.pow_dvd_pow 2 (by omega)
  have hmod : (y + 2 ^ 16 - x) % 2 ^ 16 % 2 ^ k = 0 := by
    rw [Nat.mod_mod_of_dvd _ hdvd]
    have h2 : (y + 2 ^ 16) % 2 ^ k = x % 2 ^ k := by
      obtain ⟨m, hm⟩ := hdvd
      rw [hm, Nat.add_mul_mod_self_left, he]
    exact Nat.sub_mod_eq_zero_of_mod_eq h2
  have hpos : 0 < (y + 2 ^ 16 - x) % 2 ^ 16 := by omega
  exact Nat.le_of_dvd hpos (Nat.dvd_of_mod_eq_zero hmod)

/-- C14: responses are transferred in order and none is lost. -/
theorem C14_no_response_lost (p : Params) (hcl : p.cl ≤ 8) (P : Nat) (hP : 1 ≤ P) (is : List In) :
    respsOf (run p (init P) is).2 = taken p (init P) is ++
      (if (run p (init P) is).1.respV then [(run p (init P) is).1.resp] else []) := by
  have := run_resps hcl is (inv_init p P) (init_ne P hP) (fun _ => rfl)
  simpa [pend, init] using this

/-- C14: the register interface loses nothing: the data beats transferred on the read channel, followed by the one still
waiting, are the values of the register reads executed, in order, and every register write gets exactly one response. -/
theorem C14_register_channel (p : Params) (P : Nat) (hP : 1 ≤ P) (is : List In) :
    readsOf (run p (init P) is).2 = rTaken p (init P) is ++
      (if (run p (init P) is).1.rvalid then [(run p (init P) is).1.rdata] else []) ∧
    writesOf (run p (init P) is).2 = bTaken p (init P) is + (if (run p (init P) is).1.bvalid then 1 else 0) := by
  have := run_bus (p := p) is (init_ne P hP) (one_init P .rd (by decide) _) (one_init P .wr (by decide) _)
  simpa [rPend, bPend, init] using this

/-- C14: operations are executed in the order of acceptance, each exactly `P` cycles after it, none lost or duplicated. -/
theorem C14_executed_in_order (p : Params) (P : Nat) (hP : 1 ≤ P) (is : List In) :
    (run p (init P) is).2.filterMap evKey = ((admits p (init P) is).take (is.length - P)).filterMap slotKey := by
  rw [run_keys is (init_ne P hP)]
  have hz : ∀ n, ((List.replicate n Slot.none).filterMap slotKey) = [] := by
    intro n; rw [List.filterMap_eq_nil_iff]; intro x hx; rw [(List.mem_replicate.mp hx).2]; rfl
  show ((List.replicate P Slot.none).reverse ++ admits p (init P) is |>.take is.length).filterMap slotKey = _
  rw [List.reverse_replicate, List.take_append, List.filterMap_append, List.take_replicate, hz, List.nil_append,
    List.length_replicate]

/-- C14: the producer pointer that the host sees advances only over entries whose operation was committed after it was
granted, strictly in grant order. -/
theorem C14_publish_in_order (p : Params) (hcl : p.cl ≤ 8) (P : Nat) (hP : 1 ≤ P) (is : List In) (e1 e2 : List Ev) (q : Nat) (ev : Option Event)
    (h : (run p (init P) is).2 = e1 ++ .retire q ev :: e2) :
    ∃ f0 tag r f1, e1 = f0 ++ .req q tag r :: f1 ∧ okResp r = true ∧ okCount f0 = retCount e1 ∧ Ev.commit r.opTag ∈ f1 := by
  obtain ⟨a1, a2, h1, h2⟩ := accepted p hcl P hP is _ _ h
  obtain ⟨a3, h3, _⟩ := runA_cons h2
  have ht := tinv_run e1 [] tinv_init h1
  simp only [List.nil_append] at ht
  simp only [accept] at h3
  split at h3
  · rename_i o rest ho
    split at h3
    · rename_i hc
      have := ht.org 0 (by rw [ho]; simp)
      simp only [ho, List.getElem_cons_zero] at this
      obtain ⟨f0, tag, r, f1, g1, g2, g3, g4, g5, g6⟩ := this
      rw [← hc.1]
      exact ⟨f0, tag, r, f1, g1, g2, by simpa using g3, by rw [g4]; exact g6 hc.2.1⟩
    · cases h3
  · cases h3

/-- C14: address of a granted entry: inside the ring, element aligned relative to the base; phase bit = inverse lap
parity. -/
theorem C14_address_in_ring (p : Params) (hcl : p.cl ≤ 8) (P : Nat) (hP : 1 ≤ P) (is : List In) (e1 e2 : List Ev) (q tag : Nat) (r : Resp)
    (h : (run p (init P) is).2 = e1 ++ .req q tag r :: e2) :
    ∃ a1 c, runA p A.init e1 = some a1 ∧ c = a1.qs q ∧ r.evn = c.evn % 2 ^ p.evW ∧
      (r.phase = true ↔ r.ptr / 2 ^ c.logSize % 2 = 0) ∧
      ∀ base elem, base = c.baseLo + 2 ^ 32 * c.baseHi → elem = 2 ^ p.cplLog →
        base + 2 ^ c.logSize * elem ≤ 2 ^ p.addrW →
        r.addr = base + r.ptr % 2 ^ c.logSize * elem ∧ base ≤ r.addr ∧ r.addr + elem ≤ base + 2 ^ c.logSize * elem := by
  obtain ⟨a1, a2, h1, h2⟩ := accepted p hcl P hP is _ _ h
  obtain ⟨a3, h3, _⟩ := runA_cons h2
  have hr : r = resp p a1 q tag := by
    simp only [accept] at h3
    split at h3
    · assumption
    · cases h3
  refine ⟨a1, a1.qs q, h1, rfl, by rw [hr]; rfl, by rw [hr]; simp [resp], ?_⟩
  intro base elem hb he hfit
  have hlt : r.ptr % 2 ^ (a1.qs q).logSize < 2 ^ (a1.qs q).logSize := Nat.mod_lt _ (Nat.pow_pos (by omega))
  have hpos : 0 < elem := by rw [he]; exact Nat.pow_pos (by omega)
  have hmul : r.ptr % 2 ^ (a1.qs q).logSize * elem + elem ≤ 2 ^ (a1.qs q).logSize * elem := by
    have := Nat.mul_le_mul_right elem hlt
    rwa [Nat.succ_mul] at this
  have haddr : r.addr = base + r.ptr % 2 ^ (a1.qs q).logSize * elem := by
    have : r.addr = (base + r.ptr % 2 ^ (a1.qs q).logSize * elem) % 2 ^ p.addrW := by
      rw [hb, he, hr]; rfl
    rw [this, Nat.mod_eq_of_lt (by omega)]
  exact ⟨haddr, by omega, by omega⟩

/-! ### C15 -/

/-- events for queue `q` in a trace, as (kind-independent) list -/
def evsFor (q : Nat) : List Ev → List Event
  | [] => []
  | .wr q' _ _ _ (some e) :: es => if q' = q then e :: evsFor q es else evsFor q es
  | .retire q' (some e) :: es => if q' = q then e :: evsFor q es else evsFor q es
  | _ :: es => evsFor q es

theorem evsFor_append (q : Nat) : ∀ (x y : List Ev), evsFor q (x ++ y) = evsFor q x ++ evsFor q y
  | [], y => rfl
  | e :: x, y => by
    cases e with
    | wr q' _ _ _ o => cases o <;> simp [evsFor, evsFor_append q x y]; split <;> rfl
    | retire q' o => cases o <;> simp [evsFor, evsFor_append q x y]; split <;> rfl
    | rd => simp [evsFor, evsFor_append q x y]
    | req => simp [evsFor, evsFor_append q x y]
    | commit => simp [evsFor, evsFor_append q x y]

theorem accept_retire {p a q ev a'} (h : accept p a (.retire q ev) = some a') :
    ev = retEvent p (a.qs q) q ∧ (a'.qs q).armed = false ∧ (∀ j, j ≠ q → a'.qs j = a.qs j) ∧ (a'.qs q).cons = (a.qs q).cons := by
  simp only [accept] at h
  split at h
  · split at h
    · rename_i hc
      simp only [Option.some.injEq] at h
      rw [← h]
      refine ⟨hc.2.2, by simp [setQ], fun j hj => by simp [setQ, hj], by simp [setQ]⟩
    · cases h
  · cases h

theorem accept_idle {p a e a'} (h : accept p a e = some a') (h1 : ∀ q reg data strb ev, e ≠ .wr q reg data strb ev) (h2 : ∀ q ev, e ≠ .retire q ev) :
    a'.qs = a.qs := by
  cases e with
  | wr => exact absurd rfl (h1 _ _ _ _ _)
  | retire => exact absurd rfl (h2 _ _)
  | rd q' reg v => simp only [accept] at h; split at h <;> simp at h; rw [← h]
  | req q' t r =>
    simp only [accept] at h
    split at h
    · split at h
      · simp at h; rw [← h]
      · split at h
        · simp only [Option.some.injEq] at h; rw [← h]
        · cases h
    · cases h
  | commit t => simp only [accept, Option.some.injEq] at h; rw [← h]

/-- retirements of entries of `q` -/
def rets (q : Nat) : List Ev → Nat
  | [] => 0
  | .retire q' _ :: es => (if q' = q then 1 else 0) + rets q es
  | _ :: es => rets q es

theorem rets_append (q : Nat) : ∀ (x y : List Ev), rets q (x ++ y) = rets q x + rets q y
  | [], y => by simp [rets]
  | e :: x, y => by cases e <;> simp [rets, rets_append q x y, Nat.add_assoc]

/-- one step without an arm command to `q` -/
theorem accept_armed {p a e a'} (h : accept p a e = some a') (q : Nat) (hn : noArmWrite q [e]) :
    (evsFor q [e]).length = (if (a.qs q).armed = true ∧ rets q [e] = 1 then 1 else 0) ∧
    (a'.qs q).armed = ((a.qs q).armed && decide (rets q [e] = 0)) ∧ rets q [e] ≤ 1 := by
  cases e with
  | wr q' reg data strb db =>
    obtain ⟨g1, g2⟩ := accept_wr h
    by_cases hq : q' = q
    · have hq := hq.symm
      subst hq
      have hna := hn reg data strb db (List.mem_singleton.mpr rfl)
      have hno : db = none := by
        rw [g2]; unfold wrEvent
        rw [if_neg]
        rintro ⟨⟨c1, c2, c3⟩, _⟩
        have := hna ⟨c1, c2⟩
        rcases c3 with c3 | c3
        · exact this.1 c3
        · exact this.2 c3.1
      subst hno
      refine ⟨by simp [evsFor, rets], ?_, by simp [rets]⟩
      rw [← g1]; simp only [setQ, rets]; rw [if_pos trivial, write_armed _ _ _ _ hna]; simp
    · refine ⟨?_, ?_, by simp [rets]⟩
      · cases db <;> simp [evsFor, rets, hq]
      · rw [← g1]; simp [setQ, rets, Ne.symm hq]
  | retire q' ev =>
    obtain ⟨g1, g2, g3, _⟩ := accept_retire h
    by_cases hq : q' = q
    · subst hq
      refine ⟨?_, by simp [g2, rets], by simp [rets]⟩
      rw [g1]; unfold retEvent
      cases (a.qs q').armed <;> simp [evsFor, rets]
    · refine ⟨?_, ?_, by simp [rets, hq]⟩
      · cases ev <;> simp [evsFor, rets, hq]
      · rw [g3 q (Ne.symm hq)]; simp [rets, hq]
  | rd q' reg v =>
    have := accept_idle h (by intros; simp) (by intros; simp)
    exact ⟨by simp [evsFor, rets], by rw [this]; simp [rets], by simp [rets]⟩
  | req q' t r =>
    have := accept_idle h (by intros; simp) (by intros; simp)
    exact ⟨by simp [evsFor, rets], by rw [this]; simp [rets], by simp [rets]⟩
  | commit t =>
    have := accept_idle h (by intros; simp) (by intros; simp)
    exact ⟨by simp [evsFor, rets], by rw [this]; simp [rets], by simp [rets]⟩

theorem noArm_split {q : Nat} {e : Ev} {es : List Ev} (h : noArmWrite q (e :: es)) : noArmWrite q [e] ∧ noArmWrite q es :=
  ⟨fun reg data strb db hm => h reg data strb db (by simp only [List.mem_singleton] at hm; simp [hm]),
   fun reg data strb db hm => h reg data strb db (by simp [hm])⟩

/-- a stretch without arm commands to `q`: one event iff armed at the start and something was published -/
theorem run_armed {p : Params} (q : Nat) : ∀ (es : List Ev) {a a'}, runA p a es = some a' → noArmWrite q es →
    (evsFor q es).length = (if (a.qs q).armed = true ∧ 0 < rets q es then 1 else 0) ∧
    (a'.qs q).armed = ((a.qs q).armed && decide (rets q es = 0))
  | [], a, a', h, _ => by simp only [runA, Option.some.injEq] at h; rw [← h]; simp [evsFor, rets]
  | e :: es, a, a', h, hn => by
    obtain ⟨a1, h1, h2⟩ := runA_cons h
    obtain ⟨n1, n2⟩ := noArm_split hn
    obtain ⟨g1, g2, g3⟩ := accept_armed h1 q n1
    obtain ⟨k1, k2⟩ := run_armed q es h2 n2
    have hev : evsFor q (e :: es) = evsFor q [e] ++ evsFor q es := evsFor_append q [e] es
    have hre : rets q (e :: es) = rets q [e] + rets q es := rets_append q [e] es
    rw [hev, hre, List.length_append, g1, k1, k2, g2]
    generalize rets q [e] = x at *
    generalize rets q es = y at *
    cases (a.qs q).armed with
    | false => simp
    | true =>
      rcases Nat.le_one_iff_eq_zero_or_eq_one.mp g3 with rfl | rfl
      · simp
      · simp

/-- effect of an arm command -/
theorem accept_arm {p a q reg data strb ev a'} (h : accept p a (.wr q reg data strb ev) = some a') (ha : isArm reg data) :
    (evsFor q [.wr q reg data strb ev]).length + (if (a'.qs q).armed = true then 1 else 0) = 1 ∧
    (a'.qs q).en = (a.qs q).en ∧ (a'.qs q).prod = (a.qs q).prod ∧
    ((a.qs q).en = true → ((a'.qs q).armed = true ↔ (a'.qs q).prod = (a'.qs q).cons)) := by
  obtain ⟨g1, g2⟩ := accept_wr h
  have harm : ((write (a.qs q) reg data strb).armed = (!(a.qs q).en || (a.qs q).prod == (write (a.qs q) reg data strb).cons)) ∧
      (write (a.qs q) reg data strb).en = (a.qs q).en ∧ (write (a.qs q) reg data strb).prod = (a.qs q).prod := by
    unfold isArm at ha
    unfold write
    rw [if_neg (by omega), if_neg (by omega), if_pos (by omega)]
    rcases ha.2.2 with c | ⟨c, d⟩
    · rw [if_neg (by omega), if_neg (by omega), if_neg (by omega), if_neg (by omega), if_pos c]; exact ⟨rfl, rfl, rfl⟩
    · rw [if_neg (by omega), if_neg (by omega), if_neg (by omega), if_neg (by omega), if_neg (by omega), if_neg (by omega), if_pos c]
      refine ⟨?_, rfl, rfl⟩
      simp only [d]; rfl
  obtain ⟨w1, w2, w3⟩ := harm
  have e1 : a'.qs q = write (a.qs q) reg data strb := by rw [← g1]; simp [setQ]
  rw [e1, w2, w3]
  refine ⟨?_, rfl, rfl, ?_⟩
  · rw [g2, w1]; unfold wrEvent
    cases hen : (a.qs q).en with
    | false => simp [evsFor]
    | true =>
      by_cases hp : (a.qs q).prod = (write (a.qs q) reg data strb).cons
      · simp [evsFor, ← hp]
      · simp [ha, hp, evsFor]
  · intro hen; rw [w1, hen]; simp

/-- **C15 (no lost wakeup).**  From an arm command on, as soon as at least one entry of the queue has been published
after it, exactly one event for the queue has been produced — whether the entry was published before the arm command
took effect (the arm command itself reports it) or after — and no second one until the queue is armed again. -/
theorem C15_exactly_one_event (p : Params) (hcl : p.cl ≤ 8) (P : Nat) (hP : 1 ≤ P) (is : List In) (e1 e2 e3 : List Ev)
    (q reg data strb : Nat) (ev : Option Event)
    (h : (run p (init P) is).2 = e1 ++ .wr q reg data strb ev :: e2 ++ e3) (ha : isArm reg data) (hn : noArmWrite q e2)
    (hpub : 0 < rets q e2) : (evsFor q (.wr q reg data strb ev :: e2)).length = 1 := by
  rw [List.append_assoc, List.cons_append] at h
  obtain ⟨a1, a2, h1, h2⟩ := accepted p hcl P hP is e1 _ h
  obtain ⟨a3, h3, h4⟩ := runA_cons h2
  obtain ⟨a5, h5, _⟩ := runA_split h4
  obtain ⟨g1, _⟩ := accept_arm h3 ha
  obtain ⟨k1, _⟩ := run_armed q e2 h5 hn
  rw [show Ev.wr q reg data strb ev :: e2 = [.wr q reg data strb ev] ++ e2 from rfl, evsFor_append, List.length_append, k1]
  simp only [hpub, and_true]
  exact g1

/-- C15: between arm commands at most one event is produced. -/
theorem C15_one_shot (p : Params) (hcl : p.cl ≤ 8) (P : Nat) (hP : 1 ≤ P) (is : List In) (e1 e2 e3 : List Ev) (q : Nat)
    (h : (run p (init P) is).2 = e1 ++ e2 ++ e3) (hn : noArmWrite q e2) : (evsFor q e2).length ≤ 1 := by
  rw [List.append_assoc] at h
  obtain ⟨a1, a2, h1, h2⟩ := accepted p hcl P hP is e1 _ h
  obtain ⟨a5, h5, _⟩ := runA_split h2
  rw [(run_armed q e2 h5 hn).1]
  split <;> omega

/-- **C15 (no lost wakeup, state form).**  After an arm command to an enabled queue, if no event for the queue has been
produced since, then no entry has been published since, and the host has nothing to read (producer = consumer as far as
the arm command knew): all published entries were consumed before arming. -/
theorem C15_silence_means_empty (p : Params) (hcl : p.cl ≤ 8) (P : Nat) (hP : 1 ≤ P) (is : List In) (e1 e2 e3 : List Ev)
    (q reg data strb : Nat) (ev : Option Event)
    (h : (run p (init P) is).2 = e1 ++ .wr q reg data strb ev :: e2 ++ e3) (ha : isArm reg data) (hn : noArmWrite q e2)
    (hen : enOf q false e1 = true) (hsil : evsFor q (.wr q reg data strb ev :: e2) = []) :
    rets q e2 = 0 ∧ ∃ a, runA p A.init (e1 ++ [.wr q reg data strb ev]) = some a ∧ (a.qs q).prod = (a.qs q).cons := by
  rw [List.append_assoc, List.cons_append] at h
  obtain ⟨a1, a2, h1, h2⟩ := accepted p hcl P hP is e1 _ h
  obtain ⟨a3, h3, h4⟩ := runA_cons h2
  obtain ⟨a5, h5, _⟩ := runA_split h4
  obtain ⟨g1, g2, g3, g4⟩ := accept_arm h3 ha
  obtain ⟨k1, _⟩ := run_armed q e2 h5 hn
  rw [show Ev.wr q reg data strb ev :: e2 = [.wr q reg data strb ev] ++ e2 from rfl, evsFor_append, List.append_eq_nil_iff] at hsil
  rw [hsil.1] at g1
  rw [hsil.2] at k1
  have harm : (a3.qs q).armed = true := by
    cases hx : (a3.qs q).armed with
    | true => rfl
    | false => rw [hx] at g1; simp at g1
  refine ⟨?_, a3, ?_, ?_⟩
  · rw [harm] at k1
    by_cases hz : 0 < rets q e2
    · rw [if_pos ⟨rfl, hz⟩] at k1; simp at k1
    · omega
  · rw [runA_append, h1, Option.bind_some]; simp only [runA]; rw [h3]; rfl
  · exact (g4 (by rw [(run_regs e1 h1 q).2]; exact hen)).mp harm

/-- C15: every event names its queue and the event (interrupt) number configured for it. -/
theorem C15_event_correct (p : Params) (hcl : p.cl ≤ 8) (P : Nat) (hP : 1 ≤ P) (is : List In) (e1 e2 : List Ev) (q : Nat) (e : Event)
    (h : (∃ reg data strb, (run p (init P) is).2 = e1 ++ .wr q reg data strb (some e) :: e2) ∨
      (run p (init P) is).2 = e1 ++ .retire q (some e) :: e2) :
    ∃ a, runA p A.init e1 = some a ∧ e.src = q ∧ e.evn = (a.qs q).evn % 2 ^ p.evW := by
  rcases h with ⟨reg, data, strb, h⟩ | h
  · obtain ⟨a1, a2, h1, h2⟩ := accepted p hcl P hP is e1 _ h
    obtain ⟨a3, h3, _⟩ := runA_cons h2
    have := (accept_wr h3).2
    unfold wrEvent at this
    split at this
    · cases this; exact ⟨a1, h1, rfl, rfl⟩
    · cases this
  · obtain ⟨a1, a2, h1, h2⟩ := accepted p hcl P hP is e1 _ h
    obtain ⟨a3, h3, _⟩ := runA_cons h2
    have := (accept_retire h3).1
    unfold retEvent at this
    split at this
    · cases this; exact ⟨a1, h1, rfl, rfl⟩
    · cases this

/-- C15: with the event sink always ready, every event produced is transferred, once, in order. -/
theorem C15_events_delivered (p : Params) (P : Nat) (hP : 1 ≤ P) (is : List In) (hr : ∀ i ∈ is, i.evReady = true) :
    eventsOf (run p (init P) is).2 = evTaken p (init P) is ++ evPend (run p (init P) is).1 := by
  have := run_events_ready is (init_ne P hP) (p := p) hr
  simpa [evPend, init] using this

/-- C15: under any back-pressure, as long as no arm command itself has to report an event, no event is lost,
duplicated or reordered. -/
theorem C15_events_delivered_backpressure_partial (p : Params) (P : Nat) (hP : 1 ≤ P) (is : List In) (hnw : noWrEvent (run p (init P) is).2) :
    eventsOf (run p (init P) is).2 = evTaken p (init P) is ++ evPend (run p (init P) is).1 := by
  have := run_events_commit is (init_ne P hP) (p := p) ⟨?_, ?_⟩ hnw
  · simpa [evPend, init] using this
  · exact List.pairwise_replicate.mpr (.inr (by simp [Slot.none]))
  · rintro ⟨sl, hm, ho⟩
    rw [(List.mem_replicate.mp hm).2] at ho
    simp [Slot.none] at ho

theorem run_len {p : Params} : ∀ (is : List In) (s : State), s.pipe ≠ [] → (run p s is).1.pipe.length = s.pipe.length
  | [], s, _ => rfl
  | i :: is, s, hn => by
    have hp := step_pipe (p := p) hn i
    show (run p (step p s i).1 is).1.pipe.length = _
    rw [run_len is _ (by rw [hp]; simp), hp, List.length_cons, List.length_dropLast]
    have := List.length_pos_iff.mpr hn
    omega

/-- C15: the oldest operation, once committed, is admitted for publication within `2P + 1` cycles if the register port
is idle and the event sink ready. -/
theorem C15_publish_progress (p : Params) (hcl : p.cl ≤ 8) (P : Nat) (hP : 1 ≤ P) (is js : List In)
    (hact : (run p (init P) is).1.act (run p (init P) is).1.fp = true) (hcmt : (run p (init P) is).1.cmt (run p (init P) is).1.fp = true)
    (hq : ∀ j ∈ js, noAxil j) (hlen : 2 * P < js.length) :
    ∃ sl ∈ admits p (run p (init P) is).1 js, sl.op = .commit := by
  obtain ⟨a, R, T, _, hinv, hl⟩ := run_spec hcl is (inv_init p P) (init_ne P hP)
  have hlen' : (run p (init P) is).1.pipe.length = P := by rw [run_len is _ (init_ne P hP)]; simp [init]
  refine progress_drain hcl P js _ a R T hinv hl hq hact hcmt (by rw [hlen']; simp) (by omega)

/-! ### concrete executions -/

def demoP : Params := ⟨2, 2, 5, 64, 8⟩
def idleIn : In := ⟨false, 0, false, 0, 0, true, false, 0, true, false, 0, 0, true, false, 0, true, true⟩
def wrIn (a d : Nat) : In := { idleIn with awvalid := true, wvalid := true, awaddr := a, wdata := d, wstrb := 15 }
def reqIn (q t : Nat) : In := { idleIn with reqValid := true, reqQueue := q, reqTag := t }
def cmtIn (t : Nat) : In := { idleIn with commitValid := true, commitTag := t }
/-- queue 1: base, ring of two entries, event number 5, enable, arm; three requests; two commits out of order -/
def demoIs : List In :=
  [wrIn 16 0x12345000, idleIn, idleIn, wrIn 24 0x80020001, idleIn, idleIn, wrIn 24 0xC0000005, idleIn, idleIn, wrIn 24 0x40000101, idleIn, idleIn,
   wrIn 24 0x40000201, idleIn, idleIn, reqIn 1 7, idleIn, idleIn, reqIn 1 8, idleIn, idleIn, reqIn 1 9, idleIn, idleIn,
   cmtIn 1, idleIn, idleIn, idleIn, cmtIn 0, idleIn, idleIn, idleIn, idleIn, idleIn, idleIn, idleIn]

example : respsOf (run demoP (init 2) demoIs).2 =
    [⟨1, 0, true, 0x12345000, 5, 7, 0, false, false⟩, ⟨1, 1, true, 0x12345020, 5, 8, 1, false, false⟩,
     ⟨1, 2, false, 0x12345000, 5, 9, 2, true, false⟩] := by decide
example : okPtrs 1 (run demoP (init 2) demoIs).2 = [0, 1] ∧ rets 1 (run demoP (init 2) demoIs).2 = 2 ∧
    evsFor 1 (run demoP (init 2) demoIs).2 = [⟨5, 1⟩] ∧ evTaken demoP (init 2) demoIs = [⟨5, 1⟩] := by decide

/-- two queues (1 and 2) with one unread entry each; both are then armed while the event sink is not ready; the sink
becomes ready afterwards -/
def lostIs : List In :=
  [wrIn 24 0x80020001, idleIn, idleIn, wrIn 24 0x40000101, idleIn, idleIn, wrIn 40 0x80020001, idleIn, idleIn, wrIn 40 0x40000101, idleIn, idleIn,
   reqIn 1 7, idleIn, idleIn, reqIn 2 8, idleIn, idleIn, cmtIn 0, cmtIn 1, idleIn, idleIn, idleIn, idleIn, idleIn, idleIn, idleIn, idleIn,
   { wrIn 24 0x40000201 with evReady := false }, { idleIn with evReady := false }, { idleIn with evReady := false },
   { wrIn 40 0x40000201 with evReady := false }, { idleIn with evReady := false }, { idleIn with evReady := false },
   idleIn, idleIn, idleIn, idleIn]

/-- **C15 fails under back-pressure on the event output** (code behaviour, cpl_queue_manager.v: the register-write path
sets `m_axis_event_valid_next` without looking at `m_axis_event_ready`, and register writes are admitted without
waiting for it): two events are produced, one is delivered, and the queue whose event was overwritten is disarmed. -/
theorem C15_event_overwritten_counterexample :
    eventsOf (run demoP (init 2) lostIs).2 = [⟨0, 1⟩, ⟨0, 2⟩] ∧ evTaken demoP (init 2) lostIs = [⟨0, 2⟩] ∧
    (run demoP (init 2) lostIs).1.evV = false ∧ ((run demoP (init 2) lostIs).1.ram 1).armed = false := by decide

/-- base address written with byte strobes 0b1000 only: bytes 1..3 of the low word get the strobes of bytes 0..2, so
the written top byte is dropped (queue_manager.v uses the right strobes) -/
theorem C14_base_strobe_counterexample :
    ((run demoP (init 2) [{ wrIn 16 0xAB345000 with wstrb := 8 }, idleIn, idleIn]).1.ram 1).baseLo = 0 := by decide

end Corundum.CplQueue
