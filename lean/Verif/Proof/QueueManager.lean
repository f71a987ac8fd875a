import Verif.Spec.QueueManager
namespace Corundum.QueueManager
open Spec

/-! ### generic facts -/

theorem mod_win {N a b c : Nat} (hb : b < N) (hc : c < N) (h : (a + b) % N = (a + c) % N) : b = c := by
  have e1 := Nat.div_add_mod (a + b) N
  have e2 := Nat.div_add_mod (a + c) N
  rcases Nat.lt_trichotomy ((a + b) / N) ((a + c) / N) with hlt | heq | hgt
  · have := Nat.mul_le_mul_left N (Nat.succ_le_of_lt hlt)
    rw [Nat.mul_succ] at this; omega
  · rw [heq] at e1; omega
  · have := Nat.mul_le_mul_left N (Nat.succ_le_of_lt hgt)
    rw [Nat.mul_succ] at this; omega

theorem upd_eq {α} (f : Nat → α) (i : Nat) (v : α) : upd f i v i = v := by simp [upd]
theorem upd_ne {α} (f : Nat → α) {i j : Nat} (v : α) (h : j ≠ i) : upd f i v j = f j := by simp [upd, h]

theorem last_idx (q : Nat) : ∀ (T : List AOp), T.filter (fun o => o.q == q) ≠ [] →
    ∃ k, ∃ h : k < T.length, T[k].q = q ∧ (∀ k' (h' : k' < T.length), k < k' → T[k'].q ≠ q) ∧
      (T.filter (fun o => o.q == q)).getLast? = some T[k]
  | [], h => by simp at h
  | x :: T, h => by
    by_cases hT : T.filter (fun o => o.q == q) = []
    · have hx : x.q = q := by
        by_cases hx : x.q = q
        · exact hx
        · exfalso; apply h; rw [List.filter_cons_of_neg (by simpa using hx), hT]
      refine ⟨0, by simp, hx, ?_, ?_⟩
      · intro k' h' hk
        obtain ⟨k'', rfl⟩ : ∃ k'', k' = k'' + 1 := ⟨k' - 1, by omega⟩
        intro hq
        have : T[k'']'(by simpa using h') ∈ T.filter (fun o => o.q == q) := by
          rw [List.mem_filter]; exact ⟨List.getElem_mem _, by simpa using hq⟩
        rw [hT] at this; simp at this
      · rw [List.filter_cons_of_pos (by simpa using hx), hT]; rfl
    · obtain ⟨k, hk, h1, h2, h3⟩ := last_idx q T hT
      refine ⟨k + 1, by simp; omega, by simpa using h1, ?_, ?_⟩
      · intro k' h' hkk
        obtain ⟨k'', rfl⟩ : ∃ k'', k' = k'' + 1 := ⟨k' - 1, by omega⟩
        simpa using h2 k'' (by simpa using h') (by omega)
      · by_cases hx : x.q = q
        · rw [List.filter_cons_of_pos (by simpa using hx), List.getLast?_cons, h3]; rfl
        · rw [List.filter_cons_of_neg (by simpa using hx), h3]; rfl

/-! ### abstraction and invariant -/

def absW (w : Word) : Queue := ⟨w.prod, w.cons, w.cplq, w.logSize, w.logBlock, w.en, w.baseLo, w.baseHi⟩

structure WordOK (w : Word) : Prop where
  prod : w.prod < 65536
  cons : w.cons < 65536
  size : w.logSize < 16
  base : w.baseLo % 4096 = 0

/-- the retire operation held by a slot -/
def ret (sl : Slot) : Option (Nat × Nat) := if sl.op = .commit then some (sl.q, sl.wdata) else none

structure Inv (p : Params) (s : State) (pipe : List Slot) (a : A) (R T : List AOp) : Prop where
  wok : ∀ q, WordOK (s.ram q)
  qs : ∀ q, a.qs q = absW (s.ram q)
  data : ∀ sl ∈ pipe, sl.op ≠ .idle → sl.data = s.ram sl.q
  dist : pipe.Pairwise (fun x y => x.op ≠ .idle → y.op ≠ .idle → x.q ≠ y.q)
  reqs : pipe.Pairwise (fun x y => ¬ (x.op = .req ∧ y.op = .req))
  ops : a.ops = R ++ T
  rmap : R.map (fun o => (o.q, o.ptr)) = pipe.reverse.filterMap ret
  rdone : ∀ o ∈ R, o.done = true
  tbl : ∀ k (h : k < T.length), s.act ((s.fp + k) % 2 ^ p.cl) = true ∧ s.tq ((s.fp + k) % 2 ^ p.cl) = T[k].q ∧
    s.tp ((s.fp + k) % 2 ^ p.cl) = T[k].ptr ∧ s.cmt ((s.fp + k) % 2 ^ p.cl) = T[k].done ∧ T[k].tag = (s.fp + k) % 2 ^ p.cl
  inact : ∀ j, j < 2 ^ p.cl → s.act j = true → ∃ k, k < T.length ∧ j = (s.fp + k) % 2 ^ p.cl
  len : T.length ≤ 2 ^ p.cl
  sp : s.sp = (s.fp + T.length) % 2 ^ p.cl
  st : s.sp = a.started % 2 ^ p.cl
  fp : s.fp < 2 ^ p.cl
  opi : ∀ q k (h : k < T.length), T[k].q = q → (∀ k' (h' : k' < T.length), k < k' → T[k'].q ≠ q) →
    (s.ram q).opIdx % 2 ^ p.cl = (s.fp + k) % 2 ^ p.cl
  rfree : (∃ sl ∈ pipe, sl.op = .req) → T.length < 2 ^ p.cl
  ptrs : ∀ o ∈ a.ops, o.ptr < 65536

theorem inv_init (p : Params) (P : Nat) : Inv p (init P) (init P).pipe A.init [] [] := by
  have hp : ∀ sl ∈ (init P).pipe, sl.op = .idle := by
    intro sl h
    have := (List.mem_replicate.mp h).2
    rw [this]; rfl
  constructor
  · intro q; constructor <;> simp [init, Word.zero]
  · intro q; rfl
  · intro sl h h'; exact absurd (hp sl h) h'
  · exact List.pairwise_replicate.mpr (.inr (by simp [Slot.none]))
  · exact List.pairwise_replicate.mpr (.inr (by simp [Slot.none]))
  · rfl
  · symm; rw [List.map_nil, List.filterMap_eq_nil_iff]
    intro sl h
    have := hp sl (List.mem_reverse.mp h)
    simp [ret, this]
  · simp
  · intro k h; simp at h
  · intro j _ h; simp [init] at h
  · simp
  · simp [init]
  · simp [init, A.init]
  · exact Nat.pow_pos (by omega)
  · intro q k h; simp at h
  · rintro ⟨sl, h, h'⟩; rw [hp sl h] at h'; cases h'
  · simp [A.init]

/-- the op-table lookup finds exactly the newest outstanding operation of the queue -/
theorem active_spec {p s pipe a R T} (h : Inv p s pipe a R T) (q : Nat) :
    (match (T.filter (fun o => o.q == q)).getLast? with
     | some o => (s.act ((s.ram q).opIdx % 2 ^ p.cl) && s.tq ((s.ram q).opIdx % 2 ^ p.cl) == q) = true ∧
        s.tp ((s.ram q).opIdx % 2 ^ p.cl) = o.ptr
     | none => (s.act ((s.ram q).opIdx % 2 ^ p.cl) && s.tq ((s.ram q).opIdx % 2 ^ p.cl) == q) = false) := by
  by_cases hT : T.filter (fun o => o.q == q) = []
  · rw [hT]
    show _ = false
    cases hact : s.act ((s.ram q).opIdx % 2 ^ p.cl) with
    | false => simp
    | true =>
      obtain ⟨k, hk, e⟩ := h.inact _ (Nat.mod_lt _ (Nat.pow_pos (by omega))) hact
      have := h.tbl k hk
      rw [e, this.2.1, Bool.true_and]
      rw [List.filter_eq_nil_iff] at hT
      have := hT T[k] (List.getElem_mem _)
      simpa using this
  · obtain ⟨k, hk, h1, h2, h3⟩ := last_idx q T hT
    rw [h3]
    have e := h.opi q k hk h1 h2
    obtain ⟨t1, t2, t3, _, _⟩ := h.tbl k hk
    simp only
    rw [e, t1, t2, t3, h1]
    simp

/-- no retire of the queue in flight -/
theorem opsOf_eq {p s pre a R T} {sl : Slot} (h : Inv p s (pre ++ [sl]) a R T) (h1 : sl.op ≠ .idle) (h2 : sl.op ≠ .commit) :
    opsOf a sl.q = T.filter (fun o => o.q == sl.q) := by
  unfold opsOf
  rw [h.ops, List.filter_append]
  have : R.filter (fun o => o.q == sl.q) = [] := by
    rw [List.filter_eq_nil_iff]
    intro o ho hq
    have hm : (o.q, o.ptr) ∈ R.map (fun o => (o.q, o.ptr)) := List.mem_map.mpr ⟨o, ho, rfl⟩
    rw [h.rmap, List.mem_filterMap] at hm
    obtain ⟨x, hx, hr⟩ := hm
    rw [List.mem_reverse, List.mem_append] at hx
    unfold ret at hr
    by_cases hc : x.op = .commit
    · rw [if_pos hc] at hr
      have hxq : x.q = o.q := by injection hr with hr; exact congrArg Prod.fst hr
      rcases hx with hx | hx
      · have := (List.pairwise_append.mp h.dist).2.2 x hx sl (by simp) (by rw [hc]; simp) h1
        apply this; rw [hxq]; simpa using hq
      · simp at hx; subst hx; exact h2 hc
    · rw [if_neg hc] at hr; cases hr
  rw [this, List.nil_append]

theorem queueActive_spec {p s pre a R T} {sl : Slot} (h : Inv p s (pre ++ [sl]) a R T) (h1 : sl.op ≠ .idle) (h2 : sl.op ≠ .commit) :
    (queueActive p s sl = true ↔ opsOf a sl.q ≠ []) ∧ activeCons p s sl = next a sl.q ∧
    (queueEmpty p s sl = true ↔ next a sl.q = (a.qs sl.q).prod) := by
  have hd := h.data sl (by simp) h1
  have ho := opsOf_eq h h1 h2
  have ha := active_spec h sl.q
  unfold queueActive activeCons queueEmpty queueActive next
  rw [hd, ho, h.qs]
  cases hl : (T.filter (fun o => o.q == sl.q)).getLast? with
  | none =>
    rw [hl] at ha
    simp only at ha
    rw [ha]
    have : T.filter (fun o => o.q == sl.q) = [] := by simpa using hl
    rw [this]
    refine ⟨by simp, by simp [absW], ?_⟩
    simp only [absW, Bool.false_eq_true, if_false, beq_iff_eq]
    exact ⟨Eq.symm, Eq.symm⟩
  | some o =>
    rw [hl] at ha
    simp only at ha
    rw [ha.1, ha.2]
    have : T.filter (fun o => o.q == sl.q) ≠ [] := by intro e; rw [e] at hl; simp at hl
    refine ⟨?_, by simp, ?_⟩
    · simp only [true_iff]; exact this
    · simp only [absW, if_true, beq_iff_eq]
      exact ⟨Eq.symm, Eq.symm⟩

theorem next_lt {p s pipe a R T} (h : Inv p s pipe a R T) (q : Nat) : next a q < 65536 := by
  unfold next
  cases hl : (opsOf a q).getLast? with
  | none => simp only; rw [h.qs]; exact (h.wok q).cons
  | some o =>
    simp only
    exact h.ptrs o ((List.mem_filter.mp (List.mem_of_getLast? hl)).1)

theorem phase_spec (n k : Nat) : (!(n.testBit k)) = (n / 2 ^ k % 2 == 0) := by
  rw [Nat.testBit_eq_decide_div_mod_eq]
  rcases Nat.mod_two_eq_zero_or_one (n / 2 ^ k) with h | h <;> simp [h]

theorem mask_spec (n k : Nat) (hk : k < 16) : n &&& (0xffff >>> (16 - k)) = n % 2 ^ k := by
  have : 0xffff >>> (16 - k) = 2 ^ k - 1 := by
    have : ∀ k : Fin 16, 0xffff >>> (16 - k.val) = 2 ^ k.val - 1 := by decide
    exact this ⟨k, hk⟩
  rw [this, Nat.and_two_pow_sub_one_eq_mod]

theorem mkResp_spec {p s pre a R T} {sl : Slot} (h : Inv p s (pre ++ [sl]) a R T) (h1 : sl.op = .req) :
    mkResp p s sl = resp p a sl.q sl.tag := by
  have h2 : sl.op ≠ .idle := by rw [h1]; simp
  have h3 : sl.op ≠ .commit := by rw [h1]; simp
  obtain ⟨q1, q2, q3⟩ := queueActive_spec h h2 h3
  have hd := h.data sl (by simp) h2
  have hq := h.qs sl.q
  unfold mkResp resp
  simp only
  rw [q2, hd, hq, h.st, mask_spec _ _ (h.wok sl.q).size, phase_spec, Nat.shiftLeft_eq]
  have : queueEmpty p s sl = (next a sl.q == (s.ram sl.q).prod) := by
    rw [hq] at q3
    rw [Bool.eq_iff_iff, q3]; simp [absW]
  rw [this]
  rfl

theorem merge_low {strb old new : Nat} (ho : old % 4096 = 0) (hn : new % 4096 = 0) : mergeStrb (strb &&& 0xE) old new % 4096 = 0 := by
  unfold mergeStrb
  have h0 : (strb &&& 0xE).testBit 0 = false := by
    rw [Nat.testBit_and]; simp [show Nat.testBit 14 0 = false by decide]
  simp only [h0]
  split <;> split <;> split <;> simp <;> omega

theorem writeReg_spec (w : Word) (sl : Slot) (hd : sl.data = w) :
    absW (writeReg w sl).1 = write (absW w) sl.reg sl.wdata sl.wstrb ∧
    (writeReg w sl).1.opIdx = w.opIdx ∧ (WordOK w → WordOK (writeReg w sl).1) ∧
    (writeReg w sl).2 = (if isProd sl.reg sl.wdata ∧ (absW w).en = true then some sl.q else none) := by
  have key : ∀ v : Nat, v >>> 16 = v / 2 ^ 16 ∧ v >>> 24 = v / 2 ^ 24 ∧ v >>> 8 = v / 2 ^ 8 := by
    intro v; exact ⟨Nat.shiftRight_eq_div_pow _ _, Nat.shiftRight_eq_div_pow _ _, Nat.shiftRight_eq_div_pow _ _⟩
  obtain ⟨k1, k2, k3⟩ := key sl.wdata
  have tb : sl.wdata.testBit 0 = (sl.wdata % 2 == 1) := by
    rw [Nat.testBit_zero]; rcases Nat.mod_two_eq_zero_or_one sl.wdata with h | h <;> simp [h]
  have ptr : ∀ r, 2 ≤ r → r ≤ 4 → sl.reg = r →
      absW (writeReg w sl).1 = write (absW w) sl.reg sl.wdata sl.wstrb ∧
      (writeReg w sl).1.opIdx = w.opIdx ∧ (WordOK w → WordOK (writeReg w sl).1) ∧
      (writeReg w sl).2 = (if isProd sl.reg sl.wdata ∧ (absW w).en = true then some sl.q else none) := by
    intro r hr1 hr2 hr
    have hu : writeReg w sl =
      (if sl.wdata >>> 16 = 0x8001 then (w, none)
      else if sl.wdata >>> 16 = 0x8002 then
        (if w.en then w else { w with logSize := sl.wdata % 256 % 16, logBlock := sl.wdata / 256 % 256 % 4, en := w.en }, none)
      else if sl.wdata >>> 24 = 0xC0 then (if w.en then w else { w with cplq := sl.wdata % 2 ^ 24 % 2 ^ 16 }, none)
      else if sl.wdata >>> 16 = 0x8080 then ({ w with prod := sl.wdata % 65536 }, if w.en then some sl.q else none)
      else if sl.wdata >>> 16 = 0x8090 then (if w.en then w else { w with cons := sl.wdata % 65536 }, none)
      else if sl.wdata >>> 8 = 0x400001 then
        ({ w with logSize := w.logSize, logBlock := w.logBlock, en := sl.wdata.testBit 0 }, none)
      else (w, none)) := by
      unfold writeReg
      rw [hd]
      rcases (show r = 2 ∨ r = 3 ∨ r = 4 by omega) with rfl | rfl | rfl <;> rw [hr] <;> rfl
    rw [hu, k1, k2, k3, tb]
    have hn0 : ¬ sl.reg = 0 := by omega
    have hn1 : ¬ sl.reg = 1 := by omega
    have hin : 2 ≤ sl.reg ∧ sl.reg ≤ 4 := by omega
    have hisP : isProd sl.reg sl.wdata ↔ sl.wdata / 2 ^ 16 = 0x8080 := by unfold isProd; omega
    simp only [write, if_neg hn0, if_neg hn1, if_pos hin, hisP]
    obtain ⟨prod, cons, cplq, ls, lb, en, oi, bl, bh⟩ := w
    by_cases c1 : sl.wdata / 2 ^ 16 = 0x8001
    · have n2 : ¬ sl.wdata / 2 ^ 16 = 0x8002 := by omega
      have n3 : ¬ sl.wdata / 2 ^ 24 = 0xC0 := by omega
      have n4 : ¬ sl.wdata / 2 ^ 16 = 0x8080 := by omega
      have n5 : ¬ sl.wdata / 2 ^ 16 = 0x8090 := by omega
      have n6 : ¬ sl.wdata / 2 ^ 8 = 0x400001 := by omega
      simp only [if_pos c1, if_neg n2, if_neg n3, if_neg n4, if_neg n5, if_neg n6]
      simp [n4]
    · by_cases c2 : sl.wdata / 2 ^ 16 = 0x8002
      · have n4 : ¬ sl.wdata / 2 ^ 16 = 0x8080 := by omega
        simp only [if_neg c1, if_pos c2]
        have e1 : sl.wdata % 256 % 16 = sl.wdata % 16 := by omega
        have e2 : sl.wdata / 256 % 256 % 4 = sl.wdata / 256 % 4 := by omega
        rw [e1, e2]
        refine ⟨by cases en <;> rfl, by first | trivial | (cases en <;> rfl), ?_, by simp [n4]⟩
        rintro ⟨h1, h2, h3, h4⟩
        cases en
        · exact ⟨h1, h2, by show sl.wdata % 16 < 16; omega, h4⟩
        · exact ⟨h1, h2, h3, h4⟩
      · by_cases c3 : sl.wdata / 2 ^ 24 = 0xC0
        · have n4 : ¬ sl.wdata / 2 ^ 16 = 0x8080 := by omega
          simp only [if_neg c1, if_neg c2, if_pos c3]
          have e1 : sl.wdata % 2 ^ 24 % 2 ^ 16 = sl.wdata % 2 ^ 16 := by omega
          rw [e1]
          refine ⟨by cases en <;> rfl, by first | trivial | (cases en <;> rfl), ?_, by simp [n4]⟩
          rintro ⟨h1, h2, h3, h4⟩
          cases en <;> exact ⟨h1, h2, h3, h4⟩
        · by_cases c4 : sl.wdata / 2 ^ 16 = 0x8080
          · simp only [if_neg c1, if_neg c2, if_neg c3, if_pos c4]
            refine ⟨rfl, by first | trivial | (cases en <;> rfl), ?_, by cases en <;> simp [absW, c4]⟩
            rintro ⟨h1, h2, h3, h4⟩
            exact ⟨by show sl.wdata % 65536 < 65536; omega, h2, h3, h4⟩
          · by_cases c5 : sl.wdata / 2 ^ 16 = 0x8090
            · simp only [if_neg c1, if_neg c2, if_neg c3, if_neg c4, if_pos c5]
              refine ⟨by cases en <;> rfl, by first | trivial | (cases en <;> rfl), ?_, by simp [c4]⟩
              rintro ⟨h1, h2, h3, h4⟩
              cases en
              · exact ⟨h1, by show sl.wdata % 65536 < 65536; omega, h3, h4⟩
              · exact ⟨h1, h2, h3, h4⟩
            · by_cases c6 : sl.wdata / 2 ^ 8 = 0x400001
              · simp only [if_neg c1, if_neg c2, if_neg c3, if_neg c4, if_neg c5, if_pos c6]
                refine ⟨rfl, by first | trivial | (cases en <;> rfl), ?_, by simp [c4]⟩
                rintro ⟨h1, h2, h3, h4⟩
                exact ⟨h1, h2, h3, h4⟩
              · simp only [if_neg c1, if_neg c2, if_neg c3, if_neg c4, if_neg c5, if_neg c6]
                simp [c4]
  match hr : sl.reg with
  | 0 =>
    have hnp : ¬ isProd 0 sl.wdata := by unfold isProd; omega
    unfold writeReg
    rw [hd, hr]
    simp only [write, if_pos, if_true, hnp, false_and, if_false]
    obtain ⟨prod, cons, cplq, ls, lb, en, oi, bl, bh⟩ := w
    refine ⟨by cases en <;> rfl, by cases en <;> rfl, ?_, trivial⟩
    rintro ⟨h1, h2, h3, h4⟩
    cases en
    · simp only at h4
      exact ⟨h1, h2, h3, merge_low h4 (by rw [h4]; omega)⟩
    · exact ⟨h1, h2, h3, h4⟩
  | 1 =>
    have hnp : ¬ isProd 1 sl.wdata := by unfold isProd; omega
    unfold writeReg
    rw [hd, hr]
    simp only [write, if_neg (show ¬ (1 = 0) by omega), if_true, hnp, false_and, if_false]
    obtain ⟨prod, cons, cplq, ls, lb, en, oi, bl, bh⟩ := w
    refine ⟨by cases en <;> rfl, by cases en <;> rfl, ?_, trivial⟩
    rintro ⟨h1, h2, h3, h4⟩
    cases en <;> exact ⟨h1, h2, h3, h4⟩
  | 2 => rw [← hr]; exact ptr 2 (by omega) (by omega) hr
  | 3 => rw [← hr]; exact ptr 3 (by omega) (by omega) hr
  | 4 => rw [← hr]; exact ptr 4 (by omega) (by omega) hr
  | n + 5 =>
    have hnp : ¬ isProd (n + 5) sl.wdata := by unfold isProd; omega
    have hw : writeReg w sl = (w, none) := by unfold writeReg; rw [hr]; rfl
    rw [hw]
    simp [write, hnp, show ¬ (n + 5 ≤ 4) by omega]

theorem readReg_spec {p s pre a R T} {sl : Slot} (h : Inv p s (pre ++ [sl]) a R T) (h1 : sl.op = .rd) :
    readReg p s sl = Spec.read p a sl.q sl.reg := by
  have h2 : sl.op ≠ .idle := by rw [h1]; simp
  have h3 : sl.op ≠ .commit := by rw [h1]; simp
  obtain ⟨q1, _, _⟩ := queueActive_spec h h2 h3
  have hd := h.data sl (by simp) h2
  have hq := h.qs sl.q
  have hb := (h.wok sl.q).base
  unfold readReg Spec.read
  simp only
  rw [hd, hq]
  match sl.reg with
  | 0 => show (s.ram sl.q).baseLo / 4096 * 4096 = (s.ram sl.q).baseLo; omega
  | 1 => rfl
  | 2 =>
    simp only [show ¬ (2 = 0) by omega, show ¬ (2 = 1) by omega, if_false, if_true]
    by_cases hz : opsOf a sl.q = []
    · have : queueActive p s sl = false := by
        cases hc : queueActive p s sl with
        | false => rfl
        | true => exact absurd hz (q1.mp hc)
      rw [this, if_pos hz]; rfl
    · rw [q1.mpr hz, if_neg hz]; rfl
  | 3 => rfl
  | 4 => rfl
  | n + 5 => simp

/-! ### the final stage -/

/-- the register defaults do not matter to the invariant -/
theorem inv_congr {p s s' pipe a R T} (h : Inv p s pipe a R T) (h1 : s'.ram = s.ram) (h2 : s'.act = s.act) (h3 : s'.cmt = s.cmt)
    (h4 : s'.tq = s.tq) (h5 : s'.tp = s.tp) (h6 : s'.sp = s.sp) (h7 : s'.fp = s.fp) : Inv p s' pipe a R T := by
  obtain ⟨a1, a2, a3, a4, a5, a6, a7, a8, a9, a10, a11, a12, a13, a14, a15, a16, a17⟩ := h
  constructor <;> (try rw [h1]) <;> (try rw [h2]) <;> (try rw [h3]) <;> (try rw [h4]) <;> (try rw [h5]) <;> (try rw [h6]) <;>
    (try rw [h7]) <;> assumption

/-- dropping the last slot when it is not a retire -/
theorem inv_pop {p s pre a R T} {sl : Slot} (h : Inv p s (pre ++ [sl]) a R T) (h1 : sl.op ≠ .commit) : Inv p s pre a R T := by
  obtain ⟨a1, a2, a3, a4, a5, a6, a7, a8, a9, a10, a11, a12, a13, a14, a15, a16, a17⟩ := h
  refine ⟨a1, a2, fun x hx => a3 x (List.mem_append_left _ hx), (List.pairwise_append.mp a4).1, (List.pairwise_append.mp a5).1,
    a6, ?_, a8, a9, a10, a11, a12, a13, a14, a15, fun ⟨x, hx, hr⟩ => a16 ⟨x, List.mem_append_left _ hx, hr⟩, a17⟩
  rw [a7, List.reverse_append, List.filterMap_append]
  have : ret sl = none := by simp [ret, h1]
  simp [this]

structure FinalOK (p : Params) (s s1 : State) (sl : Slot) (pre : List Slot) (a1 : A) (R1 T T1 : List AOp) : Prop where
  inv : Inv p s1 pre a1 R1 T1
  tt : T1 = T ∨ (sl.op = .req ∧ ∃ x, T1 = T ++ [x])
  ram : ∀ q, (sl.op = .idle ∨ q ≠ sl.q) → s1.ram q = s.ram q
  fp : s1.fp = s.fp
  pipe : s1.pipe = s.pipe
  cready : s1.cready = s.cready

theorem final_spec {p : Params} {s : State} {pre a R T} {sl : Slot} (hcl : p.cl ≤ 8) (h : Inv p s (pre ++ [sl]) a R T) (i : In) :
    ∃ a1 R1 T1, runA p a (final p s i sl).2 = some a1 ∧ FinalOK p s (final p s i sl).1 sl pre a1 R1 T T1 := by
  -- absorb the register defaults
  have h' : Inv p (defaults s i) (pre ++ [sl]) a R T := inv_congr h rfl rfl rfl rfl rfl rfl rfl
  unfold final
  generalize hs' : defaults s i = s'
  rw [hs'] at h'
  have e1 : s'.ram = s.ram := by rw [← hs']; rfl
  have e2 : s'.fp = s.fp := by rw [← hs']; rfl
  have e3 : s'.pipe = s.pipe := by rw [← hs']; rfl
  have e4 : s'.cready = s.cready := by rw [← hs']; rfl
  have fin : ∀ {s1 : State} {a1 R1}, Inv p s1 pre a1 R1 T → s1.ram = s'.ram → s1.fp = s'.fp → s1.pipe = s'.pipe →
      s1.cready = s'.cready → FinalOK p s s1 sl pre a1 R1 T T := by
    intro s1 a1 R1 hi f1 f2 f3 f4
    exact ⟨hi, .inl rfl, fun q _ => by rw [f1, e1], by rw [f2, e2], by rw [f3, e3], by rw [f4, e4]⟩
  simp only
  clear h hs'
  have hpreq : ∀ x ∈ pre, x.op ≠ .idle → sl.op ≠ .idle → x.q ≠ sl.q := fun x hx h1 h2 =>
    (List.pairwise_append.mp h'.dist).2.2 x hx sl (by simp) h1 h2
  cases hop : sl.op with
  | idle =>
    exact ⟨a, R, T, rfl, fin (inv_pop h' (by rw [hop]; simp)) rfl rfl rfl rfl⟩
  | rd =>
    refine ⟨a, R, T, ?_, fin (inv_congr (inv_pop h' (by rw [hop]; simp)) rfl rfl rfl rfl rfl rfl rfl) rfl rfl rfl rfl⟩
    simp only [runA, accept, readReg_spec h' hop, if_true, Option.bind_some]
  | wr =>
    have hne : sl.op ≠ .idle := by rw [hop]; simp
    have hd := h'.data sl (by simp) hne
    obtain ⟨w1, w2, w3, w4⟩ := writeReg_spec (s'.ram sl.q) sl hd
    refine ⟨setQ a sl.q (write (a.qs sl.q) sl.reg sl.wdata sl.wstrb), R, T, ?_, ?_⟩
    · simp only [runA, accept]
      rw [w4, h'.qs, if_pos rfl]; rfl
    · refine ⟨?_, .inl rfl, ?_, e2, e3, e4⟩
      · have hp := inv_pop h' (show sl.op ≠ .commit by rw [hop]; simp)
        obtain ⟨a1, a2, a3, a4, a5, a6, a7, a8, a9, a10, a11, a12, a13, a14, a15, a16, a17⟩ := hp
        refine ⟨?_, ?_, ?_, a4, a5, a6, a7, a8, a9, a10, a11, a12, a13, a14, ?_, a16, a17⟩
        · intro q
          by_cases hq : q = sl.q
          · subst hq; simp only [upd_eq]; exact w3 (a1 sl.q)
          · simp only [upd_ne _ _ hq]; exact a1 q
        · intro q
          by_cases hq : q = sl.q
          · subst hq; simp only [setQ, if_true, upd_eq]; rw [w1, a2]
          · simp only [setQ, if_neg hq, upd_ne _ _ hq]; exact a2 q
        · intro x hx hxi
          rw [a3 x hx hxi]
          simp only [upd_ne _ _ (hpreq x hx hxi hne)]
        · intro q k hk hq hl
          have := a15 q k hk hq hl
          by_cases hqq : q = sl.q
          · subst hqq; simp only [upd_eq]; rw [w2]; exact this
          · simp only [upd_ne _ _ hqq]; exact this
      · rintro q (hq | hq)
        · exact absurd hq hne
        · simp only [upd_ne _ _ hq]; rw [e1]
  | commit =>
    have hne : sl.op ≠ .idle := by rw [hop]; simp
    obtain ⟨a1, a2, a3, a4, a5, a6, a7, a8, a9, a10, a11, a12, a13, a14, a15, a16, a17⟩ := h'
    have hr : ret sl = some (sl.q, sl.wdata) := by simp [ret, hop]
    rw [List.reverse_append, List.filterMap_append] at a7
    have hsing : List.filterMap ret [sl].reverse = [(sl.q, sl.wdata)] := by simp [hr]
    rw [hsing] at a7
    cases hR : R with
    | nil => rw [hR] at a7; simp at a7
    | cons o R' =>
      rw [hR] at a7 a6 a8
      simp only [List.map_cons, List.singleton_append, List.cons.injEq, Prod.mk.injEq] at a7
      obtain ⟨⟨rq, rp⟩, rm⟩ := a7
      have hdone : o.done = true := a8 o (by simp)
      have hlt : o.ptr < 65536 := a17 o (by rw [a6]; simp)
      refine ⟨{ setQ a sl.q { a.qs sl.q with cons := o.ptr } with ops := R' ++ T }, R', T, ?_, ?_⟩
      · simp only [runA, accept]
        rw [a6]
        simp only [List.cons_append]
        rw [if_pos ⟨rq, hdone⟩]; rfl
      · refine ⟨?_, .inl rfl, ?_, e2, e3, e4⟩
        · refine ⟨?_, ?_, ?_, (List.pairwise_append.mp a4).1, (List.pairwise_append.mp a5).1, rfl, rm,
            fun x hx => a8 x (by simp [hx]), a9, a10, a11, a12, a13, a14, ?_,
            fun ⟨x, hx, hxr⟩ => a16 ⟨x, List.mem_append_left _ hx, hxr⟩,
            fun x hx => a17 x (by rw [a6]; simp only [List.cons_append, List.mem_cons]; exact .inr hx)⟩
          · intro q
            by_cases hq : q = sl.q
            · subst hq; simp only [upd_eq]
              have := a1 sl.q
              exact ⟨this.prod, by show sl.wdata % 65536 < 65536; omega, this.size, this.base⟩
            · simp only [upd_ne _ _ hq]; exact a1 q
          · intro q
            by_cases hq : q = sl.q
            · subst hq; simp only [setQ, if_true, upd_eq]
              rw [a2, rp, Nat.mod_eq_of_lt (by omega)]; rfl
            · simp only [setQ, if_neg hq, upd_ne _ _ hq]; exact a2 q
          · intro x hx hxi
            rw [a3 x (List.mem_append_left _ hx) hxi]
            simp only [upd_ne _ _ (hpreq x hx hxi hne)]
          · intro q k hk hq hl
            have := a15 q k hk hq hl
            by_cases hqq : q = sl.q
            · subst hqq; simp only [upd_eq]; exact this
            · simp only [upd_ne _ _ hqq]; exact this
        · rintro q (hq | hq)
          · exact absurd hq hne
          · simp only [upd_ne _ _ hq]; rw [e1]
  | req =>
    have hne : sl.op ≠ .idle := by rw [hop]; simp
    have hnc : sl.op ≠ .commit := by rw [hop]; simp
    have hm := mkResp_spec h' hop
    have hp := inv_pop h' hnc
    simp only [hm]
    by_cases hee : ((resp p a sl.q sl.tag).err || (resp p a sl.q sl.tag).empty) = true
    · rw [if_pos hee]
      refine ⟨a, R, T, ?_, fin (inv_congr hp rfl rfl rfl rfl rfl rfl rfl) rfl rfl rfl rfl⟩
      simp only [runA, accept, if_true, hee, Option.bind_some]
    · rw [if_neg hee]
      have hlen : T.length < 2 ^ p.cl := h'.rfree ⟨sl, by simp, hop⟩
      have hlen' : T.length < 2 ^ p.cl := hlen
      have hot : (resp p a sl.q sl.tag).opTag = s'.sp := by simp only [resp]; rw [← h'.st]
      have hptr : (resp p a sl.q sl.tag).ptr = next a sl.q := rfl
      have hslot : ∀ k, k < T.length → (s'.fp + k) % 2 ^ p.cl ≠ s'.sp := by
        intro k hk he
        rw [h'.sp] at he
        have := mod_win (by omega) hlen he
        omega
      refine ⟨⟨a.qs, a.ops ++ [⟨sl.q, ((resp p a sl.q sl.tag).ptr + 1) % 2 ^ 16, (resp p a sl.q sl.tag).opTag, false⟩], a.started + 1⟩,
        R, T ++ [⟨sl.q, ((resp p a sl.q sl.tag).ptr + 1) % 2 ^ 16, s'.sp, false⟩], ?_, ⟨?_, ?_, ?_, e2, e3, e4⟩⟩
      · simp only [runA, accept, if_true]
        rw [if_neg hee, if_pos]
        · simp only [Option.bind_some]
        · rw [List.all_eq_true]
          intro o ho
          rw [h'.ops, List.mem_append] at ho
          rcases ho with ho | ho
          · simp [h'.rdone o ho]
          · obtain ⟨k, hk, rfl⟩ := List.mem_iff_getElem.mp ho
            have := (h'.tbl k hk).2.2.2.2
            rw [this, hot]
            simp [hslot k hk]
      · obtain ⟨a1, a2, a3, a4, a5, a6, a7, a8, a9, a10, a11, a12, a13, a14, a15, a16, a17⟩ := hp
        have hspl : s'.sp < 2 ^ p.cl := by rw [a12]; exact Nat.mod_lt _ (Nat.pow_pos (by omega))
        have hpw : 2 ^ p.cl ≤ 256 := by
          have := Nat.pow_le_pow_right (show 0 < 2 by omega) hcl
          simpa using this
        refine ⟨?_, ?_, ?_, a4, a5, ?_, a7, a8, ?_, ?_, ?_, ?_, ?_, a14, ?_, ?_, ?_⟩
        · intro q
          by_cases hq : q = sl.q
          · subst hq; simp only [upd_eq]
            have := a1 sl.q
            exact ⟨this.prod, this.cons, this.size, this.base⟩
          · simp only [upd_ne _ _ hq]; exact a1 q
        · intro q
          by_cases hq : q = sl.q
          · subst hq; simp only [upd_eq]; rw [a2]; rfl
          · simp only [upd_ne _ _ hq]; exact a2 q
        · intro x hx hxi
          rw [a3 x hx hxi]
          simp only [upd_ne _ _ (hpreq x hx hxi hne)]
        · simp only [a6, hot, List.append_assoc]
        · intro k hk
          simp only [List.length_append, List.length_singleton] at hk
          by_cases hkl : k < T.length
          · have hs := hslot k hkl
            simp only [upd_ne _ _ hs, List.getElem_append_left hkl]
            exact a9 k hkl
          · have hkk : k = T.length := by omega
            subst hkk
            simp only [← a12, upd_eq, List.getElem_concat_length]
            simp
        · intro j hj hact
          by_cases hjs : j = s'.sp
          · exact ⟨T.length, by simp, by rw [hjs]; exact a12⟩
          · simp only [upd_ne _ _ hjs] at hact
            obtain ⟨k, hk, e⟩ := a10 j hj hact
            exact ⟨k, by simp; omega, e⟩
        · simp only [List.length_append, List.length_singleton]; omega
        · simp only [List.length_append, List.length_singleton]
          rw [a12, Nat.mod_add_mod, Nat.add_assoc]
        · simp only
          rw [a13, Nat.mod_add_mod]
        · intro q k hk hq hl
          simp only [List.length_append, List.length_singleton] at hk
          by_cases hkl : k < T.length
          · rw [List.getElem_append_left hkl] at hq
            have hqq : q ≠ sl.q := by
              intro e
              have := hl T.length (by simp) hkl
              rw [List.getElem_concat_length rfl] at this
              exact this e.symm
            simp only [upd_ne _ _ hqq]
            apply a15 q k hkl hq
            intro k' h1 h2
            have := hl k' (by simp; omega) h2
            rw [List.getElem_append_left h1] at this
            exact this
          · have hkk : k = T.length := by omega
            subst hkk
            rw [List.getElem_concat_length rfl] at hq
            simp only at hq
            subst hq
            simp only [upd_eq]
            rw [Nat.mod_eq_of_lt (show s'.sp < 256 by omega), Nat.mod_eq_of_lt hspl, a12]
        · rintro ⟨x, hx, hxr⟩
          exact absurd ⟨hxr, hop⟩ ((List.pairwise_append.mp h'.reqs).2.2 x hx sl (by simp))
        · intro o ho
          simp only [List.mem_append, List.mem_singleton] at ho
          rcases ho with ho | ho
          · exact a17 o ho
          · subst ho; simp only; omega
      · exact .inr ⟨hop, _, rfl⟩
      · rintro q (hq | hq)
        · exact absurd hq hne
        · simp only [upd_ne _ _ hq]; rw [e1]

/-! ### stage 0 -/

structure AdmitOK (p : Params) (s : State) (pre : List Slot) (T : List AOp) (sl : Slot) : Prop where
  q : sl.op ≠ .idle → ∀ x ∈ pre, x.op ≠ .idle → sl.q ≠ x.q
  data : sl.op ≠ .idle → sl.data = s.ram sl.q
  req : sl.op = .req → (∀ x ∈ pre, x.op ≠ .req) ∧ T.length < 2 ^ p.cl
  cmt : sl.op = .commit → ∃ o T', T = o :: T' ∧ o.done = true ∧ sl.q = o.q ∧ sl.wdata = o.ptr

theorem admit_spec {p s pre a R T} {sl : Slot} (h : Inv p s pre a R T) (hp : s.pipe.dropLast = pre) (ok : AdmitOK p s pre T sl) :
    ∃ R1 T1, Inv p (admit p s sl) (admit p s sl).pipe a R1 T1 ∧ (admit p s sl).pipe = sl :: pre := by
  obtain ⟨k1, k2, k3, k4⟩ := ok
  obtain ⟨a1, a2, a3, a4, a5, a6, a7, a8, a9, a10, a11, a12, a13, a14, a15, a16, a17⟩ := h
  by_cases hc : sl.op = .commit
  · obtain ⟨o, T', rfl, hod, hoq, hop⟩ := k4 hc
    have hpp : (admit p s sl).pipe = sl :: pre := by unfold admit; simp only; first | rw [if_pos hc]; simp [shift, hp] | rw [if_neg hc]; simp [shift, hp]
    refine ⟨R ++ [o], T', ?_, hpp⟩
    rw [hpp]
    have hadm : admit p s sl = { shift s sl with fp := (s.fp + 1) % 2 ^ p.cl, act := upd s.act s.fp false } := by unfold admit; simp only; first | rw [if_pos hc]; rfl | rw [if_neg hc]
    rw [hadm]
    simp only [List.length_cons] at a11 a12
    have hk : ∀ k, ((s.fp + 1) % 2 ^ p.cl + k) % 2 ^ p.cl = (s.fp + (k + 1)) % 2 ^ p.cl := by
      intro k; rw [Nat.mod_add_mod]; congr 1; omega
    have hnf : ∀ k, k < T'.length → (s.fp + (k + 1)) % 2 ^ p.cl ≠ s.fp := by
      intro k hkl he
      have : (s.fp + (k + 1)) % 2 ^ p.cl = (s.fp + 0) % 2 ^ p.cl := by rw [he, Nat.add_zero, Nat.mod_eq_of_lt a14]
      have := mod_win (by omega) (by omega) this
      omega
    refine ⟨a1, a2, ?_, ?_, ?_, ?_, ?_, ?_, ?_, ?_, by omega, ?_, a13, Nat.mod_lt _ (Nat.pow_pos (by omega)), ?_, ?_, a17⟩
    · intro x hx hxi
      rcases List.mem_cons.mp hx with rfl | hx
      · exact k2 hxi
      · exact a3 x hx hxi
    · rw [List.pairwise_cons]
      exact ⟨fun x hx h1 h2 => k1 h1 x hx h2, a4⟩
    · rw [List.pairwise_cons]
      exact ⟨fun x hx h1 => by rw [hc] at h1; simp at h1, a5⟩
    · rw [a6]; simp
    · rw [List.map_append, a7, List.reverse_cons, List.filterMap_append]
      simp [ret, hc, hoq, hop]
    · intro x hx
      rcases List.mem_append.mp hx with hx | hx
      · exact a8 x hx
      · simp at hx; subst hx; exact hod
    · intro k hkl
      simp only
      rw [hk, upd_ne _ _ (hnf k hkl)]
      exact a9 (k + 1) (by simp; omega)
    · intro j hj hact
      simp only at hact
      by_cases hjf : j = s.fp
      · subst hjf; rw [upd_eq] at hact; simp at hact
      · rw [upd_ne _ _ hjf] at hact
        obtain ⟨k, hkl, e⟩ := a10 j hj hact
        cases k with
        | zero => rw [Nat.add_zero, Nat.mod_eq_of_lt a14] at e; exact absurd e hjf
        | succ k => exact ⟨k, by simp at hkl; omega, by rw [e]; exact (hk k).symm⟩
    · simp only
      rw [hk]; exact a12
    · intro q k hkl hq hl
      simp only
      rw [hk]
      apply a15 q (k + 1) (by simp; omega) (by simpa using hq)
      intro k' h1 h2
      obtain ⟨k'', rfl⟩ : ∃ k'', k' = k'' + 1 := ⟨k' - 1, by omega⟩
      simp only [List.getElem_cons_succ]
      exact hl k'' (by simpa using h1) (by omega)
    · intro _; omega
  · have hpp : (admit p s sl).pipe = sl :: pre := by unfold admit; simp only; first | rw [if_pos hc]; simp [shift, hp] | rw [if_neg hc]; simp [shift, hp]
    refine ⟨R, T, ?_, hpp⟩
    rw [hpp]
    have hi : Inv p s (sl :: pre) a R T := by
      refine ⟨a1, a2, ?_, ?_, ?_, a6, ?_, a8, a9, a10, a11, a12, a13, a14, a15, ?_, a17⟩
      · intro x hx hxi
        rcases List.mem_cons.mp hx with rfl | hx
        · exact k2 hxi
        · exact a3 x hx hxi
      · rw [List.pairwise_cons]
        exact ⟨fun x hx h1 h2 => k1 h1 x hx h2, a4⟩
      · rw [List.pairwise_cons]
        exact ⟨fun x hx ⟨h1, h2⟩ => (k3 h1).1 x hx h2, a5⟩
      · rw [a7, List.reverse_cons, List.filterMap_append]
        simp [ret, hc]
      · rintro ⟨x, hx, hxr⟩
        rcases List.mem_cons.mp hx with rfl | hx
        · exact (k3 hxr).2
        · exact a16 ⟨x, hx, hxr⟩
    have hadm : admit p s sl = shift s sl := by unfold admit; simp only; first | rw [if_pos hc]; rfl | rw [if_neg hc]
    rw [hadm]
    exact inv_congr hi rfl rfl rfl rfl rfl rfl rfl

theorem hazard_false {s : State} {q : Nat} (h : hazard s q = false) : ∀ x ∈ s.pipe, x.op ≠ .idle → q ≠ x.q := by
  intro x hx hxi he
  unfold hazard at h
  rw [List.any_eq_false] at h
  have := h x hx
  simp [hxi, he] at this

theorem inPipe_false {s : State} {o : Op} (h : inPipe s o = false) : ∀ x ∈ s.pipe, x.op ≠ o := by
  intro x hx he
  unfold inPipe at h
  rw [List.any_eq_false] at h
  have := h x hx
  simp [he] at this

theorem stage0_spec {p s a R T} {pre : List Slot} {sl : Slot} (h : Inv p s s.pipe a R T) (hpipe : s.pipe = pre ++ [sl]) (i : In)
    {s1 a1 R1 T1} (hf : FinalOK p s s1 sl pre a1 R1 T T1) : AdmitOK p s1 pre T1 (stage0 p s i) := by
  have hpre : ∀ x ∈ pre, x ∈ s.pipe := fun x hx => by rw [hpipe]; simp [hx]
  have hslm : sl ∈ s.pipe := by rw [hpipe]; simp
  have hq : ∀ q, hazard s q = false → (∀ x ∈ pre, x.op ≠ .idle → q ≠ x.q) ∧ s.ram q = s1.ram q := by
    intro q hz
    refine ⟨fun x hx hxi => hazard_false hz x (hpre x hx) hxi, ?_⟩
    symm; apply hf.ram
    by_cases hi : sl.op = .idle
    · exact .inl hi
    · exact .inr (hazard_false hz sl hslm hi)
  unfold stage0
  simp only
  split
  · rename_i hc
    simp only [Bool.and_eq_true, Bool.not_eq_true'] at hc
    obtain ⟨z1, z2⟩ := hq _ hc.2
    exact ⟨fun _ => z1, fun _ => z2, by simp, by simp⟩
  · split
    · rename_i hc
      simp only [Bool.and_eq_true, Bool.not_eq_true'] at hc
      obtain ⟨z1, z2⟩ := hq _ hc.2
      exact ⟨fun _ => z1, fun _ => z2, by simp, by simp⟩
    · split
      · rename_i hc
        simp only [Bool.and_eq_true, Bool.not_eq_true'] at hc
        obtain ⟨⟨⟨hact, hcmt⟩, _⟩, hz⟩ := hc
        obtain ⟨z1, z2⟩ := hq _ hz
        refine ⟨fun _ => z1, fun _ => z2, by simp, fun _ => ?_⟩
        obtain ⟨k, hk, e⟩ := h.inact s.fp h.fp hact
        have hk0 : k = 0 := by
          have : (s.fp + k) % 2 ^ p.cl = (s.fp + 0) % 2 ^ p.cl := by rw [Nat.add_zero, ← e, Nat.mod_eq_of_lt h.fp]
          have hl := h.len
          exact mod_win (by omega) (by omega) this
        subst hk0
        obtain ⟨t1, t2, t3, t4, t5⟩ := h.tbl 0 hk
        rw [Nat.add_zero, Nat.mod_eq_of_lt h.fp] at t1 t2 t3 t4
        cases hT : T with
        | nil => rw [hT] at hk; simp at hk
        | cons o T' =>
          simp only [hT, List.getElem_cons_zero] at t2 t3 t4
          have hd : o.done = true := by rw [← t4]; exact hcmt
          rcases hf.tt with e | ⟨_, x, e⟩
          · exact ⟨o, T', by rw [e, hT], hd, t2, t3⟩
          · exact ⟨o, T' ++ [x], by rw [e, hT]; rfl, hd, t2, t3⟩
      · split
        · rename_i hc
          simp only [Bool.and_eq_true, Bool.not_eq_true'] at hc
          obtain ⟨⟨⟨⟨⟨_, hact⟩, _⟩, _⟩, hreq⟩, hz⟩ := hc
          obtain ⟨z1, z2⟩ := hq _ hz
          refine ⟨fun _ => z1, fun _ => z2, fun _ => ⟨fun x hx => inPipe_false hreq x (hpre x hx), ?_⟩, by simp⟩
          rcases hf.tt with e | ⟨hr, _⟩
          · rw [e]
            rcases Nat.lt_or_ge T.length (2 ^ p.cl) with hlt | hge
            · exact hlt
            · exfalso
              have hl : T.length = 2 ^ p.cl := Nat.le_antisymm h.len hge
              have hpos : 0 < 2 ^ p.cl := Nat.pow_pos (by omega)
              have t := (h.tbl 0 (by omega)).1
              rw [Nat.add_zero] at t
              have hsp := h.sp
              rw [hl, Nat.add_mod_right] at hsp
              rw [← hsp, hact] at t
              cases t
          · exact absurd hr (inPipe_false hreq sl hslm)
        · exact ⟨fun h => absurd rfl h, fun h => absurd rfl h, by simp [Slot.none], by simp [Slot.none]⟩

/-! ### commit recording -/

theorem record_spec {p s a R T} (h : Inv p s s.pipe a R T) (i : In) :
    ∃ a1 R1 T1, runA p a (record p s i).2 = some a1 ∧ Inv p (record p s i).1 (record p s i).1.pipe a1 R1 T1 := by
  unfold record
  split
  · refine ⟨_, R.map (fun o => if o.tag = i.commitTag % 2 ^ p.cl then { o with done := true } else o),
      T.map (fun o => if o.tag = i.commitTag % 2 ^ p.cl then { o with done := true } else o), by simp only [runA, accept]; rfl, ?_⟩
    have hf : ∀ o : AOp, (if o.tag = i.commitTag % 2 ^ p.cl then { o with done := true } else o).q = o.q ∧
        (if o.tag = i.commitTag % 2 ^ p.cl then { o with done := true } else o).ptr = o.ptr ∧
        (if o.tag = i.commitTag % 2 ^ p.cl then { o with done := true } else o).tag = o.tag := by
      intro o; split <;> simp
    obtain ⟨a1, a2, a3, a4, a5, a6, a7, a8, a9, a10, a11, a12, a13, a14, a15, a16, a17⟩ := h
    refine ⟨a1, a2, a3, a4, a5, ?_, ?_, ?_, ?_, ?_, by simpa using a11, by simpa using a12, a13, a14, ?_, by simpa using a16, ?_⟩
    · simp only [a6, List.map_append]
    · rw [← a7, List.map_map]
      apply List.map_congr_left
      intro o _
      simp only [Function.comp, (hf o).1, (hf o).2.1]
    · intro o ho
      obtain ⟨o', ho', rfl⟩ := List.mem_map.mp ho
      have := a8 o' ho'
      split <;> simp [this]
    · intro k hk
      rw [List.length_map] at hk
      obtain ⟨t1, t2, t3, t4, t5⟩ := a9 k hk
      simp only [List.getElem_map]
      refine ⟨t1, by rw [(hf _).1]; exact t2, by rw [(hf _).2.1]; exact t3, ?_, by rw [(hf _).2.2]; exact t5⟩
      by_cases hc : T[k].tag = i.commitTag % 2 ^ p.cl
      · rw [if_pos hc, ← t5, hc, upd_eq]
      · rw [if_neg hc, upd_ne _ _ (by rw [← t5]; exact hc)]; exact t4
    · intro j hj ha
      obtain ⟨k, hk, e⟩ := a10 j hj ha
      exact ⟨k, by simpa using hk, e⟩
    · intro q k hk hq hl
      rw [List.length_map] at hk
      apply a15 q k hk
      · rw [List.getElem_map, (hf _).1] at hq; exact hq
      · intro k' h1 h2
        have := hl k' (by simpa using h1) h2
        rw [List.getElem_map, (hf _).1] at this; exact this
    · intro o ho
      obtain ⟨o', ho', rfl⟩ := List.mem_map.mp ho
      rw [(hf o').2.1]; exact a17 o' ho'
  · exact ⟨a, R, T, rfl, inv_congr h rfl rfl rfl rfl rfl rfl rfl⟩

theorem runA_append {p : Params} : ∀ (e1 e2 : List Ev) (a : A), runA p a (e1 ++ e2) = (runA p a e1).bind (fun a' => runA p a' e2)
  | [], e2, a => rfl
  | e :: e1, e2, a => by
    simp only [List.cons_append, runA]
    cases accept p a e with
    | none => rfl
    | some a' => simp only [Option.bind_some]; exact runA_append e1 e2 a'

theorem step_spec {p s a R T} (hcl : p.cl ≤ 8) (h : Inv p s s.pipe a R T) (hne : s.pipe ≠ []) (i : In) :
    ∃ a1 R1 T1, runA p a (step p s i).2 = some a1 ∧ Inv p (step p s i).1 (step p s i).1.pipe a1 R1 T1 ∧
      (step p s i).1.pipe.length = s.pipe.length := by
  obtain ⟨pre, sl, hpipe⟩ : ∃ pre sl, s.pipe = pre ++ [sl] := by
    exact ⟨s.pipe.dropLast, s.pipe.getLast hne, (List.dropLast_concat_getLast hne).symm⟩
  have hlast : s.pipe.getLast?.getD Slot.none = sl := by rw [hpipe]; simp
  obtain ⟨a1, R1, T1, hr1, hf⟩ := final_spec hcl (by rw [← hpipe]; exact h) i (sl := sl) (pre := pre)
  have hok := stage0_spec h hpipe i hf
  obtain ⟨R2, T2, hi2, hp2⟩ := admit_spec hf.inv (by rw [hf.pipe, hpipe]; simp) hok
  obtain ⟨a3, R3, T3, hr3, hi3⟩ := record_spec hi2 i
  have hst : step p s i = ((record p (admit p (final p s i sl).1 (stage0 p s i)) i).1,
      (final p s i sl).2 ++ (record p (admit p (final p s i sl).1 (stage0 p s i)) i).2) := by
    simp only [step, hlast]
  rw [hst]
  refine ⟨a3, R3, T3, ?_, hi3, ?_⟩
  · rw [runA_append, hr1, Option.bind_some]; exact hr3
  · have : ∀ s' : State, (record p s' i).1.pipe = s'.pipe := by intro s'; unfold record; split <;> rfl
    rw [this, hp2, hpipe]; simp

theorem run_spec {p : Params} (hcl : p.cl ≤ 8) : ∀ (is : List In) {s a R T}, Inv p s s.pipe a R T → s.pipe ≠ [] →
    ∃ a1 R1 T1, runA p a (run p s is).2 = some a1 ∧ Inv p (run p s is).1 (run p s is).1.pipe a1 R1 T1 ∧ (run p s is).1.pipe ≠ []
  | [], s, a, R, T, h, hne => ⟨a, R, T, rfl, h, hne⟩
  | i :: is, s, a, R, T, h, hne => by
    obtain ⟨a1, R1, T1, hr, hi, hl⟩ := step_spec hcl h hne i
    obtain ⟨a2, R2, T2, hr2, hi2, hn2⟩ := run_spec hcl is hi (by
      intro e; rw [e] at hl; exact hne (List.eq_nil_of_length_eq_zero hl.symm))
    refine ⟨a2, R2, T2, ?_, hi2, hn2⟩
    show runA p a ((step p s i).2 ++ (run p (step p s i).1 is).2) = some a2
    rw [runA_append, hr, Option.bind_some]; exact hr2

end Corundum.QueueManager
