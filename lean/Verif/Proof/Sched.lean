import Verif.Model.Sched
/-! Proofs about the transmit scheduler: pipeline, scheduling FIFO and counter invariants. -/
namespace Corundum.Sched

/-! ### one step, field by field -/

theorem step_eq {p : Params} {s : State} {pre : List Slot} {sl : Slot} (h : s.pipe = pre ++ [sl]) (i : In) :
    step p s i = (inputs p s (final p s (admit p s (stage0 p s i)) i sl) i, evOf p.ctrl sl) := by
  unfold step; rw [h]; simp

theorem inputs_same (p : Params) (o s : State) (i : In) :
    (inputs p o s i).pipe = s.pipe ∧ (inputs p o s i).ram = s.ram ∧ (inputs p o s i).rr = s.rr ∧ (inputs p o s i).count = s.count ∧
    (inputs p o s i).initDone = s.initDone ∧ (inputs p o s i).initIdx = s.initIdx ∧ (inputs p o s i).tact = s.tact ∧
    (inputs p o s i).tq = s.tq ∧ (inputs p o s i).tdb = s.tdb ∧ (inputs p o s i).reqV = s.reqV ∧ (inputs p o s i).reqQ = s.reqQ ∧
    (inputs p o s i).reqTag = s.reqTag := by
  unfold inputs
  simp only
  split <;> split <;> exact ⟨rfl, rfl, rfl, rfl, rfl, rfl, rfl, rfl, rfl, rfl, rfl, rfl⟩

theorem outs_same (c : Bool) (s : State) (i : In) (sl : Slot) :
    (outs c s i sl).pipe = s.pipe ∧ (outs c s i sl).ram = s.ram ∧ (outs c s i sl).rr = s.rr ∧ (outs c s i sl).count = s.count ∧
    (outs c s i sl).initDone = s.initDone ∧ (outs c s i sl).initIdx = s.initIdx ∧ (outs c s i sl).tact = s.tact ∧
    (outs c s i sl).tq = s.tq ∧ (outs c s i sl).tdb = s.tdb ∧ (outs c s i sl).fin = s.fin ∧ (outs c s i sl).finReg = s.finReg ∧
    (outs c s i sl).dbf = s.dbf := by
  unfold outs
  simp only
  split <;> exact ⟨rfl, rfl, rfl, rfl, rfl, rfl, rfl, rfl, rfl, rfl, rfl, rfl⟩

theorem table_same (c : Bool) (o s : State) (sl : Slot) :
    (table c o s sl).pipe = s.pipe ∧ (table c o s sl).ram = s.ram ∧ (table c o s sl).rr = s.rr ∧ (table c o s sl).count = s.count ∧
    (table c o s sl).initDone = s.initDone ∧ (table c o s sl).initIdx = s.initIdx ∧ (table c o s sl).tq = s.tq ∧
    (table c o s sl).fin = s.fin ∧ (table c o s sl).finReg = s.finReg ∧ (table c o s sl).dbf = s.dbf ∧
    (table c o s sl).reqV = s.reqV ∧ (table c o s sl).reqQ = s.reqQ ∧ (table c o s sl).reqTag = s.reqTag := by
  unfold table
  simp only
  split
  · split <;> exact ⟨rfl, rfl, rfl, rfl, rfl, rfl, rfl, rfl, rfl, rfl, rfl, rfl, rfl⟩
  · split <;> exact ⟨rfl, rfl, rfl, rfl, rfl, rfl, rfl, rfl, rfl, rfl, rfl, rfl, rfl⟩
  · exact ⟨rfl, rfl, rfl, rfl, rfl, rfl, rfl, rfl, rfl, rfl, rfl, rfl, rfl⟩
  · exact ⟨rfl, rfl, rfl, rfl, rfl, rfl, rfl, rfl, rfl, rfl, rfl, rfl, rfl⟩

theorem admit_same (p : Params) (s : State) (sl : Slot) :
    (admit p s sl).pipe = sl :: s.pipe.dropLast ∧ (admit p s sl).ram = s.ram ∧
    (admit p s sl).rr = (if sl.op = .req then s.rr.drop 1 else s.rr) ∧ (admit p s sl).count = s.count ∧
    (admit p s sl).initDone = (if sl.op = .init then s.initIdx == 2 ^ p.qw - 1 else s.initDone) ∧
    (admit p s sl).initIdx = (if sl.op = .init then (s.initIdx + 1) % 2 ^ p.qw else s.initIdx) ∧
    (admit p s sl).tact = (if sl.op = .req then upd s.tact sl.idx true else s.tact) ∧
    (admit p s sl).tq = (if sl.op = .req then upd s.tq sl.idx sl.q else s.tq) ∧
    (admit p s sl).tdb = (if sl.op = .req then upd s.tdb sl.idx false else s.tdb) ∧
    (admit p s sl).fin = s.fin ∧ (admit p s sl).finReg = (if sl.op = .done then none else s.finReg) ∧
    (admit p s sl).dbf = (if sl.op = .db then s.dbf.drop 1 else s.dbf) ∧
    (admit p s sl).reqV = s.reqV ∧ (admit p s sl).reqQ = s.reqQ ∧ (admit p s sl).reqTag = s.reqTag := by
  unfold admit
  simp only
  cases h : sl.op <;> simp

theorem step_pipe {p : Params} {s : State} {pre : List Slot} {sl : Slot} (h : s.pipe = pre ++ [sl]) (i : In) :
    (step p s i).1.pipe = stage0 p s i :: pre := by
  rw [step_eq h]
  simp only
  rw [(inputs_same _ _ _ _).1]
  unfold final
  simp only
  rw [(outs_same _ _ _ _).1, (table_same _ _ _ _).1, (admit_same _ _ _).1, h, List.dropLast_concat]

theorem step_ram {p : Params} {s : State} {pre : List Slot} {sl : Slot} (h : s.pipe = pre ++ [sl]) (i : In) :
    (step p s i).1.ram = upd s.ram sl.q (wnext p.ctrl (s.ram sl.q) sl) := by
  rw [step_eq h]
  simp only
  rw [(inputs_same _ _ _ _).2.1]
  unfold final
  simp only
  rw [(outs_same _ _ _ _).2.1, (table_same _ _ _ _).2.1, (admit_same _ _ _).2.1]

theorem step_rr {p : Params} {s : State} {pre : List Slot} {sl : Slot} (h : s.pipe = pre ++ [sl]) (i : In) :
    (step p s i).1.rr = (if (stage0 p s i).op = .req then s.rr.drop 1 else s.rr) ++
      (if push p.ctrl sl && decide (s.rr.length < 2 ^ p.qw) then [sl.q] else []) := by
  rw [step_eq h]
  simp only
  rw [(inputs_same _ _ _ _).2.2.1]
  unfold final
  simp only
  rw [(outs_same _ _ _ _).2.2.1, (table_same _ _ _ _).2.2.1, (admit_same _ _ _).2.2.1]
  by_cases hc : (push p.ctrl sl && decide (s.rr.length < 2 ^ p.qw)) = true
  · rw [if_pos hc, if_pos hc]
  · rw [if_neg hc, if_neg hc, List.append_nil]

theorem step_count {p : Params} {s : State} {pre : List Slot} {sl : Slot} (h : s.pipe = pre ++ [sl]) (i : In) :
    (step p s i).1.count = cnext p s.count sl := by
  rw [step_eq h]
  simp only
  rw [(inputs_same _ _ _ _).2.2.2.1]
  rfl

theorem step_init {p : Params} {s : State} {pre : List Slot} {sl : Slot} (h : s.pipe = pre ++ [sl]) (i : In) :
    (step p s i).1.initDone = (if (stage0 p s i).op = .init then s.initIdx == 2 ^ p.qw - 1 else s.initDone) ∧
    (step p s i).1.initIdx = (if (stage0 p s i).op = .init then (s.initIdx + 1) % 2 ^ p.qw else s.initIdx) := by
  rw [step_eq h]
  simp only
  rw [(inputs_same _ _ _ _).2.2.2.2.1, (inputs_same _ _ _ _).2.2.2.2.2.1]
  unfold final
  simp only
  rw [(outs_same _ _ _ _).2.2.2.2.1, (outs_same _ _ _ _).2.2.2.2.2.1, (table_same _ _ _ _).2.2.2.2.1, (table_same _ _ _ _).2.2.2.2.2.1,
    (admit_same _ _ _).2.2.2.2.1, (admit_same _ _ _).2.2.2.2.2.1]
  exact ⟨rfl, rfl⟩

theorem step_tq {p : Params} {s : State} {pre : List Slot} {sl : Slot} (h : s.pipe = pre ++ [sl]) (i : In) :
    (step p s i).1.tq = (if (stage0 p s i).op = .req then upd s.tq (stage0 p s i).idx (stage0 p s i).q else s.tq) := by
  rw [step_eq h]
  simp only
  rw [(inputs_same _ _ _ _).2.2.2.2.2.2.2.1]
  unfold final
  simp only
  rw [(outs_same _ _ _ _).2.2.2.2.2.2.2.1, (table_same _ _ _ _).2.2.2.2.2.2.1, (admit_same _ _ _).2.2.2.2.2.2.2.1]

theorem step_dbf {p : Params} {s : State} {pre : List Slot} {sl : Slot} (h : s.pipe = pre ++ [sl]) (i : In) :
    (step p s i).1.dbf = (if (stage0 p s i).op = .db then s.dbf.drop 1 else s.dbf) ++
      (if i.dbValid && decide (s.dbf.length < 256) then [i.dbQueue % 2 ^ p.qw] else []) := by
  rw [step_eq h]
  have e : (final p s (admit p s (stage0 p s i)) i sl).dbf = (if (stage0 p s i).op = .db then s.dbf.drop 1 else s.dbf) := by
    unfold final
    simp only
    rw [(outs_same _ _ _ _).2.2.2.2.2.2.2.2.2.2.2, (table_same _ _ _ _).2.2.2.2.2.2.2.2.2.1, (admit_same _ _ _).2.2.2.2.2.2.2.2.2.2.2.1]
  simp only
  unfold inputs
  simp only
  rw [e]
  have e2 : ∀ (a : Bool) (x : List Nat) (y : List Nat), (if a = true then x ++ y else x) = x ++ (if a = true then y else []) := by
    intro a x y; cases a <;> simp
  split <;> split <;> exact e2 _ _ _

/-! ### stage 0 -/

/-- what stage 0 may admit -/
def Stage0 (p : Params) (s : State) (i : In) (sl : Slot) : Prop :=
  match sl.op with
  | .idle => sl = Slot.none
  | .init => s.initDone = false ∧ sl.q = s.initIdx
  | .wr => sl.q < 2 ^ p.qw ∧ i.awvalid = true ∧ sl.strb = i.wstrb.testBit 0
  | .rd => sl.q < 2 ^ p.qw
  | .db => ∃ rest, s.dbf = sl.q :: rest
  | .done => ∃ st, s.finReg = some (sl.idx, st) ∧ sl.q = s.tq sl.idx ∧ sl.d0 = (st || s.tdb sl.idx) ∧ sl.d1 = false
  | .ctrl => sl.q < 2 ^ p.qw ∧ p.ctrl = true ∧ sl.d1 = false
  | .req => freeOp p s = some sl.idx ∧ (∃ rest, s.rr = sl.q :: rest) ∧ (!s.reqV || i.reqReady) = true ∧ inPipe s .req = false

theorem stage0_spec (p : Params) (s : State) (i : In) :
    Stage0 p s i (stage0 p s i) ∧
    ((stage0 p s i).op ≠ .idle → hazard s (stage0 p s i).q = false ∧ (stage0 p s i).w = s.ram (stage0 p s i).q) ∧
    ((stage0 p s i).op ≠ .init → s.initDone = true ∨ hazard s s.initIdx = true) := by
  have hm : ∀ x, x % 2 ^ p.qw < 2 ^ p.qw := fun x => Nat.mod_lt _ (Nat.pow_pos (by omega))
  have hc : ∀ cq, cq < 2 ^ p.qw → Stage0 p s i (stage0.stage0c p s i cq) ∧
      ((stage0.stage0c p s i cq).op ≠ .idle → hazard s (stage0.stage0c p s i cq).q = false ∧
        (stage0.stage0c p s i cq).w = s.ram (stage0.stage0c p s i cq).q) ∧ (stage0.stage0c p s i cq).op ≠ .init := by
    intro cq hcq
    unfold stage0.stage0c
    split
    · rename_i h
      simp only [Bool.and_eq_true, Bool.not_eq_true'] at h
      exact ⟨⟨hcq, h.1.1.1, rfl⟩, fun _ => ⟨h.2, rfl⟩, by simp⟩
    · split
      · rename_i k q rest hk hq
        split
        · rename_i h
          simp only [Bool.and_eq_true, Bool.not_eq_true'] at h
          exact ⟨⟨hk, ⟨rest, hq⟩, h.1.1.2, h.1.2⟩, fun _ => ⟨h.2, rfl⟩, by simp⟩
        · exact ⟨rfl, by simp [Slot.none], by simp [Slot.none]⟩
      · exact ⟨rfl, by simp [Slot.none], by simp [Slot.none]⟩
  have hb : ∀ cq, cq < 2 ^ p.qw → Stage0 p s i (stage0.stage0b p s i cq) ∧
      ((stage0.stage0b p s i cq).op ≠ .idle → hazard s (stage0.stage0b p s i cq).q = false ∧
        (stage0.stage0b p s i cq).w = s.ram (stage0.stage0b p s i cq).q) ∧ (stage0.stage0b p s i cq).op ≠ .init := by
    intro cq hcq
    unfold stage0.stage0b
    split
    · rename_i k st hk
      split
      · rename_i h
        simp only [Bool.and_eq_true, Bool.not_eq_true'] at h
        exact ⟨⟨st, hk, rfl, rfl, rfl⟩, fun _ => ⟨h.2, rfl⟩, by simp⟩
      · exact hc cq hcq
    · exact hc cq hcq
  unfold stage0
  simp only
  split
  · rename_i h
    simp only [Bool.and_eq_true, Bool.not_eq_true'] at h
    exact ⟨⟨h.1, rfl⟩, fun _ => ⟨h.2, rfl⟩, by simp⟩
  · rename_i h0
    have h0' : s.initDone = true ∨ hazard s s.initIdx = true := by
      cases hx : s.initDone <;> cases hy : hazard s s.initIdx <;> simp_all
    split
    · rename_i h
      simp only [Bool.and_eq_true, Bool.not_eq_true'] at h
      exact ⟨⟨hm _, h.1.1.1.1, rfl⟩, fun _ => ⟨h.2, rfl⟩, fun _ => h0'⟩
    · split
      · rename_i h
        simp only [Bool.and_eq_true, Bool.not_eq_true'] at h
        exact ⟨hm _, fun _ => ⟨h.2, rfl⟩, fun _ => h0'⟩
      · split
        · rename_i dq rest hd
          split
          · rename_i h
            simp only [Bool.and_eq_true, Bool.not_eq_true'] at h
            exact ⟨⟨rest, hd⟩, fun _ => ⟨h.2, rfl⟩, fun _ => h0'⟩
          · obtain ⟨g1, g2, _⟩ := hb _ (hm _)
            exact ⟨g1, g2, fun _ => h0'⟩
        · obtain ⟨g1, g2, _⟩ := hb _ (hm _)
          exact ⟨g1, g2, fun _ => h0'⟩

theorem hazard_false {s : State} {q : Nat} (h : hazard s q = false) : ∀ sl ∈ s.pipe, sl.op ≠ .idle → sl.q ≠ q := by
  intro sl hm hi e
  unfold hazard at h
  rw [List.any_eq_false] at h
  exact h sl hm (by simp [hi, e])

theorem inPipe_false {s : State} {o : Op} (h : inPipe s o = false) : ∀ sl ∈ s.pipe, sl.op ≠ o := by
  intro sl hm e
  unfold inPipe at h
  rw [List.any_eq_false] at h
  exact h sl hm (by simp [e])

/-! ### the basic invariant -/

/-- `q` has not been initialised yet -/
def fresh (s : State) (q : Nat) : Bool := (!s.initDone && decide (s.initIdx ≤ q)) || s.pipe.any (fun sl => sl.op == .init && sl.q == q)

/-- all AXI-lite writes so far have byte 0 enabled -/
def pipeStrb (s : State) : Prop := ∀ sl ∈ s.pipe, sl.op = .wr → sl.strb = true

structure Inv (p : Params) (s : State) : Prop where
  dist : s.pipe.Pairwise (fun x y => x.op ≠ .idle → y.op ≠ .idle → x.q ≠ y.q)
  one : s.pipe.Pairwise (fun x y => ¬ (x.op = .req ∧ y.op = .req))
  snap : ∀ sl ∈ s.pipe, sl.op ≠ .idle → sl.w = s.ram sl.q
  qlt : ∀ sl ∈ s.pipe, sl.q < 2 ^ p.qw
  ini : s.initDone = false → (∀ sl ∈ s.pipe, sl.op ≠ .idle → sl.op = .init ∧ sl.q < s.initIdx) ∧ s.initIdx < 2 ^ p.qw ∧ s.rr = []
  rrlt : ∀ q ∈ s.rr, q < 2 ^ p.qw
  dblt : ∀ q ∈ s.dbf, q < 2 ^ p.qw
  tqlt : ∀ k, s.tq k < 2 ^ p.qw
  nodup : s.rr.Nodup
  reqout : ∀ sl ∈ s.pipe, sl.op = .req → sl.q ∉ s.rr
  sched : ∀ q < 2 ^ p.qw, fresh s q = false → ((s.ram q).sched = true ↔ q ∈ s.rr ∨ ∃ sl ∈ s.pipe, sl.op = .req ∧ sl.q = q)
  fr : ∀ q, fresh s q = true → q ∉ s.rr
  count : s.count = ((List.range (2 ^ p.qw)).filter (fun q => !fresh s q && (s.ram q).sched)).length
  strb : pipeStrb s

theorem nodup_length_le : ∀ (n : Nat) {l : List Nat}, l.Nodup → (∀ x ∈ l, x < n) → l.length ≤ n
  | 0, l, _, h => by
    cases l with
    | nil => simp
    | cons x l => exact absurd (h x (by simp)) (by omega)
  | n + 1, l, hn, h => by
    by_cases hm : n ∈ l
    · have := nodup_length_le n (hn.erase n) (fun x hx => by
        have h1 := (hn.mem_erase_iff).mp hx
        have := h x h1.2
        have := h1.1
        omega)
      rw [List.length_erase_of_mem hm] at this
      omega
    · have := nodup_length_le n hn (fun x hx => by
        have := h x hx
        have : x ≠ n := fun e => hm (e ▸ hx)
        omega)
      omega

theorem count_upd (f g : Nat → Bool) (q : Nat) (he : ∀ x, x ≠ q → g x = f x) : ∀ N, q < N →
    ((List.range N).filter g).length + (if f q then 1 else 0) = ((List.range N).filter f).length + (if g q then 1 else 0)
  | 0, h => by omega
  | N + 1, h => by
    rw [List.range_succ, List.filter_append, List.filter_append, List.length_append, List.length_append]
    by_cases hq : q = N
    · subst hq
      have : (List.range q).filter g = (List.range q).filter f := List.filter_congr (fun x hx => he x (by
        have := List.mem_range.mp hx; omega))
      rw [this]
      cases hf : f q <;> cases hg : g q <;> simp [hf, hg]
    · have := count_upd f g q he N (by omega)
      have h2 : List.filter g [N] = List.filter f [N] := by
        simp only [List.filter_cons, List.filter_nil, he N (Ne.symm hq)]
      rw [h2]
      omega

theorem count_same (f g : Nat → Bool) (he : ∀ x, g x = f x) (N : Nat) :
    ((List.range N).filter g).length = ((List.range N).filter f).length := by
  rw [List.filter_congr (fun x _ => he x)]

/-- scheduled flag after a non-request, non-init operation -/
theorem wnext_sched (c : Bool) (sl : Slot) (h1 : sl.op ≠ .req) (h2 : sl.op ≠ .init) (h3 : sl.op = .wr → sl.strb = true) :
    (wnext c sl.w sl).sched = (sl.w.sched || push c sl) ∧ (push c sl = true → sl.w.sched = false) := by
  unfold wnext push
  cases ho : sl.op with
  | req => exact absurd ho h1
  | init => exact absurd ho h2
  | idle => simp
  | rd => simp
  | wr =>
    have := h3 ho
    simp only [this]
    cases hs : sl.w.sched <;> cases hc : (sl.d0 && sl.w.active && (!c || sl.d1 || sl.w.sen)) <;> simp [hc, hs]
  | db => cases hs : sl.w.sched <;> cases hc : ok c sl.w <;> simp [hc, hs]
  | done => cases hs : sl.w.sched <;> cases hc : (sl.d0 && (!c || sl.d1 || sl.w.sen)) <;> simp [hc, hs]
  | ctrl => cases hs : sl.w.sched <;> cases hc : (sl.w.en && sl.w.active && (sl.w.gen || sl.d0)) <;> simp [hc, hs]

theorem wnext_req (c : Bool) (sl : Slot) (h1 : sl.op = .req) :
    (wnext c sl.w sl).sched = push c sl ∧ (push c sl = true → sl.w.sched = true) := by
  unfold wnext push
  simp only [h1]
  cases hc : (ok c sl.w && sl.w.active && sl.w.sched) <;> simp [hc]
  simp at hc; exact hc.2

theorem wnext_init (c : Bool) (r : Word) (sl : Slot) (h1 : sl.op = .init) : (wnext c r sl).sched = false ∧ push c sl = false := by
  unfold wnext push; simp [h1]

theorem fresh_step {p : Params} {s : State} {pre : List Slot} {sl : Slot} (hp : s.pipe = pre ++ [sl]) (h : Inv p s) (i : In) (q : Nat)
    (hq : q < 2 ^ p.qw) :
    fresh (step p s i).1 q = (fresh s q && !(sl.op == .init && sl.q == q)) := by
  obtain ⟨g1, g2, g3⟩ := stage0_spec p s i
  unfold fresh
  rw [step_pipe hp, (step_init hp i).1, (step_init hp i).2, hp, List.any_append]
  simp only [List.any_cons, List.any_nil, Bool.or_false]
  have hd := h.dist
  rw [hp, List.pairwise_append] at hd
  -- the final slot is the only one on its queue
  have hpre : sl.op = .init → sl.q = q → pre.any (fun sl => sl.op == .init && sl.q == q) = false := by
    intro h1 h2
    rw [List.any_eq_false]
    intro x hx hc
    simp only [Bool.and_eq_true, beq_iff_eq] at hc
    exact hd.2.2 x hx sl (by simp) (by rw [hc.1]; simp) (by rw [h1]; simp) (by rw [hc.2, h2])
  by_cases hi : (stage0 p s i).op = .init
  · rw [if_pos hi, if_pos hi]
    simp only [Stage0, hi] at g1
    obtain ⟨hnd, hqi⟩ := g1
    obtain ⟨k1, k2, k3⟩ := h.ini hnd
    rw [hnd]
    have hsl : ∀ x ∈ s.pipe, x.op = .init → x.q < s.initIdx := fun x hx ho => (k1 x hx (by rw [ho]; simp)).2
    have hsq : (sl.op == .init && sl.q == q) = true → q < s.initIdx := by
      intro hc
      simp only [Bool.and_eq_true, beq_iff_eq] at hc
      rw [← hc.2]; exact hsl sl (by rw [hp]; simp) hc.1
    have hpq : pre.any (fun sl => sl.op == .init && sl.q == q) = true → q < s.initIdx := by
      intro hc
      rw [List.any_eq_true] at hc
      obtain ⟨x, hx, hc⟩ := hc
      simp only [Bool.and_eq_true, beq_iff_eq] at hc
      rw [← hc.2]; exact hsl x (by rw [hp]; simp [hx]) hc.1
    have hone : (sl.op == .init && sl.q == q) = true → pre.any (fun sl => sl.op == .init && sl.q == q) = false := by
      intro hc; simp only [Bool.and_eq_true, beq_iff_eq] at hc; exact hpre hc.1 hc.2
    have hlt : (s.initIdx + 1) % 2 ^ p.qw = if s.initIdx = 2 ^ p.qw - 1 then 0 else s.initIdx + 1 := by
      split
      · rename_i e; rw [e, Nat.sub_add_cancel (Nat.pow_pos (by omega)), Nat.mod_self]
      · exact Nat.mod_eq_of_lt (by omega)
    rw [hlt, hi, hqi]
    generalize (sl.op == .init && sl.q == q) = X at *
    generalize pre.any (fun sl => sl.op == .init && sl.q == q) = Y at *
    by_cases e : s.initIdx = 2 ^ p.qw - 1
    · have : (s.initIdx == 2 ^ p.qw - 1) = true := by simpa using e
      rw [this]
      by_cases hqe : s.initIdx = q
      · have hX : X = false := by cases X with
          | false => rfl
          | true => have := hsq rfl; omega
        rw [hX]; simp [hqe]
      · have hnle : ¬ s.initIdx ≤ q := by omega
        have hne : (s.initIdx == q) = false := by simpa using hqe
        rw [hne]
        cases X <;> cases Y <;> simp_all
    · have : (s.initIdx == 2 ^ p.qw - 1) = false := by simpa using e
      rw [this, if_neg e]
      by_cases hqe : s.initIdx ≤ q
      · have hX : X = false := by cases X with
          | false => rfl
          | true => have := hsq rfl; omega
        have hd2 : (decide (s.initIdx + 1 ≤ q) || s.initIdx == q) = true := by
          by_cases hz : s.initIdx = q
          · simp [hz]
          · have : s.initIdx + 1 ≤ q := by omega
            simp [this]
        rw [hX]
        cases hz1 : decide (s.initIdx + 1 ≤ q) <;> cases hz2 : s.initIdx == q <;> simp_all
      · have h1 : ¬ s.initIdx + 1 ≤ q := by omega
        have h2 : (s.initIdx == q) = false := by simpa using (show s.initIdx ≠ q by omega)
        simp only [h1, h2, hqe]
        cases X <;> cases Y <;> simp_all
  · rw [if_neg hi, if_neg hi]
    have hz : ((stage0 p s i).op == .init) = false := by simpa using hi
    rw [hz]
    simp only [Bool.false_and, Bool.false_or]
    have h0 : (!s.initDone && decide (s.initIdx ≤ q)) = true → (sl.op == .init && sl.q == q) = false := by
      intro hc
      simp only [Bool.and_eq_true, Bool.not_eq_true', decide_eq_true_eq] at hc
      cases hx : (sl.op == .init && sl.q == q) with
      | false => rfl
      | true =>
        simp only [Bool.and_eq_true, beq_iff_eq] at hx
        have := ((h.ini hc.1).1 sl (by rw [hp]; simp) (by rw [hx.1]; simp)).2
        omega
    have hone : (sl.op == .init && sl.q == q) = true → pre.any (fun sl => sl.op == .init && sl.q == q) = false := by
      intro hc; simp only [Bool.and_eq_true, beq_iff_eq] at hc; exact hpre hc.1 hc.2
    generalize (sl.op == .init && sl.q == q) = X at *
    generalize pre.any (fun sl => sl.op == .init && sl.q == q) = Y at *
    generalize (!s.initDone && decide (s.initIdx ≤ q)) = Z at *
    cases X <;> cases Y <;> cases Z <;> simp_all

theorem pairwise_dist : ∀ {l : List Slot}, l.Pairwise (fun x y => x.op ≠ .idle → y.op ≠ .idle → x.q ≠ y.q) → ∀ {x y}, x ∈ l → y ∈ l → x ≠ y →
    x.op ≠ .idle → y.op ≠ .idle → x.q ≠ y.q
  | [], _, x, y, hx, _, _, _, _ => by simp at hx
  | z :: l, h, x, y, hx, hy, hne, h1, h2 => by
    rw [List.pairwise_cons] at h
    rcases List.mem_cons.mp hx with e | e <;> rcases List.mem_cons.mp hy with e' | e'
    · exact absurd (e.trans e'.symm) hne
    · rw [e]; exact h.1 y e' (e ▸ h1) h2
    · rw [e']; exact fun ee => h.1 x e (e' ▸ h2) h1 ee.symm
    · exact pairwise_dist h.2 e e' hne h1 h2

theorem not_fresh {p : Params} {s : State} (h : Inv p s) {sl : Slot} (hm : sl ∈ s.pipe) (h1 : sl.op ≠ .idle) (h2 : sl.op ≠ .init) :
    fresh s sl.q = false := by
  unfold fresh
  rw [Bool.or_eq_false_iff]
  constructor
  · cases hd : s.initDone with
    | true => simp
    | false => exact absurd ((h.ini hd).1 sl hm h1).1 h2
  · rw [List.any_eq_false]
    intro x hx hc
    simp only [Bool.and_eq_true, beq_iff_eq] at hc
    -- two distinct slots on one queue
    have hd := h.dist
    have hne : x ≠ sl := fun e => h2 (e ▸ hc.1)
    exact pairwise_dist hd hx hm hne (by rw [hc.1]; simp) h1 hc.2

/-- effect of one operation on the queue word, invariantly: `sl` leaves the pipeline -/
theorem push_out {p : Params} {s : State} {pre : List Slot} {sl : Slot} (hp : s.pipe = pre ++ [sl]) (h : Inv p s) (hpush : push p.ctrl sl = true) :
    sl.q ∉ s.rr ∧ s.rr.length < 2 ^ p.qw ∧ sl.op ≠ .idle ∧ sl.op ≠ .init := by
  have hm : sl ∈ s.pipe := by rw [hp]; simp
  have hni : sl.op ≠ .idle := by intro e; simp [push, e] at hpush
  have hnn : sl.op ≠ .init := by intro e; simp [push, e] at hpush
  have hout : sl.q ∉ s.rr := by
    by_cases hr : sl.op = .req
    · exact h.reqout sl hm hr
    · have h1 := (wnext_sched p.ctrl sl hr hnn (fun e => h.strb sl hm e)).2 hpush
      have h2 := (h.sched sl.q (h.qlt sl hm) (not_fresh h hm hni hnn))
      rw [← h.snap sl hm hni, h1] at h2
      intro hin
      have := h2.mpr (.inl hin)
      simp at this
  refine ⟨hout, ?_, hni, hnn⟩
  have := nodup_length_le (2 ^ p.qw) (l := sl.q :: s.rr) (List.nodup_cons.mpr ⟨hout, h.nodup⟩) (by
    intro x hx
    rcases List.mem_cons.mp hx with e | e
    · rw [e]; exact h.qlt sl hm
    · exact h.rrlt x e)
  simp at this
  omega

theorem step_rr' {p : Params} {s : State} {pre : List Slot} {sl : Slot} (hp : s.pipe = pre ++ [sl]) (h : Inv p s) (i : In) :
    (step p s i).1.rr = (if (stage0 p s i).op = .req then s.rr.drop 1 else s.rr) ++ (if push p.ctrl sl then [sl.q] else []) := by
  rw [step_rr hp]
  cases hpush : push p.ctrl sl with
  | false => simp
  | true => simp [(push_out hp h hpush).2.1]

theorem wnext_idle (c : Bool) (r : Word) (sl : Slot) (h : sl.op = .idle) : wnext c r sl = r := by
  unfold wnext; simp [h]

theorem step_ram_other {p : Params} {s : State} {pre : List Slot} {sl : Slot} (hp : s.pipe = pre ++ [sl]) (i : In) (q : Nat)
    (hq : sl.op ≠ .idle → sl.q ≠ q) : (step p s i).1.ram q = s.ram q := by
  rw [step_ram hp]
  unfold upd
  split
  · rename_i e
    by_cases hi : sl.op = .idle
    · rw [wnext_idle _ _ _ hi, e]
    · exact absurd e.symm (hq hi)
  · rfl

/-- membership in the service line (rr FIFO or request in the pipeline) after a step -/
theorem line_step {p : Params} {s : State} {pre : List Slot} {sl : Slot} (hp : s.pipe = pre ++ [sl]) (h : Inv p s) (i : In) (q : Nat) :
    (q ∈ (step p s i).1.rr ∨ ∃ x ∈ (step p s i).1.pipe, x.op = .req ∧ x.q = q) ↔
      (q ∈ s.rr ∨ (∃ x ∈ pre, x.op = .req ∧ x.q = q)) ∨ (push p.ctrl sl = true ∧ q = sl.q) := by
  rw [step_rr' hp h, step_pipe hp]
  have hs := (stage0_spec p s i).1
  have hpu : (q ∈ (if push p.ctrl sl then [sl.q] else [])) ↔ (push p.ctrl sl = true ∧ q = sl.q) := by
    cases push p.ctrl sl <;> simp
  have hrr : (q ∈ (if (stage0 p s i).op = .req then s.rr.drop 1 else s.rr) ∨ ((stage0 p s i).op = .req ∧ (stage0 p s i).q = q)) ↔ q ∈ s.rr := by
    by_cases hr : (stage0 p s i).op = .req
    · simp only [Stage0, hr] at hs
      obtain ⟨_, ⟨rest, hrr⟩, _⟩ := hs
      rw [if_pos hr, hrr]
      simp only [hr, List.drop_succ_cons, List.drop_zero, List.mem_cons, true_and]
      constructor
      · rintro (e | e)
        · exact .inr e
        · exact .inl e.symm
      · rintro (e | e)
        · exact .inr e.symm
        · exact .inl e
    · simp [hr]
  simp only [List.mem_append, hpu, List.mem_cons, exists_eq_or_imp, ← hrr]
  constructor
  · rintro ((a | a) | (a | a))
    · exact .inl (.inl (.inl a))
    · exact .inr a
    · exact .inl (.inl (.inr a))
    · exact .inl (.inr a)
  · rintro (((a | a) | a) | a)
    · exact .inl (.inl a)
    · exact .inr (.inl a)
    · exact .inr (.inr a)
    · exact .inl (.inr a)

theorem inv_step {p : Params} {s : State} (h : Inv p s) (hne : s.pipe ≠ []) (i : In) (hstrb : i.awvalid = true → i.wstrb.testBit 0 = true) :
    Inv p (step p s i).1 ∧ (step p s i).1.pipe ≠ [] := by
  obtain ⟨pre, sl, hp⟩ : ∃ pre sl, s.pipe = pre ++ [sl] :=
    ⟨s.pipe.dropLast, s.pipe.getLast hne, (List.dropLast_concat_getLast hne).symm⟩
  obtain ⟨g1, g2, g3⟩ := stage0_spec p s i
  have hd := h.dist
  rw [hp, List.pairwise_append] at hd
  have ho := h.one
  rw [hp, List.pairwise_append] at ho
  have hm : sl ∈ s.pipe := by rw [hp]; simp
  have hpre : ∀ x ∈ pre, x ∈ s.pipe := fun x hx => by rw [hp]; simp [hx]
  have hpi : (step p s i).1.pipe = stage0 p s i :: pre := step_pipe hp i
  have hrr := step_rr' hp h i
  have hlt : ∀ q, q < 2 ^ p.qw → fresh (step p s i).1 q = (fresh s q && !(sl.op == .init && sl.q == q)) := fun q hq => fresh_step hp h i q hq
  -- queues other than the one finishing keep their word
  have hother : ∀ x, (x = stage0 p s i ∨ x ∈ pre) → x.op ≠ .idle → sl.op ≠ .idle → sl.q ≠ x.q := by
    rintro x (e | e) h1 h2
    · subst e; exact hazard_false (g2 h1).1 sl hm h2
    · exact fun e' => hd.2.2 x e sl (by simp) h1 h2 e'.symm
  have hq0 : (stage0 p s i).q < 2 ^ p.qw := by
    unfold Stage0 at g1
    cases hop : (stage0 p s i).op <;> simp only [hop] at g1
    · rw [g1]; exact Nat.pow_pos (by omega)
    · rw [g1.2]; exact (h.ini g1.1).2.1
    · exact g1.1
    · exact g1
    · obtain ⟨rest, hr⟩ := g1; exact h.dblt _ (by rw [hr]; simp)
    · obtain ⟨_, ⟨rest, hr⟩, _⟩ := g1; exact h.rrlt _ (by rw [hr]; simp)
    · obtain ⟨st, _, hr, _⟩ := g1; rw [hr]; exact h.tqlt _
    · exact g1.1
  have hpushq : ∀ x, x ∈ (if push p.ctrl sl then [sl.q] else []) → push p.ctrl sl = true ∧ x = sl.q := by
    intro x hx
    cases hpu : push p.ctrl sl with
    | false => rw [hpu] at hx; simp at hx
    | true => rw [hpu] at hx; simp at hx; exact ⟨rfl, hx⟩
  have hdrop : ∀ x, x ∈ (if (stage0 p s i).op = .req then s.rr.drop 1 else s.rr) → x ∈ s.rr := by
    intro x hx; split at hx
    · exact List.mem_of_mem_drop hx
    · exact hx
  have hdropnd : (if (stage0 p s i).op = .req then s.rr.drop 1 else s.rr).Nodup := by
    split
    · exact h.nodup.sublist (List.drop_sublist 1 _)
    · exact h.nodup
  have hne' : (step p s i).1.pipe ≠ [] := by rw [hpi]; simp
  refine ⟨⟨?_, ?_, ?_, ?_, ?_, ?_, ?_, ?_, ?_, ?_, ?_, ?_, ?_, ?_⟩, hne'⟩
  · rw [hpi, List.pairwise_cons]
    refine ⟨?_, hd.1⟩
    intro y hy h1 h2 e
    exact hazard_false (g2 h1).1 y (hpre y hy) h2 e.symm
  · rw [hpi, List.pairwise_cons]
    refine ⟨?_, ho.1⟩
    rintro y hy ⟨h1, h2⟩
    simp only [Stage0, h1] at g1
    exact inPipe_false g1.2.2.2 y (hpre y hy) h2
  · intro x hx hxi
    rw [hpi] at hx
    rw [step_ram_other hp i x.q (hother x (List.mem_cons.mp hx) hxi)]
    rcases List.mem_cons.mp hx with e | e
    · rw [e]; exact (g2 (e ▸ hxi)).2
    · exact h.snap x (hpre x e) hxi
  · intro x hx
    rw [hpi] at hx
    rcases List.mem_cons.mp hx with e | e
    · rw [e]; exact hq0
    · exact h.qlt x (hpre x e)
  · -- initialisation phase
    intro hnd
    rw [(step_init hp i).1] at hnd
    by_cases hi : (stage0 p s i).op = .init
    · rw [if_pos hi] at hnd
      simp only [Stage0, hi] at g1
      obtain ⟨k1, k2, k3⟩ := h.ini g1.1
      have hne1 : s.initIdx ≠ 2 ^ p.qw - 1 := by simpa using hnd
      have hidx : (s.initIdx + 1) % 2 ^ p.qw = s.initIdx + 1 := Nat.mod_eq_of_lt (by omega)
      rw [(step_init hp i).2, if_pos hi, hidx, hpi, hrr]
      refine ⟨?_, by omega, ?_⟩
      · intro x hx hxi
        rcases List.mem_cons.mp hx with e | e
        · rw [e]; exact ⟨hi, by rw [g1.2]; omega⟩
        · have := k1 x (hpre x e) hxi
          exact ⟨this.1, by omega⟩
      · have hpu : push p.ctrl sl = false := by
          cases hpu : push p.ctrl sl with
          | false => rfl
          | true =>
            obtain ⟨_, _, a, b⟩ := push_out hp h hpu
            exact absurd (k1 sl hm a).1 b
        rw [hpu, k3]; simp
    · rw [if_neg hi] at hnd
      obtain ⟨k1, k2, k3⟩ := h.ini hnd
      rcases g3 hi with e | e
      · rw [hnd] at e; cases e
      · unfold hazard at e
        rw [List.any_eq_true] at e
        obtain ⟨x, hx, hc⟩ := e
        simp only [Bool.and_eq_true, bne_iff_ne, beq_iff_eq] at hc
        have := (k1 x hx hc.1).2
        omega
  · intro q hq
    rw [hrr, List.mem_append] at hq
    rcases hq with e | e
    · exact h.rrlt q (hdrop q e)
    · rw [(hpushq q e).2]; exact h.qlt sl hm
  · intro q hq
    rw [step_dbf hp, List.mem_append] at hq
    rcases hq with e | e
    · split at e
      · exact h.dblt q (List.mem_of_mem_drop e)
      · exact h.dblt q e
    · split at e
      · simp at e; rw [e]; exact Nat.mod_lt _ (Nat.pow_pos (by omega))
      · simp at e
  · intro k
    rw [step_tq hp]
    split
    · unfold upd; split
      · exact hq0
      · exact h.tqlt k
    · exact h.tqlt k
  · rw [hrr, List.nodup_append]
    refine ⟨hdropnd, by split <;> simp, ?_⟩
    intro x hx y hy e
    obtain ⟨hpu, ey⟩ := hpushq y hy
    exact (push_out hp h hpu).1 (by rw [← ey, ← e]; exact hdrop x hx)
  · intro x hx hxr
    rw [hpi] at hx
    rw [hrr, List.mem_append]
    rintro (hc | hc)
    · rcases List.mem_cons.mp hx with e | e
      · rw [e] at hxr hc
        simp only [Stage0, hxr] at g1
        obtain ⟨_, ⟨rest, hr⟩, _⟩ := g1
        rw [if_pos hxr] at hc
        have hnd := h.nodup
        rw [hr] at hc hnd
        exact (List.nodup_cons.mp hnd).1 (by simpa using hc)
      · exact h.reqout x (hpre x e) hxr (hdrop _ hc)
    · obtain ⟨hpu, ey⟩ := hpushq _ hc
      exact hother x (List.mem_cons.mp hx) (by rw [hxr]; simp) (push_out hp h hpu).2.2.1 ey.symm
  · -- scheduled flags
    intro q hq hf
    rw [line_step hp h i q]
    rw [hlt q hq] at hf
    by_cases hsame : sl.op ≠ .idle ∧ sl.q = q
    · obtain ⟨hni, hsq⟩ := hsame
      subst hsq
      have hnpre : ¬ ∃ x ∈ pre, x.op = .req ∧ x.q = sl.q := by
        rintro ⟨x, hx, h1, h2⟩
        exact hother x (.inr hx) (by rw [h1]; simp) hni h2.symm
      have hw : (step p s i).1.ram sl.q = wnext p.ctrl sl.w sl := by
        rw [step_ram hp]; simp only [upd, if_pos]; rw [h.snap sl hm hni]
      rw [hw]
      simp only [hnpre, or_false, and_true]
      by_cases hin : sl.op = .init
      · obtain ⟨w1, w2⟩ := wnext_init p.ctrl sl.w sl hin
        rw [w1, w2]
        have : sl.q ∉ s.rr := h.fr sl.q (by
          unfold fresh; rw [Bool.or_eq_true]; right
          rw [List.any_eq_true]; exact ⟨sl, hm, by simp [hin]⟩)
        simp [this]
      · have hnf := not_fresh h hm hni hin
        have hsc := h.sched sl.q hq hnf
        rw [← h.snap sl hm hni] at hsc
        by_cases hr : sl.op = .req
        · rw [(wnext_req p.ctrl sl hr).1]
          have := h.reqout sl hm hr
          simp [this]
        · rw [(wnext_sched p.ctrl sl hr hin (fun e => h.strb sl hm e)).1, Bool.or_eq_true, hsc]
          have : ¬ ∃ x ∈ s.pipe, x.op = .req ∧ x.q = sl.q := by
            rintro ⟨x, hx, h1, h2⟩
            rw [hp] at hx
            rcases List.mem_append.mp hx with e | e
            · exact hnpre ⟨x, e, h1, h2⟩
            · simp at e; rw [e] at h1; exact hr h1
          simp [this]
    · have hsame' : sl.op ≠ .idle → sl.q ≠ q := fun a b => hsame ⟨a, b⟩
      rw [step_ram_other hp i q hsame']
      have hf2 : fresh s q = false := by
        have : (sl.op == .init && sl.q == q) = false := by
          cases hx : (sl.op == .init && sl.q == q) with
          | false => rfl
          | true =>
            simp only [Bool.and_eq_true, beq_iff_eq] at hx
            exact absurd hx.2 (hsame' (by rw [hx.1]; simp))
        rw [this] at hf; simpa using hf
      rw [h.sched q hq hf2]
      have h1 : ¬ (push p.ctrl sl = true ∧ q = sl.q) := fun ⟨a, b⟩ => hsame' (push_out hp h a).2.2.1 b.symm
      simp only [h1, or_false]
      constructor
      · rintro (a | ⟨x, hx, e1, e2⟩)
        · exact .inl a
        · rw [hp] at hx
          rcases List.mem_append.mp hx with e | e
          · exact .inr ⟨x, e, e1, e2⟩
          · simp at e; rw [e] at e1 e2
            exact absurd e2 (hsame' (by rw [e1]; simp))
      · rintro (a | ⟨x, hx, e1, e2⟩)
        · exact .inl a
        · exact .inr ⟨x, hpre x hx, e1, e2⟩
  · intro q hf hc
    rw [hrr, List.mem_append] at hc
    have hql : q < 2 ^ p.qw := by
      rcases hc with e | e
      · exact h.rrlt q (hdrop q e)
      · rw [(hpushq q e).2]; exact h.qlt sl hm
    rw [hlt q hql, Bool.and_eq_true] at hf
    rcases hc with e | e
    · exact h.fr q hf.1 (hdrop q e)
    · obtain ⟨hpu, e⟩ := hpushq q e
      obtain ⟨_, _, a, b⟩ := push_out hp h hpu
      rw [e, not_fresh h hm a b] at hf
      simp at hf
  · -- counter
    rw [step_count hp]
    have hcle : s.count ≤ 2 ^ p.qw := by
      rw [h.count]
      have := List.length_filter_le (fun q => !fresh s q && (s.ram q).sched) (List.range (2 ^ p.qw))
      simpa using this
    have hpow : 2 ^ (p.qw + 1) = 2 ^ p.qw + 2 ^ p.qw := by rw [Nat.pow_succ]; omega
    have hpos : 0 < 2 ^ p.qw := Nat.pow_pos (by omega)
    let f := fun q => !fresh s q && (s.ram q).sched
    let g := fun q => if q < 2 ^ p.qw then !fresh (step p s i).1 q && ((step p s i).1.ram q).sched else f q
    have hg : ((List.range (2 ^ p.qw)).filter (fun q => !fresh (step p s i).1 q && ((step p s i).1.ram q).sched)) =
        (List.range (2 ^ p.qw)).filter g := List.filter_congr (fun x hx => by
          show _ = g x
          simp only [g, if_pos (List.mem_range.mp hx)])
    rw [hg]
    have hfg : ∀ x, (sl.op ≠ .idle → x ≠ sl.q) → g x = f x := by
      intro x hx
      show (if x < 2 ^ p.qw then _ else _) = _
      split
      · rename_i hxl
        rw [hlt x hxl, step_ram_other hp i x (fun a b => hx a b.symm)]
        have : (sl.op == .init && sl.q == x) = false := by
          cases hz : (sl.op == .init && sl.q == x) with
          | false => rfl
          | true =>
            simp only [Bool.and_eq_true, beq_iff_eq] at hz
            exact absurd hz.2.symm (hx (by rw [hz.1]; simp))
        rw [this]; simp [f]
      · rfl
    have hc := h.count
    change s.count = ((List.range (2 ^ p.qw)).filter f).length at hc
    by_cases hni : sl.op = .idle
    · rw [count_same f g (fun x => hfg x (fun a => absurd hni a))]
      have : cnext p s.count sl = s.count := by unfold cnext push; simp [hni]
      rw [this, hc]
    · have hql := h.qlt sl hm
      have hu := count_upd f g sl.q (fun x hx => hfg x (fun _ => hx)) (2 ^ p.qw) hql
      have hw : (step p s i).1.ram sl.q = wnext p.ctrl sl.w sl := by
        rw [step_ram hp]; simp only [upd, if_pos]; rw [h.snap sl hm hni]
      have hgq : g sl.q = (!fresh (step p s i).1 sl.q && (wnext p.ctrl sl.w sl).sched) := by
        simp only [g, if_pos hql, hw]
      have hfq : f sl.q = (!fresh s sl.q && sl.w.sched) := by simp only [f]; rw [h.snap sl hm hni]
      by_cases hin : sl.op = .init
      · have hfr : fresh s sl.q = true := by
          unfold fresh; rw [Bool.or_eq_true]; right
          rw [List.any_eq_true]; exact ⟨sl, hm, by simp [hin]⟩
        rw [hgq, hfq, hfr, (wnext_init p.ctrl sl.w sl hin).1] at hu
        have : cnext p s.count sl = s.count := by unfold cnext push; simp [hin]
        rw [this, hc]
        simpa using hu.symm
      · have hnf := not_fresh h hm hni hin
        have hnf2 : fresh (step p s i).1 sl.q = false := by rw [hlt _ hql, hnf]; rfl
        rw [hgq, hfq, hnf, hnf2] at hu
        simp only [Bool.not_false, Bool.true_and] at hu
        by_cases hr : sl.op = .req
        · obtain ⟨w1, w2⟩ := wnext_req p.ctrl sl hr
          rw [w1] at hu
          have hcn : cnext p s.count sl = if !push p.ctrl sl && sl.w.sched then (s.count + 2 ^ (p.qw + 1) - 1) % 2 ^ (p.qw + 1) else s.count := by
            unfold cnext; simp only [hr]
          rw [hcn]
          cases hpu : push p.ctrl sl with
          | true =>
            rw [hpu, w2 hpu] at hu
            simp at hu ⊢
            omega
          | false =>
            rw [hpu] at hu
            cases hs : sl.w.sched with
            | false => rw [hs] at hu; simp at hu ⊢; omega
            | true =>
              rw [hs] at hu; simp at hu ⊢
              have : (s.count + 2 ^ (p.qw + 1) - 1) = (s.count - 1) + 2 ^ (p.qw + 1) := by omega
              rw [this, Nat.add_mod_right, Nat.mod_eq_of_lt (by omega)]
              omega
        · obtain ⟨w1, w2⟩ := wnext_sched p.ctrl sl hr hin (fun e => h.strb sl hm e)
          rw [w1] at hu
          have hcn : cnext p s.count sl = if push p.ctrl sl then (s.count + 1) % 2 ^ (p.qw + 1) else s.count := by
            unfold cnext; split
            · rename_i e; exact absurd e hr
            · rfl
          rw [hcn]
          cases hpu : push p.ctrl sl with
          | true =>
            rw [hpu, w2 hpu] at hu
            have hgl := List.length_filter_le g (List.range (2 ^ p.qw))
            rw [List.length_range] at hgl
            simp at hu ⊢
            rw [Nat.mod_eq_of_lt (by omega)]
            omega
          | false =>
            rw [hpu, Bool.or_false] at hu
            simp at hu ⊢
            omega
  · intro x hx hxw
    rw [hpi] at hx
    rcases List.mem_cons.mp hx with e | e
    · rw [e] at hxw ⊢
      simp only [Stage0, hxw] at g1
      rw [g1.2.2]; exact hstrb g1.2.1
    · exact h.strb x (hpre x e) hxw

theorem inv_reset {p : Params} {P : Nat} {s : State} (h : IsReset P s) (htq : ∀ k, s.tq k < 2 ^ p.qw) : Inv p s := by
  have hidle : ∀ sl ∈ s.pipe, sl = Slot.none := by
    intro sl hm; rw [h.pipe] at hm; exact (List.mem_replicate.mp hm).2
  have hfr : ∀ q, fresh s q = true := by
    intro q; unfold fresh; rw [h.initDone, h.initIdx]; simp
  refine ⟨?_, ?_, ?_, ?_, ?_, ?_, ?_, htq, ?_, ?_, ?_, ?_, ?_, ?_⟩
  · rw [h.pipe]; exact List.pairwise_replicate.mpr (.inr (by simp [Slot.none]))
  · rw [h.pipe]; exact List.pairwise_replicate.mpr (.inr (by simp [Slot.none]))
  · intro sl hm hi; rw [hidle sl hm] at hi; simp [Slot.none] at hi
  · intro sl hm; rw [hidle sl hm]; exact Nat.pow_pos (by omega)
  · intro _
    refine ⟨?_, by rw [h.initIdx]; exact Nat.pow_pos (by omega), h.rr⟩
    intro sl hm hi; rw [hidle sl hm] at hi; simp [Slot.none] at hi
  · rw [h.rr]; simp
  · rw [h.dbf]; simp
  · rw [h.rr]; simp
  · intro sl hm hi; rw [hidle sl hm] at hi; simp [Slot.none] at hi
  · intro q _ hf; rw [hfr q] at hf; cases hf
  · rw [h.rr]; simp
  · rw [h.count, List.filter_eq_nil_iff.mpr (by intro q _; simp [hfr q])]; rfl
  · intro sl hm hi; rw [hidle sl hm] at hi; simp [Slot.none] at hi

/-- every AXI-lite write enables byte 0 -/
def strbOK (is : List In) : Prop := ∀ i ∈ is, i.awvalid = true → i.wstrb.testBit 0 = true

theorem inv_run {p : Params} : ∀ (is : List In) {s : State}, Inv p s → s.pipe ≠ [] → strbOK is →
    Inv p (run p s is).1 ∧ (run p s is).1.pipe ≠ []
  | [], _, h, hne, _ => ⟨h, hne⟩
  | i :: is, s, h, hne, hst => by
    obtain ⟨h1, h2⟩ := inv_step h hne i (hst i (by simp))
    exact inv_run is h1 h2 (fun j hj => hst j (by simp [hj]))

end Corundum.Sched
