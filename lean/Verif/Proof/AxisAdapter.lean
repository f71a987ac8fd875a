import Verif.Spec.AxisAdapter

namespace Corundum.AxisAdapter

variable {α : Type}

/-! ### lanes -/

theorem bytes_append {d d' : List α} {k k' : List Bool} (h : d.length = k.length) :
    bytes (d ++ d') (k ++ k') = bytes d k ++ bytes d' k' := by
  rw [bytes, List.zip_append h, List.filterMap_append]
  rfl

theorem bytes_false {d : List α} {k : List Bool} (h : ∀ x ∈ k, x = false) : bytes d k = [] := by
  rw [bytes, List.filterMap_eq_nil_iff]
  intro x hx
  have := h x.2 (List.of_mem_zip hx).2
  rw [this]; rfl

theorem bytes_split (d : List α) (k : List Bool) (h : d.length = k.length) (n : Nat) :
    bytes d k = bytes (d.take n) (k.take n) ++ bytes (d.drop n) (k.drop n) := by
  rw [← bytes_append (by simp [h]), List.take_append_drop, List.take_append_drop]

theorem full_eq {k : List Bool} (h : ∀ x ∈ k, x = true) : List.replicate k.length true = k :=
  (List.eq_replicate_of_mem h).symm

/-- what a transfer of either side adds to the stream -/
def it (c : Cfg) (b : Beat α) : List (Item α) :=
  (bytes b.data b.keep).map .byte ++
    if b.last then [.fin (if c.idEn then b.id else 0) (if c.destEn then b.dest else 0) (if c.userEn then b.user else 0)] else []

theorem out_it {c : Cfg} {b : Beat α} (h : c.mKeep = false → b.Full) : (outBeat c b).items = it c b := by
  cases hm : c.mKeep with
  | true => simp only [outBeat, Beat.items, it, hm, if_true]
  | false => simp only [outBeat, Beat.items, it, hm, Bool.false_eq_true, if_false, full_eq (h hm)]

theorem meant_it {c : Cfg} {b : Beat α} (h : c.sKeep = false → b.Full) : (meant c b).items = it c b := by
  cases hm : c.sKeep with
  | true => simp only [meant, Beat.items, it, hm, if_true]
  | false => simp only [meant, Beat.items, it, hm, Bool.false_eq_true, if_false, full_eq (h hm)]

/-! ### wider output -/

theorem put_length {β : Type} {l x : List β} {p : Nat} (h : p + x.length ≤ l.length) : (put l x p).length = l.length := by
  simp [put]; omega

theorem put_take {β : Type} {l x : List β} {p : Nat} (h : p + x.length ≤ l.length) : (put l x p).take (p + x.length) = l.take p ++ x := by
  rw [put, List.take_left' (by simp; omega)]

theorem put_drop {β : Type} {l x : List β} {p : Nat} (h : p + x.length ≤ l.length) : (put l x p).drop (p + x.length) = l.drop (p + x.length) := by
  rw [put, List.drop_left' (by simp; omega)]

/-- lanes from segment `n` on are not in use -/
def Above (c : Cfg) (b : Beat α) (n : Nat) : Prop := ∀ x ∈ b.keep.drop (n * c.s), x = false

/-- bytes in the segments below `n` -/
def part (c : Cfg) (b : Beat α) (n : Nat) : List α := bytes (b.data.take (n * c.s)) (b.keep.take (n * c.s))

theorem part_all {c : Cfg} {b : Beat α} {n : Nat} (hw : b.Wide c.m) (h : Above c b n) : bytes b.data b.keep = part c b n := by
  rw [bytes_split _ _ (hw.1.trans hw.2.symm) (n * c.s), bytes_false h, List.append_nil]; rfl

theorem part_zero {c : Cfg} {b : Beat α} : part c b 0 = [] := by simp [part, bytes]

theorem load_spec {c : Cfg} {mb b : Beat α} {n : Nat} (hm : mb.Wide c.m) (hb : b.Wide c.s) (hn : (n + 1) * c.s ≤ c.m)
    (ha : 0 < n → Above c mb (n + 1)) :
    (load c n mb b).Wide c.m ∧ Above c (load c n mb b) (n + 1) ∧ part c (load c n mb b) (n + 1) = part c mb n ++ bytes b.data b.keep ∧
      part c (load c n mb b) n = part c mb n := by
  have e : (n + 1) * c.s = n * c.s + c.s := by rw [Nat.add_mul, Nat.one_mul]
  obtain ⟨m1, m2⟩ := hm
  obtain ⟨b1, b2⟩ := hb
  have p1 : n * c.s + b.data.length ≤ mb.data.length := by rw [b1, m1]; omega
  have p2 : n * c.s + b.keep.length ≤ mb.keep.length := by rw [b2, m2]; omega
  have td := put_take p1
  rw [b1] at td
  by_cases hz : n = 0
  · subst hz
    simp only [load, if_pos, Beat.Wide, Above, part, e, td, Nat.zero_mul, Nat.zero_add]
    rw [Nat.zero_mul, Nat.zero_add] at td
    refine ⟨⟨by rw [put_length (by simpa using p1), m1], by simp [b2]; omega⟩, ?_, ?_, ?_⟩
    · rw [List.drop_left' b2]
      intro x hx; exact List.eq_of_mem_replicate hx
    · rw [td, List.take_left' b2]; rfl
    · simp [bytes]
  · have tk := put_take p2
    have dk := put_drop p2
    rw [b2] at tk dk
    have ha := ha (by omega)
    have tt : ∀ {β : Type} (l x : List β), n * c.s + x.length ≤ l.length → (put l x (n * c.s)).take (n * c.s) = l.take (n * c.s) := by
      intro β l x h
      rw [put, List.append_assoc, List.take_left' (by simp; omega)]
    simp only [load, if_neg hz, Beat.Wide, Above, part, e] at ha ⊢
    refine ⟨⟨by rw [put_length p1, m1], by rw [put_length p2, m2]⟩, ?_, ?_, ?_⟩
    · rw [dk]; exact ha
    · rw [td, tk, bytes_append (by simp; omega)]
    · rw [tt _ _ p1, tt _ _ p2]

structure UpInv (c : Cfg) (st : St α) : Prop where
  wide : st.mb.Wide c.m
  seg : (st.seg + 1) * c.s ≤ c.m
  buf : st.sv = true → st.mv = true ∧ st.sb.Wide c.s
  out : st.mv = true → st.seg = 0
  above : 0 < st.seg → Above c st.mb (st.seg + 1)

/-- accepted and not yet delivered -/
def upPend (c : Cfg) (st : St α) : List (Item α) :=
  (if st.mv then it c st.mb else []) ++ (if st.sv then it c st.sb else []) ++ (part c st.mb st.seg).map .byte

theorem it_load {c : Cfg} {mb b : Beat α} {n : Nat} (hm : mb.Wide c.m) (hb : b.Wide c.s) (hn : (n + 1) * c.s ≤ c.m)
    (ha : 0 < n → Above c mb (n + 1)) : it c (load c n mb b) = (part c mb n).map .byte ++ it c b := by
  obtain ⟨h1, h2, h3, _⟩ := load_spec hm hb hn ha
  rw [it, part_all h1 h2, h3, List.map_append, List.append_assoc]
  rfl

theorem above_mono {c : Cfg} {b : Beat α} {n : Nat} (h : Above c b n) : Above c b (n + 1) := by
  intro x hx
  rw [show (n + 1) * c.s = n * c.s + c.s by rw [Nat.add_mul, Nat.one_mul], ← List.drop_drop] at hx
  exact h x (List.mem_of_mem_drop hx)

theorem seg_next {c : Cfg} {n : Nat} (hc : Cfg.Ok .up c) (hn : (n + 1) * c.s ≤ c.m) (h : (n == c.m / c.s - 1) = false) :
    (n + 1 + 1) * c.s ≤ c.m := by
  obtain ⟨h1, ⟨q, h2⟩, h3, _⟩ := hc
  rw [h2, Nat.mul_div_cancel_left _ h1] at h
  rw [h2, Nat.mul_comm c.s q] at hn ⊢
  have : n + 1 ≤ q := Nat.le_of_mul_le_mul_right hn h1
  have h' : n ≠ q - 1 := by simpa using h
  exact Nat.mul_le_mul_right _ (by omega)

theorem up_step [Inhabited α] {c : Cfg} (hc : Cfg.Ok .up c) {st : St α} (hi : UpInv c st) {i : Inp α} (hr : i.rst = false)
    (hw : i.beat.Wide c.s) :
    UpInv c (upStep c st i) ∧ upPend c st ++ (taken st i).flatMap (it c) = (given c st i).flatMap Beat.items ++ upPend c (upStep c st i) := by
  have hs : (0 + 1) * c.s ≤ c.m := by have := hc.2.2.1; omega
  have hmk := hc.2.2.2
  have hg : (given c st i).flatMap Beat.items = if st.mv && i.ready then it c st.mb else [] := by
    rw [given]
    split
    · rw [List.flatMap_singleton, out_it (by rw [hmk]; simp)]
    · rfl
  rw [hg]
  obtain ⟨seg, sv, sb, mv, mb⟩ := st
  obtain ⟨h1, h2, h3, h4, h5⟩ := hi
  dsimp only at h1 h2 h3 h4 h5
  cases sv with
  | true =>
    obtain ⟨hmv, h6⟩ := h3 rfl
    clear h3
    subst hmv
    obtain rfl := h4 rfl
    cases hrd : i.ready with
    | true =>
      have hl := load_spec (n := 0) h1 h6 hs (by simp)
      have hil := it_load (n := 0) h1 h6 hs (by simp)
      cases hq : (sb.last || (0 == c.m / c.s - 1)) with
      | true =>
        refine ⟨?_, ?_⟩
        · simp only [upStep, hr, hrd, hq, if_true, if_false, Bool.not_true, Bool.false_or, Bool.false_eq_true, Bool.true_and]
          exact ⟨hl.1, hs, by simp, by simp, by simp⟩
        · simp only [upStep, hr, hrd, hq, if_true, if_false, Bool.not_true, Bool.false_or, Bool.false_eq_true, Bool.true_and, upPend, taken,
            part_zero, Bool.and_false, List.map_nil, List.append_nil, List.flatMap_nil]
          rw [part_zero] at hil
          rw [show it c sb = it c (load c 0 mb sb) from hil.symm]
          rfl
      | false =>
        have hs2 := seg_next hc hs (Bool.or_eq_false_iff.1 hq).2
        have hlast := (Bool.or_eq_false_iff.1 hq).1
        refine ⟨?_, ?_⟩
        · simp only [upStep, hr, hrd, hq, if_true, if_false, Bool.not_true, Bool.false_or, Bool.false_eq_true, Bool.true_and]
          exact ⟨hl.1, hs2, by simp, by simp, fun _ => above_mono hl.2.1⟩
        · simp only [upStep, hr, hrd, hq, if_true, if_false, Bool.not_true, Bool.false_or, Bool.false_eq_true, Bool.true_and, upPend, taken,
            part_zero, Bool.and_false, List.map_nil, List.append_nil, List.flatMap_nil, List.nil_append]
          rw [it.eq_def c sb, hlast]
          simp only [if_false, Bool.false_eq_true, List.append_nil]
          have := hl.2.2.1
          rw [part_zero, List.nil_append] at this
          rw [← this]
          rfl
    | false =>
      have e : upStep c ⟨0, true, sb, true, mb⟩ i = ⟨0, true, sb, true, mb⟩ := by simp [upStep, hr, hrd]
      rw [e]
      refine ⟨⟨h1, h2, fun _ => ⟨rfl, h6⟩, fun _ => rfl, h5⟩, ?_⟩
      simp [taken]
  | false =>
    clear h3
    by_cases hf : (!mv || i.ready) = true
    · -- the output register takes the input
      have hl := load_spec h1 hw h2 h5
      have hil := it_load h1 hw h2 h5
      have hmv : (mv && !i.ready) = false := by cases mv <;> simp_all
      have hgv : (if (mv && i.ready) = true then it c mb else []) = if mv = true then it c mb else [] := by cases mv <;> simp_all
      have hb : (if seg = 0 then i.beat else i.beat) = i.beat := by split <;> rfl
      dsimp only
      rw [hgv]
      cases hv : i.valid with
      | false =>
        refine ⟨?_, ?_⟩
        · simp only [upStep, hr, hf, hv, hb, hmv, if_true, if_false, Bool.false_eq_true]
          exact ⟨hl.1, h2, by simp, by simp, fun _ => hl.2.1⟩
        · simp only [upStep, hr, hf, hv, hb, hmv, if_true, if_false, Bool.false_eq_true, upPend, taken, List.append_nil, Bool.false_and,
            List.flatMap_nil, List.nil_append]
          have := hl.2.2.2
          rw [← this]
          rfl
      | true =>
        cases hq : (i.beat.last || (seg == c.m / c.s - 1)) with
        | true =>
          refine ⟨?_, ?_⟩
          · simp only [upStep, hr, hf, hv, hb, hq, hmv, if_true, if_false, Bool.false_eq_true]
            exact ⟨hl.1, hs, by simp, by simp, by simp⟩
          · simp only [upStep, hr, hf, hv, hb, hq, hmv, if_true, if_false, Bool.false_eq_true, upPend, taken, List.append_nil, Bool.not_false,
              Bool.true_and, List.flatMap_singleton, part_zero, List.map_nil, List.append_assoc]
            rw [← hil]
            rfl
        | false =>
          have hs2 := seg_next hc h2 (Bool.or_eq_false_iff.1 hq).2
          have hlast := (Bool.or_eq_false_iff.1 hq).1
          refine ⟨?_, ?_⟩
          · simp only [upStep, hr, hf, hv, hb, hq, hmv, if_true, if_false, Bool.false_eq_true]
            exact ⟨hl.1, hs2, by simp, by simp, fun _ => above_mono hl.2.1⟩
          · simp only [upStep, hr, hf, hv, hb, hq, hmv, if_true, if_false, Bool.false_eq_true, upPend, taken, List.append_nil, Bool.not_false,
              Bool.true_and, List.flatMap_singleton, List.append_assoc, List.nil_append]
            rw [it.eq_def c i.beat, hlast]
            simp only [if_false, Bool.false_eq_true, List.append_nil]
            rw [← List.map_append, ← hl.2.2.1]
            rfl
    · -- the output register is in use
      have hm : mv = true := by cases mv <;> simp_all
      subst hm
      have hrd : i.ready = false := by cases hx : i.ready <;> simp_all
      obtain rfl := h4 rfl
      cases hv : i.valid with
      | true =>
        refine ⟨?_, ?_⟩
        · simp only [upStep, hr, hrd, hv, if_true, if_false, Bool.not_true, Bool.not_false, Bool.or_false, Bool.and_true, Bool.false_eq_true]
          exact ⟨h1, h2, fun _ => ⟨rfl, hw⟩, fun _ => rfl, h5⟩
        · simp [upStep, hr, hrd, hv, upPend, taken, part_zero]
      | false =>
        have e : upStep c ⟨0, false, sb, true, mb⟩ i = ⟨0, false, sb, true, mb⟩ := by simp [upStep, hr, hrd, hv]
        rw [e]
        refine ⟨⟨h1, h2, by simp, fun _ => rfl, h5⟩, ?_⟩
        simp [taken, hv, hrd]

/-! ### narrower output -/

theorem shr_length {β : Type} (d : β) (l : List β) (n : Nat) : (shr d l n).length = l.length := by
  simp [shr]; omega

theorem shr_bytes [Inhabited α] {d : List α} {k : List Bool} (h : d.length = k.length) (n : Nat) :
    bytes (shr default d n) (shr false k n) = bytes (d.drop n) (k.drop n) := by
  rw [shr, shr, bytes_append (by simp [h]), bytes_false (k := List.replicate _ _) fun x hx => List.eq_of_mem_replicate hx, List.append_nil]

/-- the lowest lanes -/
def low (c : Cfg) (b : Beat α) : Beat α := { b with data := b.data.take c.m, keep := b.keep.take c.m, last := false }

theorem low_last {c : Cfg} {b : Beat α} (hw : b.Wide c.s) (h : isLast c b = true) : it c { low c b with last := b.last } = it c b := by
  have hd : bytes (b.data.drop c.m) (b.keep.drop c.m) = [] := by
    apply bytes_false
    intro x hx
    rw [isLast, List.all_eq_true] at h
    simpa using h x (List.mem_append_left _ hx)
  rw [it, it, bytes_split b.data b.keep (hw.1.trans hw.2.symm) c.m, hd, List.append_nil]
  rfl

theorem low_more [Inhabited α] {c : Cfg} {b : Beat α} (hw : b.Wide c.s) : it c (low c b) ++ it c (shrBeat c b) = it c b := by
  rw [it, it, it, bytes_split b.data b.keep (hw.1.trans hw.2.symm) c.m]
  simp only [low, shrBeat, shr_bytes (hw.1.trans hw.2.symm), Bool.false_eq_true, if_false, List.append_nil, List.map_append,
    List.append_assoc]
  rfl

theorem low_full {c : Cfg} {b : Beat α} (hm : c.m = 1) (hb : b.Dense) : (low c b).Full := by
  obtain ⟨n, r, h⟩ := hb
  intro x hx
  rw [low, h, hm, List.replicate_succ, List.cons_append] at hx
  simpa using hx

theorem shr_dense [Inhabited α] {c : Cfg} {b : Beat α} (hm : c.m = 1) (hb : b.Dense) (h : isLast c b = false) : (shrBeat c b).Dense := by
  obtain ⟨n, r, hk⟩ := hb
  have e : shr false b.keep c.m = List.replicate n true ++ List.replicate (r + 1) false := by
    rw [shr, hk, hm, List.replicate_succ, List.cons_append, List.drop_succ_cons, List.drop_zero, List.append_assoc, List.length_cons,
      Nat.min_eq_left (by omega), List.replicate_append_replicate]
  cases n with
  | zero =>
    rw [isLast, e] at h
    simp at h
  | succ n => exact ⟨n, r + 1, e⟩

structure DownInv (c : Cfg) (st : St α) : Prop where
  buf : st.sv = true → st.sb.Wide c.s ∧ (c.mKeep = false → st.sb.Dense)
  out : st.mv = true → c.mKeep = false → st.mb.Full

def downPend (c : Cfg) (st : St α) : List (Item α) := (if st.mv then it c st.mb else []) ++ (if st.sv then it c st.sb else [])

theorem down_step [Inhabited α] {c : Cfg} (hc : Cfg.Ok .down c) {st : St α} (hi : DownInv c st) {i : Inp α} (hr : i.rst = false)
    (hw : i.valid = true → i.beat.Wide c.s ∧ (c.mKeep = false → i.beat.Dense)) :
    DownInv c (downStep c st i) ∧
      downPend c st ++ (taken st i).flatMap (it c) = (given c st i).flatMap Beat.items ++ downPend c (downStep c st i) := by
  have h1m := hc.2.2.2.2
  have hg : (given c st i).flatMap Beat.items = if st.mv && i.ready then it c st.mb else [] := by
    rw [given]
    split
    · rename_i h
      rw [List.flatMap_singleton, out_it (hi.out (Bool.and_eq_true _ _ ▸ h).1)]
    · rfl
  rw [hg]
  have wide : ∀ b : Beat α, b.Wide c.s → (shrBeat c b).Wide c.s := fun b h => ⟨by rw [shrBeat, shr_length]; exact h.1,
    by rw [shrBeat, shr_length]; exact h.2⟩
  obtain ⟨seg, sv, sb, mv, mb⟩ := st
  obtain ⟨h1, h2⟩ := hi
  dsimp only at h1 h2
  by_cases hf : (!mv || i.ready) = true
  · have hmv : (mv && !i.ready) = false := by cases mv <;> simp_all
    have hgv : (if (mv && i.ready) = true then it c mb else []) = if mv = true then it c mb else [] := by cases mv <;> simp_all
    dsimp only
    rw [hgv]
    cases sv with
    | true =>
      obtain ⟨g1, g2⟩ := h1 rfl
      cases hq : isLast c sb with
      | true =>
        simp only [downStep, hr, hf, hq, if_true, if_false, Bool.false_eq_true]
        refine ⟨⟨by simp, fun _ hk => low_full (h1m hk) (g2 hk)⟩, ?_⟩
        simp only [downPend, taken, if_true, if_false, Bool.false_eq_true, Bool.not_true, Bool.and_false, List.flatMap_nil, List.append_nil]
        rw [← low_last g1 hq]
        rfl
      | false =>
        simp only [downStep, hr, hf, hq, if_true, if_false, Bool.false_eq_true]
        refine ⟨⟨fun _ => ⟨wide _ g1, fun hk => shr_dense (h1m hk) (g2 hk) hq⟩, fun _ hk => low_full (h1m hk) (g2 hk)⟩, ?_⟩
        simp only [downPend, taken, if_true, if_false, Bool.false_eq_true, Bool.not_true, Bool.and_false, List.flatMap_nil, List.append_nil]
        rw [← low_more g1]
        rfl
    | false =>
      cases hv : i.valid with
      | false =>
        simp only [downStep, hr, hf, hv, hmv, if_true, if_false, Bool.false_eq_true]
        refine ⟨⟨by simp, by simp⟩, ?_⟩
        simp [downPend, taken, hv]
      | true =>
        obtain ⟨g1, g2⟩ := hw hv
        cases hq : isLast c i.beat with
        | true =>
          simp only [downStep, hr, hf, hv, hq, if_true, if_false, Bool.false_eq_true]
          refine ⟨⟨by simp, fun _ hk => low_full (h1m hk) (g2 hk)⟩, ?_⟩
          simp only [downPend, taken, hv, if_true, if_false, Bool.false_eq_true, Bool.not_false, Bool.and_true, List.flatMap_singleton,
            List.append_nil]
          rw [← low_last g1 hq]
          rfl
        | false =>
          simp only [downStep, hr, hf, hv, hq, if_true, if_false, Bool.false_eq_true]
          refine ⟨⟨fun _ => ⟨wide _ g1, fun hk => shr_dense (h1m hk) (g2 hk) hq⟩, fun _ hk => low_full (h1m hk) (g2 hk)⟩, ?_⟩
          simp only [downPend, taken, hv, if_true, if_false, Bool.false_eq_true, Bool.not_false, Bool.and_true, List.flatMap_singleton,
            List.append_nil]
          rw [← low_more g1]
          rfl
  · have hm : mv = true := by cases mv <;> simp_all
    subst hm
    have hrd : i.ready = false := by cases hx : i.ready <;> simp_all
    cases hx : (i.valid && !sv) with
    | true =>
      have hv : i.valid = true := by cases hy : i.valid <;> simp_all
      have hsv : sv = false := by cases sv <;> simp_all
      subst hsv
      simp only [downStep, hr, hrd, hv, if_true, if_false, Bool.not_true, Bool.not_false, Bool.or_false, Bool.and_true, Bool.false_eq_true]
      refine ⟨⟨fun _ => hw hv, h2⟩, ?_⟩
      simp [downPend, taken, hv]
    | false =>
      have e : downStep c ⟨seg, sv, sb, true, mb⟩ i = ⟨seg, sv, sb, true, mb⟩ := by simp [downStep, hr, hrd, hx]
      rw [e]
      refine ⟨⟨h1, h2⟩, ?_⟩
      simp [taken, hx, hrd]

/-! ### both -/

/-- what must hold of the inputs of a cycle -/
def Fed (c : Cfg) (i : Inp α) : Prop := i.rst = false ∧ i.beat.Wide c.s ∧ (i.valid = true → Sane c i.beat)

def Inv (k : Kind) (c : Cfg) (st : St α) : Prop :=
  match k with
  | .up => UpInv c st
  | .down => DownInv c st

def pend (k : Kind) (c : Cfg) (st : St α) : List (Item α) :=
  match k with
  | .up => upPend c st
  | .down => downPend c st

theorem Inv_reset {k : Kind} {c : Cfg} (hc : c.Ok k) {st : St α} (h : Reset k c st) : Inv k c st ∧ pend k c st = [] := by
  obtain ⟨h1, h2, h3⟩ := h
  cases k with
  | up =>
    have := hc.2.2.1
    exact ⟨⟨h3.2, by rw [h3.1]; omega, by simp [h1], by simp [h2], by simp [h3.1]⟩, by simp [pend, upPend, h1, h2, h3.1, part_zero]⟩
  | down => exact ⟨⟨by simp [h1], by simp [h2]⟩, by simp [pend, downPend, h1, h2]⟩

theorem Inv_step [Inhabited α] {k : Kind} {c : Cfg} (hc : c.Ok k) {st : St α} (hi : Inv k c st) {i : Inp α} (hf : Fed c i) :
    Inv k c (step k c st i) ∧
      pend k c st ++ (taken st i).flatMap (it c) = (given c st i).flatMap Beat.items ++ pend k c (step k c st i) := by
  cases k with
  | up => exact up_step hc hi hf.1 hf.2.1
  | down => exact down_step hc hi hf.1 fun h => ⟨(hf.2.2 h).1, (hf.2.2 h).2.1⟩

theorem taken_it {c : Cfg} {st : St α} {i : Inp α} (hf : Fed c i) :
    (taken st i).flatMap (it c) = ((taken st i).map (meant c)).flatMap Beat.items := by
  rw [taken]
  split
  · rename_i h
    rw [List.flatMap_singleton, List.map_singleton, List.flatMap_singleton, meant_it (hf.2.2 (Bool.and_eq_true _ _ ▸ h).1).2.2]
  · rfl

theorem run_pend [Inhabited α] {k : Kind} {c : Cfg} (hc : c.Ok k) : ∀ (is : List (Inp α)) (st : St α), Inv k c st → (∀ i ∈ is, Fed c i) →
    Inv k c (run k c st is).1 ∧
      pend k c st ++ stream ((run k c st is).2.1.map (meant c)) = stream (run k c st is).2.2 ++ pend k c (run k c st is).1 := by
  intro is
  induction is with
  | nil => intro st hi _; exact ⟨hi, by simp [run, stream]⟩
  | cons i is ih =>
    intro st hi hf
    obtain ⟨h1, h2⟩ := Inv_step hc hi (hf i List.mem_cons_self)
    obtain ⟨h3, h4⟩ := ih _ h1 fun j hj => hf j (List.mem_cons_of_mem _ hj)
    refine ⟨h3, ?_⟩
    rw [taken_it (hf i List.mem_cons_self)] at h2
    simp only [run, stream, List.map_append, List.flatMap_append] at h4 ⊢
    rw [← List.append_assoc, h2, List.append_assoc, h4, List.append_assoc]

theorem run_append [Inhabited α] {k : Kind} {c : Cfg} : ∀ (a b : List (Inp α)) (st : St α),
    run k c st (a ++ b) = ((run k c (run k c st a).1 b).1, (run k c st a).2.1 ++ (run k c (run k c st a).1 b).2.1,
      (run k c st a).2.2 ++ (run k c (run k c st a).1 b).2.2) := by
  intro a b
  induction a with
  | nil => intro st; rfl
  | cons i a ih => intro st; simp only [List.cons_append, run, ih, List.append_assoc]

/-! ### running empty -/

/-- the frame the last accepted transfer belongs to is complete -/
def Done (st : St α) : Prop := (st.sv = true → st.sb.last = true) ∧ (st.sv = false → st.seg = 0)

theorem done_step [Inhabited α] {c : Cfg} {st : St α} {i : Inp α} (hi : UpInv c st) (hr : i.rst = false) :
    (taken st i = [] → Done st → Done (upStep c st i)) ∧ (taken st i ≠ [] → i.beat.last = true → Done (upStep c st i)) := by
  obtain ⟨seg, sv, sb, mv, mb⟩ := st
  obtain ⟨_, _, h3, h4, _⟩ := hi
  dsimp only at h3 h4
  refine ⟨fun ht hd => ?_, fun ht hl => ?_⟩
  · obtain ⟨d1, d2⟩ := hd
    dsimp only at d1 d2
    cases sv with
    | true =>
      have d1 := d1 rfl
      obtain rfl := (h3 rfl).1
      obtain rfl := h4 rfl
      cases hx : i.ready <;> simp [upStep, hr, hx, Done, d1]
    | false =>
      obtain rfl := d2 rfl
      have hv : i.valid = false := by cases hv : i.valid <;> simp_all [taken]
      cases mv <;> cases hx : i.ready <;> simp [upStep, hr, hx, hv, Done]
  · have hs : sv = false := by cases sv <;> simp_all [taken]
    have hv : i.valid = true := by cases hv : i.valid <;> simp_all [taken]
    subst hs
    cases mv <;> cases hx : i.ready <;> simp [upStep, hr, hx, hv, hl, Done]

theorem done_run [Inhabited α] {c : Cfg} (hc : Cfg.Ok .up c) : ∀ (is : List (Inp α)) (st : St α), UpInv c st → (∀ i ∈ is, Fed c i) →
    ((run .up c st is).2.1 = [] → Done st → Done (run .up c st is).1) ∧
    (∀ b, (run .up c st is).2.1.getLast? = some b → b.last = true → Done (run .up c st is).1) := by
  intro is
  induction is with
  | nil => intro st _ _; exact ⟨fun _ h => h, fun b h => by cases h⟩
  | cons i is ih =>
    intro st hi hf
    have hf0 := hf i List.mem_cons_self
    obtain ⟨h1, _⟩ := up_step hc hi hf0.1 hf0.2.1
    obtain ⟨g1, g2⟩ := ih _ h1 fun j hj => hf j (List.mem_cons_of_mem _ hj)
    obtain ⟨d1, d2⟩ := done_step hi hf0.1
    refine ⟨fun h hd => ?_, fun b hb hl => ?_⟩
    · rw [run] at h
      obtain ⟨ha, hb⟩ := List.append_eq_nil_iff.1 h
      exact g1 hb (d1 ha hd)
    · rw [run] at hb
      dsimp only at hb
      by_cases hn : (run .up c (step .up c st i) is).2.1 = []
      · rw [hn, List.append_nil] at hb
        refine g1 hn (d2 (fun e => by rw [e] at hb; cases hb) ?_)
        rw [taken] at hb
        split at hb
        · cases hb; exact hl
        · cases hb
      · refine g2 b ?_ hl
        rw [List.getLast?_append] at hb
        cases he : (run .up c (step .up c st i) is).2.1.getLast? with
        | none => exact (hn (List.getLast?_eq_none_iff.1 he)).elim
        | some x => rw [he] at hb; exact he.trans hb

/-- a cycle without input and with the receiver ready -/
def Idle (i : Inp α) : Prop := i.valid = false ∧ i.ready = true

theorem up_empty [Inhabited α] {c : Cfg} {st : St α} (hi : UpInv c st) (hd : Done st) {i j : Inp α} (hr : i.rst = false) (hr' : j.rst = false)
    (h : Idle i) (h' : Idle j) : (upStep c (upStep c st i) j).sv = false ∧ (upStep c (upStep c st i) j).mv = false ∧
      (upStep c (upStep c st i) j).seg = 0 := by
  obtain ⟨seg, sv, sb, mv, mb⟩ := st
  obtain ⟨_, _, h3, h4, _⟩ := hi
  obtain ⟨d1, d2⟩ := hd
  dsimp only at h3 h4 d1 d2
  cases sv with
  | true =>
    have d1 := d1 rfl
    obtain rfl := (h3 rfl).1
    obtain rfl := h4 rfl
    simp [upStep, hr, hr', h.2, h'.1, h'.2, d1]
  | false =>
    obtain rfl := d2 rfl
    cases mv <;> simp [upStep, hr, hr', h.1, h.2, h'.1, h'.2]

/-- at most `n` more segments in the buffer -/
def Left (c : Cfg) (st : St α) (n : Nat) : Prop := st.sv = true → ∀ x ∈ st.sb.keep.drop (n * c.m), x = false

theorem down_left [Inhabited α] {c : Cfg} {st : St α} {i : Inp α} (hr : i.rst = false) (h : Idle i) {n : Nat} (hl : Left c st (n + 1)) :
    Left c (downStep c st i) n ∧ (n = 0 → (downStep c st i).sv = false) ∧ (st.sv = false → (downStep c st i).sv = false ∧ (downStep c st i).mv = false) := by
  obtain ⟨seg, sv, sb, mv, mb⟩ := st
  cases sv with
  | false => simp [downStep, hr, h.1, h.2, Left]
  | true =>
    have hl := hl rfl
    dsimp only at hl
    cases hq : isLast c sb with
    | true => simp [downStep, hr, h.2, hq, Left]
    | false =>
      have hk : ∀ x ∈ (shr false sb.keep c.m).drop (n * c.m), x = false := by
        intro x hx
        rw [shr, List.drop_append, List.drop_drop] at hx
        rcases List.mem_append.1 hx with hx | hx
        · refine hl x ?_
          rw [Nat.add_mul, Nat.one_mul, Nat.add_comm]
          exact hx
        · exact List.eq_of_mem_replicate (List.mem_of_mem_drop hx)
      refine ⟨?_, ?_, by simp⟩
      · simp only [downStep, hr, h.2, hq, if_true, if_false, Bool.or_true, Bool.false_eq_true, Left]
        exact fun _ => hk
      · rintro rfl
        rw [isLast, ← Bool.not_eq_true, List.all_eq_true] at hq
        refine (hq fun x hx => ?_).elim
        have := hk x (by simpa using hx)
        simpa using this

theorem down_empty [Inhabited α] {c : Cfg} : ∀ (is : List (Inp α)) (st : St α) (n : Nat), Left c st n → n + 2 ≤ is.length →
    (∀ i ∈ is, i.rst = false ∧ Idle i) → (run .down c st is).1.sv = false ∧ (run .down c st is).1.mv = false := by
  -- once the buffer is empty
  have base : ∀ (is : List (Inp α)) (st : St α), st.sv = false → st.mv = false ∨ is ≠ [] → (∀ i ∈ is, i.rst = false ∧ Idle i) →
      (run .down c st is).1.sv = false ∧ (run .down c st is).1.mv = false := by
    intro is
    induction is with
    | nil => intro st h h' _; exact ⟨h, h'.resolve_right (by simp)⟩
    | cons i is ih =>
      intro st h _ hf
      obtain ⟨f1, f2⟩ := hf i List.mem_cons_self
      have hl : Left c st (0 + 1) := fun e => by rw [h] at e; cases e
      obtain ⟨g1, g2⟩ := (down_left f1 f2 hl).2.2 h
      exact ih _ g1 (Or.inl g2) fun j hj => hf j (List.mem_cons_of_mem _ hj)
  intro is
  induction is with
  | nil => intro st n _ h; simp at h
  | cons i is ih =>
    intro st n hl hn hf
    obtain ⟨f1, f2⟩ := hf i List.mem_cons_self
    have hrest : ∀ j ∈ is, j.rst = false ∧ Idle j := fun j hj => hf j (List.mem_cons_of_mem _ hj)
    have hlen : n + 1 ≤ is.length := by simpa using hn
    cases n with
    | zero =>
      have hl' : Left c st (0 + 1) := by
        intro e x hx
        refine hl e x ?_
        rw [Nat.zero_mul, List.drop_zero]
        exact List.mem_of_mem_drop hx
      exact base is _ ((down_left f1 f2 hl').2.1 rfl) (Or.inr (List.length_pos_iff.1 (by omega))) hrest
    | succ n => exact ih _ n (down_left f1 f2 hl).1 hlen hrest

/-! ### lanes in use at the output -/

/-- as `Packed`, with the number of lanes in use a multiple of `m` except at the end of a frame -/
def Filled (c : Cfg) (b : Beat α) : Prop :=
  ∃ n r, b.keep = List.replicate (n + 1) true ++ List.replicate r false ∧ (b.last = false → c.m ∣ n + 1)

theorem filled_packed {c : Cfg} {b : Beat α} (hd : c.m ∣ c.s) (hw : b.Wide c.s) (h : b.Packed) : Filled c b := by
  obtain ⟨⟨n, r, hk⟩, hf⟩ := h
  refine ⟨n, r, hk, fun hl => ?_⟩
  have hr : r = 0 := by
    cases r with
    | zero => rfl
    | succ r => have := hf hl false (by rw [hk]; exact List.mem_append_right _ List.mem_cons_self); cases this
  have := hw.2
  rw [hk, hr] at this
  simp at this
  rw [this]; exact hd

theorem low_packed {c : Cfg} {b : Beat α} (h0 : 0 < c.m) (hf : Filled c b) :
    (isLast c b = true → ({ low c b with last := b.last } : Beat α).Packed) ∧ (isLast c b = false → (low c b).Packed) := by
  obtain ⟨n, r, hk, hl⟩ := hf
  have ht : b.keep.take c.m = List.replicate (min c.m (n + 1)) true ++ List.replicate (min (c.m - (n + 1)) r) false := by
    rw [hk, List.take_append, List.take_replicate, List.take_replicate, List.length_replicate]
  have hd : b.keep.drop c.m = List.replicate (n + 1 - c.m) true ++ List.replicate (r - (c.m - (n + 1))) false := by
    rw [hk, List.drop_append, List.drop_replicate, List.drop_replicate, List.length_replicate]
  have dense : ∀ l, ({ low c b with last := l } : Beat α).Dense := fun l =>
    ⟨min c.m (n + 1) - 1, min (c.m - (n + 1)) r, by rw [low, ht, show min c.m (n + 1) - 1 + 1 = min c.m (n + 1) by omega]⟩
  have full : c.m ≤ n + 1 → ∀ l, ({ low c b with last := l } : Beat α).Full := by
    intro h l x hx
    simp only [low] at hx
    rw [ht, show c.m - (n + 1) = 0 by omega, Nat.zero_min, List.replicate_zero, List.append_nil] at hx
    exact List.eq_of_mem_replicate hx
  refine ⟨fun _ => ⟨dense _, fun e => full ?_ _⟩, fun hq => ⟨dense _, fun _ => full ?_ _⟩⟩
  · exact Nat.le_of_dvd (by omega) (hl e)
  · apply Nat.le_of_not_lt
    intro hlt
    rw [isLast, ← Bool.not_eq_true, List.all_eq_true] at hq
    refine hq fun x hx => ?_
    rw [shr, hd, show n + 1 - c.m = 0 by omega] at hx
    have : x = false := by
      rcases List.mem_append.1 hx with hx | hx
      · exact List.eq_of_mem_replicate hx
      · exact List.eq_of_mem_replicate hx
    rw [this]; rfl

theorem shr_filled [Inhabited α] {c : Cfg} {b : Beat α} (hf : Filled c b) (hq : isLast c b = false) : Filled c (shrBeat c b) := by
  obtain ⟨n, r, hk, hl⟩ := hf
  have hd : b.keep.drop c.m = List.replicate (n + 1 - c.m) true ++ List.replicate (r - (c.m - (n + 1))) false := by
    rw [hk, List.drop_append, List.drop_replicate, List.drop_replicate, List.length_replicate]
  have hn : c.m < n + 1 := by
    apply Nat.lt_of_not_le
    intro hlt
    rw [isLast, ← Bool.not_eq_true, List.all_eq_true] at hq
    refine hq fun x hx => ?_
    rw [shr, hd, show n + 1 - c.m = 0 by omega] at hx
    have : x = false := by
      rcases List.mem_append.1 hx with hx | hx
      · exact List.eq_of_mem_replicate hx
      · exact List.eq_of_mem_replicate hx
    rw [this]; rfl
  refine ⟨n - c.m, r - (c.m - (n + 1)) + min c.m b.keep.length, ?_, fun e => ?_⟩
  · show shr false b.keep c.m = _
    rw [shr, hd, List.append_assoc, List.replicate_append_replicate, show n - c.m + 1 = n + 1 - c.m by omega]
  · rw [show n - c.m + 1 = n + 1 - c.m by omega]
    exact Nat.dvd_sub (hl e) (Nat.dvd_refl _)

/-- registers hold only packed transfers -/
def PInv (k : Kind) (c : Cfg) (st : St α) : Prop :=
  (st.mv = true → st.mb.Packed) ∧
  match k with
  | .up => (st.sv = true → st.sb.Packed) ∧ (∀ x ∈ st.mb.keep.take (st.seg * c.s), x = true)
  | .down => st.sv = true → Filled c st.sb

theorem down_packed [Inhabited α] {c : Cfg} (hc : Cfg.Ok .down c) {st : St α} (hi : PInv .down c st) {i : Inp α} (hr : i.rst = false)
    (hw : i.valid = true → i.beat.Wide c.s ∧ i.beat.Packed) : PInv .down c (downStep c st i) := by
  have hw' : i.valid = true → Filled c i.beat := fun h => filled_packed hc.2.1 (hw h).1 (hw h).2
  obtain ⟨seg, sv, sb, mv, mb⟩ := st
  obtain ⟨h1, h2⟩ := hi
  dsimp only at h1 h2
  by_cases hf : (!mv || i.ready) = true
  · have hmv : (mv && !i.ready) = false := by cases mv <;> simp_all
    cases sv with
    | true =>
      have h2 := h2 rfl
      cases hq : isLast c sb with
      | true =>
        simp only [downStep, hr, hf, hq, if_true, if_false, Bool.false_eq_true]
        exact ⟨fun _ => (low_packed hc.1 h2).1 hq, fun e => by cases e⟩
      | false =>
        simp only [downStep, hr, hf, hq, if_true, if_false, Bool.false_eq_true]
        exact ⟨fun _ => (low_packed hc.1 h2).2 hq, fun _ => shr_filled h2 hq⟩
    | false =>
      cases hv : i.valid with
      | false =>
        simp only [downStep, hr, hf, hv, hmv, if_true, if_false, Bool.false_eq_true]
        exact ⟨fun e => (by cases e), fun e => by cases e⟩
      | true =>
        have h2 := hw' hv
        cases hq : isLast c i.beat with
        | true =>
          simp only [downStep, hr, hf, hv, hq, if_true, if_false, Bool.false_eq_true]
          exact ⟨fun _ => (low_packed hc.1 h2).1 hq, fun e => by cases e⟩
        | false =>
          simp only [downStep, hr, hf, hv, hq, if_true, if_false, Bool.false_eq_true]
          exact ⟨fun _ => (low_packed hc.1 h2).2 hq, fun _ => shr_filled h2 hq⟩
  · have hm : mv = true := by cases mv <;> simp_all
    subst hm
    have hrd : i.ready = false := by cases hx : i.ready <;> simp_all
    cases hx : (i.valid && !sv) with
    | true =>
      have hv : i.valid = true := by cases hy : i.valid <;> simp_all
      have hsv : sv = false := by cases sv <;> simp_all
      subst hsv
      simp only [downStep, hr, hrd, hv, if_true, if_false, Bool.not_true, Bool.not_false, Bool.or_false, Bool.and_true, Bool.false_eq_true]
      exact ⟨h1, fun _ => hw' hv⟩
    | false =>
      have e : downStep c ⟨seg, sv, sb, true, mb⟩ i = ⟨seg, sv, sb, true, mb⟩ := by simp [downStep, hr, hrd, hx]
      rw [e]
      exact ⟨h1, h2⟩

theorem true_take {l : List Bool} {n : Nat} (h : ∀ x ∈ l.take n, x = true) (hn : n ≤ l.length) : l.take n = List.replicate n true := by
  rw [List.eq_replicate_of_mem h, List.length_take, Nat.min_eq_left hn]

/-- lanes in use after a transfer has been added -/
theorem load_packed {c : Cfg} {mb b : Beat α} {n : Nat} (hm : mb.Wide c.m) (hb : b.Wide c.s) (hn : (n + 1) * c.s ≤ c.m)
    (ha : 0 < n → Above c mb (n + 1)) (ht : ∀ x ∈ mb.keep.take (n * c.s), x = true) :
    (∀ x ∈ (load c n mb b).keep.take (n * c.s), x = true) ∧
    (b.Packed → (b.last = false → ∀ x ∈ (load c n mb b).keep.take ((n + 1) * c.s), x = true) ∧ (load c n mb b).Dense) := by
  obtain ⟨l1, l2, _, _⟩ := load_spec hm hb hn ha
  have e : (n + 1) * c.s = n * c.s + c.s := by rw [Nat.add_mul, Nat.one_mul]
  have hk : (load c n mb b).keep = List.replicate (n * c.s) true ++ b.keep ++ (load c n mb b).keep.drop ((n + 1) * c.s) := by
    have hp : n * c.s + b.keep.length ≤ mb.keep.length := by rw [hb.2, hm.2]; omega
    by_cases hz : n = 0
    · subst hz
      simp only [load, if_true, Nat.zero_mul, List.replicate_zero, List.nil_append, Nat.zero_add, Nat.one_mul]
      rw [List.drop_left' hb.2]
    · simp only [load, if_neg hz]
      rw [← true_take ht (by omega), e]
      have h2 := put_drop hp
      rw [hb.2] at h2
      rw [h2, ← hb.2, put]
  have hd : (load c n mb b).keep.drop ((n + 1) * c.s) = List.replicate (c.m - (n + 1) * c.s) false := by
    rw [List.eq_replicate_of_mem l2, List.length_drop, l1.2]
  rw [hd] at hk
  have hlen : (List.replicate (n * c.s) true ++ b.keep).length = (n + 1) * c.s := by
    rw [List.length_append, List.length_replicate, hb.2, e]
  refine ⟨?_, fun hp => ⟨fun hl => ?_, ?_⟩⟩
  · rw [hk, List.append_assoc, List.take_left' (by simp)]
    intro x hx; exact List.eq_of_mem_replicate hx
  · rw [hk, List.take_left' hlen]
    intro x hx
    rcases List.mem_append.1 hx with hx | hx
    · exact List.eq_of_mem_replicate hx
    · exact hp.2 hl x hx
  · obtain ⟨a, r, hb'⟩ := hp.1
    refine ⟨n * c.s + a, r + (c.m - (n + 1) * c.s), ?_⟩
    have r1 : List.replicate (n * c.s + (a + 1)) true = List.replicate (n * c.s) true ++ List.replicate (a + 1) true :=
      List.replicate_append_replicate.symm
    have r2 : List.replicate (r + (c.m - (n + 1) * c.s)) false = List.replicate r false ++ List.replicate (c.m - (n + 1) * c.s) false :=
      List.replicate_append_replicate.symm
    rw [hk, hb', Nat.add_assoc, r1, r2]
    simp only [List.append_assoc]

theorem up_packed [Inhabited α] {c : Cfg} (hc : Cfg.Ok .up c) {st : St α} (hu : UpInv c st) (hi : PInv .up c st) {i : Inp α}
    (hr : i.rst = false) (hw : i.beat.Wide c.s) (hp : i.valid = true → i.beat.Packed) : PInv .up c (upStep c st i) := by
  have hs : (0 + 1) * c.s ≤ c.m := by have := hc.2.2.1; omega
  -- a transfer that completes the output
  have fin : ∀ (n : Nat) (mb b : Beat α), mb.Wide c.m → b.Wide c.s → (n + 1) * c.s ≤ c.m → (0 < n → Above c mb (n + 1)) →
      (∀ x ∈ mb.keep.take (n * c.s), x = true) → b.Packed → (b.last || (n == c.m / c.s - 1)) = true → (load c n mb b).Packed := by
    intro n mb b g1 g2 g3 g4 g5 g6 g7
    obtain ⟨f1, f2⟩ := (load_packed g1 g2 g3 g4 g5).2 g6
    refine ⟨f2, fun e => ?_⟩
    have e' : b.last = false := e
    rw [e', Bool.false_or] at g7
    have hn : n = c.m / c.s - 1 := by simpa using g7
    have hm : (n + 1) * c.s = c.m := by
      have hpos : 0 < c.m / c.s := Nat.div_pos (Nat.le_of_lt hc.2.2.1) hc.1
      rw [hn, show c.m / c.s - 1 + 1 = c.m / c.s by omega, Nat.div_mul_cancel hc.2.1]
    have := f1 e'
    rw [hm, List.take_of_length_le (by rw [(load_spec g1 g2 g3 g4).1.2]; exact Nat.le_refl _)] at this
    exact this
  obtain ⟨seg, sv, sb, mv, mb⟩ := st
  obtain ⟨h1, h2, h3, h4, h5⟩ := hu
  obtain ⟨p1, p2, p3⟩ := hi
  dsimp only at h1 h2 h3 h4 h5 p1 p2 p3
  cases sv with
  | true =>
    obtain ⟨hmv, h6⟩ := h3 rfl
    clear h3
    subst hmv
    obtain rfl := h4 rfl
    have p2 := p2 rfl
    cases hrd : i.ready with
    | true =>
      cases hq : (sb.last || (0 == c.m / c.s - 1)) with
      | true =>
        simp only [upStep, hr, hrd, hq, if_true, if_false, Bool.not_true, Bool.false_or, Bool.false_eq_true, Bool.true_and]
        exact ⟨fun _ => fin 0 mb sb h1 h6 hs (by simp) p3 p2 hq, fun e => (by cases e), by simp⟩
      | false =>
        simp only [upStep, hr, hrd, hq, if_true, if_false, Bool.not_true, Bool.false_or, Bool.false_eq_true, Bool.true_and]
        exact ⟨fun e => (by cases e), fun e => (by cases e), ((load_packed h1 h6 hs (by simp) p3).2 p2).1 (Bool.or_eq_false_iff.1 hq).1⟩
    | false =>
      have e : upStep c ⟨0, true, sb, true, mb⟩ i = ⟨0, true, sb, true, mb⟩ := by simp [upStep, hr, hrd]
      rw [e]
      exact ⟨p1, fun _ => p2, p3⟩
  | false =>
    clear h3
    by_cases hf : (!mv || i.ready) = true
    · have hmv : (mv && !i.ready) = false := by cases mv <;> simp_all
      have hb : (if seg = 0 then i.beat else i.beat) = i.beat := by split <;> rfl
      have hl := load_packed h1 hw h2 h5 p3
      cases hv : i.valid with
      | false =>
        simp only [upStep, hr, hf, hv, hb, hmv, if_true, if_false, Bool.false_eq_true]
        exact ⟨fun e => (by cases e), fun e => (by cases e), hl.1⟩
      | true =>
        cases hq : (i.beat.last || (seg == c.m / c.s - 1)) with
        | true =>
          simp only [upStep, hr, hf, hv, hb, hq, hmv, if_true, if_false, Bool.false_eq_true]
          exact ⟨fun _ => fin seg mb i.beat h1 hw h2 h5 p3 (hp hv) hq, fun e => (by cases e), by simp⟩
        | false =>
          simp only [upStep, hr, hf, hv, hb, hq, hmv, if_true, if_false, Bool.false_eq_true]
          exact ⟨fun e => (by cases e), fun e => (by cases e), (hl.2 (hp hv)).1 (Bool.or_eq_false_iff.1 hq).1⟩
    · have hm : mv = true := by cases mv <;> simp_all
      subst hm
      have hrd : i.ready = false := by cases hx : i.ready <;> simp_all
      cases hv : i.valid with
      | true =>
        simp only [upStep, hr, hrd, hv, if_true, if_false, Bool.not_true, Bool.not_false, Bool.or_false, Bool.and_true, Bool.false_eq_true]
        exact ⟨p1, fun _ => hp hv, p3⟩
      | false =>
        have e : upStep c ⟨seg, false, sb, true, mb⟩ i = ⟨seg, false, sb, true, mb⟩ := by simp [upStep, hr, hrd, hv]
        rw [e]
        exact ⟨p1, p2, p3⟩

end Corundum.AxisAdapter
