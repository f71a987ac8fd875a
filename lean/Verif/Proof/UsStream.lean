import Verif.Spec.UsStream
import Verif.Proof.AxisFrame
import Verif.Proof.UsTlp

namespace Corundum.UsStream
open Corundum.Pcie Corundum.AxisFrame

/-! ### Fields -/

theorem packLanes_eq (w : Nat) : ∀ (xs : List Nat) (i : Nat), (∀ x ∈ xs, x < 2 ^ w) → packLanes w i xs = valLE w xs <<< (i * w)
  | [], i, _ => by simp [packLanes, valLE]
  | x :: xs, i, h => by
    have hx := h x (by simp)
    rw [packLanes, packLanes_eq w xs (i + 1) (fun y hy => h y (by simp [hy])), valLE, Nat.add_mul, Nat.one_mul, Nat.add_comm (i * w) w,
      Nat.shiftLeft_add, ← Nat.shiftLeft_or_distrib, or_up hx, Nat.add_comm, Nat.mul_comm (valLE w xs)]

def unW (fs : List (Nat × Nat × Nat)) : List (Nat × Nat) := fs.map fun f => (f.1, f.2.1)

theorem orAll_clear (a b : Nat) : ∀ (fs : List (Nat × Nat × Nat)), (∀ f ∈ fs, f.1 < 2 ^ f.2.2) →
    (∀ f ∈ fs, f.2.1 + f.2.2 ≤ a ∨ b ≤ f.2.1) → ∀ j, a ≤ j → j < b → (orAll (unW fs)).testBit j = false
  | [], _, _, j, _, _ => by simp [unW, orAll]
  | (v, o, w) :: fs, h1, h2, j, ha, hb => by
    have ih := orAll_clear a b fs (fun f hf => h1 f (by simp [hf])) (fun f hf => h2 f (by simp [hf])) j ha hb
    have hv : v < 2 ^ w := h1 (v, o, w) (by simp)
    have hd : o + w ≤ a ∨ b ≤ o := h2 (v, o, w) (by simp)
    have e : orAll (unW ((v, o, w) :: fs)) = (v <<< o) ||| orAll (unW fs) := rfl
    rw [e, Nat.testBit_or, ih, Bool.or_false, Nat.testBit_shiftLeft]
    by_cases ho : o ≤ j
    · rw [Nat.testBit_lt_two_pow (Nat.lt_of_lt_of_le hv (Nat.pow_le_pow_right (by omega) (by omega)))]; simp
    · simp [ho]

theorem orAll_read : ∀ (fs : List (Nat × Nat × Nat)), (∀ f ∈ fs, f.1 < 2 ^ f.2.2) →
    fs.Pairwise (fun x y => x.2.1 + x.2.2 ≤ y.2.1 ∨ y.2.1 + y.2.2 ≤ x.2.1) → ∀ v o w, (v, o, w) ∈ fs →
    (orAll (unW fs) >>> o) &&& (2 ^ w - 1) = v
  | [], _, _, _, _, _, h => by simp at h
  | (v', o', w') :: fs, h1, h2, v, o, w, h => by
    rw [List.pairwise_cons] at h2
    have e : orAll (unW ((v', o', w') :: fs)) = (v' <<< o') ||| orAll (unW fs) := rfl
    rw [e, Nat.shiftRight_or_distrib, Nat.and_or_distrib_right]
    rcases List.mem_cons.mp h with h | h
    · injection h with e1 e2; injection e2 with e2 e3
      subst e1 e2 e3
      have hv : v < 2 ^ w := h1 (v, o, w) (by simp)
      have hz : (orAll (unW fs) >>> o) &&& (2 ^ w - 1) = 0 := by
        apply Nat.eq_of_testBit_eq
        intro j
        rw [Nat.testBit_and, Nat.testBit_shiftRight, Nat.testBit_two_pow_sub_one, Nat.zero_testBit]
        by_cases hj : j < w
        · rw [orAll_clear o (o + w) fs (fun f hf => h1 f (by simp [hf])) (fun f hf => ?_) (o + j) (by omega) (by omega)]
          · rfl
          · rcases h2.1 f hf with q | q
            · right; exact q
            · left; exact q
        · simp [hj]
      rw [hz, Nat.or_zero, Nat.shiftLeft_shiftRight, and_p, Nat.mod_eq_of_lt hv]
    · have ih := orAll_read fs (fun f hf => h1 f (by simp [hf])) h2.2 v o w h
      have hv : v' < 2 ^ w' := h1 (v', o', w') (by simp)
      rw [ih]
      have hz : ((v' <<< o') >>> o) &&& (2 ^ w - 1) = 0 := by
        have hd := h2.1 (v, o, w) h
        simp only at hd
        apply Nat.eq_of_testBit_eq
        intro j
        rw [Nat.testBit_and, Nat.testBit_shiftRight, Nat.testBit_two_pow_sub_one, Nat.zero_testBit, Nat.testBit_shiftLeft]
        by_cases hj : j < w
        · by_cases ho : o' ≤ o + j
          · rw [Nat.testBit_lt_two_pow (Nat.lt_of_lt_of_le hv (Nat.pow_le_pow_right (by omega) (by omega)))]; simp
          · simp [ho]
        · simp [hj]
      rw [hz, Nat.zero_or]

/-- fields of one beat with their widths -/
def fieldsW (L : Layout) (n : Nat) (first last : Bool) (f : Frame) (c : Nat) (be par : List Nat) : List (Nat × Nat × Nat) :=
  (match L.be with
    | some (a, b) => [(if first then f.firstBe &&& 0xf else 0, a, 4), (if first then f.lastBe &&& 0xf else 0, b, 4)]
    | none => []) ++
  (match L.sop with | some a => [(first.toNat, a, 1)] | none => []) ++
  [(f.discontinue.toNat, L.disc, 1)] ++
  L.seq.map (fun q => ((f.seqNum >>> q.1) &&& (2 ^ q.2.1 - 1), q.2.2, q.2.1)) ++
  (match L.byteEn with | some o => [(packLanes 4 0 be, o, 4 * n)] | none => []) ++
  [(packLanes 4 0 (par ++ List.replicate (n - c) 0xf), L.par, 4 * n)] ++
  (match L.eop with | some (a, b) => [(last.toNat, a, 1), (if last then (c - 1) &&& 0xf else 0, b, 4)] | none => [])

theorem tuser_fields (L : Layout) (n : Nat) (first last : Bool) (f : Frame) (c : Nat) (be par : List Nat) :
    tuser L n first last f c be par = orAll (unW (fieldsW L n first last f c be par)) := by
  unfold tuser fieldsW unW
  rcases L with ⟨_ | ⟨a, b⟩, _ | o, p, d, sq, _ | sp, _ | ⟨ea, eb⟩⟩ <;>
    simp only [List.map_append, List.map_cons, List.map_nil, List.map_map, Function.comp_def]

theorem fields_pairwise (L : Layout) (n : Nat) (hL : L.Ok n) (first last : Bool) (f : Frame) (c : Nat) (be par : List Nat) :
    (fieldsW L n first last f c be par).Pairwise (fun x y => x.2.1 + x.2.2 ≤ y.2.1 ∨ y.2.1 + y.2.2 ≤ x.2.1) := by
  have e : (fieldsW L n first last f c be par).map (fun x => (x.2.1, x.2.2)) = L.fields n := by
    unfold fieldsW Layout.fields
    rcases L with ⟨_ | ⟨a, b⟩, _ | o, p, d, sq, _ | sp, _ | ⟨ea, eb⟩⟩ <;>
      simp only [List.map_append, List.map_cons, List.map_nil, List.map_map, Function.comp_def]
  unfold Layout.Ok at hL
  rw [← e, List.pairwise_map] at hL
  exact hL

theorem mask4 (x : Nat) : x &&& 0xf < 2 ^ 4 := by rw [show x &&& 0xf = x % 16 from and_p _ 4]; omega

theorem bool_lt (b : Bool) : b.toNat < 2 ^ 1 := Bool.toNat_lt b

theorem par_lt {n c : Nat} {par : List Nat} (hc : c ≤ n) (hp : par.length = c) (hpar : ∀ x ∈ par, x < 16) :
    (∀ x ∈ par ++ List.replicate (n - c) 0xf, x < 2 ^ 4) ∧ (par ++ List.replicate (n - c) 0xf).length = n := by
  constructor
  · intro x hx
    rcases List.mem_append.mp hx with h | h
    · exact hpar x h
    · rw [List.mem_replicate] at h; rw [h.2]; decide
  · simp; omega

theorem fields_lt (L : Layout) (n : Nat) (first last : Bool) (f : Frame) (c : Nat) (be par : List Nat) (hc : c ≤ n)
    (hp : par.length = c) (hpar : ∀ x ∈ par, x < 16) (hb : L.byteEn.isSome = true → be.length ≤ n ∧ ∀ x ∈ be, x < 16) :
    ∀ x ∈ fieldsW L n first last f c be par, x.1 < 2 ^ x.2.2 := by
  obtain ⟨q1, q2⟩ := par_lt hc hp hpar
  intro x hx
  unfold fieldsW at hx
  simp only [List.mem_append] at hx
  rcases hx with (((((hx | hx) | hx) | hx) | hx) | hx) | hx
  · rcases hbe : L.be with _ | ⟨a, b⟩ <;> rw [hbe] at hx <;> simp only [List.mem_cons, List.not_mem_nil, or_false] at hx
    rcases hx with rfl | rfl <;> dsimp only <;> split <;> first | exact mask4 _ | decide
  · rcases hbe : L.sop with _ | a <;> rw [hbe] at hx <;> simp only [List.mem_cons, List.not_mem_nil, or_false] at hx
    subst hx; exact bool_lt _
  · simp only [List.mem_cons, List.not_mem_nil, or_false] at hx
    subst hx; exact bool_lt _
  · rw [List.mem_map] at hx
    obtain ⟨q, -, rfl⟩ := hx
    dsimp only
    rw [and_p]; exact Nat.mod_lt _ (Nat.two_pow_pos _)
  · rcases hbe : L.byteEn with _ | o <;> rw [hbe] at hx <;> simp only [List.mem_cons, List.not_mem_nil, or_false] at hx
    subst hx
    obtain ⟨h1, h2⟩ := hb (by rw [hbe]; rfl)
    dsimp only
    rw [packLanes_eq 4 _ _ h2, Nat.zero_mul, Nat.shiftLeft_zero, Nat.mul_comm]
    exact Nat.lt_of_lt_of_le (valLE_lt h2) (Nat.pow_le_pow_right (by omega) (by omega))
  · simp only [List.mem_cons, List.not_mem_nil, or_false] at hx
    subst hx
    dsimp only
    rw [packLanes_eq 4 _ _ q1, Nat.zero_mul, Nat.shiftLeft_zero, Nat.mul_comm]
    have := valLE_lt q1
    rw [q2] at this
    exact this
  · rcases hbe : L.eop with _ | ⟨a, b⟩ <;> rw [hbe] at hx <;> simp only [List.mem_cons, List.not_mem_nil, or_false] at hx
    rcases hx with rfl | rfl
    · exact bool_lt _
    · dsimp only; split <;> first | exact mask4 _ | decide

/-! ### Lanes -/

theorem readLanes_spec (n w o v : Nat) (xs ys : List Nat) (hw : 1 ≤ w) (hn : (xs ++ ys).length ≤ n) (hlt : ∀ x ∈ xs ++ ys, x < 2 ^ w)
    (hv : (v >>> o) &&& (2 ^ (w * n) - 1) = valLE w (xs ++ ys)) :
    readLanes n w o (2 ^ xs.length - 1) v = xs := by
  have hx : xs.length ≤ n := by rw [List.length_append] at hn; omega
  have e : ∀ i, i < n → (v >>> (i * w + o)) &&& (2 ^ w - 1) = (valLE w (xs ++ ys) >>> (i * w)) &&& (2 ^ w - 1) := by
    intro i hi
    rw [← hv]
    apply Nat.eq_of_testBit_eq
    intro j
    simp only [Nat.testBit_and, Nat.testBit_shiftRight, Nat.testBit_two_pow_sub_one]
    by_cases hj : j < w
    · have : i * w + j < w * n := by
        have : (i + 1) * w ≤ n * w := Nat.mul_le_mul_right _ hi
        rw [Nat.add_mul, Nat.one_mul] at this
        rw [Nat.mul_comm w n]; omega
      rw [decide_eq_true this, Bool.and_true, show i * w + o + j = o + (i * w + j) by omega]
    · simp [hj]
  unfold readLanes
  have e2 : (List.range n).filterMap (fun i => if (2 ^ xs.length - 1) &&& (1 <<< i) ≠ 0 then some ((v >>> (i * w + o)) &&& (2 ^ w - 1)) else none)
      = (List.range n).filterMap (fun i => if i < xs.length then some ((v >>> (i * w + o)) &&& (2 ^ w - 1)) else none) := by
    congr 1; funext i
    by_cases hi : i < xs.length
    · rw [if_pos ((keep_bit _ _).mpr hi), if_pos hi]
    · rw [if_neg (fun h => hi ((keep_bit _ _).mp h)), if_neg hi]
  rw [e2, filterMap_range xs.length _ n hx]
  have h3 := lanes w (xs ++ ys) hlt
  have h4 : (List.range xs.length).map (fun j => (valLE w (xs ++ ys) >>> (j * w)) &&& (2 ^ w - 1)) = xs := by
    have h5 := congrArg (List.take xs.length) h3
    rw [← List.map_take, List.take_range, List.length_append, Nat.min_eq_left (by omega), List.take_left] at h5
    exact h5
  rw [← h4, List.length_map, List.length_range]
  apply List.map_congr_left
  intro i hi
  rw [List.mem_range] at hi
  exact e i (by omega)

theorem keep_eq (c : Nat) : packLanes 1 0 (List.replicate c 1) = 2 ^ c - 1 := by
  rw [packLanes_eq 1 _ _ (by intro x hx; rw [List.mem_replicate] at hx; rw [hx.2]; decide), Nat.zero_mul, Nat.shiftLeft_zero]
  induction c with
  | zero => rfl
  | succ c ih =>
    rw [List.replicate_succ, valLE, ih, Nat.pow_succ]
    have := Nat.two_pow_pos c
    omega

/-! ### One beat -/

theorem rxBeat_spec (L : Layout) (n : Nat) (hL : L.Ok n) (first last : Bool) (f rf : Frame) (c : Nat) (xs be par : List Nat)
    (hc : c ≤ n) (hx : xs.length = c) (hxs : ∀ x ∈ xs, x < 2 ^ 32) (hp : par.length = c) (hpar : ∀ x ∈ par, x < 16)
    (hb : L.byteEn.isSome = true → be.length = c ∧ ∀ x ∈ be, x < 16) (hf : f.firstBe < 16) (hl : f.lastBe < 16) :
    rxBeat L n first rf (packLanes 32 0 xs) (packLanes 1 0 (List.replicate c 1)) (tuser L n first last f c be par) =
      { data := rf.data ++ xs
        byteEn := if L.byteEn.isSome then rf.byteEn ++ be else rf.byteEn
        parity := rf.parity ++ par
        firstBe := if L.be.isSome then (if first then f.firstBe else rf.firstBe) else rf.firstBe
        lastBe := if L.be.isSome then (if first then f.lastBe else rf.lastBe) else rf.lastBe
        discontinue := rf.discontinue || f.discontinue
        seqNum := if L.seq = [] then rf.seqNum else seqOf L f.seqNum } := by
  have hlt := fields_lt L n first last f c be par hc hp hpar (fun h => ⟨by have := (hb h).1; omega, (hb h).2⟩)
  have hpw := fields_pairwise L n hL first last f c be par
  have rd := orAll_read _ hlt hpw
  rw [← tuser_fields] at rd
  obtain ⟨q1, q2⟩ := par_lt hc hp hpar
  unfold rxBeat
  rw [keep_eq]
  have d1 : readLanes n 32 0 (2 ^ c - 1) (packLanes 32 0 xs) = xs := by
    rw [← hx]
    refine readLanes_spec n 32 0 _ xs [] (by decide) (by simp; omega) (by simpa using hxs) ?_
    rw [packLanes_eq 32 _ _ hxs, Nat.zero_mul, Nat.shiftLeft_zero, Nat.shiftRight_zero, List.append_nil, and_p]
    refine Nat.mod_eq_of_lt (Nat.lt_of_lt_of_le (valLE_lt hxs) (Nat.pow_le_pow_right (by omega) ?_))
    rw [Nat.mul_comm]; exact Nat.mul_le_mul_left _ (by omega)
  have d2 : readLanes n 4 L.par (2 ^ c - 1) (tuser L n first last f c be par) = par := by
    have := rd (packLanes 4 0 (par ++ List.replicate (n - c) 0xf)) L.par (4 * n) (by unfold fieldsW; simp)
    rw [packLanes_eq 4 _ _ q1, Nat.zero_mul, Nat.shiftLeft_zero] at this
    have r := readLanes_spec n 4 L.par (tuser L n first last f c be par) par (List.replicate (n - c) 0xf) (by decide) (by rw [q2]; omega) q1 this
    rw [hp] at r
    exact r
  have d3 : (tuser L n first last f c be par &&& (1 <<< L.disc) != 0) = f.discontinue := by
    have := rd f.discontinue.toNat L.disc 1 (by unfold fieldsW; simp)
    rw [and_p, Nat.shiftRight_eq_div_pow] at this
    rw [and_bit, Nat.testBit_eq_decide_div_mod_eq]
    rw [Nat.pow_one] at this
    rw [this]; cases f.discontinue <;> rfl
  have d4 : (match L.byteEn with | some o => rf.byteEn ++ readLanes n 4 o (2 ^ c - 1) (tuser L n first last f c be par) | none => rf.byteEn) =
      if L.byteEn.isSome then rf.byteEn ++ be else rf.byteEn := by
    rcases hbe : L.byteEn with _ | o
    · rfl
    · obtain ⟨b1, b2⟩ := hb (by rw [hbe]; rfl)
      have := rd (packLanes 4 0 be) o (4 * n) (by unfold fieldsW; rw [hbe]; simp)
      rw [packLanes_eq 4 _ _ b2, Nat.zero_mul, Nat.shiftLeft_zero] at this
      have r := readLanes_spec n 4 o (tuser L n first last f c be par) be [] (by decide) (by simp; omega) (by simpa using b2)
        (by rw [List.append_nil]; exact this)
      rw [b1] at r
      simp only [Option.isSome_some, if_true]
      rw [r]
  have hm : ∀ x : Nat, x < 16 → x &&& 0xf = x := fun x hx => by rw [show x &&& 0xf = x % 16 from and_p _ 4]; omega
  have d5 : (match L.be with | some (a, _) => if first then (tuser L n first last f c be par >>> a) &&& 0xf else rf.firstBe | none => rf.firstBe) =
      if L.be.isSome then (if first then f.firstBe else rf.firstBe) else rf.firstBe := by
    rcases hbe : L.be with _ | ⟨a, b⟩
    · rfl
    · have := rd (if first then f.firstBe &&& 0xf else 0) a 4 (by unfold fieldsW; rw [hbe]; simp)
      simp only [Option.isSome_some, if_true]
      cases first
      · rfl
      · simp only [if_true] at this ⊢
        rw [hm _ hf] at this
        exact this
  have d6 : (match L.be with | some (_, b) => if first then (tuser L n first last f c be par >>> b) &&& 0xf else rf.lastBe | none => rf.lastBe) =
      if L.be.isSome then (if first then f.lastBe else rf.lastBe) else rf.lastBe := by
    rcases hbe : L.be with _ | ⟨a, b⟩
    · rfl
    · have := rd (if first then f.lastBe &&& 0xf else 0) b 4 (by unfold fieldsW; rw [hbe]; simp)
      simp only [Option.isSome_some, if_true]
      cases first
      · rfl
      · simp only [if_true] at this ⊢
        rw [hm _ hl] at this
        exact this
  have d7 : ∀ (l : List (Nat × Nat × Nat)) (a : Nat), (∀ q ∈ l, q ∈ L.seq) →
      l.foldl (fun a q => a ||| (((tuser L n first last f c be par >>> q.2.2) &&& (2 ^ q.2.1 - 1)) <<< q.1)) a =
      l.foldl (fun a q => a ||| (((f.seqNum >>> q.1) &&& (2 ^ q.2.1 - 1)) <<< q.1)) a := by
    intro l
    induction l with
    | nil => intro a _; rfl
    | cons q l ih =>
      intro a h
      rw [List.foldl_cons, List.foldl_cons, ih _ (fun x hx => h x (by simp [hx]))]
      have hq := h q (by simp)
      rw [rd ((f.seqNum >>> q.1) &&& (2 ^ q.2.1 - 1)) q.2.2 q.2.1
        (by unfold fieldsW; simp only [List.mem_append, List.mem_map]; exact Or.inl (Or.inl (Or.inl (Or.inr ⟨q, hq, rfl⟩))))]
  have d8 : (match L.seq with
      | [] => rf.seqNum
      | l => l.foldl (fun a q => a ||| (((tuser L n first last f c be par >>> q.2.2) &&& (2 ^ q.2.1 - 1)) <<< q.1)) 0) =
      if L.seq = [] then rf.seqNum else seqOf L f.seqNum := by
    have h7 := d7 L.seq 0 (fun _ h => h)
    unfold seqOf
    rcases hs : L.seq with _ | ⟨q, l⟩
    · simp
    · rw [hs] at h7
      simp only [reduceCtorEq, if_false]
      exact h7
  rw [d1, d2, d3, Frame.mk.injEq]
  exact ⟨rfl, d4, rfl, d5, d6, rfl, d8⟩

/-! ### Source -/

/-- what the sink has after `p` double words of `f` -/
def upto (L : Layout) (f : Frame) (p : Nat) : Frame :=
  if p = 0 then {} else
  { data := f.data.take p, parity := f.parity.take p, discontinue := f.discontinue
    byteEn := if L.byteEn.isSome then f.byteEn.take p else []
    firstBe := if L.be.isSome then f.firstBe else 0
    lastBe := if L.be.isSome then f.lastBe else 0
    seqNum := seqOf L f.seqNum }

theorem upto_full (L : Layout) (f : Frame) (h : FrameOk L f) : upto L f f.data.length = carried L f := by
  have h0 : f.data.length ≠ 0 := by have := h.ne; intro e; exact this (List.length_eq_zero_iff.mp e)
  unfold upto carried
  rw [if_neg h0, List.take_length, ← h.plen, List.take_length, h.plen]
  by_cases hb : L.byteEn.isSome = true
  · rw [← h.blen hb, List.take_length]
  · rw [if_neg hb, if_neg hb]

/-- the source is about to send `f` from double word `q` on -/
structure Src (L : Layout) (s : Sys) (f : Frame) (q : Nat) : Prop where
  ok : FrameOk L f
  lt : q < f.data.length
  frame : s.frame = f
  data : s.data = f.data.drop q
  byteEn : L.byteEn.isSome = true → s.byteEn = f.byteEn.drop q
  par : s.par = f.parity.drop q
  first : s.first = decide (q = 0)

/-- the bus holds double words `p …` of `f` -/
structure Bus (L : Layout) (n : Nat) (s : Sys) (f : Frame) (p : Nat) : Prop where
  ok : FrameOk L f
  lt : p < f.data.length
  tdata : s.tdata = packLanes 32 0 ((f.data.drop p).take n)
  tkeep : s.tkeep = packLanes 1 0 (List.replicate (min n (f.data.length - p)) 1)
  tuser : s.tuser = UsStream.tuser L n (decide (p = 0)) (decide (f.data.length ≤ p + n)) f (min n (f.data.length - p))
    ((f.byteEn.drop p).take (min n (f.data.length - p))) ((f.parity.drop p).take (min n (f.data.length - p)))
  tlast : s.tlast = decide (f.data.length ≤ p + n)

theorem src_ne {L s f q} (h : Src L s f q) : s.data ≠ [] := by
  rw [h.data]; intro e
  have := congrArg List.length e
  rw [List.length_drop, List.length_nil] at this
  have := h.lt
  omega

theorem empty_drop (l : List Nat) (k : Nat) : (l.drop k).isEmpty = decide (l.length ≤ k) := by
  rw [Bool.eq_iff_iff, List.isEmpty_iff, decide_eq_true_iff, List.drop_eq_nil_iff]

/-- fields the source does not touch -/
def Same (s t : Sys) : Prop := t.rdy = s.rdy ∧ t.rframe = s.rframe ∧ t.rfirst = s.rfirst ∧ t.out = s.out

theorem emit_spec {L : Layout} {n : Nat} {ps : Bool} {s : Sys} {f : Frame} {q : Nat} (h : Src L s f q) (ha : s.active = false) :
    ∃ t, emit L n ps s = t ∧ Bus L n t f q ∧ t.tvalid = !ps ∧ t.active = true ∧ Same s t ∧ t.queue = s.queue ∧ t.error = s.error ∧
      ((q + n < f.data.length ∧ (1 ≤ n → Src L t f (q + n))) ∨ (f.data.length ≤ q + n ∧ t.data = [])) := by
  have hl : s.data.length = f.data.length - q := by rw [h.data, List.length_drop]
  have hcond : ¬((L.byteEn.isSome ∧ s.byteEn.length < min n s.data.length) ∨ s.par.length < min n s.data.length) := by
    rintro (⟨h1, h2⟩ | h2)
    · rw [h.byteEn h1, List.length_drop, h.ok.blen h1] at h2; omega
    · rw [h.par, List.length_drop, h.ok.plen] at h2; omega
  have hlt := h.lt
  refine ⟨_, rfl, ?_⟩
  unfold emit
  rw [if_pos ⟨src_ne h, ha⟩]
  simp only
  rw [if_neg hcond]
  refine ⟨⟨h.ok, h.lt, ?_, ?_, ?_, ?_⟩, rfl, rfl, ⟨rfl, rfl, rfl, rfl⟩, rfl, rfl, ?_⟩
  · simp only [h.data]
  · simp only [hl]
  · have hbe : ∀ c, L.byteEn.isSome = true → (s.byteEn.take c) = (f.byteEn.drop q).take c := fun c hb => by rw [h.byteEn hb]
    simp only [h.first, h.par, h.frame, h.data, List.length_drop, List.drop_drop, empty_drop]
    rcases hb : L.byteEn with _ | o
    · unfold UsStream.tuser; rw [hb]
    · rw [hbe _ (by rw [hb]; rfl)]
  · simp only [h.data, List.drop_drop, empty_drop]
  · by_cases hq : q + n < f.data.length
    · left
      refine ⟨hq, fun hn => ⟨h.ok, hq, h.frame, ?_, ?_, ?_, ?_⟩⟩
      · simp only [h.data, List.drop_drop]
      · intro hb
        simp only [hb, if_true, h.byteEn hb, hl, List.drop_drop]
        congr 1; omega
      · simp only [h.par, hl, List.drop_drop]
        congr 1; omega
      · simp only; rw [eq_comm, decide_eq_false_iff_not]; omega
    · right
      refine ⟨by omega, ?_⟩
      simp only [h.data, List.drop_drop, List.drop_eq_nil_iff]; omega

theorem emit_active (L n ps) (s : Sys) (h : s.active = true) : emit L n ps s = s := by
  unfold emit; rw [if_neg (by rw [h]; simp)]

theorem emit_nil (L n ps) (s : Sys) (h : s.data = []) : emit L n ps s = s := by
  unfold emit; rw [if_neg (by rw [h]; simp)]

theorem load_data (s : Sys) (h : s.data ≠ []) : load s = s := by
  unfold load; split
  · rename_i e _; exact absurd e h
  · rfl

theorem load_nil (s : Sys) (h : s.queue = []) : load s = s := by
  unfold load; split
  · rename_i e; rw [h] at e; simp at e
  · rfl

theorem load_cons (s : Sys) (f : Frame) (q : List Frame) (hd : s.data = []) (hq : s.queue = f :: q) :
    load s = { s with queue := q, frame := f, data := f.data, byteEn := f.byteEn, par := f.parity, first := true } := by
  unfold load; rw [hd, hq]

theorem src_load (L : Layout) (s : Sys) (f : Frame) (q : List Frame) (hf : FrameOk L f) :
    Src L { s with queue := q, frame := f, data := f.data, byteEn := f.byteEn, par := f.parity, first := true } f 0 :=
  ⟨hf, List.length_pos_iff.mpr hf.ne, rfl, rfl, fun _ => rfl, rfl, rfl⟩

/-! ### Invariant -/

/-- where the frames are: delivered, on the bus, being loaded, queued -/
structure Inv (L : Layout) (n : Nat) (s : Sys) (A : List Frame) : Prop where
  err : s.error = false
  qok : ∀ f ∈ s.queue, FrameOk L f
  va : s.tvalid = true → s.active = true ∧ s.rdy = true
  idle : s.active = false → s.data = [] ∧ s.rframe = {} ∧ s.rfirst = true ∧ A.map (carried L) = s.out ++ s.queue.map (carried L)
  act : s.active = true → ∃ f p, Bus L n s f p ∧ s.rframe = upto L f p ∧ s.rfirst = decide (p = 0) ∧
    ((p + n < f.data.length ∧ Src L s f (p + n) ∧ A.map (carried L) = s.out ++ carried L f :: s.queue.map (carried L)) ∨
     (f.data.length ≤ p + n ∧ s.data = [] ∧ A.map (carried L) = s.out ++ carried L f :: s.queue.map (carried L)) ∨
     (f.data.length ≤ p + n ∧ ∃ g, Src L s g 0 ∧ A.map (carried L) = s.out ++ carried L f :: carried L g :: s.queue.map (carried L)))

theorem rx_step {L : Layout} {n : Nat} (hL : L.Ok n) (hn : 1 ≤ n) {s : Sys} {f : Frame} {p : Nat} (h : Bus L n s f p)
    (hr : s.rframe = upto L f p) (hf : s.rfirst = decide (p = 0)) :
    rxBeat L n s.rfirst s.rframe s.tdata s.tkeep s.tuser = upto L f (min (p + n) f.data.length) ∧
      keepOk n s.rfirst s.tlast s.tkeep = true := by
  have hlt := h.lt
  have hok := h.ok
  constructor
  · rw [h.tdata, h.tkeep, h.tuser, hf, rxBeat_spec L n hL]
    · rw [hr]
      have e : min (p + n) f.data.length = p + min n (f.data.length - p) := by omega
      have e2 : (f.data.drop p).take n = (f.data.drop p).take (min n (f.data.length - p)) := by
        rw [← List.length_drop, ← List.take_eq_take_min]
      rw [e, e2]
      generalize hc : min n (f.data.length - p) = c
      have hpc : p + c ≠ 0 := by omega
      unfold upto
      rw [if_neg hpc]
      by_cases hp : p = 0
      · subst hp
        simp only [if_true, decide_true, List.drop_zero, Nat.zero_add, List.nil_append, Bool.false_or]
        congr 1
        split
        · rename_i hs; unfold seqOf; rw [hs]; rfl
        · rfl
      · rw [if_neg hp, decide_eq_false hp]
        simp only [Bool.or_self, ite_self, List.take_add, Bool.false_eq_true, if_false]
        congr 1
        · split <;> rfl
    · omega
    · rw [List.length_take, List.length_drop]
    · intro x hx; exact hok.data x (List.mem_of_mem_drop (List.mem_of_mem_take hx))
    · rw [List.length_take, List.length_drop, hok.plen]; omega
    · intro x hx; exact hok.par x (List.mem_of_mem_drop (List.mem_of_mem_take hx))
    · intro hb
      refine ⟨by rw [List.length_take, List.length_drop, hok.blen hb]; omega, ?_⟩
      intro x hx; exact hok.be hb x (List.mem_of_mem_drop (List.mem_of_mem_take hx))
    · exact hok.first
    · exact hok.last
  · rw [h.tkeep, keep_eq, h.tlast]
    refine keepOk_good _ _ (by omega) (by omega) ?_
    intro h2; rw [decide_eq_false_iff_not] at h2; omega

theorem src_congr {L s t f q} (h : Src L s f q) (h1 : t.frame = s.frame) (h2 : t.data = s.data) (h3 : t.byteEn = s.byteEn)
    (h4 : t.par = s.par) (h5 : t.first = s.first) : Src L t f q :=
  ⟨h.ok, h.lt, h1.trans h.frame, h2.trans h.data, fun hb => h3.trans (h.byteEn hb), h4.trans h.par, h5.trans h.first⟩

theorem bus_congr {L n s t f p} (h : Bus L n s f p) (h1 : t.tdata = s.tdata) (h2 : t.tkeep = s.tkeep) (h3 : t.tuser = s.tuser)
    (h4 : t.tlast = s.tlast) : Bus L n t f p :=
  ⟨h.ok, h.lt, h1.trans h.tdata, h2.trans h.tkeep, h3.trans h.tuser, h4.trans h.tlast⟩

theorem inv_init (L n) : Inv L n init [] := by
  refine ⟨rfl, by simp [init], by simp [init], fun _ => ⟨rfl, rfl, rfl, rfl⟩, by simp [init]⟩

theorem inv_send {L n s A} (h : Inv L n s A) (f : Frame) (hf : FrameOk L f) :
    Inv L n (step L n s (.send f)) (A ++ [f]) := by
  obtain ⟨err, qok, va, idle, act⟩ := h
  refine ⟨err, ?_, va, ?_, ?_⟩
  · intro g hg
    rcases List.mem_append.mp hg with h | h
    · exact qok g h
    · rw [List.mem_singleton] at h; rw [h]; exact hf
  · intro ha
    obtain ⟨h1, h2, h3, h4⟩ := idle ha
    refine ⟨h1, h2, h3, ?_⟩
    simp only [step, List.map_append, h4, List.append_assoc]
  · intro ha
    obtain ⟨g, p, h1, h2, h3, h4⟩ := act ha
    refine ⟨g, p, bus_congr h1 rfl rfl rfl rfl, h2, h3, ?_⟩
    rcases h4 with ⟨q1, q2, q3⟩ | ⟨q1, q2, q3⟩ | ⟨q1, g2, q2, q3⟩
    · left; exact ⟨q1, src_congr q2 rfl rfl rfl rfl rfl, by simp only [step, List.map_append, q3, List.append_assoc, List.cons_append]⟩
    · right; left; exact ⟨q1, q2, by simp only [step, List.map_append, q3, List.append_assoc, List.cons_append]⟩
    · right; right
      exact ⟨q1, g2, src_congr q2 rfl rfl rfl rfl rfl, by simp only [step, List.map_append, q3, List.append_assoc, List.cons_append]⟩

/-- what the source does from an inactive state: either idle, or it puts the next beat on the bus -/
theorem fetch {L : Layout} {n : Nat} (hn : 1 ≤ n) {ps : Bool} {s : Sys} (ha : s.active = false) (hv : s.tvalid = false)
    (hq : ∀ f ∈ s.queue, FrameOk L f) (hd : s.data = [] ∨ ∃ f q, Src L s f q) :
    ∃ t, emit L n ps (load s) = t ∧ Same s t ∧ t.error = s.error ∧
      ((s.data = [] ∧ s.queue = [] ∧ t.active = false ∧ t.tvalid = false ∧ t.data = [] ∧ t.queue = []) ∨
       ∃ f q, Bus L n t f q ∧ t.tvalid = (!ps) ∧ t.active = true ∧
        ((s.data = [] ∧ q = 0 ∧ s.queue = f :: t.queue) ∨ (Src L s f q ∧ s.queue = t.queue)) ∧
        ((q + n < f.data.length ∧ Src L t f (q + n)) ∨ (f.data.length ≤ q + n ∧ t.data = []))) := by
  refine ⟨_, rfl, ?_⟩
  rcases hd with hd | ⟨f, q, hs⟩
  · rcases hqq : s.queue with _ | ⟨f, r⟩
    · rw [load_nil s hqq, emit_nil _ _ _ _ hd]
      exact ⟨⟨rfl, rfl, rfl, rfl⟩, rfl, Or.inl ⟨hd, rfl, ha, hv, hd, hqq⟩⟩
    · have hf := hq f (by rw [hqq]; simp)
      rw [load_cons s f r hd hqq]
      obtain ⟨t, e1, e2, e3, e4, e5, e6, e7, e8⟩ := emit_spec (n := n) (ps := ps) (src_load L s f r hf) ha
      rw [e1]
      refine ⟨e5, e7, Or.inr ⟨f, 0, e2, e3, e4, Or.inl ⟨hd, rfl, by rw [e6]⟩, ?_⟩⟩
      rcases e8 with ⟨q1, q2⟩ | q1
      · exact Or.inl ⟨q1, q2 hn⟩
      · exact Or.inr q1
  · rw [load_data s (src_ne hs)]
    obtain ⟨t, e1, e2, e3, e4, e5, e6, e7, e8⟩ := emit_spec (n := n) (ps := ps) hs ha
    rw [e1]
    refine ⟨e5, e7, Or.inr ⟨f, q, e2, e3, e4, Or.inr ⟨hs, e6.symm⟩, ?_⟩⟩
    rcases e8 with ⟨q1, q2⟩ | q1
    · exact Or.inl ⟨q1, q2 hn⟩
    · exact Or.inr q1

theorem inv_clk {L : Layout} {n : Nat} {s : Sys} {A : List Frame} (hL : L.Ok n) (hn : 1 ≤ n) (h : Inv L n s A) (ps pk : Bool) :
    Inv L n (step L n s (.clk ps pk)) A := by
  obtain ⟨err, qok, va, idle, act⟩ := h
  show Inv L n (snkClk L n s (srcClk L n s (s.rdy && !pk) ps) pk) A
  cases ha : s.active with
  | false =>
    obtain ⟨i1, i2, i3, i4⟩ := idle ha
    have hv : s.tvalid = false := by
      cases hv : s.tvalid with
      | false => rfl
      | true => have := (va hv).1; rw [ha] at this; simp at this
    have e : srcClk L n s (s.rdy && !pk) ps = emit L n ps (load { s with tvalid := false }) := by
      unfold srcClk; rw [hv, ha]; simp
    obtain ⟨t, t1, ⟨t2, t3, t4, t5⟩, t6, t7⟩ := fetch (n := n) hn (ps := ps) (s := { s with tvalid := false }) ha rfl qok (Or.inl i1)
    rw [e, t1]
    have e2 : snkClk L n s t pk = { t with rdy := true } := by unfold snkClk; rw [hv]; rfl
    rw [e2]
    rcases t7 with ⟨q1, q2, q3, q4, q5, q6⟩ | ⟨f, q, b1, b2, b3, b4, b5⟩
    · refine ⟨t6.trans err, ?_, ?_, ?_, ?_⟩
      · intro f hf; rw [show ({ t with rdy := true } : Sys).queue = t.queue from rfl, q6] at hf; simp at hf
      · intro hh; rw [show ({ t with rdy := true } : Sys).tvalid = t.tvalid from rfl, q4] at hh; simp at hh
      · intro _
        refine ⟨q5, t3.trans i2, t4.trans i3, ?_⟩
        simp only [q6, t5, i4]
        rw [show s.queue = [] from q2]
      · intro hh; rw [show ({ t with rdy := true } : Sys).active = t.active from rfl, q3] at hh; simp at hh
    · rcases b4 with ⟨_, hq0, hqq⟩ | ⟨hs, _⟩
      · subst hq0
        replace hqq : s.queue = f :: t.queue := hqq
        refine ⟨t6.trans err, ?_, fun _ => ⟨b3, rfl⟩, ?_, ?_⟩
        · intro g hg; exact qok g (by rw [hqq]; exact List.mem_cons_of_mem _ hg)
        · intro hh; rw [show ({ t with rdy := true } : Sys).active = t.active from rfl, b3] at hh; simp at hh
        · intro _
          have hA : A.map (carried L) = t.out ++ carried L f :: t.queue.map (carried L) := by
            rw [i4, hqq, t5]; rfl
          refine ⟨f, 0, bus_congr b1 rfl rfl rfl rfl, ?_, ?_, ?_⟩
          · show t.rframe = _
            rw [t3]; show s.rframe = _; rw [i2]; rfl
          · show t.rfirst = _
            rw [t4]; show s.rfirst = _; rw [i3]; rfl
          · rcases b5 with ⟨c1, c2⟩ | ⟨c1, c2⟩
            · exact Or.inl ⟨c1, src_congr c2 rfl rfl rfl rfl rfl, hA⟩
            · exact Or.inr (Or.inl ⟨c1, c2, hA⟩)
      · exact (src_ne hs i1).elim
  | true =>
    obtain ⟨f, p, k1, k2, k3, k4⟩ := act ha
    by_cases hc : s.tvalid = true ∧ pk = false
    · -- the beat is taken
      obtain ⟨hv, hpk⟩ := hc
      subst hpk
      obtain ⟨r1, r2⟩ := rx_step hL hn k1 k2 k3
      have e : srcClk L n s (s.rdy && !false) ps = emit L n ps (load { s with tvalid := false, active := false }) := by
        unfold srcClk; rw [(va hv).2, hv]; rfl
      have hsrc : ({ s with tvalid := false, active := false } : Sys).data = [] ∨ ∃ f q, Src L { s with tvalid := false, active := false } f q := by
        rcases k4 with ⟨_, q2, _⟩ | ⟨_, q2, _⟩ | ⟨_, g, q2, _⟩
        · exact Or.inr ⟨_, _, src_congr q2 rfl rfl rfl rfl rfl⟩
        · exact Or.inl q2
        · exact Or.inr ⟨_, _, src_congr q2 rfl rfl rfl rfl rfl⟩
      obtain ⟨t, t1, ⟨t2, t3, t4, t5⟩, t6, t7⟩ := fetch (n := n) hn (ps := ps) (s := { s with tvalid := false, active := false }) rfl rfl qok hsrc
      rw [e, t1]
      have hlt := k1.lt
      rcases k4 with ⟨q1, q2, q3⟩ | hlast
      · -- not the last beat
        have hl : s.tlast = false := by rw [k1.tlast, decide_eq_false_iff_not]; omega
        have e2 : snkClk L n s t false = { t with rdy := true, rframe := upto L f (p + n), rfirst := false } := by
          unfold snkClk; rw [hv, r2, hl, r1, Nat.min_eq_left (by omega)]; rfl
        rw [e2]
        rcases t7 with ⟨z1, _⟩ | ⟨f', q', b1, b2, b3, b4, b5⟩
        · exact (src_ne q2 z1).elim
        · rcases b4 with ⟨z1, _⟩ | ⟨hs, hqq⟩
          · exact (src_ne q2 z1).elim
          · have hff : f' = f := by have := hs.frame; rw [← this]; exact q2.frame
            subst hff
            have hqe : q' = p + n := by
              have h1 : s.data = f'.data.drop q' := hs.data
              have h2 := q2.data
              rw [h1] at h2
              have h3 := congrArg List.length h2
              rw [List.length_drop, List.length_drop] at h3
              have := hs.lt
              omega
            subst hqe
            replace hqq : s.queue = t.queue := hqq
            refine ⟨t6.trans err, ?_, fun _ => ⟨b3, rfl⟩, ?_, ?_⟩
            · intro g hg; exact qok g (by rw [hqq]; exact hg)
            · intro hh
              rw [show ({ t with rdy := true, rframe := upto L f' (p + n), rfirst := false } : Sys).active = t.active from rfl, b3] at hh
              simp at hh
            · intro _
              have hA : A.map (carried L) = t.out ++ carried L f' :: t.queue.map (carried L) := by rw [q3, hqq, t5]
              refine ⟨f', p + n, bus_congr b1 rfl rfl rfl rfl, rfl, ?_, ?_⟩
              · show false = _
                rw [eq_comm, decide_eq_false_iff_not]; omega
              · rcases b5 with ⟨c1, c2⟩ | ⟨c1, c2⟩
                · exact Or.inl ⟨c1, src_congr c2 rfl rfl rfl rfl rfl, hA⟩
                · exact Or.inr (Or.inl ⟨c1, c2, hA⟩)
      · -- the last beat: the frame is delivered
        have hle : f.data.length ≤ p + n := by rcases hlast with ⟨q1, _⟩ | ⟨q1, _⟩ <;> exact q1
        have hl : s.tlast = true := by rw [k1.tlast, decide_eq_true_iff]; exact hle
        have e2 : snkClk L n s t false = { t with rdy := true, rframe := {}, rfirst := true, out := s.out ++ [carried L f] } := by
          unfold snkClk; rw [hv, r2, hl, r1, Nat.min_eq_right hle, upto_full L f k1.ok]; rfl
        rw [e2]
        rcases t7 with ⟨z1, z2, z3, z4, z5, z6⟩ | ⟨f', q', b1, b2, b3, b4, b5⟩
        · refine ⟨t6.trans err, ?_, ?_, ?_, ?_⟩
          · intro g hg
            replace hg : g ∈ t.queue := hg
            rw [z6] at hg; simp at hg
          · intro hh
            replace hh : t.tvalid = true := hh
            rw [z4] at hh; simp at hh
          · intro _
            refine ⟨z5, rfl, rfl, ?_⟩
            show _ = (s.out ++ [carried L f]) ++ t.queue.map (carried L)
            rw [z6]
            rcases hlast with ⟨_, _, q3⟩ | ⟨_, g, q2, _⟩
            · rw [q3, show s.queue = [] from z2]; simp
            · exact (src_ne q2 z1).elim
          · intro hh
            replace hh : t.active = true := hh
            rw [z3] at hh; simp at hh
        · have hA : q' = 0 ∧ (∀ g ∈ t.queue, FrameOk L g) ∧
              A.map (carried L) = (s.out ++ [carried L f]) ++ carried L f' :: t.queue.map (carried L) := by
            rcases b4 with ⟨z1, z2, z3⟩ | ⟨hs, hqq⟩
            · replace z3 : s.queue = f' :: t.queue := z3
              rcases hlast with ⟨_, _, q3⟩ | ⟨_, g, q2, _⟩
              · refine ⟨z2, fun g hg => qok g (by rw [z3]; exact List.mem_cons_of_mem _ hg), ?_⟩
                rw [q3, z3]; simp
              · exact (src_ne q2 z1).elim
            · replace hqq : s.queue = t.queue := hqq
              rcases hlast with ⟨_, q2, _⟩ | ⟨_, g, q2, q3⟩
              · exact (src_ne hs q2).elim
              · have hff : f' = g := by have := hs.frame; rw [← this]; exact q2.frame
                subst hff
                refine ⟨?_, fun g hg => qok g (by rw [hqq]; exact hg), ?_⟩
                · have h1 : s.data = f'.data.drop q' := hs.data
                  have h2 := q2.data
                  rw [h1] at h2
                  have h3 := congrArg List.length h2
                  rw [List.length_drop, List.length_drop] at h3
                  have := hs.lt
                  omega
                · rw [q3, hqq]; simp
          obtain ⟨hq0, hqok, hA⟩ := hA
          subst hq0
          refine ⟨t6.trans err, hqok, fun _ => ⟨b3, rfl⟩, ?_, ?_⟩
          · intro hh
            replace hh : t.active = false := hh
            rw [b3] at hh; simp at hh
          · intro _
            refine ⟨f', 0, bus_congr b1 rfl rfl rfl rfl, rfl, rfl, ?_⟩
            rcases b5 with ⟨c1, c2⟩ | ⟨c1, c2⟩
            · exact Or.inl ⟨c1, src_congr c2 rfl rfl rfl rfl rfl, hA⟩
            · exact Or.inr (Or.inl ⟨c1, c2, hA⟩)
    · -- the beat stays
      have hr : ((s.rdy && !pk) && s.tvalid) = false := by
        cases hv : s.tvalid
        · simp
        · cases hp : pk
          · exact absurd ⟨hv, hp⟩ hc
          · simp
      have hr2 : (s.tvalid && !pk) = false := by
        cases hv : s.tvalid
        · rfl
        · cases hp : pk
          · exact absurd ⟨hv, hp⟩ hc
          · rfl
      have e : srcClk L n s (s.rdy && !pk) ps = emit L n ps (load { s with tvalid := s.active && (s.tvalid || !ps) }) := by
        unfold srcClk; rw [hr]; rfl
      have e2 : ∀ t, snkClk L n s t pk = { t with rdy := true } := by intro t; unfold snkClk; rw [hr2]; rfl
      rw [e, e2]
      by_cases hd : s.data = [] ∧ s.queue ≠ []
      · obtain ⟨hd, hq⟩ := hd
        obtain ⟨g, r, hqq⟩ := List.exists_cons_of_ne_nil hq
        rw [load_cons { s with tvalid := s.active && (s.tvalid || !ps) } g r hd hqq,
          emit_active _ _ _ _ (by exact ha)]
        have hg : FrameOk L g := qok g (by rw [hqq]; simp)
        refine ⟨err, fun x hx => qok x (by rw [hqq]; exact List.mem_cons_of_mem _ hx), fun _ => ⟨ha, rfl⟩, ?_, ?_⟩
        · intro hh
          replace hh : s.active = false := hh
          rw [ha] at hh; simp at hh
        · intro _
          refine ⟨f, p, bus_congr k1 rfl rfl rfl rfl, k2, k3, ?_⟩
          rcases k4 with ⟨q1, q2, q3⟩ | ⟨q1, q2, q3⟩ | ⟨q1, g2, q2, q3⟩
          · exact (src_ne q2 hd).elim
          · refine Or.inr (Or.inr ⟨q1, g, src_congr (src_load L s g r hg) rfl rfl rfl rfl rfl, ?_⟩)
            rw [q3, hqq]; rfl
          · exact (src_ne q2 hd).elim
      · have hld : load { s with tvalid := s.active && (s.tvalid || !ps) } = { s with tvalid := s.active && (s.tvalid || !ps) } := by
          by_cases h0 : s.data = []
          · exact load_nil _ (by
              show s.queue = []
              cases hq : s.queue with
              | nil => rfl
              | cons a b => exact absurd ⟨h0, by rw [hq]; simp⟩ hd)
          · exact load_data _ h0
        rw [hld, emit_active _ _ _ { s with tvalid := s.active && (s.tvalid || !ps) } ha]
        refine ⟨err, qok, fun _ => ⟨ha, rfl⟩, ?_, ?_⟩
        · intro hh
          replace hh : s.active = false := hh
          rw [ha] at hh; simp at hh
        · intro _
          refine ⟨f, p, bus_congr k1 rfl rfl rfl rfl, k2, k3, ?_⟩
          rcases k4 with ⟨q1, q2, q3⟩ | ⟨q1, q2, q3⟩ | ⟨q1, g2, q2, q3⟩
          · exact Or.inl ⟨q1, src_congr q2 rfl rfl rfl rfl rfl, q3⟩
          · exact Or.inr (Or.inl ⟨q1, q2, q3⟩)
          · exact Or.inr (Or.inr ⟨q1, g2, src_congr q2 rfl rfl rfl rfl rfl, q3⟩)

/-! ### Runs -/

theorem inv_run {L : Layout} {n : Nat} (hL : L.Ok n) (hn : 1 ≤ n) (ops : List Op) :
    ∀ (s : Sys) (A : List Frame), Inv L n s A → (∀ f ∈ sent ops, FrameOk L f) → Inv L n (run L n s ops) (A ++ sent ops) := by
  induction ops with
  | nil => intro s A h _; simpa [sent, run] using h
  | cons o ops ih =>
    intro s A h hf
    show Inv L n (run L n (step L n s o) ops) _
    cases o with
    | send f =>
      have := ih _ _ (inv_send h f (hf f (by simp [sent]))) (fun g hg => hf g (by simp [sent, hg]))
      simpa [sent, List.append_assoc] using this
    | clk ps pk => exact ih _ _ (inv_clk hL hn h ps pk) hf

theorem inv_prefix {L : Layout} {n : Nat} {s : Sys} {A : List Frame} (h : Inv L n s A) : s.out <+: A.map (carried L) := by
  cases ha : s.active with
  | false => rw [(h.idle ha).2.2.2]; exact List.prefix_append _ _
  | true =>
    obtain ⟨f, p, _, _, _, h4⟩ := h.act ha
    rcases h4 with ⟨_, _, q⟩ | ⟨_, _, q⟩ | ⟨_, g, _, q⟩ <;> rw [q] <;> exact List.prefix_append _ _

/-! ### Progress -/

/-- dwords not yet on the bus -/
def left (s : Sys) : Nat := s.data.length + (s.queue.map fun f => f.data.length).sum

/-- clock cycles without pause still needed, at most -/
def mu (s : Sys) : Nat := 2 * left s + (if s.active then (if s.tvalid then 1 else 2) else 0)

theorem fetch_mu {L : Layout} {n : Nat} (hn : 1 ≤ n) {ps : Bool} {s : Sys} (ha : s.active = false) (hv : s.tvalid = false)
    (hq : ∀ f ∈ s.queue, FrameOk L f) (hd : s.data = [] ∨ ∃ f q, Src L s f q) :
    (left (emit L n ps (load s)) + 1 ≤ left s ∧ (emit L n ps (load s)).active = true ∧ (emit L n ps (load s)).tvalid = (!ps)) ∨
    (left s = 0 ∧ left (emit L n ps (load s)) = 0 ∧ (emit L n ps (load s)).active = false) := by
  obtain ⟨t, t1, _, _, t7⟩ := fetch (n := n) hn (ps := ps) ha hv hq hd
  rw [t1]
  rcases t7 with ⟨z1, z2, z3, z4, z5, z6⟩ | ⟨f, q, b1, b2, b3, b4, b5⟩
  · right; unfold left; rw [z1, z2, z5, z6]; exact ⟨rfl, rfl, z3⟩
  · left
    refine ⟨?_, b3, b2⟩
    have hl := b1.lt
    have htd : t.data.length + 1 ≤ f.data.length - q := by
      rcases b5 with ⟨c1, c2⟩ | ⟨c1, c2⟩
      · rw [c2.data, List.length_drop]; omega
      · rw [c2]; simp; omega
    unfold left
    rcases b4 with ⟨z1, z2, z3⟩ | ⟨hs, z3⟩
    · rw [z1, z3]; simp only [List.map_cons, List.sum_cons, List.length_nil]; omega
    · rw [z3, hs.data, List.length_drop]; omega

theorem load_left (s : Sys) : left (load s) = left s := by
  unfold load
  split
  · rename_i h1 h2; unfold left; rw [h1, h2]; simp
  · rfl

theorem mu_clk {L : Layout} {n : Nat} {s : Sys} {A : List Frame} (hn : 1 ≤ n) (h : Inv L n s A) (ps pk : Bool) :
    mu (step L n s (.clk ps pk)) ≤ mu s ∧ (ps = false → pk = false → mu s = 0 ∨ mu (step L n s (.clk ps pk)) < mu s) := by
  obtain ⟨err, qok, va, idle, act⟩ := h
  have hs : ∀ t, mu (snkClk L n s t pk) = mu t := by
    intro t; unfold snkClk
    split
    · dsimp only
      split <;> split <;> rfl
    · rfl
  show mu (snkClk L n s (srcClk L n s (s.rdy && !pk) ps) pk) ≤ mu s ∧ (ps = false → pk = false → mu s = 0 ∨ mu (snkClk L n s (srcClk L n s (s.rdy && !pk) ps) pk) < mu s)
  rw [hs]
  cases ha : s.active with
  | false =>
    obtain ⟨i1, i2, i3, i4⟩ := idle ha
    have hv : s.tvalid = false := by
      cases hv : s.tvalid with
      | false => rfl
      | true => have := (va hv).1; rw [ha] at this; simp at this
    have e : srcClk L n s (s.rdy && !pk) ps = emit L n ps (load { s with tvalid := false }) := by
      unfold srcClk; rw [hv, ha]; simp
    rw [e]
    have hm : mu s = 2 * left s := by unfold mu; rw [ha]; simp
    have hl : left { s with tvalid := false } = left s := rfl
    rcases fetch_mu (n := n) hn (ps := ps) (s := { s with tvalid := false }) ha rfl qok (Or.inl i1) with ⟨a1, a2, a3⟩ | ⟨a1, a2, a3⟩
    · rw [hl] at a1
      have : mu (emit L n ps (load { s with tvalid := false })) ≤ 2 * left (emit L n ps (load { s with tvalid := false })) + (if ps then 2 else 1) := by
        unfold mu; rw [a2, a3]; cases ps <;> simp
      cases ps <;> simp only [Bool.false_eq_true, if_true, if_false, false_imp_iff, and_true, true_imp_iff, reduceCtorEq] at * <;> omega
    · rw [hl] at a1
      have : mu (emit L n ps (load { s with tvalid := false })) = 0 := by unfold mu; rw [a2, a3]; rfl
      omega
  | true =>
    obtain ⟨f, p, k1, k2, k3, k4⟩ := act ha
    by_cases hc : s.tvalid = true ∧ pk = false
    · obtain ⟨hv, hpk⟩ := hc
      subst hpk
      have e : srcClk L n s (s.rdy && !false) ps = emit L n ps (load { s with tvalid := false, active := false }) := by
        unfold srcClk; rw [(va hv).2, hv]; rfl
      rw [e]
      have hsrc : ({ s with tvalid := false, active := false } : Sys).data = [] ∨ ∃ f q, Src L { s with tvalid := false, active := false } f q := by
        rcases k4 with ⟨_, q2, _⟩ | ⟨_, q2, _⟩ | ⟨_, g, q2, _⟩
        · exact Or.inr ⟨_, _, src_congr q2 rfl rfl rfl rfl rfl⟩
        · exact Or.inl q2
        · exact Or.inr ⟨_, _, src_congr q2 rfl rfl rfl rfl rfl⟩
      have hm : mu s = 2 * left s + 1 := by unfold mu; rw [ha, hv]; simp
      have hl : left { s with tvalid := false, active := false } = left s := rfl
      rcases fetch_mu (n := n) hn (ps := ps) (s := { s with tvalid := false, active := false }) rfl rfl qok hsrc with ⟨a1, a2, a3⟩ | ⟨a1, a2, a3⟩
      · rw [hl] at a1
        have : mu (emit L n ps (load { s with tvalid := false, active := false })) ≤ 2 * left (emit L n ps (load { s with tvalid := false, active := false })) + 2 := by
          unfold mu; rw [a2, a3]; cases ps <;> simp
        omega
      · have : mu (emit L n ps (load { s with tvalid := false, active := false })) = 0 := by unfold mu; rw [a2, a3]; rfl
        omega
    · have hr : ((s.rdy && !pk) && s.tvalid) = false := by
        cases hv : s.tvalid
        · simp
        · cases hp : pk
          · exact absurd ⟨hv, hp⟩ hc
          · simp
      have e : srcClk L n s (s.rdy && !pk) ps = load { s with tvalid := s.active && (s.tvalid || !ps) } := by
        unfold srcClk; rw [hr]
        refine emit_active _ _ _ _ ?_
        simp only [Bool.false_eq_true, if_false]
        unfold load; split <;> exact ha
      rw [e]
      have hl : left (load { s with tvalid := s.active && (s.tvalid || !ps) }) = left s := load_left _
      have hact : (load { s with tvalid := s.active && (s.tvalid || !ps) }).active = true := by unfold load; split <;> exact ha
      have htv : (load { s with tvalid := s.active && (s.tvalid || !ps) }).tvalid = (s.tvalid || !ps) := by
        unfold load; split <;> simp [ha]
      have hmu : mu (load { s with tvalid := s.active && (s.tvalid || !ps) }) = 2 * left s + (if (s.tvalid || !ps) then 1 else 2) := by
        unfold mu; rw [hl, hact, htv]; simp
      have hm : mu s = 2 * left s + (if s.tvalid then 1 else 2) := by unfold mu; rw [ha]; simp
      rw [hmu, hm]
      cases hv : s.tvalid
      · cases ps <;> simp
      · cases pk
        · exact absurd ⟨hv, rfl⟩ hc
        · simp

theorem mu_zero {L : Layout} {n : Nat} {s : Sys} {A : List Frame} (h : Inv L n s A) (hm : mu s = 0) : s.out = A.map (carried L) := by
  have ha : s.active = false := by
    cases ha : s.active with
    | false => rfl
    | true =>
      exfalso; unfold mu at hm; rw [ha] at hm
      cases hv : s.tvalid <;> rw [hv] at hm <;> simp at hm
  have hl : left s = 0 := by unfold mu at hm; omega
  have hq : s.queue = [] := by
    cases hq : s.queue with
    | nil => rfl
    | cons f q =>
      exfalso
      have := List.length_pos_iff.mpr (h.qok f (by rw [hq]; simp)).ne
      unfold left at hl; rw [hq, List.map_cons, List.sum_cons] at hl
      omega
  rw [(h.idle ha).2.2.2, hq]; simp

theorem drain {L : Layout} {n : Nat} (hL : L.Ok n) (hn : 1 ≤ n) {A : List Frame} (l : List (Bool × Bool)) :
    ∀ (s : Sys), Inv L n s A → mu s ≤ free l → (run L n s (l.map fun b => .clk b.1 b.2)).out = A.map (carried L) := by
  induction l with
  | nil => intro s h hm; exact mu_zero h (Nat.le_zero.mp hm)
  | cons b l ih =>
    intro s h hm
    obtain ⟨ps, pk⟩ := b
    show (run L n (step L n s (.clk ps pk)) (l.map fun b => .clk b.1 b.2)).out = _
    apply ih _ (inv_clk hL hn h ps pk)
    obtain ⟨m1, m2⟩ := mu_clk hn h ps pk
    cases ps <;> cases pk <;> simp [free] at hm ⊢ <;> try omega
    rcases m2 rfl rfl with h0 | h1 <;> omega

theorem send_mu (L : Layout) (n : Nat) (s : Sys) (f : Frame) : mu (step L n s (.send f)) = mu s + 2 * f.data.length := by
  show 2 * (s.data.length + ((s.queue ++ [f]).map fun f => f.data.length).sum) + (if s.active then (if s.tvalid then 1 else 2) else 0) = _
  unfold mu left
  rw [List.map_append, List.sum_append, List.map_singleton, List.sum_singleton]; omega

theorem run_mu {L : Layout} {n : Nat} (hL : L.Ok n) (hn : 1 ≤ n) (ops : List Op) :
    ∀ (s : Sys) (A : List Frame), Inv L n s A → (∀ f ∈ sent ops, FrameOk L f) →
    mu (run L n s ops) ≤ mu s + 2 * ((sent ops).map fun f => f.data.length).sum := by
  induction ops with
  | nil => intro s A _ _; simp [sent, run]
  | cons o ops ih =>
    intro s A h hf
    show mu (run L n (step L n s o) ops) ≤ _
    cases o with
    | send f =>
      have := ih _ _ (inv_send h f (hf f (by simp [sent]))) (fun g hg => hf g (by simp [sent, hg]))
      rw [send_mu] at this
      simp only [sent, List.map_cons, List.sum_cons]; omega
    | clk ps pk =>
      have := ih _ _ (inv_clk hL hn h ps pk) hf
      have := (mu_clk hn h ps pk).1
      simp only [sent]; omega

/-! ### The nine layouts -/

theorem layout_ok {L : Layout} {n : Nat} (h : Fits L n) : L.Ok n := by
  obtain ⟨hL, hn⟩ | ⟨hL, hn⟩ := h <;> simp only [List.mem_cons, List.not_mem_nil, or_false] at hL
  · rcases hL with rfl | rfl | rfl | rfl <;>
      simp [Layout.Ok, Layout.fields, cq512, cc512, rq512, rc512] <;> omega
  · rcases hL with rfl | rfl | rfl | rfl | rfl <;>
      simp [Layout.Ok, Layout.fields, cq256, cc256, rq256, rq256s, rc256] <;> omega

theorem seq_none (L : Layout) (h : L.seq = []) (v : Nat) : seqOf L v = 0 := by unfold seqOf; rw [h]; rfl

theorem seq_512 (v : Nat) : seqOf rq512 v = v % 64 := by
  show 0 ||| (((v >>> 0) &&& (2 ^ 6 - 1)) <<< 0) = _
  rw [and_p, Nat.zero_or]; rfl

theorem seq_256s (v : Nat) : seqOf rq256s v = v % 16 := by
  show 0 ||| (((v >>> 0) &&& (2 ^ 4 - 1)) <<< 0) = _
  rw [and_p, Nat.zero_or]; rfl

theorem seq_256 (v : Nat) : seqOf rq256 v = v % 64 := by
  show (0 ||| (((v >>> 0) &&& (2 ^ 4 - 1)) <<< 0)) ||| (((v >>> 4) &&& (2 ^ 2 - 1)) <<< 4) = _
  rw [and_p, and_p, Nat.zero_or, Nat.shiftLeft_zero, Nat.shiftRight_zero, or_up (k := 4) (Nat.mod_lt _ (by decide)), Nat.shiftRight_eq_div_pow]
  omega

/-! ### Frames made by the pack functions -/

theorem parity_lt (d : Nat) : dwordParity d ^^^ 0xf < 16 := by
  apply Nat.xor_lt_two_pow (n := 4) _ (by decide)
  apply Nat.lt_pow_two_of_testBit
  intro i hi
  exact parity_high d i hi

theorem update_plen (f : Frame) : f.updateParity.parity.length = f.updateParity.data.length := by simp [Frame.updateParity]

theorem update_par (f : Frame) : ∀ x ∈ f.updateParity.parity, x < 16 := by
  intro x hx
  obtain ⟨d, _, rfl⟩ := List.mem_map.mp hx
  exact parity_lt d

theorem fld (x w k : Nat) (h : w + k ≤ 32) : (x &&& (2 ^ w - 1)) <<< k < 2 ^ 32 := by
  rw [and_p, Nat.shiftLeft_eq]
  have h1 := Nat.mod_lt x (Nat.two_pow_pos w)
  calc x % 2 ^ w * 2 ^ k < 2 ^ w * 2 ^ k := Nat.mul_lt_mul_of_pos_right h1 (Nat.two_pow_pos k)
    _ = 2 ^ (w + k) := (Nat.pow_add ..).symm
    _ ≤ 2 ^ 32 := Nat.pow_le_pow_right (by decide) h

theorem sh_lt (x w k : Nat) (hx : x < 2 ^ w) (h : w + k ≤ 32) : x <<< k < 2 ^ 32 := by
  rw [← Nat.mod_eq_of_lt hx, ← and_p]; exact fld x w k h

theorem flag_lt (b : Bool) (k : Nat) (h : k < 32) : flag b k < 2 ^ 32 := by
  unfold flag; split
  · exact sh_lt 1 1 k (by decide) (by omega)
  · decide

theorem w0_lt (t a : Nat) : (t &&& 3) ||| (a &&& 0xfffffffc) < 2 ^ 32 :=
  Nat.or_lt_two_pow (fld t 2 0 (by decide)) (Nat.and_lt_two_pow _ (by decide))

theorem w1_lt (a : Nat) : (a &&& 0xffffffff00000000) >>> 32 < 2 ^ 32 := by rw [addr_hi]; exact Nat.mod_lt _ (by decide)

theorem w2_lt (l r : Nat) (i : Id) (hr : r < 32) : (l &&& 0x7ff) ||| (r <<< 11) ||| (i.toInt <<< 16) < 2 ^ 32 :=
  Nat.or_lt_two_pow (Nat.or_lt_two_pow (fld l 11 0 (by decide)) (sh_lt r 5 11 hr (by decide))) (sh_lt _ 16 16 (id_lt i) (by decide))

theorem req_lt (t : Tlp) : reqType t < 32 := by
  unfold reqType; repeat' split
  all_goals decide

theorem be_mem (a b n x : Nat) (ha : a < 16) (hb : b < 16) (h : x ∈ byteEnables a b n) : x < 16 := by
  unfold byteEnables at h
  rcases List.mem_append.mp h with h | h
  · rcases List.mem_append.mp h with h | h
    · split at h
      · rw [List.mem_singleton] at h; omega
      · simp at h
    · split at h
      · have := List.eq_of_mem_replicate h; omega
      · simp at h
  · split at h
    · rw [List.mem_singleton] at h; omega
    · simp at h

theorem be_len (a b n : Nat) : (byteEnables a b n).length = n := by
  unfold byteEnables
  rw [List.length_append, List.length_append]
  repeat' split
  all_goals simp
  all_goals omega

theorem cpl_be (t : Tlp) : (cplByteEnables t).length = t.data.length ∧ ∀ x ∈ cplByteEnables t, x < 16 := by
  unfold cplByteEnables
  dsimp only
  have h1 : (0xf <<< (t.lowerAddress &&& 3)) &&& 0xf < 16 := Nat.and_lt_two_pow (n := 4) _ (by decide)
  have h2 : (if t.byteCount + (t.lowerAddress &&& 3) > t.length * 4 then 0xf
    else 0xf >>> ((4 - (t.byteCount : Int) - t.lowerAddress) % 4).toNat) < 16 := by
    split
    · decide
    · exact Nat.lt_of_le_of_lt (Nat.shiftRight_le _ _) (by decide)
  split
  · rename_i h
    refine ⟨by rw [be_len, h], fun x hx => be_mem _ _ _ x ?_ (by decide) hx⟩
    exact Nat.and_lt_two_pow (n := 4) _ h2
  · exact ⟨be_len _ _ _, fun x hx => be_mem _ _ _ x h1 h2 hx⟩

theorem cq_ok {L : Layout} {t : UsTlp} {f : Frame} (h : packCq t = some f) (hd : ∀ x ∈ t.data, x < 2 ^ 32) (h1 : t.firstBe < 16)
    (h2 : t.lastBe < 16) : FrameOk L f := by
  unfold packCq at h
  split at h
  · rw [Option.some.injEq] at h; subst h
    refine ⟨by simp [Frame.updateParity], ?_, update_plen _, update_par _, ?_, ?_, h1, h2⟩
    · intro x hx
      replace hx : x ∈ [_, _, _, _] ++ t.data := hx
      rcases List.mem_append.mp hx with hx | hx
      · simp only [List.mem_cons, List.not_mem_nil, or_false] at hx
        rcases hx with rfl | rfl | rfl | rfl
        · exact w0_lt _ _
        · exact w1_lt _
        · exact w2_lt _ _ _ (req_lt _)
        · exact Nat.or_lt_two_pow (Nat.or_lt_two_pow (Nat.or_lt_two_pow (Nat.or_lt_two_pow (Nat.or_lt_two_pow (fld _ 8 0 (by decide))
            (fld _ 8 8 (by decide))) (fld _ 3 16 (by decide))) (fld _ 6 19 (by decide))) (fld _ 3 25 (by decide))) (fld _ 3 28 (by decide))
      · exact hd x hx
    · intro _; simp [Frame.updateParity, be_len]
    · intro _ x hx
      replace hx : x ∈ [0, 0, 0, 0] ++ byteEnables t.firstBe t.lastBe t.data.length := hx
      rcases List.mem_append.mp hx with hx | hx
      · simp at hx; omega
      · exact be_mem _ _ _ x h1 h2 hx
  · simp at h

theorem rq_ok {L : Layout} (hL : L.byteEn = none) {t : UsTlp} {f : Frame} (h : packRq t = some f) (hd : ∀ x ∈ t.data, x < 2 ^ 32)
    (h1 : t.firstBe < 16) (h2 : t.lastBe < 16) : FrameOk L f := by
  unfold packRq at h
  split at h
  · rw [Option.some.injEq] at h; subst h
    refine ⟨by simp [Frame.updateParity], ?_, update_plen _, update_par _, by rw [hL]; simp, by rw [hL]; simp, h1, h2⟩
    intro x hx
    replace hx : x ∈ (_ ++ [_, _]) ++ t.data := hx
    rcases List.mem_append.mp hx with hx | hx
    · rcases List.mem_append.mp hx with hx | hx
      · split at hx <;> simp only [List.mem_cons, List.not_mem_nil, or_false] at hx
        · rcases hx with rfl | rfl
          · exact w0_lt _ _
          · exact w1_lt _
        · rcases hx with rfl | rfl
          · exact fld _ 10 2 (by decide)
          · decide
      · simp only [List.mem_cons, List.not_mem_nil, or_false] at hx
        rcases hx with rfl | rfl
        · exact w2_lt _ _ _ (req_lt _)
        · exact Nat.or_lt_two_pow (Nat.or_lt_two_pow (Nat.or_lt_two_pow (Nat.or_lt_two_pow (fld _ 8 0 (by decide))
            (sh_lt _ 16 8 (id_lt _) (by decide))) (flag_lt _ 24 (by decide))) (fld _ 3 25 (by decide))) (fld _ 3 28 (by decide))
    · exact hd x hx
  · simp at h

theorem cc_ok {L : Layout} (hL : L.byteEn = none) {t : UsTlp} {f : Frame} (h : packCc t = some f) (hd : ∀ x ∈ t.data, x < 2 ^ 32) :
    FrameOk L f := by
  unfold packCc at h
  split at h
  · rw [Option.some.injEq] at h; subst h
    refine ⟨by simp [Frame.updateParity], ?_, update_plen _, update_par _, by rw [hL]; simp, by rw [hL]; simp, show 0 < 16 by decide, show 0 < 16 by decide⟩
    intro x hx
    replace hx : x ∈ [_, _, _] ++ t.data := hx
    rcases List.mem_append.mp hx with hx | hx
    · simp only [List.mem_cons, List.not_mem_nil, or_false] at hx
      rcases hx with rfl | rfl | rfl
      · exact Nat.or_lt_two_pow (Nat.or_lt_two_pow (Nat.or_lt_two_pow (fld _ 7 0 (by decide)) (fld _ 2 8 (by decide)))
          (fld _ 13 16 (by decide))) (flag_lt _ 29 (by decide))
      · exact w2_lt _ _ _ (status_lt _)
      · exact Nat.or_lt_two_pow (Nat.or_lt_two_pow (Nat.or_lt_two_pow (Nat.or_lt_two_pow (fld _ 8 0 (by decide))
          (sh_lt _ 16 8 (id_lt _) (by decide))) (flag_lt _ 24 (by decide))) (fld _ 3 25 (by decide))) (fld _ 3 28 (by decide))
    · exact hd x hx
  · simp at h

theorem rc_ok {L : Layout} {t : UsTlp} {f : Frame} (h : packRc t = some f) (hd : ∀ x ∈ t.data, x < 2 ^ 32) : FrameOk L f := by
  unfold packRc at h
  split at h
  · rw [Option.some.injEq] at h; subst h
    refine ⟨by simp [Frame.updateParity], ?_, update_plen _, update_par _, ?_, ?_, show 0 < 16 by decide, show 0 < 16 by decide⟩
    · intro x hx
      replace hx : x ∈ [_, _, _] ++ t.data := hx
      rcases List.mem_append.mp hx with hx | hx
      · simp only [List.mem_cons, List.not_mem_nil, or_false] at hx
        rcases hx with rfl | rfl | rfl
        · exact Nat.or_lt_two_pow (Nat.or_lt_two_pow (Nat.or_lt_two_pow (fld _ 12 0 (by decide)) (fld _ 4 12 (by decide)))
            (fld _ 13 16 (by decide))) (flag_lt _ 29 (by decide))
        · exact w2_lt _ _ _ (status_lt _)
        · exact Nat.or_lt_two_pow (Nat.or_lt_two_pow (Nat.or_lt_two_pow (fld _ 8 0 (by decide))
            (sh_lt _ 16 8 (id_lt _) (by decide))) (fld _ 3 25 (by decide))) (fld _ 3 28 (by decide))
      · exact hd x hx
    · intro _
      show ([0, 0, 0] ++ cplByteEnables t.toTlp).length = ([_, _, _] ++ t.data).length
      rw [List.length_append, List.length_append, (cpl_be _).1]; rfl
    · intro _ x hx
      replace hx : x ∈ [0, 0, 0] ++ cplByteEnables t.toTlp := hx
      rcases List.mem_append.mp hx with hx | hx
      · simp at hx; omega
      · exact (cpl_be _).2 x hx
  · simp at h

/-- runs end to end: what the unpack function makes of the frames delivered -/
theorem through {L : Layout} {n : Nat} (hf : Fits L n) (hn : 1 ≤ n) {pack : UsTlp → Option Frame} {un : Frame → Option UsTlp}
    {view : UsTlp → UsTlp} (ts : List UsTlp) (ops : List Op) (hs : ts.map pack = (sent ops).map some)
    (hp : ∀ t ∈ ts, ∀ f, pack t = some f → FrameOk L f ∧ un (carried L f) = some (view t)) (l : List (Bool × Bool))
    (hl : 2 * ((sent ops).map fun f => f.data.length).sum ≤ free l) :
    ((run L n init (ops ++ l.map fun b => .clk b.1 b.2)).out).map un = ts.map fun t => some (view t) := by
  have hok : ∀ f ∈ sent ops, FrameOk L f := by
    intro f hf
    have : some f ∈ ts.map pack := by rw [hs]; exact List.mem_map_of_mem hf
    obtain ⟨t, ht, e⟩ := List.mem_map.mp this
    exact (hp t ht f e).1
  have h := inv_run (layout_ok hf) hn ops init [] (inv_init L n) hok
  have hm := run_mu (layout_ok hf) hn ops init [] (inv_init L n) hok
  have h0 : mu init = 0 := rfl
  have := drain (layout_ok hf) hn l _ h (by omega)
  rw [show run L n init (ops ++ l.map fun b => .clk b.1 b.2) = run L n (run L n init ops) (l.map fun b => .clk b.1 b.2) from
    List.foldl_append, this, List.nil_append, List.map_map]
  clear this hm h hl
  generalize hgen : sent ops = fs at hs hok
  clear hgen
  induction ts generalizing fs with
  | nil => cases fs with
    | nil => rfl
    | cons f fs => simp at hs
  | cons t ts ih => cases fs with
    | nil => simp at hs
    | cons f fs =>
      simp only [List.map_cons, List.cons.injEq] at hs
      simp only [List.map_cons, List.cons.injEq]
      exact ⟨(hp t (by simp) f hs.1).2, ih (fun x hx => hp x (by simp [hx])) fs hs.2 (fun g hg => hok g (by simp [hg]))⟩

end Corundum.UsStream
