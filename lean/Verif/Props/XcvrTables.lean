import Verif.Model.XcvrTables
import Verif.Props.XcvrReg
/-!
C156: a preset of a transceiver sets the same registers to the same values whatever was loaded before.
-/
namespace Corundum.XcvrReg

/-- equal registers except for the bits in `C` -/
def Agree (C : BitVec 32 → Nat → Prop) (b b' : Bus) : Prop :=
  ∀ x i, i < 32 → C x i ∨ (b.mem x).getLsbD i = (b'.mem x).getLsbD i

/-- bits that the entries of a table cover -/
def Cover (u : Unit') (vs : List RegVal) (x : BitVec 32) (i : Nat) : Prop :=
  ∃ v ∈ vs.takeWhile (fun v => v.mask != 0), x = addrOf u (v.addr.setWidth 32) ∧ v.mask.getLsbD i = true

theorem ok_write (u : Unit') (b : Bus) (a val mask : BitVec 32) (sh : Nat) (h : b.res = []) :
    (writeMasked u b a val mask sh).1.res = [] ∧ (writeMasked u b a val mask sh).2 = true := by
  simp [writeMasked, Bus.read, Bus.write, Bus.head, h]

theorem ok_multi (u : Unit') : ∀ (vs : List RegVal) (b : Bus), b.res = [] →
    (writeMultiple u b vs).1.res = [] ∧ (writeMultiple u b vs).2 = true
  | [], _, h => ⟨h, rfl⟩
  | v :: vs, b, h => by
    unfold writeMultiple
    by_cases hm : v.mask = 0
    · rw [if_pos hm]; exact ⟨h, rfl⟩
    · rw [if_neg hm]
      have k := ok_write u b (v.addr.setWidth 32) (v.value.setWidth 32) (v.mask.setWidth 32) v.shift.toNat h
      dsimp only
      rw [k.2, if_pos rfl]
      exact ok_multi u vs _ k.1

theorem agree_multi (u : Unit') (C : BitVec 32 → Nat → Prop) : ∀ (vs : List RegVal) (b b' : Bus), b.res = [] → b'.res = [] →
    Agree (fun x i => C x i ∨ Cover u vs x i) b b' → Agree C (writeMultiple u b vs).1 (writeMultiple u b' vs).1
  | [], b, b', _, _, h => fun x i hi => by
    rcases h x i hi with (k | ⟨v, hv, _⟩) | k
    · exact .inl k
    · simp at hv
    · exact .inr k
  | v :: vs, b, b', hb, hb', h => by
    unfold writeMultiple
    by_cases hm : v.mask = 0
    · rw [if_pos hm, if_pos hm]
      intro x i hi
      rcases h x i hi with (k | ⟨w, hw, _⟩) | k
      · exact .inl k
      · simp [hm] at hw
      · exact .inr k
    · rw [if_neg hm, if_neg hm]
      have k := ok_write u b (v.addr.setWidth 32) (v.value.setWidth 32) (v.mask.setWidth 32) v.shift.toNat hb
      have k' := ok_write u b' (v.addr.setWidth 32) (v.value.setWidth 32) (v.mask.setWidth 32) v.shift.toNat hb'
      dsimp only
      rw [k.2, k'.2, if_pos rfl, if_pos rfl]
      refine agree_multi u C vs _ _ k.1 k'.1 (fun x i hi => ?_)
      by_cases hc : x = addrOf u (v.addr.setWidth 32) ∧ (v.mask.setWidth 32).getLsbD i = true
      · right
        rw [hc.1, write_done u b _ _ _ _ k.2 i hi hc.2, write_done u b' _ _ _ _ k'.2 i hi hc.2]
      · have hc' : x ≠ addrOf u (v.addr.setWidth 32) ∨ (v.mask.setWidth 32).getLsbD i = false := by
          by_cases hx : x = addrOf u (v.addr.setWidth 32)
          · right
            cases he : (v.mask.setWidth 32).getLsbD i
            · rfl
            · exact absurd ⟨hx, he⟩ hc
          · exact .inl hx
        rw [C154_others u b _ _ _ _ x i hi hc', C154_others u b' _ _ _ _ x i hi hc']
        rcases h x i hi with (q | ⟨w, hw, hx, hq⟩) | q
        · exact .inl (.inl q)
        · have hne : (v.mask != 0) = true := by simpa using hm
          rw [List.takeWhile_cons, hne, if_pos rfl, List.mem_cons] at hw
          rcases hw with rfl | hw
          · rw [setWidth_bit _ _ hi] at hc
            exact absurd ⟨hx, hq⟩ hc
          · exact .inl (.inr ⟨w, hw, hx, hq⟩)
        · exact .inr q

theorem agree_tables (u : Unit') : ∀ (ts : List (List RegVal)) (b b' : Bus), b.res = [] → b'.res = [] →
    Agree (fun x i => ∃ t ∈ ts, Cover u t x i) b b' →
    Agree (fun _ _ => False) (ts.foldl (fun b t => (writeMultiple u b t).1) b) (ts.foldl (fun b t => (writeMultiple u b t).1) b')
  | [], b, b', _, _, h => fun x i hi => by
    rcases h x i hi with ⟨t, ht, _⟩ | k
    · simp at ht
    · exact .inr k
  | t :: ts, b, b', hb, hb', h => by
    rw [List.foldl_cons, List.foldl_cons]
    refine agree_tables u ts _ _ (ok_multi u t b hb).1 (ok_multi u t b' hb').1 (agree_multi u _ t b b' hb hb' (fun x i hi => ?_))
    rcases h x i hi with ⟨s, hs, k⟩ | k
    · rcases List.mem_cons.mp hs with rfl | hs
      · exact .inl (.inr k)
      · exact .inl (.inl ⟨s, hs, k⟩)
    · exact .inr k

theorem tables_res (u : Unit') : ∀ (ts : List (List RegVal)) (b : Bus), b.res = [] →
    (ts.foldl (fun b t => (writeMultiple u b t).1) b).res = []
  | [], _, h => h
  | t :: ts, b, h => by rw [List.foldl_cons]; exact tables_res u ts _ (ok_multi u t b h).1

theorem tables_frame (u : Unit') (x : BitVec 32) (i : Nat) (hi : i < 32) : ∀ (ts : List (List RegVal)) (b : Bus),
    (∀ t ∈ ts, ∀ v ∈ t, x = addrOf u (v.addr.setWidth 32) → v.mask.getLsbD i = false) →
    ((ts.foldl (fun b t => (writeMultiple u b t).1) b).mem x).getLsbD i = (b.mem x).getLsbD i
  | [], _, _ => rfl
  | t :: ts, b, h => by
    rw [List.foldl_cons, tables_frame u x i hi ts _ (fun s hs => h s (List.mem_cons_of_mem _ hs)),
      C154_table_others u b t x i hi (h t (List.mem_cons_self ..))]

/-- every field of the second list of tables is part of a field of the first -/
def covers (ts us : List (List RegVal)) : Bool :=
  us.all fun t => t.all fun v => v.mask == 0 || ts.any fun s => (s.takeWhile fun e => e.mask != 0).any fun e =>
    e.addr == v.addr && e.mask &&& v.mask == v.mask

theorem all_cover : ∀ (k : Kind) (p q : Preset), covers ((tables k p).getD []) ((tables k q).getD []) = true ∨ tables k p = none := by
  intro k p q
  cases k <;> cases p <;> first | (right; rfl) | (left; cases q <;> decide +kernel)

theorem covers_spec (u : Unit') (ts us : List (List RegVal)) (h : covers ts us = true) (x : BitVec 32) (i : Nat)
    (hn : ¬ ∃ t ∈ ts, Cover u t x i) : ∀ t ∈ us, ∀ v ∈ t, x = addrOf u (v.addr.setWidth 32) → v.mask.getLsbD i = false := by
  intro t ht v hv hx
  have h1 := List.all_eq_true.mp (List.all_eq_true.mp h t ht) v hv
  rcases Bool.or_eq_true_iff.mp h1 with h0 | h0
  · rw [eq_of_beq h0]; simp
  · obtain ⟨s, hs, h2⟩ := List.any_eq_true.mp h0
    obtain ⟨e, he, h3⟩ := List.any_eq_true.mp h2
    rw [Bool.and_eq_true] at h3
    have ha : e.addr = v.addr := eq_of_beq h3.1
    have hm : e.mask &&& v.mask = v.mask := eq_of_beq h3.2
    cases hb : v.mask.getLsbD i
    · rfl
    · exact absurd ⟨s, hs, e, he, by rw [ha]; exact hx, by
        rw [← hm, BitVec.getLsbD_and] at hb
        exact (Bool.and_eq_true_iff.mp hb).1⟩ hn

theorem agree_false (b b' : Bus) (h : Agree (fun _ _ => False) b b') : b.mem = b'.mem := by
  funext x
  apply BitVec.eq_of_getLsbD_eq
  intro i hi
  rcases h x i hi with k | k
  · exact k.elim
  · exact k

theorem load_eq (k : Kind) (u : Unit') (b : Bus) (p : Preset) :
    (loadPreset k u b p).1 = ((tables k p).getD []).foldl (fun b t => (writeMultiple u b t).1) b := by
  unfold loadPreset
  cases tables k p <;> rfl

/-- C156. If no access fails, loading a preset that the transceiver has leaves the same registers whatever presets were loaded before it. -/
theorem C156_history (k : Kind) (u : Unit') (b : Bus) (hb : b.res = []) (qs : List Preset) (p : Preset) (hp : (loadPreset k u b p).2 = true) :
    (loadPreset k u (qs.foldl (fun b q => (loadPreset k u b q).1) b) p).1.mem = (loadPreset k u b p).1.mem := by
  have hne : tables k p ≠ none := by
    intro h
    rw [loadPreset, h] at hp
    cases hp
  have aux : ∀ (qs : List Preset) (c : Bus), c.res = [] →
      (qs.foldl (fun b q => (loadPreset k u b q).1) c).res = [] ∧
      Agree (fun x i => ∃ t ∈ (tables k p).getD [], Cover u t x i) (qs.foldl (fun b q => (loadPreset k u b q).1) c) c := by
    intro qs
    induction qs with
    | nil => exact fun c hc => ⟨hc, fun _ _ _ => .inr rfl⟩
    | cons q qs ih =>
      intro c hc
      have hr : (loadPreset k u c q).1.res = [] := by rw [load_eq]; exact tables_res u _ c hc
      rw [List.foldl_cons]
      refine ⟨(ih _ hr).1, fun x i hi => ?_⟩
      rcases (ih _ hr).2 x i hi with g | g
      · exact .inl g
      · by_cases hx : ∃ t ∈ (tables k p).getD [], Cover u t x i
        · exact .inl hx
        · right
          rw [g, load_eq]
          exact tables_frame u x i hi _ c (covers_spec u _ _ ((all_cover k p q).resolve_right hne) x i hx)
  apply agree_false
  rw [load_eq, load_eq]
  exact agree_tables u _ _ _ (aux qs b hb).1 hb (aux qs b hb).2

instance {n : Nat} (m : BitVec n) (l w : Nat) : Decidable (IsField m l w) := by unfold IsField; infer_instance

/-- entries up to the first with mask 0 are fields that do not overlap, with values that fit -/
def wellFormed : List RegVal → Bool
  | [] => true
  | v :: vs => v.mask == 0 ||
      (vs.all (fun e => e.addr != v.addr || e.mask &&& v.mask == 0) &&
        (List.range 17).any (fun w => decide (IsField v.mask v.shift.toNat w) && decide (v.value.toNat < 2 ^ w)) && wellFormed vs)

theorem all_wellFormed : ∀ (k : Kind) (p : Preset), ((tables k p).getD []).all wellFormed = true := by
  intro k p
  cases k <;> cases p <;> decide +kernel

theorem wellFormed_spec : ∀ (p : List RegVal) (v : RegVal) (s : List RegVal), wellFormed (p ++ v :: s) = true →
    (∀ e ∈ p ++ [v], e.mask ≠ 0) → (∀ e ∈ s, e.addr = v.addr → e.mask &&& v.mask = 0) ∧
      ∃ w, IsField v.mask v.shift.toNat w ∧ v.value.toNat < 2 ^ w
  | [], v, s, h, hm => by
    have h0 := hm v (by simp)
    simp only [List.nil_append, wellFormed, Bool.or_eq_true, beq_iff_eq, h0, false_or, Bool.and_eq_true, List.all_eq_true, bne_iff_ne,
      List.any_eq_true, decide_eq_true_eq] at h
    obtain ⟨⟨h1, w, _, h2, h3⟩, _⟩ := h
    exact ⟨fun e he ha => (h1 e he).resolve_left (fun k => k ha), w, h2, h3⟩
  | q :: p, v, s, h, hm => by
    have h0 := hm q (by simp)
    simp only [List.cons_append, wellFormed, Bool.or_eq_true, beq_iff_eq, h0, false_or, Bool.and_eq_true] at h
    exact wellFormed_spec p v s h.2 (fun e he => hm e (List.mem_cons_of_mem _ he))

/-- C156. If no access fails, after loading a preset every field of its last table reads as the value in the table. -/
theorem C156_values (k : Kind) (u : Unit') (b : Bus) (hb : b.res = []) (p : Preset) (ts : List (List RegVal)) (r : List RegVal) (v : RegVal)
    (s : List RegVal) (ht : tables k p = some (ts ++ [r ++ v :: s])) (hm : ∀ e ∈ r ++ [v], e.mask ≠ 0) :
    (readMasked u (loadPreset k u b p).1 (v.addr.setWidth 32) (v.mask.setWidth 32) v.shift.toNat).2 = some (v.value.setWidth 32) := by
  have hw := all_wellFormed k p
  rw [ht, Option.getD_some, List.all_append, Bool.and_eq_true] at hw
  have hw2 : wellFormed (r ++ v :: s) = true := by simpa using hw.2
  obtain ⟨h1, w, h2, h3⟩ := wellFormed_spec r v s hw2 hm
  rw [load_eq, ht, Option.getD_some, List.foldl_append, List.foldl_cons, List.foldl_nil]
  have hr := tables_res u ts b hb
  have ho := ok_multi u (r ++ v :: s) _ hr
  exact C154_table u r v s _ w hm h1 h2 h3 ho.2 (by rw [Bus.head, ho.1]; rfl)

/-- C156. If no access fails, after loading a preset every field of any of its tables that no later table names reads as the value in the table. -/
theorem C156_values_all (k : Kind) (u : Unit') (b : Bus) (hb : b.res = []) (p : Preset) (ts : List (List RegVal)) (r : List RegVal) (v : RegVal)
    (s : List RegVal) (us : List (List RegVal)) (ht : tables k p = some (ts ++ (r ++ v :: s) :: us)) (hm : ∀ e ∈ r ++ [v], e.mask ≠ 0)
    (hl : ∀ t ∈ us, ∀ e ∈ t, e.addr ≠ v.addr) :
    (readMasked u (loadPreset k u b p).1 (v.addr.setWidth 32) (v.mask.setWidth 32) v.shift.toNat).2 = some (v.value.setWidth 32) := by
  have hw := all_wellFormed k p
  rw [ht, Option.getD_some, List.all_append, Bool.and_eq_true, List.all_cons, Bool.and_eq_true] at hw
  obtain ⟨h1, w, h2, h3⟩ := wellFormed_spec r v s hw.2.1 hm
  rw [load_eq, ht, Option.getD_some, List.foldl_append, List.foldl_cons]
  have hr := tables_res u ts b hb
  have ho := ok_multi u (r ++ v :: s) _ hr
  have key := C154_table u r v s _ w hm h1 h2 h3 ho.2 (by rw [Bus.head, ho.1]; rfl)
  have hh := tables_res u us _ ho.1
  have hlt : ∀ y : BitVec 16, (y.setWidth 32).toNat < 2 ^ 17 := fun y => by
    rw [BitVec.toNat_setWidth, Nat.mod_eq_of_lt (by have := y.isLt; omega)]
    have := y.isLt
    omega
  have hmem : (us.foldl (fun b t => (writeMultiple u b t).1)
      (writeMultiple u (ts.foldl (fun b t => (writeMultiple u b t).1) b) (r ++ v :: s)).1).mem (addrOf u (v.addr.setWidth 32)) =
      (writeMultiple u (ts.foldl (fun b t => (writeMultiple u b t).1) b) (r ++ v :: s)).1.mem (addrOf u (v.addr.setWidth 32)) := by
    apply BitVec.eq_of_getLsbD_eq
    intro i hi
    refine tables_frame u _ i hi us _ (fun t ht e he hx => ?_)
    have ea := addr_inj u u _ _ (hlt _) (hlt _) hx
    refine absurd ?_ (hl t ht e he)
    apply BitVec.eq_of_getLsbD_eq
    intro j hj
    rw [← setWidth_bit _ j (by omega), ← ea, setWidth_bit _ j (by omega)]
  simp only [readMasked, Bus.read, Bus.head, ho.1, hh] at key ⊢
  rw [hmem]
  exact key

/-- C156. Loading a preset changes no bit outside of the fields named in its tables, even if accesses fail. -/
theorem C156_others (k : Kind) (u : Unit') (b : Bus) (p : Preset) (x : BitVec 32) (i : Nat) (hi : i < 32)
    (h : ∀ ts, tables k p = some ts → ∀ t ∈ ts, ∀ v ∈ t, x = addrOf u (v.addr.setWidth 32) → v.mask.getLsbD i = false) :
    ((loadPreset k u b p).1.mem x).getLsbD i = (b.mem x).getLsbD i := by
  rw [load_eq]
  cases hc : tables k p with
  | none => rfl
  | some ts => exact tables_frame u x i hi ts b (h ts hc)

/-- C156. The code does not look at the outcome of the accesses: with the first one failing, 0 is returned and the registers are not those of
the preset. -/
theorem C156_failure_counterexample : let b : Bus := ⟨fun _ => 0, [.failed]⟩
    (loadPreset .gthe3 (.ch 0) b .g10dfe).2 = true ∧ (loadPreset .gthe3 (.ch 0) b .g10dfe).1.mem = b.mem ∧
    (loadPreset .gthe3 (.ch 0) { b with res := [] } .g10dfe).1.mem ≠ b.mem := by
  refine ⟨rfl, rfl, fun h => ?_⟩
  have := congrFun h 0xbc
  revert this
  decide +kernel

/-- a case: 25G after 10G on a GTY of UltraScale -/
example : let b : Bus := ⟨fun _ => 0xa5a5, []⟩
    (loadPreset .gtye3 (.ch 1) b .g25lpm).2 = true ∧ tables .gtye3 .g25lpm = some ([gtye325gBaser64] ++ [[] ++ gtye325gLpm]) := ⟨rfl, rfl⟩

end Corundum.XcvrReg
