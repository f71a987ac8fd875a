import Verif.Model.XcvrReg
/-!
C154: writing a field of a transceiver register changes that field only, and a table of fields is written as a whole.
-/
namespace Corundum.XcvrReg

/-- the mask covers the bits from `lsb` on, `w` of them -/
def IsField {n : Nat} (mask : BitVec n) (lsb w : Nat) : Prop :=
  lsb + w ≤ n ∧ ∀ i, i < n → mask.getLsbD i = decide (lsb ≤ i ∧ i < lsb + w)

theorem getLsbD_high {n : Nat} (v : BitVec n) (w i : Nat) (h : v.toNat < 2 ^ w) (hi : w ≤ i) : v.getLsbD i = false := by
  rw [BitVec.getLsbD, Nat.testBit_lt_two_pow]
  exact Nat.lt_of_lt_of_le h (Nat.pow_le_pow_right (by omega) hi)

/-- what a masked write leaves in the registers -/
theorem write_bit (u : Unit') (b : Bus) (a val mask : BitVec 32) (sh : Nat) (x : BitVec 32) (i : Nat) (hi : i < 32) :
    ((writeMasked u b a val mask sh).1.mem x).getLsbD i = (b.mem x).getLsbD i ∨
      (x = addrOf u a ∧ mask.getLsbD i = true ∧ ((writeMasked u b a val mask sh).1.mem x).getLsbD i = (val <<< sh).getLsbD i) := by
  by_cases hr : b.head = .ok
  · by_cases hw : ({ b with res := b.res.tail } : Bus).head = .failed
    · left
      simp [writeMasked, Bus.read, Bus.write, hr, hw]
    · by_cases hx : x = addrOf u a
      · subst hx
        cases hm : mask.getLsbD i
        · left
          have hm' : mask[i] = false := by rw [← BitVec.getLsbD_eq_getElem]; exact hm
          simp [writeMasked, Bus.read, Bus.write, hr, hw, hm', hi]
        · right
          have hm' : mask[i] = true := by rw [← BitVec.getLsbD_eq_getElem]; exact hm
          refine ⟨rfl, rfl, ?_⟩
          simp [writeMasked, Bus.read, Bus.write, hr, hw, hm', hi]
      · left
        simp [writeMasked, Bus.read, Bus.write, hr, hw, hx]
  · left
    simp [writeMasked, Bus.read, hr]

/-- a masked write that succeeds -/
theorem write_done (u : Unit') (b : Bus) (a val mask : BitVec 32) (sh : Nat) (h : (writeMasked u b a val mask sh).2 = true) (i : Nat)
    (hi : i < 32) (hm : mask.getLsbD i = true) :
    ((writeMasked u b a val mask sh).1.mem (addrOf u a)).getLsbD i = (val <<< sh).getLsbD i := by
  by_cases hr : b.head = .ok
  · have hw : ({ b with res := b.res.tail } : Bus).head = .ok := by
      simpa [writeMasked, Bus.read, Bus.write, hr] using h
    have hm' : mask[i] = true := by rw [← BitVec.getLsbD_eq_getElem]; exact hm
    simp [writeMasked, Bus.read, Bus.write, hr, hw, hm', hi]
  · simp [writeMasked, Bus.read, hr] at h

/-- the value of a field from its bits -/
theorem field_value (m mask val : BitVec 32) (sh w : Nat) (hf : IsField mask sh w) (hv : val.toNat < 2 ^ w)
    (h : ∀ i, i < 32 → mask.getLsbD i = true → m.getLsbD i = (val <<< sh).getLsbD i) : (m &&& mask) >>> sh = val := by
  apply BitVec.eq_of_getLsbD_eq
  intro i hi
  rw [BitVec.getLsbD_ushiftRight, BitVec.getLsbD_and]
  by_cases hlt : i < w
  · have h32 : sh + i < 32 := by have := hf.1; omega
    have hm : mask.getLsbD (sh + i) = true := by
      rw [hf.2 _ h32]
      simp only [decide_eq_true_eq]
      omega
    rw [hm, Bool.and_true, h _ h32 hm, BitVec.getLsbD_shiftLeft]
    simp [h32]
  · rw [getLsbD_high val w i hv (by omega)]
    by_cases h32 : sh + i < 32
    · rw [hf.2 _ h32, decide_eq_false (by omega), Bool.and_false]
    · rw [BitVec.getLsbD_of_ge _ _ (by omega), Bool.false_and]

/-- C154. After a write of a field that succeeds, reading the field gives the value written, if it fits. -/
theorem C154_field (u : Unit') (b : Bus) (a val mask : BitVec 32) (sh w : Nat) (hf : IsField mask sh w) (hv : val.toNat < 2 ^ w)
    (h : (writeMasked u b a val mask sh).2 = true) (hr : (writeMasked u b a val mask sh).1.head = .ok) :
    (readMasked u (writeMasked u b a val mask sh).1 a mask sh).2 = some val := by
  have := field_value _ mask val sh w hf hv (write_done u b a val mask sh h)
  simp only [readMasked, Bus.read, hr, if_true, Option.map_some, this]

/-- C154. Whether it succeeds or not, a write of a field changes no bit outside of the field and no other register. -/
theorem C154_others (u : Unit') (b : Bus) (a val mask : BitVec 32) (sh : Nat) (x : BitVec 32) (i : Nat) (hi : i < 32)
    (h : x ≠ addrOf u a ∨ mask.getLsbD i = false) :
    ((writeMasked u b a val mask sh).1.mem x).getLsbD i = (b.mem x).getLsbD i := by
  rcases write_bit u b a val mask sh x i hi with k | ⟨k1, k2, _⟩
  · exact k
  · rcases h with h | h
    · exact absurd k1 h
    · rw [h] at k2; cases k2

/-- units of a quad: four channels and the PLLs -/
def Valid : Unit' → Prop
  | .ch i => i.toNat < 4
  | .pll => True

theorem addr_low (u : Unit') (a : BitVec 32) (i : Nat) (hi : i < 17) : (addrOf u a).getLsbD i = a.getLsbD i := by
  cases u with
  | ch j => simp only [addrOf, BitVec.getLsbD_or, BitVec.getLsbD_shiftLeft]; simp [hi]
  | pll =>
    simp only [addrOf, BitVec.getLsbD_or, BitVec.getLsbD_shiftLeft]
    simp [show i < 19 by omega]

theorem addr_inj (u u' : Unit') (a a' : BitVec 32) (ha : a.toNat < 2 ^ 17) (ha' : a'.toNat < 2 ^ 17) (h : addrOf u a = addrOf u' a') :
    a = a' := by
  apply BitVec.eq_of_getLsbD_eq
  intro i _
  by_cases hlt : i < 17
  · rw [← addr_low u a i hlt, h, addr_low u' a' i hlt]
  · rw [getLsbD_high a 17 i ha (by omega), getLsbD_high a' 17 i ha' (by omega)]

/-- C154. Registers of different channels, or of a channel and the PLLs, or with different numbers below 2^17, are different. -/
theorem C154_separate (u u' : Unit') (hu : Valid u) (hu' : Valid u') (a a' : BitVec 32) (ha : a.toNat < 2 ^ 17) (ha' : a'.toNat < 2 ^ 17)
    (h : addrOf u a = addrOf u' a') : u = u' ∧ a = a' := by
  refine ⟨?_, addr_inj u u' a a' ha ha' h⟩
  have hb : ∀ i, (addrOf u a).getLsbD i = (addrOf u' a').getLsbD i := fun i => by rw [h]
  have l1 : ∀ i, 17 ≤ i → a.getLsbD i = false := fun i hi => getLsbD_high a 17 i ha hi
  have l2 : ∀ i, 17 ≤ i → a'.getLsbD i = false := fun i hi => getLsbD_high a' 17 i ha' hi
  match u, u', hu, hu' with
  | .pll, .pll, _, _ => rfl
  | .ch j, .pll, hj, _ =>
    have := hb 19
    simp only [addrOf, BitVec.getLsbD_or, BitVec.getLsbD_shiftLeft, l1 19 (by omega), l2 19 (by omega)] at this
    rw [getLsbD_high j 2 _ hj (by omega)] at this
    simp at this
  | .pll, .ch j, _, hj =>
    have := hb 19
    simp only [addrOf, BitVec.getLsbD_or, BitVec.getLsbD_shiftLeft, l1 19 (by omega), l2 19 (by omega)] at this
    rw [getLsbD_high j 2 _ hj (by omega)] at this
    simp at this
  | .ch j, .ch k, hj, hk =>
    congr 1
    apply BitVec.eq_of_getLsbD_eq
    intro i _
    by_cases hlt : i < 2
    · have := hb (17 + i)
      simp only [addrOf, BitVec.getLsbD_or, BitVec.getLsbD_shiftLeft, l1 (17 + i) (by omega), l2 (17 + i) (by omega)] at this
      simpa [show 17 + i < 32 by omega, show ¬ 17 + i < 17 by omega] using this
    · rw [getLsbD_high j 2 i hj (by omega), getLsbD_high k 2 i hk (by omega)]

theorem setWidth_bit (v : BitVec 16) (i : Nat) (hi : i < 32) : (v.setWidth 32).getLsbD i = v.getLsbD i := by
  rw [BitVec.getLsbD_setWidth]
  simp [hi]

/-- bits that no entry covers -/
theorem multi_frame (u : Unit') (x : BitVec 32) (i : Nat) (hi : i < 32) : ∀ (vs : List RegVal) (b : Bus),
    (∀ v ∈ vs, x = addrOf u (v.addr.setWidth 32) → v.mask.getLsbD i = false) →
    ((writeMultiple u b vs).1.mem x).getLsbD i = (b.mem x).getLsbD i
  | [], _, _ => rfl
  | v :: vs, b, h => by
    unfold writeMultiple
    by_cases hm : v.mask = 0
    · rw [if_pos hm]
    · rw [if_neg hm]
      have k := C154_others u b (v.addr.setWidth 32) (v.value.setWidth 32) (v.mask.setWidth 32) v.shift.toNat x i hi (by
        by_cases hx : x = addrOf u (v.addr.setWidth 32)
        · right
          rw [setWidth_bit _ _ hi]
          exact h v (List.mem_cons_self ..) hx
        · exact .inl hx)
      dsimp only
      split
      · rw [multi_frame u x i hi vs _ (fun w hw => h w (List.mem_cons_of_mem _ hw)), k]
      · exact k

/-- C154. Whether it succeeds or not, writing a table changes no bit that no entry covers. -/
theorem C154_table_others (u : Unit') (b : Bus) (vs : List RegVal) (x : BitVec 32) (i : Nat) (hi : i < 32)
    (h : ∀ v ∈ vs, x = addrOf u (v.addr.setWidth 32) → v.mask.getLsbD i = false) :
    ((writeMultiple u b vs).1.mem x).getLsbD i = (b.mem x).getLsbD i :=
  multi_frame u x i hi vs b h

/-- C154. When writing a table succeeds, every field of the table, up to the entry with mask 0, that no later entry overlaps has the value of its
entry, if it fits. -/
theorem C154_table (u : Unit') : ∀ (p : List RegVal) (v : RegVal) (s : List RegVal) (b : Bus) (w : Nat),
    (∀ e ∈ p ++ [v], e.mask ≠ 0) → (∀ e ∈ s, e.addr = v.addr → e.mask &&& v.mask = 0) →
    IsField v.mask v.shift.toNat w → v.value.toNat < 2 ^ w → (writeMultiple u b (p ++ v :: s)).2 = true →
    (writeMultiple u b (p ++ v :: s)).1.head = .ok →
    (readMasked u (writeMultiple u b (p ++ v :: s)).1 (v.addr.setWidth 32) (v.mask.setWidth 32) v.shift.toNat).2 =
      some (v.value.setWidth 32)
  | [], v, s, b, w, h0, hs, hf, hv, ht, hr => by
    have hm : v.mask ≠ 0 := h0 v (by simp)
    rw [List.nil_append] at ht hr ⊢
    have e : writeMultiple u b (v :: s) =
        if (writeMasked u b (v.addr.setWidth 32) (v.value.setWidth 32) (v.mask.setWidth 32) v.shift.toNat).2 then
          writeMultiple u (writeMasked u b (v.addr.setWidth 32) (v.value.setWidth 32) (v.mask.setWidth 32) v.shift.toNat).1 s
        else ((writeMasked u b (v.addr.setWidth 32) (v.value.setWidth 32) (v.mask.setWidth 32) v.shift.toNat).1, false) := by
      rw [writeMultiple, if_neg hm]
    have hd : (writeMasked u b (v.addr.setWidth 32) (v.value.setWidth 32) (v.mask.setWidth 32) v.shift.toNat).2 = true := by
      cases hc : (writeMasked u b (v.addr.setWidth 32) (v.value.setWidth 32) (v.mask.setWidth 32) v.shift.toNat).2
      · rw [e, hc] at ht; simp at ht
      · rfl
    rw [hd, if_pos rfl] at e
    have hv' : (v.value.setWidth 32).toNat < 2 ^ w := by
      rw [BitVec.toNat_setWidth, Nat.mod_eq_of_lt (by have := v.value.isLt; omega)]
      exact hv
    have hf' : IsField (v.mask.setWidth 32) v.shift.toNat w := by
      refine ⟨by have := hf.1; omega, fun i hi => ?_⟩
      rw [setWidth_bit _ _ hi]
      by_cases h16 : i < 16
      · exact hf.2 i h16
      · rw [BitVec.getLsbD_of_ge _ _ (by omega), eq_comm, decide_eq_false_iff_not]
        have := hf.1
        omega
    have key := field_value ((writeMultiple u b (v :: s)).1.mem (addrOf u (v.addr.setWidth 32))) (v.mask.setWidth 32) (v.value.setWidth 32)
      v.shift.toNat w hf' hv' (fun i hi hmi => by
        rw [e, multi_frame u _ i hi s _ (fun x hx ha => ?_)]
        · exact write_done u b _ _ _ _ hd i hi hmi
        · have hlt : ∀ y : BitVec 16, (y.setWidth 32).toNat < 2 ^ 17 := fun y => by
            rw [BitVec.toNat_setWidth, Nat.mod_eq_of_lt (by have := y.isLt; omega)]
            have := y.isLt
            omega
          have ea := addr_inj u u _ _ (hlt _) (hlt _) ha
          have ea' : x.addr = v.addr := by
            apply BitVec.eq_of_getLsbD_eq
            intro k hk
            rw [← setWidth_bit _ k (by omega), ← ea, setWidth_bit _ k (by omega)]
          have hz := hs x hx ea'
          have hb : (x.mask &&& v.mask).getLsbD i = false := by rw [hz]; simp
          rw [BitVec.getLsbD_and] at hb
          rw [setWidth_bit _ _ hi] at hmi
          rw [hmi, Bool.and_true] at hb
          exact hb)
    simp only [readMasked, Bus.read, hr, if_true, Option.map_some, key]
  | q :: p, v, s, b, w, h0, hs, hf, hv, ht, hr => by
    have hm : q.mask ≠ 0 := h0 q (by simp)
    have e : writeMultiple u b (q :: (p ++ v :: s)) =
        if (writeMasked u b (q.addr.setWidth 32) (q.value.setWidth 32) (q.mask.setWidth 32) q.shift.toNat).2 then
          writeMultiple u (writeMasked u b (q.addr.setWidth 32) (q.value.setWidth 32) (q.mask.setWidth 32) q.shift.toNat).1 (p ++ v :: s)
        else ((writeMasked u b (q.addr.setWidth 32) (q.value.setWidth 32) (q.mask.setWidth 32) q.shift.toNat).1, false) := by
      rw [writeMultiple, if_neg hm]
    rw [List.cons_append] at ht hr ⊢
    have hd : (writeMasked u b (q.addr.setWidth 32) (q.value.setWidth 32) (q.mask.setWidth 32) q.shift.toNat).2 = true := by
      cases hc : (writeMasked u b (q.addr.setWidth 32) (q.value.setWidth 32) (q.mask.setWidth 32) q.shift.toNat).2
      · rw [e, hc] at ht; simp at ht
      · rfl
    rw [hd, if_pos rfl] at e
    rw [e] at ht hr ⊢
    exact C154_table u p v s _ w (fun x hx => h0 x (List.mem_cons_of_mem _ hx)) hs hf hv ht hr

/-- a case: two fields of one register, with a terminator -/
example : let b := (writeMultiple (.ch 2) ⟨fun _ => 0xffff, []⟩ [⟨0x63, 0x00f0, 4, 5⟩, ⟨0x63, 0x0f00, 8, 3⟩, ⟨0, 0, 0, 0⟩, ⟨0x63, 1, 0, 0⟩])
    b.2 = true ∧ b.1.mem 0x40063 = 0xf35f ∧ b.1.mem 0x63 = 0xffff ∧ (readMasked (.ch 2) b.1 0x63 0xf0 4).2 = some 5 := by decide +kernel

/-- the masks of that case are fields -/
example : IsField (0x00f0 : BitVec 16) 4 4 := ⟨by decide, by decide⟩

/-- a case: the second write fails, the first field is written -/
example : let b := (writeMultiple .pll ⟨fun _ => 0, [.ok, .ok, .ok, .failed]⟩ [⟨0x63, 0x00f0, 4, 5⟩, ⟨0x64, 0x0f00, 8, 3⟩])
    b.2 = false ∧ b.1.mem 0x80063 = 0x50 ∧ b.1.mem 0x80064 = 0 := by decide +kernel

end Corundum.XcvrReg
