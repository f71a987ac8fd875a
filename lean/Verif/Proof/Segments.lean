import Verif.Spec.Segments
/-! Helper lemmas for C05/C06. -/
namespace Corundum.Segments

theorem block_append (a : Int) (m n : Nat) : block a m ++ block (a + m) n = block a (m + n) := by
  unfold block
  rw [List.range_add, List.map_append, List.map_map]
  congr 1
  apply List.map_congr_left
  intro i _
  simp only [Function.comp, Int.natCast_add]
  omega

theorem addresses_mkSeg_cons (ptr offset : Int) (seg : Nat) (t : List Seg) :
    addresses (mkSeg ptr offset seg :: t) = block (ptr + offset) seg ++ addresses t := by
  unfold addresses
  rw [List.flatMap_cons]
  congr 1
  unfold mkSeg block
  by_cases h : (seg : Int) = 0
  · have : seg = 0 := by omega
    subst this; simp
  · simp only [ne_eq, h, not_false_eq_true, if_true, Int.toNat_natCast]

theorem segLoop_addresses (ptr : Int) (n : Nat) : ∀ (length offset : Nat), offset ≤ length →
    (n = 0 → offset = length) →
    addresses (segLoop length ptr offset n) = block (ptr + offset) (length - offset) := by
  induction n with
  | zero =>
    intro length offset h h0
    have := h0 rfl
    subst this
    simp [segLoop, addresses, block]
  | succ n ih =>
    intro length offset h _
    unfold segLoop
    simp only
    obtain ⟨s, hs, hle, hlast⟩ : ∃ s : Nat,
        (if n + 1 > 1 then min ((length : Int) - offset) 4096 else (length : Int) - offset) = (s : Int) ∧
        offset + s ≤ length ∧ (n = 0 → offset + s = length) := by
      refine ⟨if n + 1 > 1 then min (length - offset) 4096 else length - offset, ?_, ?_, ?_⟩
      · split <;> omega
      · split <;> omega
      · intro h0; subst h0; simp; omega
    rw [hs, addresses_mkSeg_cons]
    have e : (offset : Int) + (s : Int) = ((offset + s : Nat) : Int) := by omega
    rw [e, ih length (offset + s) hle hlast]
    have e2 : ptr + ((offset + s : Nat) : Int) = ptr + offset + (s : Int) := by omega
    rw [e2, block_append]
    congr 1
    omega

theorem segLoop_length (length ptr offset : Int) (n : Nat) : (segLoop length ptr offset n).length = n := by
  induction n generalizing offset with
  | zero => rfl
  | succ n ih => simp [segLoop, ih]

/-- All entries are well formed: non-negative length, address 0 exactly for empty ones (if the buffer
is not at address 0), and every entry but the last is within the cap. -/
theorem segLoop_props (ptr : Int) (n : Nat) : ∀ (length offset : Nat), offset ≤ length →
    (∀ s ∈ segLoop length ptr offset n, 0 ≤ s.len ∧ (s.len = 0 → s.addr = 0)) ∧
    (∀ k, k + 1 < n → ∀ s, (segLoop length ptr offset n)[k]? = some s → s.len ≤ 4096) := by
  induction n with
  | zero => intro length offset h; simp [segLoop]
  | succ n ih =>
    intro length offset h
    unfold segLoop
    simp only
    obtain ⟨s, hs, hle, hcap⟩ : ∃ s : Nat,
        (if n + 1 > 1 then min ((length : Int) - offset) 4096 else (length : Int) - offset) = (s : Int) ∧
        offset + s ≤ length ∧ (0 < n → s ≤ 4096) := by
      refine ⟨if n + 1 > 1 then min (length - offset) 4096 else length - offset, ?_, ?_, ?_⟩
      · split <;> omega
      · split <;> omega
      · intro h0; rw [if_pos (by omega)]; omega
    rw [hs]
    have e : (offset : Int) + (s : Int) = ((offset + s : Nat) : Int) := by omega
    rw [e]
    obtain ⟨h1, h2⟩ := ih length (offset + s) hle
    refine ⟨?_, ?_⟩
    · intro x hx
      rcases List.mem_cons.mp hx with rfl | hx
      · refine ⟨by simp [mkSeg], ?_⟩
        intro h0
        have : (s : Int) = 0 := h0
        simp [mkSeg, this]
      · exact h1 x hx
    · intro k hk x hx
      cases k with
      | zero =>
        simp at hx
        subst hx
        have := hcap (by omega)
        simp [mkSeg]; omega
      | succ k => exact h2 k (by omega) x (by simpa using hx)

end Corundum.Segments
