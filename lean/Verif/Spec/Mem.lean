/-
Flat byte memory of `ms` bytes, addressed modulo its size.
-/
namespace Corundum.Spec

/-- Store the bytes one after another. -/
def flatWrite (ms : Nat) : (Nat → Nat) → Nat → List Nat → (Nat → Nat)
  | m, _, [] => m
  | m, a, d :: ds => flatWrite ms (fun x => if x = a % ms then d else m x) (a + 1) ds

/-- The bytes stored at `a, a+1, ...`. -/
def flatRead (ms : Nat) (m : Nat → Nat) (a len : Nat) : List Nat :=
  (List.range len).map fun i => m ((a + i) % ms)

theorem flatWrite_append (ms : Nat) : ∀ (xs ys : List Nat) (m : Nat → Nat) (a : Nat),
    flatWrite ms m a (xs ++ ys) = flatWrite ms (flatWrite ms m a xs) (a + xs.length) ys
  | [], _, _, _ => rfl
  | x :: xs, ys, m, a => by
    simp only [List.cons_append, flatWrite, List.length_cons]
    rw [flatWrite_append ms xs ys, show a + 1 + xs.length = a + (xs.length + 1) by omega]

/-- A byte not addressed keeps its value. -/
theorem flatWrite_other (ms : Nat) : ∀ (ds : List Nat) (m : Nat → Nat) (a x : Nat),
    (∀ i, i < ds.length → (a + i) % ms ≠ x) → flatWrite ms m a ds x = m x
  | [], _, _, _, _ => rfl
  | d :: ds, m, a, x, h => by
    rw [flatWrite, flatWrite_other ms ds _ (a + 1) x (fun i hi => by
      have := h (i + 1) (by simpa using hi)
      rwa [show a + (i + 1) = a + 1 + i by omega] at this)]
    have := h 0 (by simp)
    simp only [Nat.add_zero] at this
    rw [if_neg (fun e => this e.symm)]

/-- A byte addressed once gets its datum. -/
theorem flatWrite_get (ms : Nat) : ∀ (ds : List Nat) (m : Nat → Nat) (a i : Nat),
    ds.length ≤ ms → (hi : i < ds.length) → flatWrite ms m a ds ((a + i) % ms) = ds[i]
  | d :: ds, m, a, 0, hl, _ => by
    rw [flatWrite, flatWrite_other]
    · simp
    · intro i hi e
      simp only [List.length_cons] at hl
      have : (a + 1 + i) % ms = (a + 0) % ms := e
      have h1 := Nat.sub_mod_eq_zero_of_mod_eq this
      rw [show a + 1 + i - (a + 0) = i + 1 by omega] at h1
      rw [Nat.mod_eq_of_lt (by omega)] at h1
      omega
  | d :: ds, m, a, i + 1, hl, hi => by
    simp only [List.length_cons] at hl hi
    rw [flatWrite, show a + (i + 1) = a + 1 + i by omega,
      flatWrite_get ms ds _ (a + 1) i (by omega) (by omega)]
    rfl

end Corundum.Spec
