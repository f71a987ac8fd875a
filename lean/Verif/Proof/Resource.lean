import Verif.Spec.Resource
/-! Helper lemmas for C01. -/
namespace Corundum.Resource

/-! ### Proof -/

/-- Invariant: free list strictly increasing, and `held ++ free` is a permutation of `range count`. -/
structure Inv (r : Res) (h : List Nat) : Prop where
  sorted : r.free.Pairwise (· < ·)
  perm : (h ++ r.free).Perm (List.range r.count)

theorem pairwise_lt_of_sorted_nodup {l : List Nat} (hs : l.Pairwise (· ≤ ·)) (hn : l.Nodup) :
    l.Pairwise (· < ·) := by
  induction l with
  | nil => exact List.Pairwise.nil
  | cons a t ih =>
    rw [List.pairwise_cons] at hs ⊢
    rw [List.nodup_cons] at hn
    refine ⟨fun b hb => ?_, ih hs.2 hn.2⟩
    have h1 := hs.1 b hb
    have h2 : a ≠ b := fun e => hn.1 (e ▸ hb)
    omega

theorem Inv.nodup {r : Res} {h : List Nat} (i : Inv r h) : (h ++ r.free).Nodup :=
  i.perm.nodup_iff.mpr List.nodup_range

theorem inv_init (count : Nat) : Inv (Res.init count) [] :=
  ⟨List.pairwise_lt_range, by simp [Res.init]⟩

theorem inv_alloc {r r' : Res} {h : List Nat} {i : Nat} (inv : Inv r h) (e : r.alloc = .ok (i, r')) :
    Inv r' (i :: h) := by
  unfold Res.alloc at e
  split at e
  · cases e
  · rename_i j rest hf
    cases e
    refine ⟨?_, ?_⟩
    · have := inv.sorted; rw [hf, List.pairwise_cons] at this; exact this.2
    · have := inv.perm; rw [hf] at this
      exact (List.perm_middle.symm).trans this

theorem ins_perm (a : Nat) (l : List Nat) : (ins a l).Perm (a :: l) := by
  induction l with
  | nil => exact List.Perm.refl _
  | cons b t ih =>
    unfold ins; split
    · exact List.Perm.refl _
    · exact (List.Perm.cons b ih).trans (List.Perm.swap a b t)

theorem pySort_perm (l : List Nat) : (pySort l).Perm l := by
  induction l with
  | nil => exact List.Perm.refl _
  | cons a t ih => exact (ins_perm a _).trans (List.Perm.cons a ih)

theorem ins_sorted (a : Nat) (l : List Nat) (h : l.Pairwise (· ≤ ·)) :
    (ins a l).Pairwise (· ≤ ·) := by
  induction l with
  | nil => simp [ins]
  | cons b t ih =>
    unfold ins
    rw [List.pairwise_cons] at h
    split
    · rename_i hab
      rw [List.pairwise_cons]
      refine ⟨fun c hc => ?_, List.pairwise_cons.mpr h⟩
      rcases List.mem_cons.mp hc with e | e
      · omega
      · have := h.1 c e; omega
    · rename_i hab
      rw [List.pairwise_cons]
      refine ⟨fun c hc => ?_, ih h.2⟩
      rcases List.mem_cons.mp ((ins_perm a t).subset hc) with e | e
      · omega
      · exact h.1 c e

theorem pySort_sorted (l : List Nat) : (pySort l).Pairwise (· ≤ ·) := by
  induction l with
  | nil => exact List.Pairwise.nil
  | cons a t ih => exact ins_sorted a _ ih

theorem inv_release {r : Res} {h : List Nat} {i : Nat} (inv : Inv r h) (hi : i ∈ h) :
    Inv (r.release i) (h.erase i) := by
  have hp : (pySort (r.free ++ [i])).Perm (r.free ++ [i]) := pySort_perm _
  have hperm : (h.erase i ++ (r.release i).free).Perm (List.range r.count) := by
    refine List.Perm.trans ?_ inv.perm
    refine List.Perm.trans (List.Perm.append_left _ hp) ?_
    have h1 : (r.free ++ [i]).Perm (i :: r.free) := by
      simpa using (List.perm_append_comm (l₁ := r.free) (l₂ := [i]))
    refine List.Perm.trans (List.Perm.append_left _ h1) ?_
    refine List.Perm.trans List.perm_middle ?_
    exact List.Perm.append_right _ (List.perm_cons_erase hi).symm
  refine ⟨?_, hperm⟩
  apply pairwise_lt_of_sorted_nodup
  · exact pySort_sorted _
  · have : (h.erase i ++ (r.release i).free).Nodup := hperm.nodup_iff.mpr List.nodup_range
    exact (List.nodup_append.mp this).2.1

theorem step_count (r : Res) (op : Op) : (r.step op).1.count = r.count := by
  cases op with
  | alloc =>
    simp only [Res.step, Res.alloc]
    split <;> rename_i h <;> split at h <;> cases h <;> rfl
  | free i => rfl

theorem inv_run (ops : List Op) : ∀ (r : Res) (h : List Nat), Inv r h →
    Disciplined (r.run ops).2 h → Inv (r.run ops).1 (held (r.run ops).2 h) := by
  induction ops with
  | nil => intro r h inv _; exact inv
  | cons op ops ih =>
    intro r h inv hd
    cases op with
    | alloc =>
      simp only [Res.run, Res.step] at hd ⊢
      cases e : r.alloc with
      | error x =>
        rw [e] at hd
        simp only [held, Disciplined] at hd ⊢
        exact ih r h inv hd
      | ok p =>
        obtain ⟨i, r'⟩ := p
        rw [e] at hd
        simp only [held, Disciplined] at hd ⊢
        exact ih r' (i :: h) (inv_alloc inv e) hd
    | free i =>
      simp only [Res.run, Res.step, held, Disciplined] at hd ⊢
      exact ih _ _ (inv_release inv hd.1) hd.2

theorem run_count (ops : List Op) : ∀ r : Res, (r.run ops).1.count = r.count := by
  induction ops with
  | nil => intro r; rfl
  | cons op ops ih => intro r; simp only [Res.run]; rw [ih, step_count]

structure CInv (b : Bmap) (h : List Nat) : Prop where
  nodup : h.Nodup
  iff : ∀ i : Nat, i ∈ h ↔ b.bits[i]? = some true

theorem cinv_alloc {b b' : Bmap} {h : List Nat} {i : Nat} (inv : CInv b h)
    (e : b.alloc = some (i, b')) : CInv b' (i :: h) := by
  unfold Bmap.alloc at e
  split at e
  · cases e
  · rename_i k hk
    cases e
    rw [List.findIdx?_eq_some_iff_getElem] at hk
    obtain ⟨hlt, hget, _⟩ := hk
    simp at hget
    refine ⟨List.nodup_cons.mpr ⟨?_, inv.nodup⟩, ?_⟩
    · intro hi
      have := (inv.iff i).mp hi
      rw [List.getElem?_eq_getElem hlt, hget] at this
      simp at this
    · intro j
      rw [List.mem_cons, List.getElem?_set]
      by_cases hji : i = j
      · subst hji; simp [hlt]
      · have : ¬ j = i := fun e => hji e.symm
        simp [hji, this, inv.iff j]

theorem cinv_release {b : Bmap} {h : List Nat} (i : Int) (inv : CInv b h) :
    CInv (b.release i) (h.filter (fun (j : Nat) => (j : Int) != i)) := by
  refine ⟨inv.nodup.filter _, fun j => ?_⟩
  rw [List.mem_filter, inv.iff j]
  unfold Bmap.release
  split
  · rename_i hr
    constructor
    · exact fun h => h.1
    · intro hj
      refine ⟨hj, ?_⟩
      have hjl : j < b.bits.length := by
        have := List.getElem?_eq_some_iff.mp hj; exact this.1
      simp; omega
  · rename_i hr
    simp only [List.getElem?_set]
    by_cases hji : i.toNat = j
    · have : (j : Int) = i := by omega
      subst hji
      have hl : i.toNat < b.bits.length := by omega
      simp [hl]; omega
    · have : (j : Int) ≠ i := by omega
      simp [hji, this]

theorem cinv_run (ops : List COp) : ∀ (b : Bmap) (h : List Nat), CInv b h →
    CInv (b.run ops).1 (heldC (b.run ops).2 h) := by
  induction ops with
  | nil => intro b h inv; exact inv
  | cons op ops ih =>
    intro b h inv
    cases op with
    | alloc =>
      simp only [Bmap.run, Bmap.step]
      cases e : b.alloc with
      | none => simp only [heldC]; exact ih b h inv
      | some p => obtain ⟨i, b'⟩ := p; simp only [heldC]; exact ih b' _ (cinv_alloc inv e)
    | free i =>
      simp only [Bmap.run, Bmap.step, heldC]
      exact ih _ _ (cinv_release i inv)

theorem brun_length (ops : List COp) : ∀ b : Bmap, (b.run ops).1.bits.length = b.bits.length := by
  induction ops with
  | nil => intro b; rfl
  | cons op ops ih =>
    intro b
    simp only [Bmap.run]; rw [ih]
    cases op with
    | alloc =>
      simp only [Bmap.step, Bmap.alloc]
      split <;> rename_i h <;> split at h <;> cases h <;> simp
    | free i => simp only [Bmap.step, Bmap.release]; split <;> simp

end Corundum.Resource
