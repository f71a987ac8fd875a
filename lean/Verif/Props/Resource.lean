import Verif.Proof.Resource
/-! C01 — queue-index allocator: property theorems. -/
namespace Corundum.Resource

/-! ### Property theorems -/

/-- C01: after any disciplined history, no index is held twice and all held indices are below
`count`. -/
theorem C01_no_double_allocation (count : Nat) (ops : List Op)
    (hd : Disciplined ((Res.init count).run ops).2 []) :
    (held ((Res.init count).run ops).2 []).Nodup ∧
    ∀ i ∈ held ((Res.init count).run ops).2 [], i < count := by
  have inv := inv_run ops _ _ (inv_init count) hd
  refine ⟨(List.nodup_append.mp inv.nodup).1, fun i hi => ?_⟩
  have := inv.perm.subset (List.mem_append_left _ hi)
  rw [run_count] at this
  simpa [Res.init] using this

/-- C01: `alloc` after any disciplined history returns the least index below `count` that is not
held. -/
theorem C01_alloc_least_free (count : Nat) (ops : List Op)
    (hd : Disciplined ((Res.init count).run ops).2 []) (i : Nat) (r' : Res)
    (ha : ((Res.init count).run ops).1.alloc = .ok (i, r')) :
    i < count ∧ i ∉ held ((Res.init count).run ops).2 [] ∧
    ∀ j < i, j ∈ held ((Res.init count).run ops).2 [] := by
  have inv := inv_run ops _ _ (inv_init count) hd
  have hc := run_count ops (Res.init count)
  generalize hr : ((Res.init count).run ops).1 = r at *
  generalize held ((Res.init count).run ops).2 [] = h at *
  have hc' : r.count = count := hc
  unfold Res.alloc at ha
  split at ha
  · cases ha
  · rename_i k rest hf
    cases ha
    have hmem : i ∈ r.free := by simp [hf]
    have hlt : i < count := by
      have := inv.perm.subset (List.mem_append_right h hmem); rw [hc'] at this; simpa using this
    refine ⟨hlt, ?_, ?_⟩
    · intro hi
      exact (List.nodup_append.mp inv.nodup).2.2 i hi i hmem rfl
    · intro j hj
      have : j ∈ h ++ r.free := inv.perm.symm.subset (by rw [hc']; simp; omega)
      rcases List.mem_append.mp this with h1 | h1
      · exact h1
      · exfalso
        have hs := inv.sorted
        rw [hf, List.pairwise_cons] at hs
        rw [hf] at h1
        rcases List.mem_cons.mp h1 with e | e
        · omega
        · have := hs.1 j e; omega

/-- C01: `alloc` raises exactly when every index is held. -/
theorem C01_alloc_fails_iff_exhausted (count : Nat) (ops : List Op)
    (hd : Disciplined ((Res.init count).run ops).2 []) :
    (((Res.init count).run ops).1.alloc = .error .indexError) ↔
    ∀ j < count, j ∈ held ((Res.init count).run ops).2 [] := by
  have inv := inv_run ops _ _ (inv_init count) hd
  have hc := run_count ops (Res.init count)
  generalize ((Res.init count).run ops).1 = r at *
  generalize held ((Res.init count).run ops).2 [] = h at *
  have hc' : r.count = count := hc
  constructor
  · intro ha j hj
    unfold Res.alloc at ha
    split at ha
    · rename_i hf
      have : j ∈ h ++ r.free := inv.perm.symm.subset (by rw [hc']; simpa using hj)
      simpa [hf] using this
    · cases ha
  · intro hall
    unfold Res.alloc
    split
    · rfl
    · rename_i k rest hf
      exfalso
      have hk : k ∈ r.free := by simp [hf]
      have hlt : k < count := by
        have := inv.perm.subset (List.mem_append_right h hk); rw [hc'] at this; simpa using this
      exact (List.nodup_append.mp inv.nodup).2.2 k (hall k hlt) k hk rfl

/-- The discipline hypothesis is needed for the Python allocator: freeing an index twice makes two
later allocations return the same index. -/
theorem C01_double_free_counterexample :
    ∃ (ops : List Op), ¬ (held ((Res.init 2).run ops).2 []).Nodup :=
  ⟨[.alloc, .free 0, .free 0, .alloc, .alloc], by decide⟩

/-- Non-vacuity: a disciplined history with frees out of order and exhaustion. -/
example : Disciplined ((Res.init 3).run [.alloc, .alloc, .alloc, .alloc, .free 1, .free 0, .alloc]).2 []
    ∧ held ((Res.init 3).run [.alloc, .alloc, .alloc, .alloc, .free 1, .free 0, .alloc]).2 [] = [0, 2]
    := by
  refine ⟨?_, by decide⟩
  have : ((Res.init 3).run [.alloc, .alloc, .alloc, .alloc, .free 1, .free 0, .alloc]).2 =
    [(.alloc, some (.ok 0)), (.alloc, some (.ok 1)), (.alloc, some (.ok 2)),
     (.alloc, some (.error .indexError)), (.free 1, none), (.free 0, none), (.alloc, some (.ok 0))] := by
    rfl
  rw [this]; simp [Disciplined]

/-- C01 (Linux driver): after *any* history (also with stray, repeated or out-of-range frees) no
index is held twice, all held indices are in range, and the next `alloc` returns the least index not
held, failing exactly when all are held. -/
theorem C01_linux_allocator (count : Nat) (ops : List COp) :
    let b := ((Bmap.init count).run ops).1
    let h := heldC ((Bmap.init count).run ops).2 []
    h.Nodup ∧ (∀ i ∈ h, i < count) ∧
    (∀ i b', b.alloc = some (i, b') → i < count ∧ i ∉ h ∧ ∀ j < i, j ∈ h) ∧
    (b.alloc = none ↔ ∀ j < count, j ∈ h) := by
  intro b h
  have inv0 : CInv (Bmap.init count) [] := by
    refine ⟨List.nodup_nil, fun i => ?_⟩
    simp [Bmap.init, List.getElem?_replicate]
  have inv : CInv b h := cinv_run ops _ _ inv0
  have hl : b.bits.length = count := by
    have := brun_length ops (Bmap.init count)
    rw [show (Bmap.init count).bits.length = count by simp [Bmap.init]] at this; exact this
  refine ⟨inv.nodup, ?_, ?_, ?_⟩
  · intro i hi
    have := List.getElem?_eq_some_iff.mp ((inv.iff i).mp hi); rw [← hl]; exact this.1
  · intro i b' ha
    unfold Bmap.alloc at ha
    split at ha
    · cases ha
    · rename_i k hk
      cases ha
      rw [List.findIdx?_eq_some_iff_getElem] at hk
      obtain ⟨hlt, hget, hbelow⟩ := hk
      simp at hget
      refine ⟨hl ▸ hlt, ?_, ?_⟩
      · intro hi
        have := (inv.iff i).mp hi
        rw [List.getElem?_eq_getElem hlt, hget] at this; simp at this
      · intro j hj
        have := hbelow j hj
        rw [inv.iff j, List.getElem?_eq_getElem (by omega)]
        simpa using this
  · unfold Bmap.alloc
    constructor
    · intro ha j hj
      split at ha
      · rename_i hn
        rw [List.findIdx?_eq_none_iff] at hn
        rw [inv.iff j, List.getElem?_eq_getElem (by omega)]
        have := hn (b.bits[j]'(by omega)) (List.getElem_mem _)
        simpa using this
      · cases ha
    · intro hall
      split
      · rfl
      · rename_i k hk
        exfalso
        rw [List.findIdx?_eq_some_iff_getElem] at hk
        obtain ⟨hlt, hget, _⟩ := hk
        simp at hget
        have := (inv.iff k).mp (hall k (by omega))
        rw [List.getElem?_eq_getElem hlt, hget] at this; simp at this

example : heldC ((Bmap.init 2).run [.alloc, .free 0, .free 0, .free 7, .alloc, .alloc, .alloc]).2 []
    = [1, 0] := by decide

end Corundum.Resource
