import Verif.Model.PcieAlloc

/-!
# Root complex memory regions (pcie.py)
-/
namespace Corundum.PcieAlloc

theorem align_spec (val k : Nat) : val ≤ align val k ∧ align val k % 2 ^ k = 0 ∧ align val k < val + 2 ^ k := by
  have hp : 0 < 2 ^ k := Nat.two_pow_pos k
  have hlt : val % 2 ^ k < 2 ^ k := Nat.mod_lt _ hp
  have hle : val % 2 ^ k ≤ val := Nat.mod_le _ _
  unfold align
  split
  · rename_i h
    refine ⟨by omega, ?_, by omega⟩
    rw [show val + 2 ^ k - val % 2 ^ k = (val - val % 2 ^ k) + 2 ^ k by omega, Nat.add_mod_right]
    exact Nat.sub_mod_eq_zero_of_mod_eq (by simp)
  · omega

/-- Regions `r` and `r'` share no byte. -/
def Disjoint (r r' : Region) : Prop := r.addr + r.size ≤ r'.addr ∨ r'.addr + r'.size ≤ r.addr

structure Inv (s : State) : Prop where
  below : ∀ r ∈ s.regions, r.addr + r.size ≤ s.limit + 1
  odd : s.regions ≠ [] → s.limit % 2 = 1
  disj : s.regions.Pairwise Disjoint

theorem two_dvd {k : Nat} (h : 1 ≤ k) {x : Nat} (hx : x % 2 ^ k = 0) : x % 2 = 0 := by
  have h2 : 2 ∣ 2 ^ k := Nat.pow_dvd_pow 2 h
  exact Nat.mod_eq_zero_of_dvd (Nat.dvd_trans h2 (Nat.dvd_of_mod_eq_zero hx))

theorem inv_alloc (lg : Nat → Nat) (s : State) (n : Nat) (h : Inv s) (hn : 2 ≤ n) (he : n % 2 = 0) (hk : 1 ≤ lg n) :
    Inv (alloc lg s n).1 := by
  obtain ⟨a1, a2, a3⟩ := align_spec s.limit (lg n)
  have a4 := two_dvd hk a2
  unfold alloc
  generalize align s.limit (lg n) = a at *
  refine ⟨?_, ?_, ?_⟩
  · intro r hr
    simp only at hr ⊢
    rcases List.mem_append.mp hr with hr | hr
    · have := h.below r hr; omega
    · simp only [List.mem_singleton] at hr; subst hr; simp only; omega
  · intro _; simp only; omega
  · simp only
    rw [List.pairwise_append]
    refine ⟨h.disj, by simp, ?_⟩
    intro r hr r' hr'
    simp only [List.mem_singleton] at hr'
    subst hr'
    left
    simp only
    have := h.below r hr
    have := h.odd (List.ne_nil_of_mem hr)
    omega

theorem inv_allocs (lg : Nat → Nat) (sizes : List Nat) : ∀ s : State, Inv s → (∀ n ∈ sizes, 2 ≤ n ∧ n % 2 = 0 ∧ 1 ≤ lg n) →
    Inv (allocs lg s sizes) := by
  induction sizes with
  | nil => intro s h _; exact h
  | cons n ns ih =>
    intro s h hs
    obtain ⟨h1, h2, h3⟩ := hs n (by simp)
    exact ih _ (inv_alloc lg s n h h1 h2 h3) (fun m hm => hs m (by simp [hm]))

theorem allocs_sizes (lg : Nat → Nat) (sizes : List Nat) : ∀ s : State, (allocs lg s sizes).regions.map (·.size) = s.regions.map (·.size) ++ sizes := by
  induction sizes with
  | nil => intro s; simp [allocs]
  | cons n ns ih =>
    intro s
    show (allocs lg (alloc lg s n).1 ns).regions.map _ = _
    rw [ih]
    simp [alloc]

/-! ## C53 -/

/-- **C53 (partial).** Memory regions of even sizes (at least 2) allocated one after another, in any number and order, never share a byte:
there is one region of each size asked for, pairwise disjoint. For odd sizes and size 1 this fails, see the counterexample. -/
theorem C53_disjoint_partial (lg : Nat → Nat) (sizes : List Nat) (hs : ∀ n ∈ sizes, 2 ≤ n ∧ n % 2 = 0 ∧ 1 ≤ lg n) :
    (allocs lg {} sizes).regions.map (·.size) = sizes ∧ (allocs lg {} sizes).regions.Pairwise Disjoint :=
  ⟨by rw [allocs_sizes]; rfl, (inv_allocs lg sizes {} ⟨by simp, by simp, by simp⟩ hs).disj⟩

/-- **C53 (partial).** An access to any byte of an allocated region of even size reaches that region. -/
theorem C53_find_partial (lg : Nat → Nat) (sizes : List Nat) (hs : ∀ n ∈ sizes, 2 ≤ n ∧ n % 2 = 0 ∧ 1 ≤ lg n) (i : Nat) (r : Region)
    (hr : (allocs lg {} sizes).regions[i]? = some r) (a : Nat) (h1 : r.addr ≤ a) (h2 : a < r.addr + r.size) :
    find (allocs lg {} sizes) a = some i := by
  have hd := (C53_disjoint_partial lg sizes hs).2
  unfold find
  obtain ⟨hi, hri⟩ := List.getElem?_eq_some_iff.mp hr
  rw [List.findIdx?_eq_some_iff_getElem]
  refine ⟨hi, by rw [hri]; simp [h1, h2], ?_⟩
  intro j hj
  have := List.pairwise_iff_getElem.mp hd j i (by omega) hi hj
  rw [hri] at this
  unfold Disjoint at this
  simp only [Bool.not_eq_true, decide_eq_false_iff_not]
  omega

/-- **C53.** The address of a new region is aligned to `2^k` and the search wastes less than one alignment unit. -/
theorem C53_aligned (lg : Nat → Nat) (s : State) (size : Nat) :
    (alloc lg s size).2 % 2 ^ lg size = 0 ∧ s.limit ≤ (alloc lg s size).2 ∧ (alloc lg s size).2 < s.limit + 2 ^ lg size := by
  obtain ⟨a1, a2, a3⟩ := align_spec s.limit (lg size)
  exact ⟨a2, a1, a3⟩

/-- **C53, counterexample.** `region_limit` is the last byte of the region, not the next free one: a region of 3 bytes followed by one of
2 share a byte, and two regions of one byte get the same address. -/
theorem C53_odd_counterexample (lg : Nat → Nat) (h3 : lg 3 = 2) (h2 : lg 2 = 1) (h1 : lg 1 = 0) :
    (allocs lg {} [3, 2]).regions = [⟨0, 3⟩, ⟨2, 2⟩] ∧ (allocs lg {} [1, 1]).regions = [⟨0, 1⟩, ⟨0, 1⟩] := by
  simp [allocs, alloc, align, h1, h2, h3]

example : (allocs (fun n => if n = 4096 then 12 else 14) {} [4096, 16384, 4096]).regions = [⟨0, 4096⟩, ⟨16384, 16384⟩, ⟨32768, 4096⟩] := by
  decide

end Corundum.PcieAlloc
