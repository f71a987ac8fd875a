import Verif.Proof.PcieCap

/-!
# PCIe capability lists (pcie.py `PcieCapList`)
-/

namespace Corundum.PcieCap

theorem register_J {start : Nat} (hs : 1 ≤ start) {l l' : List Cap} {id : Nat} {len off : Option Nat} (h : J l)
    (hlen : len.getD 0 = 0 ∨ 2 ≤ len.getD 0) (hr : register start l id len off = some l') :
    J l' ∧ ∀ i, (∃ c ∈ l', c.id = i) ↔ (∃ c ∈ l, c.id = i) ∨ i = id := by
  have conv : ∀ {a b : List Cap} {c : Nat × Nat}, (a.map fun x => (x.id, x.len)).Perm (b.map (fun x => (x.id, x.len)) ++ [c]) →
      ∀ i, (∃ x ∈ a, x.id = i) ↔ (∃ x ∈ b, x.id = i) ∨ i = c.1 := by
    intro a b c hp i
    constructor
    · rintro ⟨x, hx, rfl⟩
      have := hp.mem_iff.mp (List.mem_map_of_mem (f := fun x : Cap => (x.id, x.len)) hx)
      rcases List.mem_append.mp this with hm | hm
      · obtain ⟨z, hz, e⟩ := List.mem_map.mp hm
        exact Or.inl ⟨z, hz, congrArg Prod.fst e⟩
      · simp only [List.mem_singleton] at hm
        exact Or.inr (congrArg Prod.fst hm)
    · rintro (⟨x, hx, rfl⟩ | rfl)
      · have := hp.mem_iff.mpr (List.mem_append_left _ (List.mem_map_of_mem (f := fun x : Cap => (x.id, x.len)) hx))
        obtain ⟨z, hz, e⟩ := List.mem_map.mp this
        exact ⟨z, hz, congrArg Prod.fst e⟩
      · have := hp.mem_iff.mpr (List.mem_append_right _ (List.mem_singleton.mpr rfl))
        obtain ⟨z, hz, e⟩ := List.mem_map.mp this
        exact ⟨z, hz, congrArg Prod.fst e⟩
  unfold register at hr
  split at hr
  · rename_i c hc
    have hcm := List.mem_of_find?_eq_some hc
    have hcid : c.id = id := by simpa using List.find?_some hc
    have hco := h.k.ok (key c) (List.mem_map_of_mem hcm)
    have hco1 : 2 ≤ c.len := hco.1
    have hco2 : 1 ≤ c.off := hco.2
    simp only at hr
    generalize hl' : (if len.getD 0 ≠ 0 then len.getD 0 else c.len) = ln at hr
    generalize ho' : (if off.getD 0 ≠ 0 then off.getD 0 else c.off) = of at hr
    have hln : 2 ≤ ln := by rw [← hl']; split <;> omega
    have hof : 1 ≤ of := by rw [← ho']; split <;> omega
    rw [if_neg (by omega), if_pos (by omega)] at hr
    cases hr
    obtain ⟨j1, j2⟩ := addFixed_J (c := { c with len := ln, off := of }) hs (h.sub (List.filter_sublist (p := (·.id != id)))) hln hof
      (by intro x hx; have := (List.mem_filter.mp hx).2; simp at this; rw [hcid]; exact this)
    refine ⟨j1, fun i => ?_⟩
    rw [conv j2 i]
    simp only [hcid, List.mem_filter, bne_iff_ne]
    constructor
    · rintro (⟨x, ⟨hx, _⟩, rfl⟩ | rfl)
      · exact Or.inl ⟨x, hx, rfl⟩
      · exact Or.inr rfl
    · rintro (⟨x, hx, rfl⟩ | rfl)
      · by_cases hx' : x.id = id
        · exact Or.inr hx'
        · exact Or.inl ⟨x, ⟨hx, hx'⟩, rfl⟩
      · exact Or.inr rfl
  · rename_i hc
    have hnew : ∀ x ∈ l, x.id ≠ id := by
      intro x hx
      have := List.find?_eq_none.mp hc x hx
      simpa using this
    split at hr
    · cases hr
    · rename_i hl0
      split at hr
      · rename_i ho
        cases hr
        obtain ⟨j1, j2⟩ := addFixed_J (c := ⟨id, len.getD 0, off.getD 0, none⟩) hs h.k (by simp only; omega) (by simp only; omega) hnew
        exact ⟨j1, conv j2⟩
      · cases hr
        exact ⟨addAuto_J (c := ⟨id, len.getD 0, 0, none⟩) hs h (by simp only; omega) hnew, conv (addAuto_perm start l _)⟩

theorem registers_J {start : Nat} (hs : 1 ≤ start) : ∀ (calls : List (Nat × Option Nat × Option Nat)) (l l' : List Cap), J l →
    (∀ c ∈ calls, c.2.1.getD 0 = 0 ∨ 2 ≤ c.2.1.getD 0) → registers start l calls = some l' →
    J l' ∧ ∀ i, (∃ c ∈ l', c.id = i) ↔ (∃ c ∈ l, c.id = i) ∨ i ∈ calls.map (·.1)
  | [], l, l', h, _, hr => by cases hr; exact ⟨h, by simp⟩
  | (id, len, off) :: r, l, l', h, hl, hr => by
    simp only [registers] at hr
    cases h1 : register start l id len off with
    | none => rw [h1] at hr; cases hr
    | some l1 =>
      rw [h1] at hr
      obtain ⟨j1, j2⟩ := register_J hs h (hl (id, len, off) (by simp)) h1
      obtain ⟨k1, k2⟩ := registers_J hs r l1 l' j1 (fun c hc => hl c (by simp [hc])) hr
      refine ⟨k1, fun i => ?_⟩
      rw [k2 i, j2 i, List.map_cons, List.mem_cons]
      constructor
      · rintro ((h | h) | h)
        · exact Or.inl h
        · exact Or.inr (Or.inl h)
        · exact Or.inr (Or.inr h)
      · rintro (h | h | h)
        · exact Or.inl (Or.inl h)
        · exact Or.inl (Or.inr h)
        · exact Or.inr h

theorem J_nil : J [] := ⟨⟨by simp, by simp, by simp⟩, by simp, rfl⟩

/-! ## C54 -/

/-- **C54 (partial).** After any sequence of `register` calls (new capabilities, re-registrations, fixed offsets that bump others,
automatic offsets) with lengths of at least two registers: every id registered is present exactly once, capabilities are in order
of offset, and two of them share at most one register, the last of the lower and the first of the upper. That they share none
is false in general, see the counterexample. -/
theorem C54_overlap_partial (start : Nat) (hs : 1 ≤ start) (calls : List (Nat × Option Nat × Option Nat)) (l : List Cap)
    (hl : ∀ c ∈ calls, c.2.1.getD 0 = 0 ∨ 2 ≤ c.2.1.getD 0) (hr : registers start [] calls = some l) :
    (∀ i, (∃ c ∈ l, c.id = i) ↔ i ∈ calls.map (·.1)) ∧ l.Pairwise (fun a b => a.id ≠ b.id) ∧
    l.Pairwise (fun a b => a.off + a.len ≤ b.off + 1) := by
  obtain ⟨h1, h2⟩ := registers_J hs calls [] l J_nil hl hr
  have hids : l.Pairwise (fun a b => a.id ≠ b.id) := by
    have := h1.k.ids
    rw [List.pairwise_map] at this
    exact this
  exact ⟨fun i => by rw [h2 i]; simp, hids, h1.order⟩

/-- **C54, counterexample.** A capability of six registers placed automatically before one at the fixed offset 0x15 takes 0x10 to 0x15:
the test for overlap is strict. Reading the header of the second capability then reaches the first, and walking the list fails. -/
theorem C54_overlap_counterexample :
    registers 0x10 [] [(1, some 2, some 0x15), (2, some 6, none)] =
      some [⟨2, 6, 0x10, some 0x54⟩, ⟨1, 2, 0x15, some 0⟩] ∧
    (findByReg [⟨2, 6, 0x10, some 0x54⟩, ⟨1, 2, 0x15, some 0⟩] 0x15).map (·.id) = some 2 ∧
    walk 8 [⟨2, 6, 0x10, some 0x54⟩, ⟨1, 2, 0x15, some 0⟩] 3 0x40 = none := by
  refine ⟨?_, by decide, by decide⟩
  simp [registers, register, addFixed, addAuto, add, place, relink, link, List.mergeSort, List.MergeSort.Internal.splitInTwo]

theorem autos_keep (start : Nat) : ∀ (bs l : List Cap) (k : Nat × Nat × Nat), k ∈ l.map key → k ∈ (bs.foldl (addAuto start) l).map key
  | [], _, _, h => h
  | b :: bs, l, k, h => autos_keep start bs _ k ((add_perm l _).mem_iff.mpr (List.mem_append_left _ h))

/-- **C54.** A capability registered with an offset is at that offset afterwards. -/
theorem C54_fixed (start : Nat) (l l' : List Cap) (id off : Nat) (len : Option Nat) (ho : 1 ≤ off)
    (hr : register start l id len (some off) = some l') : ∃ c ∈ l', c.id = id ∧ c.off = off := by
  have fin : ∀ (m : List Cap) (c : Cap), c.id = id → c.off = off → ∃ x ∈ addFixed start m c, x.id = id ∧ x.off = off := by
    intro m c h1 h2
    have hm : key c ∈ (addFixed start m c).map key :=
      autos_keep start _ _ _ ((add_perm _ c).mem_iff.mpr (List.mem_append_right _ (List.mem_singleton.mpr rfl)))
    obtain ⟨x, hx, e⟩ := List.mem_map.mp hm
    refine ⟨x, hx, ?_, ?_⟩
    · exact (congrArg Prod.fst e).trans h1
    · exact (congrArg (fun k => k.2.2) e).trans h2
  unfold register at hr
  split at hr
  · rename_i c hc
    have hcid : c.id = id := by simpa using List.find?_some hc
    simp only [Option.getD_some] at hr
    rw [if_pos (show off ≠ 0 by omega)] at hr
    generalize (if len.getD 0 ≠ 0 then len.getD 0 else c.len) = ln at hr
    split at hr
    · cases hr
    · rw [if_pos (show off ≠ 0 by omega)] at hr
      cases hr
      exact fin _ _ hcid rfl
  · simp only [Option.getD_some] at hr
    split at hr
    · cases hr
    · rw [if_pos (show off ≠ 0 by omega)] at hr
      cases hr
      exact fin _ _ rfl rfl

/-- Consecutive offsets from `start`. -/
def packed : Nat → List (Nat × Nat) → List (Nat × Nat × Nat)
  | _, [] => []
  | start, (id, len) :: r => (id, len, start) :: packed (start + len) r

def total (r : List (Nat × Nat)) : Nat := (r.map (·.2)).sum

theorem packed_append : ∀ (r : List (Nat × Nat)) (start : Nat) (x : Nat × Nat),
    packed start (r ++ [x]) = packed start r ++ [(x.1, x.2, start + total r)]
  | [], start, x => by simp [packed, total]
  | (i, n) :: r, start, x => by
    simp only [List.cons_append, packed, packed_append r]
    simp [total]; omega

theorem place_packed (len : Nat) (hl : 2 ≤ len) : ∀ (r : List (Nat × Nat)) (l : List Cap) (o : Nat), l.map key = packed o r →
    (∀ x ∈ r, 2 ≤ x.2) → place o len l = o + total r
  | [], l, o, h, _ => by
    have : l = [] := by simpa [packed] using h
    subst this; simp [place, total]
  | (i, n) :: r, [], o, h, _ => by simp [packed] at h
  | (i, n) :: r, c :: l, o, h, h2 => by
    simp only [packed, List.map_cons, List.cons.injEq] at h
    obtain ⟨hc, ht⟩ := h
    have e1 : c.len = n := congrArg (fun k => k.2.1) hc
    have e2 : c.off = o := congrArg (fun k => k.2.2) hc
    have := h2 (i, n) (by simp)
    simp only at this
    show place (if c.off < o + len - 1 ∧ o ≤ c.off + c.len - 1 then c.off + c.len else o) len l = _
    rw [if_pos (by omega), show c.off + c.len = o + n by omega, place_packed len hl r l (o + n) ht (fun x hx => h2 x (by simp [hx]))]
    simp [total]; omega

theorem packed_sorted : ∀ (r : List (Nat × Nat)) (start : Nat), (∀ x ∈ packed start r, start ≤ x.2.2 ∧ x.2.2 + x.2.1 ≤ start + total r) ∧
    (packed start r).Pairwise (fun a b => a.2.2 + a.2.1 ≤ b.2.2)
  | [], _ => by simp [packed]
  | (i, n) :: r, start => by
    obtain ⟨h1, h2⟩ := packed_sorted r (start + n)
    have ht : total ((i, n) :: r) = n + total r := by simp [total]
    refine ⟨?_, ?_⟩
    · intro x hx
      simp only [packed, List.mem_cons] at hx
      rcases hx with hx | hx
      · subst hx; simp only; omega
      · have := h1 x hx; omega
    · simp only [packed, List.pairwise_cons]
      exact ⟨fun x hx => (h1 x hx).1, h2⟩

theorem auto_step (start : Nat) (r : List (Nat × Nat)) (l : List Cap) (c : Cap) (h : l.map key = packed start r) (h2 : ∀ x ∈ r, 2 ≤ x.2)
    (hc : 2 ≤ c.len) : (addAuto start l c).map key = packed start (r ++ [(c.id, c.len)]) := by
  unfold addAuto add
  rw [relink_key, place_packed c.len hc r l start h h2, List.mergeSort_of_pairwise]
  · rw [List.map_append, h, packed_append]; rfl
  · rw [List.pairwise_append]
    have hp := packed_sorted r start
    rw [← h] at hp
    refine ⟨?_, by simp, ?_⟩
    · have := List.pairwise_map.mp hp.2
      exact this.imp (by intro a b hab; simp [key] at hab ⊢; omega)
    · intro a ha b hb
      simp only [List.mem_singleton] at hb; subst hb
      have := hp.1 (key a) (List.mem_map_of_mem ha)
      simp [key] at this ⊢
      omega

theorem registers_auto (start : Nat) : ∀ (rs r : List (Nat × Nat)) (l l' : List Cap), l.map key = packed start r →
    (∀ x ∈ r ++ rs, 2 ≤ x.2) → (r ++ rs).Pairwise (fun a b => a.1 ≠ b.1) →
    registers start l (rs.map fun x => (x.1, some x.2, none)) = some l' → l'.map key = packed start (r ++ rs)
  | [], r, l, l', h, _, _, hr => by cases hr; simpa using h
  | (i, n) :: rs, r, l, l', h, h2, h3, hr => by
    have hn := h2 (i, n) (by simp)
    simp only at hn
    have hnone : l.find? (·.id == i) = none := by
      rw [List.find?_eq_none]
      intro x hx
      have hx' : key x ∈ packed start r := by rw [← h]; exact List.mem_map_of_mem hx
      have hin : ∀ (r : List (Nat × Nat)) (s : Nat) (k : Nat × Nat × Nat), k ∈ packed s r → (k.1, k.2.1) ∈ r := by
        intro r
        induction r with
        | nil => intro s k hk; simp [packed] at hk
        | cons a r ih =>
          intro s k hk
          obtain ⟨a1, a2⟩ := a
          simp only [packed, List.mem_cons] at hk
          rcases hk with hk | hk
          · subst hk; simp
          · exact List.mem_cons_of_mem _ (ih _ _ hk)
      have hmem := hin r start _ hx'
      have := (List.pairwise_append.mp h3).2.2 _ hmem (i, n) (by simp)
      simpa [key] using this
    have hreg : register start l i (some n) none = some (addAuto start l ⟨i, n, 0, none⟩) := by
      unfold register
      rw [hnone]
      simp only [Option.getD_some, Option.getD_none]
      rw [if_neg (by omega), if_neg (by simp)]
    simp only [List.map_cons, registers, hreg, Option.bind_some] at hr
    have h' := auto_step start r l ⟨i, n, 0, none⟩ h (fun x hx => h2 x (by simp [hx])) hn
    have happ : r ++ (i, n) :: rs = (r ++ [(i, n)]) ++ rs := by simp
    rw [happ] at h2 h3 ⊢
    exact registers_auto start rs (r ++ [(i, n)]) _ l' h' h2 h3 hr

/-- **C54.** Capabilities registered without offsets (distinct ids, at least two registers each) are laid out one after the other from
the start of the capability space in the order of registration; they share no register. -/
theorem C54_automatic (start : Nat) (rs : List (Nat × Nat)) (l : List Cap) (h2 : ∀ x ∈ rs, 2 ≤ x.2)
    (h3 : rs.Pairwise (fun a b => a.1 ≠ b.1)) (hr : registers start [] (rs.map fun x => (x.1, some x.2, none)) = some l) :
    l.map (·.id) = rs.map (·.1) ∧ l.Pairwise (fun a b => a.off + a.len ≤ b.off) ∧
    (∀ c ∈ l, start ≤ c.off ∧ c.off + c.len ≤ start + (rs.map (·.2)).sum) := by
  have h := registers_auto start rs [] [] l rfl (by simpa using h2) (by simpa using h3) hr
  simp only [List.nil_append] at h
  obtain ⟨p1, p2⟩ := packed_sorted rs start
  rw [← h] at p1 p2
  refine ⟨?_, ?_, ?_⟩
  · have e : l.map (·.id) = (l.map key).map (·.1) := by simp [key, Function.comp_def]
    rw [e, h]
    clear h hr p1 p2 h2 h3
    induction rs generalizing start with
    | nil => rfl
    | cons a r ih => obtain ⟨i, n⟩ := a; simp [packed, ih]
  · exact List.pairwise_map.mp p2
  · intro c hc; exact p1 (key c) (List.mem_map_of_mem hc)

/-- Walking a linked list from its head. -/
theorem walk_link (w : Nat) (all : List Cap) (hd : all.Pairwise (fun a b => a.off + a.len ≤ b.off))
    (hb : ∀ c ∈ all, 1 ≤ c.len ∧ 1 ≤ c.off ∧ c.off * 4 < 2 ^ w) : ∀ (m : List Cap) (pre : List Cap) (x : Cap) (fuel : Nat),
    all = pre ++ link (x :: m) → m.length + 2 ≤ fuel → walk w all fuel (x.off * 4) = some (x.id :: m.map (·.id)) := by
  have hfind : ∀ c ∈ all, findByReg all c.off = some c := by
    intro c hc
    obtain ⟨i, hi, ei⟩ := List.getElem_of_mem hc
    unfold findByReg
    rw [List.find?_eq_some_iff_getElem]
    refine ⟨by have := hb c hc; simp; omega, i, hi, ei, ?_⟩
    intro j hj
    have := List.pairwise_iff_getElem.mp hd j i (by omega) hi hj
    rw [ei] at this
    simp; omega
  intro m
  induction m with
  | nil =>
    intro pre x fuel he hf
    obtain ⟨fuel, rfl⟩ : ∃ f, fuel = f + 2 := ⟨fuel - 2, by simp at hf; omega⟩
    have hx : ({ x with next := some 0 } : Cap) ∈ all := by rw [he]; simp [link]
    have h1 := hb _ hx
    have h2 := hfind _ hx
    simp only at h1 h2
    rw [walk, if_neg (by omega), Nat.mul_div_cancel _ (by omega), h2]
    simp only [bind, Option.bind, guard, if_true]
    rw [Nat.zero_mod, walk, if_pos rfl]
    rfl
  | cons y m ih =>
    intro pre x fuel he hf
    obtain ⟨fuel, rfl⟩ : ∃ f, fuel = f + 1 := ⟨fuel - 1, by simp at hf; omega⟩
    have hx : ({ x with next := some (y.off * 4) } : Cap) ∈ all := by rw [he]; simp [link]
    have h1 := hb _ hx
    have h2 := hfind _ hx
    simp only at h1 h2
    have hy : y.off * 4 < 2 ^ w := by
      have : ∃ y' ∈ all, y'.off = y.off := by
        rw [he]
        cases m with
        | nil => exact ⟨{ y with next := some 0 }, by simp [link], rfl⟩
        | cons z m => exact ⟨{ y with next := some (z.off * 4) }, by simp [link], rfl⟩
      obtain ⟨y', hy', e⟩ := this
      rw [← e]; exact (hb y' hy').2.2
    rw [walk, if_neg (by omega), Nat.mul_div_cancel _ (by omega), h2]
    simp only [bind, Option.bind, guard, if_true]
    rw [Nat.mod_eq_of_lt hy, ih (pre ++ [{ x with next := some (y.off * 4) }]) y fuel (by rw [he]; simp [link]) (by simp at hf ⊢; omega)]
    rfl

/-- **C54.** Software that walks the list from its first capability meets every capability, in order of offset, and stops: after any
sequence of `register` calls that leaves at least two capabilities sharing no register and within reach of the pointer
field. -/
theorem C54_chain (start w : Nat) (hs : 1 ≤ start) (calls : List (Nat × Option Nat × Option Nat)) (a b : Cap) (l : List Cap)
    (hl : ∀ c ∈ calls, c.2.1.getD 0 = 0 ∨ 2 ≤ c.2.1.getD 0) (hr : registers start [] calls = some (a :: b :: l))
    (hd : (a :: b :: l).Pairwise (fun x y => x.off + x.len ≤ y.off)) (hw : ∀ c ∈ a :: b :: l, c.off * 4 < 2 ^ w) :
    walk w (a :: b :: l) (l.length + 3) (a.off * 4) = some ((a :: b :: l).map (·.id)) := by
  obtain ⟨h1, _⟩ := registers_J hs calls [] _ J_nil hl hr
  have hlink : link (a :: b :: l) = a :: b :: l := h1.linked
  refine walk_link w (a :: b :: l) hd ?_ (b :: l) [] a _ (by rw [hlink]; rfl) (by simp)
  intro c hc
  have := h1.k.ok (key c) (List.mem_map_of_mem hc)
  have e1 : 2 ≤ c.len := this.1
  have e2 : 1 ≤ c.off := this.2
  exact ⟨by omega, e2, hw c hc⟩

/-- **C54, counterexample.** A single capability has no next pointer: `register` leaves it `None`, and reading its header raises. -/
theorem C54_single_counterexample :
    registers 0x10 [] [(1, some 2, none)] = some [⟨1, 2, 0x10, none⟩] ∧ walk 8 [⟨1, 2, 0x10, none⟩] 5 0x40 = none := by
  refine ⟨?_, by decide⟩
  simp [registers, register, addAuto, add, place, relink]

/-- The hypotheses of `C54_chain` hold of the power management, MSI and PCI Express capabilities registered in turn. -/
example : registers 0x10 [] [(1, some 2, none), (5, some 6, none), (0x10, some 15, none)] =
    some [⟨1, 2, 0x10, some 0x48⟩, ⟨5, 6, 0x12, some 0x60⟩, ⟨0x10, 15, 0x18, some 0⟩] := by
  simp [registers, register, addAuto, add, place, relink, link, List.mergeSort, List.MergeSort.Internal.splitInTwo]

end Corundum.PcieCap
