import Verif.Spec.DmaWr
import Verif.Proof.DmaWrTlp

/-! All entries of a list of descriptors. -/
namespace Corundum.DmaWr

section
variable {Byte : Type} {c : Cfg} {M : Nat}

def isLast (j : Job Byte) : Bool := j.e.last

/-- the entries of the descriptors, the first of which has number `i` -/
def planFrom (c : Cfg) : Nat → List (Desc Byte × (Nat → Nat → Byte)) → List (Job Byte)
  | _, [] => []
  | i, x :: xs => jobs c i x.1 ++ planFrom c (i + 1) xs

theorem planFrom_append (c : Cfg) : ∀ (i : Nat) (xs ys : List (Desc Byte × (Nat → Nat → Byte))), planFrom c i (xs ++ ys) = planFrom c i xs ++ planFrom c (i + xs.length) ys
  | i, [], ys => rfl
  | i, x :: xs, ys => by
    simp only [List.cons_append, planFrom, planFrom_append c (i + 1) xs ys, List.append_assoc, List.length_cons]
    rw [show i + 1 + xs.length = i + (xs.length + 1) by omega]

theorem jobs_cov (hD : Dims c M) (d : Desc Byte) (h : d.Given c) (i : Nat) : ∃ es, jobs c i d = es.map (Job.mk i) ∧ Cov c d 0 es := by
  obtain ⟨es, h1, h2⟩ := desc_cov hD d h (d.len + 1) (by omega)
  exact ⟨es, by unfold jobs; rw [h1]; rfl, h2⟩

theorem cov_count {d : Desc Byte} {lo : Nat} {es : List (Ent Byte)} (h : Cov c d lo es) (i : Nat) :
    (es.map (Job.mk i)).countP isLast = 1 ∧ (∀ k, k < es.length → ((es.map (Job.mk i)).take k).countP isLast = 0) ∧ es ≠ [] := by
  induction h with
  | last lo T e he ht =>
    have : e.last = true := by rw [he.last]; simp [ht]
    refine ⟨by simp [isLast, this], ?_, by simp⟩
    intro k hk
    have : k = 0 := by simp at hk; omega
    subst this; rfl
  | cons lo T e es he ht hc ih =>
    have : e.last = false := by rw [he.last]; simp; omega
    refine ⟨by rw [List.map_cons, List.countP_cons, ih.1]; simp [isLast, this], ?_, by simp⟩
    intro k hk
    cases k with
    | zero => rfl
    | succ k =>
      rw [List.map_cons, List.take_succ_cons, List.countP_cons, ih.2.1 k (by simp at hk; omega)]
      simp [isLast, this]

theorem cov_mem {d : Desc Byte} {lo : Nat} {es : List (Ent Byte)} (h : Cov c d lo es) : ∀ e ∈ es, ∃ lo T, EntOk c d lo T e := by
  induction h with
  | last lo T e he ht => intro x hx; rw [List.mem_singleton] at hx; subst hx; exact ⟨lo, T, he⟩
  | cons lo T e es he ht hc ih =>
    intro x hx
    rcases List.mem_cons.1 hx with rfl | hx
    · exact ⟨lo, T, he⟩
    · exact ih x hx

theorem count_plan (hD : Dims c M) : ∀ (xs : List (Desc Byte × (Nat → Nat → Byte))) (i : Nat), (∀ x ∈ xs, x.1.Given c) → (planFrom c i xs).countP isLast = xs.length
  | [], _, _ => rfl
  | x :: xs, i, h => by
    obtain ⟨es, h1, h2⟩ := jobs_cov hD x.1 (h x (by simp)) i
    simp only [planFrom, List.countP_append, count_plan hD xs (i + 1) (fun y hy => h y (by simp [hy])), List.length_cons]
    rw [h1, (cov_count h2 i).1]; omega

theorem own_plan (hD : Dims c M) : ∀ (xs : List (Desc Byte × (Nat → Nat → Byte))) (i : Nat), (∀ x ∈ xs, x.1.Given c) → ∀ (k : Nat) (j : Job Byte), (planFrom c i xs)[k]? = some j →
    j.own = i + ((planFrom c i xs).take k).countP isLast
  | [], _, _, k, j, hk => by simp [planFrom] at hk
  | x :: xs, i, h, k, j, hk => by
    obtain ⟨es, h1, h2⟩ := jobs_cov hD x.1 (h x (by simp)) i
    have hc := cov_count h2 i
    simp only [planFrom] at hk ⊢
    rw [h1] at hk ⊢
    rcases Nat.lt_or_ge k es.length with hl | hl
    · rw [List.getElem?_append_left (by simpa using hl)] at hk
      have : j.own = i := by
        rw [List.getElem?_map] at hk
        cases hh : es[k]? with
        | none => rw [hh] at hk; simp at hk
        | some e => rw [hh] at hk; simp at hk; rw [← hk]
      rw [List.take_append_of_le_length (by simpa using Nat.le_of_lt hl), hc.2.1 k hl, this, Nat.add_zero]
    · rw [List.getElem?_append_right (by simpa using hl)] at hk
      have := own_plan hD xs (i + 1) (fun y hy => h y (by simp [hy])) _ j hk
      rw [this, List.take_append, List.countP_append, List.take_of_length_le (l := es.map (Job.mk i)) (by simpa using hl), hc.1]
      omega

/-- an entry belongs to its descriptor -/
def JobOk (c : Cfg) (look : Nat → Option (Desc Byte × (Nat → Nat → Byte))) (j : Job Byte) : Prop :=
  ∃ d snap lo T, look j.own = some (d, snap) ∧ d.Given c ∧ EntOk c d lo T j.e

theorem plan_job (hD : Dims c M) (look : Nat → Option (Desc Byte × (Nat → Nat → Byte))) : ∀ (xs : List (Desc Byte × (Nat → Nat → Byte))) (i : Nat), (∀ x ∈ xs, x.1.Given c) →
    (∀ (t : Nat) (x : Desc Byte × (Nat → Nat → Byte)), xs[t]? = some x → look (i + t) = some x) → ∀ j ∈ planFrom c i xs, JobOk c look j
  | [], _, _, _, j, hj => by simp [planFrom] at hj
  | x :: xs, i, h, hl, j, hj => by
    obtain ⟨es, h1, h2⟩ := jobs_cov hD x.1 (h x (by simp)) i
    simp only [planFrom] at hj
    rcases List.mem_append.1 hj with hj | hj
    · rw [h1] at hj
      obtain ⟨e, he, rfl⟩ := List.mem_map.1 hj
      obtain ⟨lo, T, hh⟩ := cov_mem h2 e he
      exact ⟨x.1, x.2, lo, T, hl 0 x rfl, h x (by simp), hh⟩
    · refine plan_job hD look xs (i + 1) (fun y hy => h y (by simp [hy])) ?_ j hj
      intro t y hy
      have := hl (t + 1) y (by simpa using hy)
      rw [← this, show i + 1 + t = i + (t + 1) by omega]

/-- the source of byte `i` of a descriptor -/
def src (c : Cfg) (x : Desc Byte × (Nat → Nat → Byte)) (i : Nat) : Byte := match x.1.imm with | some f => f i | none => x.2 x.1.sel ((x.1.ram + i) % 2 ^ c.ram.aw)

/-- what the TLP of an entry has to write -/
def jobBytes (c : Cfg) (look : Nat → Option (Desc Byte × (Nat → Nat → Byte))) (j : Job Byte) : List (Nat × Byte) :=
  match look j.own with
  | some x => if x.1.len = 0 then [] else (List.range j.e.len).map fun q => (x.1.addr + (j.e.addr - x.1.addr + q), src c x (j.e.addr - x.1.addr + q))
  | none => []

theorem cov_bytes {x : Desc Byte × (Nat → Nat → Byte)} {lo : Nat} {es : List (Ent Byte)} (h : Cov c x.1 lo es) (look : Nat → Option (Desc Byte × (Nat → Nat → Byte))) (i : Nat)
    (hl : look i = some x) (h0 : x.1.len ≠ 0) : (es.map (Job.mk i)).flatMap (jobBytes c look) = (List.range' lo (x.1.len - lo)).map fun t => (x.1.addr + t, src c x t) := by
  have hb : ∀ (e : Ent Byte) (lo T : Nat), EntOk c x.1 lo T e → jobBytes c look ⟨i, e⟩ = (List.range' lo T).map fun t => (x.1.addr + t, src c x t) := by
    intro e lo T he
    simp only [jobBytes, hl, h0, if_false]
    rw [he.addr, show x.1.addr + lo - x.1.addr = lo by omega, he.len, List.range'_eq_map_range, List.map_map]
    rfl
  have ht : x.1.total = x.1.len := by unfold Desc.total; rw [if_neg h0]
  induction h with
  | last lo T e he hh => rw [List.map_singleton, List.flatMap_singleton, hb e lo T he]; congr 2; omega
  | cons lo T e es he hh hc ih =>
    rw [List.map_cons, List.flatMap_cons, ih, hb e lo T he, ← List.map_append]
    congr 1
    have := @List.range'_append_1 lo T (x.1.len - (lo + T))
    rw [this]; congr 1; omega

theorem plan_bytes (hD : Dims c M) (look : Nat → Option (Desc Byte × (Nat → Nat → Byte))) : ∀ (xs : List (Desc Byte × (Nat → Nat → Byte))) (i : Nat), (∀ x ∈ xs, x.1.Given c) →
    (∀ (t : Nat) (x : Desc Byte × (Nat → Nat → Byte)), xs[t]? = some x → look (i + t) = some x) →
    (planFrom c i xs).flatMap (jobBytes c look) = xs.flatMap fun x => x.1.wanted c x.2
  | [], _, _, _ => rfl
  | x :: xs, i, h, hl => by
    obtain ⟨es, h1, h2⟩ := jobs_cov hD x.1 (h x (by simp)) i
    have ih := plan_bytes hD look xs (i + 1) (fun y hy => h y (by simp [hy])) (by
      intro t y hy
      have := hl (t + 1) y (by simpa using hy)
      rw [← this, show i + 1 + t = i + (t + 1) by omega])
    simp only [planFrom, List.flatMap_append, List.flatMap_cons, ih]
    congr 1
    have hx : look i = some x := hl 0 x rfl
    rw [h1]
    by_cases h0 : x.1.len = 0
    · have : x.1.wanted c x.2 = [] := by unfold Desc.wanted; rw [h0]; rfl
      rw [this, List.flatMap_eq_nil_iff]
      intro j hj
      obtain ⟨e, he, rfl⟩ := List.mem_map.1 hj
      simp [jobBytes, hx, h0]
    · rw [cov_bytes h2 look i hx h0, Nat.sub_zero, ← List.range_eq_range']
      rfl

/-- a prefix with `m` last entries holds all entries of the first `m` descriptors -/
theorem plan_cover (hD : Dims c M) (xs : List (Desc Byte × (Nat → Nat → Byte))) (h : ∀ x ∈ xs, x.1.Given c) (k m : Nat) (hm : m ≤ ((planFrom c 0 xs).take k).countP isLast) :
    (planFrom c 0 (xs.take m)).length ≤ k := by
  rcases Nat.lt_or_ge k (planFrom c 0 (xs.take m)).length with hk | hk
  · exfalso
    have e : planFrom c 0 xs = planFrom c 0 (xs.take m) ++ planFrom c (0 + (xs.take m).length) (xs.drop m) := by
      rw [← planFrom_append, List.take_append_drop]
    have hg : ∀ x ∈ xs.take m, x.1.Given c := fun x hx => h x (List.mem_of_mem_take hx)
    rw [e, List.take_append_of_le_length (Nat.le_of_lt hk)] at hm
    -- the owner of entry `k` is before `m`
    obtain ⟨j, hj⟩ : ∃ j, (planFrom c 0 (xs.take m))[k]? = some j := ⟨_, List.getElem?_eq_getElem hk⟩
    have ho := own_plan hD _ 0 hg k j hj
    obtain ⟨d, snap, lo, T, hl, _⟩ := plan_job hD (fun t => (xs.take m)[t]?) (xs.take m) 0 hg (by intro t x hx; rw [Nat.zero_add]; exact hx) j (List.mem_of_getElem? hj)
    have hlt : j.own < (xs.take m).length := by
      rcases Nat.lt_or_ge j.own (xs.take m).length with h | h
      · exact h
      · dsimp only at hl; rw [List.getElem?_eq_none h] at hl; exact absurd hl (by simp)
    rw [List.length_take] at hlt
    omega
  · exact hk

end

end Corundum.DmaWr
