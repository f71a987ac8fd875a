import Verif.Proof.RegBlock
/-! C02 — register block discovery: property theorems. -/
namespace Corundum.RegBlock

/-- C02: for every content of the (32-bit) register file, discovery terminates, its outcome does not
depend on how long we let it run, and the outcome is the one the linked list calls for: the exact
list of blocks, or an error for a misaligned or cyclic list. -/
theorem C02_discovery (regs : Nat → Nat) (start : Nat) (hs : start < 2^32)
    (hr : ∀ a, regs a < 2^32) :
    ∃ r, (∀ fuel, 2^32 < fuel + 1 → walk regs fuel [] start = some r) ∧ Report regs start r := by
  have hp : Proper regs start 0 := by intro i h1 h2; omega
  have ht := walk_terminates regs start (2^32) hs hr (2^32) 0 hp (by omega)
  obtain ⟨r, hr'⟩ := Option.isSome_iff_exists.mp ht
  have hr0 : walk regs (2^32) [] start = some r := by simpa [chain] using hr'
  refine ⟨r, fun fuel hf => ?_, ?_⟩
  · obtain ⟨k, rfl⟩ : ∃ k, fuel = 2^32 + k := ⟨fuel - 2^32, by omega⟩
    clear hf
    induction k with
    | zero => exact hr0
    | succ k ih => exact walk_mono regs _ _ _ _ ih
  · exact walk_sound regs start (2^32) 0 hp r (by simpa [chain] using hr')

/-- The three outcomes of `Report` are mutually exclusive, so `C02_discovery` determines the result. -/
theorem C02_report_unique (regs : Nat → Nat) (start : Nat) (r r' : Except WalkErr (List Block))
    (h : Report regs start r) (h' : Report regs start r') : r = r' := by
  -- every report has a first index n+1 at which the chain stops being proper
  have key : ∀ n m, Proper regs start n → Proper regs start m →
      ¬ Proper regs start (n+1) → ¬ Proper regs start (m+1) → n = m := by
    intro n m hn hm hn' hm'
    rcases Nat.lt_trichotomy n m with h | h | h
    · exact absurd (fun i h1 h2 => hm i h1 (by omega)) hn'
    · exact h
    · exact absurd (fun i h1 h2 => hn i h1 (by omega)) hm'
  have e0 : ∀ n, chain regs start (n+1) = 0 → ¬ Proper regs start (n+1) :=
    fun n h hp => (hp (n+1) (by omega) (by omega)).1 h
  have e1 : ∀ n, chain regs start (n+1) % 4 ≠ 0 → ¬ Proper regs start (n+1) :=
    fun n h hp => h (hp (n+1) (by omega) (by omega)).2.1
  have e2 : ∀ n, (∃ j ≤ n, chain regs start j = chain regs start (n+1)) → ¬ Proper regs start (n+1) :=
    fun n ⟨j, hj, e⟩ hp => (hp (n+1) (by omega) (by omega)).2.2 j (by omega) e
  match r, r', h, h' with
  | .ok _, .ok _, ⟨n, a, b, c⟩, ⟨m, a', b', c'⟩ =>
    have := key n m a a' (e0 n b) (e0 m b'); subst this; rw [c, c']
  | .ok _, .error .unaligned, ⟨n, a, b, _⟩, ⟨m, a', b'⟩ =>
    have := key n m a a' (e0 n b) (e1 m b'); subst this; omega
  | .ok _, .error .loop, ⟨n, a, b, _⟩, ⟨m, a', b', _, d⟩ =>
    have := key n m a a' (e0 n b) (e2 m d); subst this; omega
  | .error .unaligned, .ok _, ⟨n, a, b⟩, ⟨m, a', b', _⟩ =>
    have := key n m a a' (e1 n b) (e0 m b'); subst this; omega
  | .error .unaligned, .error .unaligned, _, _ => rfl
  | .error .unaligned, .error .loop, ⟨n, a, b⟩, ⟨m, a', _, c', d⟩ =>
    have := key n m a a' (e1 n b) (e2 m d); subst this; omega
  | .error .loop, .ok _, ⟨n, a, b, _, d⟩, ⟨m, a', b', _⟩ =>
    have := key n m a a' (e2 n d) (e0 m b'); subst this; omega
  | .error .loop, .error .unaligned, ⟨n, a, _, c, d⟩, ⟨m, a', b'⟩ =>
    have := key n m a a' (e2 n d) (e1 m b'); subst this; omega
  | .error .loop, .error .loop, _, _ => rfl

/-- C02: `find` returns the `index`-th block (counting from 0) with the given type and version, and
nothing when there are not that many. -/
theorem C02_find (blocks : List Block) (type version : Nat) (index : Nat) :
    find blocks type version index =
    (blocks.filter (fun b => b.type == type && (version == 0 || b.version == version)))[index]? := by
  induction blocks generalizing index with
  | nil => simp [find]
  | cons b t ih =>
    unfold find
    by_cases hm : b.type = type ∧ (version = 0 ∨ b.version = version)
    · have : (b.type == type && (version == 0 || b.version == version)) = true := by
        simp [hm.1]; exact hm.2
      rw [if_pos hm, List.filter_cons_of_pos (by simpa using this)]
      cases index with
      | zero => simp
      | succ k =>
        have h1 : ¬ ((k + 1 : Nat) : Int) ≤ 0 := by omega
        have h2 : ((k + 1 : Nat) : Int) - 1 = (k : Nat) := by omega
        rw [if_neg h1, h2, ih]
        simp
    · have : ¬ (b.type == type && (version == 0 || b.version == version)) = true := by
        simp only [Bool.and_eq_true, Bool.or_eq_true, beq_iff_eq]; exact hm
      rw [if_neg hm, List.filter_cons_of_neg (by simpa using this)]
      exact ih index

/-- C02 (Linux driver): the walk terminates for every register content and BAR size; it returns the
blocks of the chain up to the first null link (or the first link outside the BAR), or NULL if the
chain revisits an offset. -/
theorem C02_linux_discovery (regs : Nat → Nat) (size start : Nat) :
    ∃ r, walkC regs size (size + 1) [] start = some r ∧
    (∀ bs, r = some bs → ∃ m,
        (∀ i < m, chain regs start i < size ∧ (1 ≤ i → chain regs start i ≠ 0) ∧
          ∀ j < i, chain regs start j ≠ chain regs start i) ∧
        ((chain regs start m = 0 ∧ m ≠ 0) ∨ size ≤ chain regs start m) ∧
        bs = (List.range m).map (fun i => blockAt regs (chain regs start i))) ∧
    (r = none → ∃ m,
        (∀ i < m, chain regs start i < size ∧ (1 ≤ i → chain regs start i ≠ 0)) ∧
        ∃ j < m, chain regs start j = chain regs start m) := by
  have hp : ProperC regs size start 0 := by intro i h1; omega
  have ht := walkC_terminates regs size start (size+1) 0 hp (by omega)
  obtain ⟨r, hr'⟩ := Option.isSome_iff_exists.mp ht
  have hs := walkC_sound regs size start (size+1) 0 hp r hr'
  refine ⟨r, by simpa [chain] using hr', hs.1, fun e => ?_⟩
  obtain ⟨m, hm, hj⟩ := hs.2 e
  exact ⟨m, fun i hi => ⟨(hm i hi).1, (hm i hi).2.1⟩, hj⟩

/-! Non-vacuity: a two-block list, a cyclic list, a misaligned list. -/
def exRegs : Nat → Nat := fun a => if a = 0x8 then 0x40 else if a = 0x40 then 7 else if a = 0x44 then 2 else 0
example : walk exRegs 5 [] 0 = some (.ok [⟨0, 0, 0⟩, ⟨0x40, 7, 2⟩]) := rfl
example : walk (fun a => if a % 16 = 8 then 0x10 else 1) 5 [] 0 = some (.error .loop) := rfl
example : walk (fun _ => 1) 5 [] 0 = some (.error .unaligned) := rfl
example : find [⟨0, 7, 1⟩, ⟨16, 8, 1⟩, ⟨32, 7, 2⟩] 7 0 1 = some ⟨32, 7, 2⟩ := by decide

end Corundum.RegBlock
