import Verif.Model.LinuxRx
import Verif.Proof.Driver
/-! Helper lemmas for C09. -/
namespace Corundum.LinuxRx
open Corundum.Driver (and_mask mod_inj_of_window)

theorem mask_eq (g : Rx) (x : Nat) : x &&& g.mask = x % g.size := and_mask x g.k

/-- pointers are consistent -/
def Win (g : Rx) : Prop := g.cons ≤ g.prod ∧ g.prod ≤ g.cons + g.size

theorem consumeAll_frame (cs : List Cpl) : ∀ g : Rx, (consumeAll g cs).2.prod = g.prod ∧
    (consumeAll g cs).2.cons = g.cons ∧ (consumeAll g cs).2.k = g.k ∧ (consumeAll g cs).2.len = g.len := by
  induction cs with
  | nil => intro g; simp [consumeAll]
  | cons c cs ih =>
    intro g
    unfold consumeAll
    cases hc : consume g c with
    | none => simp
    | some x =>
      obtain ⟨d, g'⟩ := x
      have hg : g'.prod = g.prod ∧ g'.cons = g.cons ∧ g'.k = g.k ∧ g'.len = g.len := by
        unfold consume at hc
        simp only at hc
        split at hc
        · simp at hc; rw [← hc.2]; simp
        · split at hc
          · simp at hc
          · simp at hc; rw [← hc.2]; simp
      have := ih g'
      simp only
      rw [this.1, this.2.1, this.2.2.1, this.2.2.2]
      exact hg

theorem scanTo_spec (g : Rx) (n : Nat) : ∀ c, c ≤ scanTo g n c ∧ scanTo g n c ≤ c + n ∧
    (∀ p, c ≤ p → p < scanTo g n c → g.page (p % g.size) = none) ∧
    (scanTo g n c < c + n → g.page (scanTo g n c % g.size) ≠ none) := by
  induction n with
  | zero => intro c; simp [scanTo]; intro p h1 h2; omega
  | succ n ih =>
    intro c
    unfold scanTo
    rw [mask_eq]
    cases hi : g.page (c % g.size) with
    | none =>
      simp only [Option.isSome_none, Bool.false_eq_true, if_false]
      obtain ⟨h1, h2, h3, h4⟩ := ih (c+1)
      refine ⟨by omega, by omega, ?_, fun h => h4 (by omega)⟩
      intro p hp1 hp2
      by_cases hp : p = c
      · subst hp; exact hi
      · exact h3 p (by omega) hp2
    | some b =>
      simp only [Option.isSome_some, if_true]
      refine ⟨by omega, by omega, ?_, ?_⟩
      · intro p hp1 hp2; omega
      · intro _; rw [hi]; simp

theorem refillLoop_spec (n : Nat) : ∀ g : Rx, (refillLoop g n).cons = g.cons ∧ (refillLoop g n).k = g.k ∧
    (refillLoop g n).len = g.len ∧
    g.prod ≤ (refillLoop g n).prod ∧ (refillLoop g n).prod ≤ g.prod + n ∧
    (∀ i b, g.page i = some b → (refillLoop g n).page i = some b) := by
  induction n with
  | zero => intro g; simp [refillLoop]
  | succ n ih =>
    intro g
    unfold refillLoop
    cases hp : prepare g with
    | none => simp
    | some g' =>
      simp only
      unfold prepare at hp
      simp only at hp
      split at hp
      · simp at hp
      · rename_i hn
        simp at hp
        obtain ⟨h1, h2, h3, h4, h5, h6⟩ := ih g'
        have e1 : g'.prod = g.prod + 1 := by rw [← hp]
        refine ⟨by rw [h1, ← hp], by rw [h2, ← hp], by rw [h3, ← hp], by omega, by omega, ?_⟩
        intro i b hb
        apply h6
        rw [← hp]
        simp only
        split
        · rename_i e
          rw [← e, hb] at hn
          simp at hn
        · exact hb

/-- if no slot up to the limit is occupied, the refill loop posts all of them -/
theorem refillLoop_full (n : Nat) : ∀ g : Rx, n ≤ g.size →
    (∀ p, g.prod ≤ p → p < g.prod + n → g.page (p % g.size) = none) →
    (refillLoop g n).prod = g.prod + n := by
  induction n with
  | zero => intro g _ _; simp [refillLoop]
  | succ n ih =>
    intro g hn hf
    unfold refillLoop prepare
    rw [mask_eq]
    simp only
    have h0 := hf g.prod (by omega) (by omega)
    rw [h0]
    simp only [Option.isSome_none, Bool.false_eq_true, if_false]
    rw [ih]
    · simp only; omega
    · show n ≤ g.size; omega
    · intro p h1 h2
      have h1 : g.prod + 1 ≤ p := h1
      have h2 : p < g.prod + 1 + n := h2
      show (if p % g.size = g.prod % g.size then some g.nextPage else g.page (p % g.size)) = none
      rw [if_neg]
      · exact hf p (by omega) (by omega)
      · intro e
        have := mod_inj_of_window (a := g.prod) (n := g.size) (b := p) (c := g.prod) (by omega) (by omega)
          (Nat.le_refl _) (by omega) e
        omega

theorem win_refill {g : Rx} (h : Win g) : Win (refill g) := by
  unfold refill
  simp only
  split
  · exact h
  · obtain ⟨h1, h2, _, h4, h5, _⟩ := refillLoop_spec (g.size - (g.prod - g.cons)) g
    unfold Win at *
    have : (refillLoop g (g.size - (g.prod - g.cons))).size = g.size := congrArg (2 ^ ·) h2
    rw [h1, this]; omega

theorem win_scan {g : Rx} (h : Win g) : Win (scan g) := by
  have := scanTo_spec g (g.prod - g.cons) g.cons
  unfold Win at *
  show scanTo g (g.prod - g.cons) g.cons ≤ g.prod ∧ g.prod ≤ scanTo g (g.prod - g.cons) g.cons + g.size
  omega

theorem win_process {g : Rx} (h : Win g) (cs : List Cpl) : Win (processRx g cs).2 := by
  unfold processRx
  simp only
  apply win_refill
  apply win_scan
  obtain ⟨h1, h2, h3, h4⟩ := consumeAll_frame cs g
  unfold Win Rx.size at *
  rw [h1, h2, h3]
  exact h

/-- A slot whose page is not released by any record keeps its page. -/
theorem consumeAll_keeps (i b : Nat) (cs : List Cpl) : ∀ g : Rx, g.page i = some b →
    (∀ c ∈ cs, c.index % g.size = i → min c.len g.len < ETH_HLEN) →
    (consumeAll g cs).2.page i = some b := by
  induction cs with
  | nil => intro g h _; exact h
  | cons c cs ih =>
    intro g h hc
    unfold consumeAll
    cases hcon : consume g c with
    | none => exact h
    | some x =>
      obtain ⟨d, g'⟩ := x
      simp only
      unfold consume at hcon
      rw [mask_eq] at hcon
      simp only at hcon
      split at hcon
      · simp at hcon
        rw [← hcon.2]
        exact ih g h (fun c' hc' => hc c' (by simp [hc']))
      · rename_i hlen
        split at hcon
        · simp at hcon
        · rename_i pg hpg
          simp at hcon
          have hne : i ≠ c.index % g.size := fun e => hlen (hc c (by simp) e.symm)
          apply ih
          · rw [← hcon.2]; simp only; rw [if_neg hne]; exact h
          · rw [← hcon.2]
            exact fun c' hc' => hc c' (by simp [hc'])

/-- The effect of consuming good records that hit distinct occupied slots. -/
theorem consumeAll_good (cs : List Cpl) : ∀ g : Rx,
    (cs.map (fun c => c.index % g.size)).Nodup →
    (∀ c ∈ cs, ETH_HLEN ≤ min c.len g.len ∧ (g.page (c.index % g.size)).isSome) →
    (consumeAll g cs).1 = cs.map (fun c => ((g.page (c.index % g.size)).getD 0, min c.len g.len)) ∧
    (∀ i, (consumeAll g cs).2.page i = if i ∈ cs.map (fun c => c.index % g.size) then none else g.page i) := by
  induction cs with
  | nil => intro g _ _; simp [consumeAll]
  | cons c cs ih =>
    intro g hnd hg
    have hc := hg c (by simp)
    obtain ⟨pg, hpg⟩ := Option.isSome_iff_exists.mp hc.2
    have hcon : consume g c = some (some (pg, min c.len g.len),
        { g with page := fun j => if j = c.index % g.size then none else g.page j }) := by
      unfold consume
      rw [mask_eq]
      simp only
      rw [if_neg (by omega), hpg]
    unfold consumeAll
    rw [hcon]
    simp only
    rw [List.map_cons, List.nodup_cons] at hnd
    have hslot : ∀ c' ∈ cs, c'.index % g.size ≠ c.index % g.size := by
      intro c' hc' e
      exact hnd.1 (by rw [← e]; exact List.mem_map.mpr ⟨c', hc', rfl⟩)
    obtain ⟨i1, i2⟩ := ih { g with page := fun j => if j = c.index % g.size then none else g.page j } hnd.2 (by
      intro c' hc'
      refine ⟨(hg c' (by simp [hc'])).1, ?_⟩
      show (if c'.index % g.size = c.index % g.size then none else g.page (c'.index % g.size)).isSome = true
      rw [if_neg (hslot c' hc')]
      exact (hg c' (by simp [hc'])).2)
    constructor
    · rw [i1]
      simp only [Option.toList_some, List.singleton_append, List.map_cons, hpg, Option.getD_some, List.cons.injEq, true_and]
      apply List.map_congr_left
      intro c' hc'
      show (((if c'.index % g.size = c.index % g.size then none else g.page (c'.index % g.size)).getD 0), _) = _
      rw [if_neg (hslot c' hc')]
    · intro i
      rw [i2]
      show (if i ∈ cs.map (fun c => c.index % g.size) then none
        else if i = c.index % g.size then none else g.page i) = _
      simp only [List.map_cons, List.mem_cons]
      by_cases h1 : i = c.index % g.size
      · simp [h1]
      · by_cases h2 : i ∈ cs.map (fun c => c.index % g.size)
        · rw [if_pos h2, if_pos (Or.inr h2)]
        · simp only [if_neg h1, if_neg h2, if_neg (not_or.mpr ⟨h1, h2⟩)]

end Corundum.LinuxRx
