import Verif.Model.CplRing
import Verif.Proof.Driver
/-! Helper lemmas for C07. -/
namespace Corundum.CplRing
open Corundum.Driver (wrapBit wrapBit_eq wrapBit_add and_mask mod_inj_of_window)

structure Inv {α : Type} (s : Sys α) : Prop where
  told : s.ring.told ≤ s.ring.cons
  cons : s.ring.cons ≤ s.log.length
  win : s.log.length ≤ s.ring.told + 2 ^ s.ring.k
  fresh : ∀ j (h : j < s.log.length), s.ring.cons ≤ j →
    s.ring.buf (j % 2 ^ s.ring.k) = (s.log[j], !wrapBit s.ring.k j)
  stale : ∀ j, s.log.length ≤ j → j < s.ring.cons + 2 ^ s.ring.k →
    (s.ring.buf (j % 2 ^ s.ring.k)).2 = wrapBit s.ring.k j
  out : s.out = s.log.take s.ring.cons

theorem inv_init {α : Type} (k : Nat) (a0 : α) : Inv (init k a0) := by
  constructor <;> simp [init]
  intro j hj
  rw [wrapBit_eq]
  exact Nat.testBit_lt_two_pow hj

/-- The poll result in an invariant state. -/
theorem poll_spec {α : Type} {s : Sys α} (h : Inv s) :
    (s.ring.cons = s.log.length ∧ poll s.ring = (none, s.ring)) ∨
    (∃ hj : s.ring.cons < s.log.length,
      poll s.ring = (some s.log[s.ring.cons], { s.ring with cons := s.ring.cons + 1 })) := by
  have hp := Nat.two_pow_pos s.ring.k
  unfold poll
  simp only
  rw [and_mask]
  rcases Nat.lt_or_ge s.ring.cons s.log.length with hj | hj
  · right
    refine ⟨hj, ?_⟩
    rw [h.fresh _ hj (Nat.le_refl _), if_neg]
    show ¬ ((!wrapBit s.ring.k s.ring.cons) = wrapBit s.ring.k s.ring.cons)
    cases wrapBit s.ring.k s.ring.cons <;> simp
  · left
    refine ⟨Nat.le_antisymm h.cons hj, ?_⟩
    rw [if_pos]
    exact h.stale _ hj (by omega)

theorem inv_consumed {α : Type} {s : Sys α} (h : Inv s) (hj : s.ring.cons < s.log.length) :
    Inv { s with ring := { s.ring with cons := s.ring.cons + 1 }, out := s.out ++ [s.log[s.ring.cons]] } := by
  have hp := Nat.two_pow_pos s.ring.k
  constructor
  · show s.ring.told ≤ s.ring.cons + 1; have := h.told; omega
  · exact hj
  · exact h.win
  · intro j h1 h2
    have h2 : s.ring.cons + 1 ≤ j := h2
    exact h.fresh j h1 (by omega)
  · intro j h1 h2
    have h2 : j < s.ring.cons + 1 + 2 ^ s.ring.k := h2
    by_cases hjj : j = s.ring.cons + 2 ^ s.ring.k
    · subst hjj
      show (s.ring.buf ((s.ring.cons + 2 ^ s.ring.k) % 2 ^ s.ring.k)).2 = _
      rw [Nat.add_mod_right, h.fresh _ hj (Nat.le_refl _)]
      exact (wrapBit_add _ _).symm
    · exact h.stale j h1 (by omega)
  · show s.out ++ [s.log[s.ring.cons]] = s.log.take (s.ring.cons + 1)
    rw [h.out, List.take_succ_eq_append_getElem hj]

theorem inv_step {α : Type} {s : Sys α} (h : Inv s) (op : Op α) : Inv (step s op) := by
  have hp := Nat.two_pow_pos s.ring.k
  cases op with
  | hw a =>
    simp only [step]
    split
    · rename_i hg
      have hc := h.cons
      have ht := h.told
      constructor
      · exact h.told
      · show s.ring.cons ≤ (s.log ++ [a]).length; simp; omega
      · show (s.log ++ [a]).length ≤ s.ring.told + 2 ^ s.ring.k; simp; omega
      · intro j hj hcj
        have hcj : s.ring.cons ≤ j := hcj
        show (if j % 2 ^ s.ring.k = _ then _ else _) = _
        by_cases hjl : j = s.log.length
        · subst hjl; simp [wrapBit]
        · have hj' : j < s.log.length := by simp at hj; omega
          have hne : j % 2 ^ s.ring.k ≠ s.log.length % 2 ^ s.ring.k := fun e =>
            hjl (mod_inj_of_window (a := s.ring.cons) hcj (by omega) hc (by omega) e)
          rw [if_neg hne, h.fresh j hj' hcj]
          simp only [List.getElem_append_left hj']
      · intro j hj hcj
        have hcj : j < s.ring.cons + 2 ^ s.ring.k := hcj
        simp at hj
        have hne : j % 2 ^ s.ring.k ≠ s.log.length % 2 ^ s.ring.k := fun e =>
          absurd (mod_inj_of_window (a := s.ring.cons) (by omega) hcj hc (by omega) e) (by omega)
        show (if j % 2 ^ s.ring.k = _ then _ else _ : α × Bool).2 = _
        rw [if_neg hne]
        exact h.stale j (by omega) hcj
      · show s.out = (s.log ++ [a]).take s.ring.cons
        rw [List.take_append_of_le_length hc]; exact h.out
    · exact h
  | poll =>
    simp only [step]
    rcases poll_spec h with ⟨_, e⟩ | ⟨hj, e⟩
    · rw [e]; exact h
    · rw [e]; exact inv_consumed h hj
  | publish =>
    constructor
    · exact Nat.le_refl _
    · exact h.cons
    · show s.log.length ≤ s.ring.cons + 2 ^ s.ring.k; have := h.win; have := h.told; omega
    · exact h.fresh
    · exact h.stale
    · exact h.out

theorem inv_run {α : Type} (ops : List (Op α)) : ∀ {s : Sys α}, Inv s → Inv (run s ops) := by
  induction ops with
  | nil => intro s h; exact h
  | cons op ops ih => intro s h; exact ih (inv_step h op)

theorem step_log {α : Type} (s : Sys α) (op : Op α) : s.log <+: (step s op).log := by
  cases op with
  | hw a => simp only [step]; split <;> simp
  | poll => simp only [step]; split <;> exact List.prefix_refl _
  | publish => exact List.prefix_refl _

theorem pass_spec {α : Type} (budget : Nat) : ∀ {s : Sys α}, Inv s →
    (pass budget s.ring).1 = (s.log.drop s.ring.cons).take budget ∧
    (pass budget s.ring).2 = { s.ring with cons := s.ring.cons + min budget (s.log.length - s.ring.cons) } := by
  induction budget with
  | zero => intro s h; simp [pass]
  | succ budget ih =>
    intro s h
    unfold pass
    rcases poll_spec h with ⟨hc, e⟩ | ⟨hj, e⟩
    · rw [e]
      simp [hc]
      rw [← hc]
    · rw [e]
      have := ih (inv_consumed h hj)
      simp only at this ⊢
      rw [this.1, this.2]
      constructor
      · rw [List.drop_eq_getElem_cons hj]; rfl
      · congr 1; omega

end Corundum.CplRing
