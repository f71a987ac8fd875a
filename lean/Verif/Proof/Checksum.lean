import Verif.Spec.Checksum
import Verif.Model.Frames
namespace Corundum.Spec

theorem words_lt : ∀ (l : List Nat), (∀ b ∈ l, b < 256) → ∀ w ∈ words l, w < 65536
  | [], _ => by simp [words]
  | [a], h => by simp [words] at *; omega
  | a :: b :: l, h => by
    intro w hw
    simp [words] at hw
    rcases hw with hw | hw
    · have := h a (by simp); have := h b (by simp); omega
    · exact words_lt l (fun x hx => h x (by simp [hx])) w hw

/-- ones' complement sum from `a`: congruent to the plain sum modulo 65535, and zero only if everything is zero -/
theorem foldl_ocAdd (ws : List Nat) : ∀ a, a < 65536 → (∀ w ∈ ws, w < 65536) →
    ws.foldl ocAdd a < 65536 ∧ ws.foldl ocAdd a % 65535 = (a + ws.sum) % 65535 ∧
    (ws.foldl ocAdd a = 0 ↔ a + ws.sum = 0) := by
  induction ws with
  | nil => intro a h _; simp [h]
  | cons w ws ih =>
    intro a h hw
    have hw0 := hw w (by simp)
    have hlt : ocAdd a w < 65536 := by unfold ocAdd; split <;> omega
    obtain ⟨h1, h2, h3⟩ := ih (ocAdd a w) hlt (fun x hx => hw x (by simp [hx]))
    simp only [List.foldl_cons, List.sum_cons]
    refine ⟨h1, ?_, ?_⟩
    · rw [h2]; unfold ocAdd; split <;> omega
    · rw [h3]; unfold ocAdd; split <;> omega

theorem ocSum_spec (l : List Nat) (h : ∀ b ∈ l, b < 256) :
    ocSum l < 65536 ∧ ocSum l % 65535 = (words l).sum % 65535 ∧ (ocSum l = 0 ↔ (words l).sum = 0) := by
  have := foldl_ocAdd (words l) 0 (by omega) (words_lt l h)
  simpa [ocSum] using this

theorem ocSum_ffff (l : List Nat) (h : ∀ b ∈ l, b < 256) :
    ocSum l = 65535 ↔ (words l).sum % 65535 = 0 ∧ (words l).sum ≠ 0 := by
  obtain ⟨h1, h2, h3⟩ := ocSum_spec l h
  constructor
  · intro h; rw [h] at h2; refine ⟨by omega, ?_⟩; intro h0; rw [← h3] at h0; omega
  · intro ⟨ha, hb⟩
    have : ocSum l ≠ 0 := fun h0 => hb (h3.mp h0)
    omega

theorem words_append_even : ∀ (a b : List Nat), a.length % 2 = 0 → words (a ++ b) = words a ++ words b
  | [], b, _ => by simp [words]
  | [x], b, h => by simp at h
  | x :: y :: a, b, h => by
    simp only [List.cons_append, words]
    rw [words_append_even a b (by simp at h; omega)]

end Corundum.Spec

namespace Corundum.Frames
open Corundum.Spec

theorem fold1_eq (s : Nat) : fold1 s = s % 65536 + s / 65536 := by
  unfold fold1
  rw [show (0xffff : Nat) = 2 ^ 16 - 1 by rfl, Nat.and_two_pow_sub_one_eq_mod, Nat.shiftRight_eq_div_pow]

theorem fold2_spec {s : Nat} (h : s < 4294967296) :
    fold2 s < 65536 ∧ fold2 s % 65535 = s % 65535 ∧ (fold2 s = 0 ↔ s = 0) := by
  unfold fold2
  rw [fold1_eq, fold1_eq]
  omega

theorem inv16_fold2 {s : Nat} (h : s < 4294967296) :
    inv16 (fold2 s) < 65536 ∧ (inv16 (fold2 s) + s) % 65535 = 0 ∧ (s ≠ 0 → inv16 (fold2 s) < 65535) := by
  obtain ⟨h1, h2, h3⟩ := fold2_spec h
  unfold inv16
  rw [Nat.mod_eq_of_lt h1]
  omega

/-- the byte loop of calc_udp_checksum adds up the big-endian words of the payload -/
theorem sumBytes_words : ∀ (l : List Nat) (c : Nat), sumBytes l false c = c + (words l).sum
  | [], c => by simp [sumBytes, words]
  | [a], c => by simp [sumBytes, words, Nat.shiftLeft_eq]
  | a :: b :: l, c => by
    simp only [sumBytes, words, Bool.not_false, Bool.not_true, Bool.false_eq_true, if_false, if_true, Nat.shiftLeft_eq,
      List.sum_cons]
    rw [sumBytes_words l]
    omega

theorem words_sum_le : ∀ (l : List Nat), (∀ b ∈ l, b < 256) → (words l).sum ≤ 65535 * ((l.length + 1) / 2)
  | [], _ => by simp [words]
  | [a], h => by have := h a (by simp); simp [words]; omega
  | a :: b :: l, h => by
    have h1 := h a (by simp)
    have h2 := h b (by simp)
    have := words_sum_le l (fun x hx => h x (by simp [hx]))
    simp only [words, List.sum_cons, List.length_cons]
    omega

end Corundum.Frames
