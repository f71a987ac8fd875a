import Verif.Proof.CplRing
/-! C07 — phase-bit rings: property theorems.  The device writes only while fewer than `2^k` records separate its
position from the consumer position it has been told; host iterations, device writes and pointer updates interleave in
any order. -/
namespace Corundum.CplRing

/-- C07: at every moment of every execution the records consumed by the host are exactly the first `cons` records
the device wrote, in the order written, each once. -/
theorem C07_exactly_once_in_order {α : Type} (k : Nat) (a0 : α) (ops : List (Op α)) :
    (run (init k a0) ops).out = (run (init k a0) ops).log.take (run (init k a0) ops).ring.cons ∧
    (run (init k a0) ops).ring.cons ≤ (run (init k a0) ops).log.length := by
  have h := inv_run ops (inv_init k a0)
  exact ⟨h.out, h.cons⟩

/-- C07: a loop iteration reports "empty" exactly when everything written has been consumed; otherwise it consumes the
next record (so a record of the previous lap is never taken for a new one and a new one is never missed). -/
theorem C07_poll_exact {α : Type} (k : Nat) (a0 : α) (ops : List (Op α)) (s : Sys α)
    (hs : s = run (init k a0) ops) : (poll s.ring).1 = s.log[s.ring.cons]? := by
  have h := inv_run ops (inv_init k a0)
  rw [← hs] at h
  rcases poll_spec h with ⟨hc, e⟩ | ⟨hj, e⟩
  · rw [e, hc]; simp
  · rw [e, List.getElem?_eq_getElem hj]

/-- C07: a processing pass of at most `budget` records consumes exactly the next `budget` unconsumed records in
order, or all of them if there are fewer. -/
theorem C07_pass {α : Type} (k : Nat) (a0 : α) (ops : List (Op α)) (s : Sys α)
    (hs : s = run (init k a0) ops) (budget : Nat) :
    (pass budget s.ring).1 = (s.log.drop s.out.length).take budget ∧
    (pass budget s.ring).2.cons = min (s.out.length + budget) s.log.length := by
  have h := inv_run ops (inv_init k a0)
  rw [← hs] at h
  have hl : s.out.length = s.ring.cons := by
    rw [h.out, List.length_take]; have := h.cons; omega
  have hp := pass_spec budget h
  rw [hl]
  refine ⟨hp.1, ?_⟩
  rw [hp.2]
  have := h.cons
  simp only
  omega

/-- C07: the Python `while True` loop (no device activity inside) always stops, after at most `2^k` records. -/
theorem C07_pass_terminates {α : Type} (k : Nat) (a0 : α) (ops : List (Op α)) (s : Sys α)
    (hs : s = run (init k a0) ops) (n : Nat) (hn : 2 ^ s.ring.k ≤ n) :
    pass n s.ring = pass (2 ^ s.ring.k) s.ring ∧ (poll (pass n s.ring).2).1 = none ∧
    (pass n s.ring).1 = s.log.drop s.out.length := by
  have h := inv_run ops (inv_init k a0)
  rw [← hs] at h
  have hl : s.out.length = s.ring.cons := by
    rw [h.out, List.length_take]; have := h.cons; omega
  have hw := h.win
  have ht := h.told
  have hc := h.cons
  have key : ∀ m, 2 ^ s.ring.k ≤ m → pass m s.ring =
      (s.log.drop s.ring.cons, { s.ring with cons := s.log.length }) := by
    intro m hm
    have hp := pass_spec m h
    apply Prod.ext
    · rw [hp.1]; apply List.take_of_length_le; simp; omega
    · have e : s.ring.cons + min m (s.log.length - s.ring.cons) = s.log.length := by omega
      rw [hp.2, e]
  rw [key n hn, key _ (Nat.le_refl _), hl]
  refine ⟨rfl, ?_, rfl⟩
  unfold poll
  simp only
  rw [Corundum.Driver.and_mask, if_pos]
  have hp := Nat.two_pow_pos s.ring.k
  rcases Nat.lt_or_ge s.log.length (s.ring.cons + 2 ^ s.ring.k) with h1 | h1
  · exact h.stale _ (Nat.le_refl _) h1
  · have e : s.log.length = s.ring.cons + 2 ^ s.ring.k := by omega
    have hf := h.fresh s.ring.cons (by omega) (Nat.le_refl _)
    have e2 : s.log.length % 2 ^ s.ring.k = s.ring.cons % 2 ^ s.ring.k := by rw [e, Nat.add_mod_right]
    rw [e2, hf]
    show (!Corundum.Driver.wrapBit s.ring.k s.ring.cons) = Corundum.Driver.wrapBit s.ring.k s.log.length
    rw [e, Corundum.Driver.wrapBit_add]

/-! Non-vacuity: a ring of 2 records written three times around, interleaved with reads; an over-eager device is
held back. -/
example : (run (init 1 0) [.hw 5, .hw 6, .hw 7, .poll, .publish, .hw 8, .poll, .poll, .poll, .publish, .hw 9]).out
    = [5, 6, 8] ∧
  (run (init 1 0) [.hw 5, .hw 6, .hw 7, .poll, .publish, .hw 8, .poll, .poll, .poll, .publish, .hw 9]).log
    = [5, 6, 8, 9] := by decide

end Corundum.CplRing
