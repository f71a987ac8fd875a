import Verif.Model.Avst
/-!
C161: frames pass from AXI stream to Avalon stream and back unchanged.
-/
namespace Corundum.Avst

/-- a beat of a frame: the first `n` lanes valid, all of them unless it is the last -/
structure Ok (w : Nat) (b : Axi) (n : Nat) : Prop where
  pos : 0 < n
  le : n ≤ w
  keep : ∀ k, k < w → b.keep k = decide (k < n)
  full : b.last = false → n = w

theorem fold_empty (c n : Nat) (hn : 0 < n) (keep : Nat → Bool) : ∀ m, (∀ k, k < m → keep k = decide (k < n)) →
    (List.range m).foldl (fun e k => if keep k then c - 1 - k else e) (c - 1) = c - max 1 (min m n)
  | 0, _ => by
    simp
  | m + 1, h => by
    rw [List.range_succ, List.foldl_append, fold_empty c n hn keep m (fun k hk => h k (by omega)), List.foldl_cons, List.foldl_nil, h m (by omega)]
    by_cases hm : m < n
    · simp only [hm, decide_true, if_true]
      omega
    · simp only [hm, decide_false]
      simp only [Bool.false_eq_true, if_false]
      omega

theorem empty_eq (w n : Nat) (b : Axi) (h : Ok w b n) : emptyOf w b.keep = w - n := by
  have := h.pos
  have := h.le
  rw [emptyOf, fold_empty w n h.pos b.keep w h.keep]
  congr 1
  omega

/-- C161. The number of empty bytes is that of the lanes that are not valid, and is less than the number of lanes. -/
theorem C161_empty (w n : Nat) (rev frame : Bool) (b : Axi) (h : Ok w b n) :
    (toAv w rev frame b).empty + n = w ∧ (toAv w rev frame b).empty < w := by
  have e : (toAv w rev frame b).empty = w - n := empty_eq w n b h
  have := h.pos
  have := h.le
  rw [e]
  omega

/-- C161. On the Avalon stream with bytes reversed, the first byte is in the highest lane: the lanes from the highest down, without the empty ones,
hold the bytes of the beat in order. -/
theorem C161_order (w n : Nat) (frame : Bool) (b : Axi) (h : Ok w b n) :
    (List.range (w - (toAv w true frame b).empty)).map (fun j => (toAv w true frame b).data (w - 1 - j)) = (List.range n).map b.data := by
  have e := C161_empty w n true frame b h
  rw [show w - (toAv w true frame b).empty = n by omega]
  apply List.map_congr_left
  intro j hj
  have hj' : j < n := List.mem_range.mp hj
  have := h.le
  simp only [toAv, if_true]
  congr 1
  omega

/-- C161. A beat converted to Avalon stream and back is the same in all lanes. -/
theorem C161_round (w n : Nat) (rev frame : Bool) (b : Axi) (h : Ok w b n) (k : Nat) (hk : k < w) :
    (toAxi w rev (toAv w rev frame b)).data k = b.data k ∧ (toAxi w rev (toAv w rev frame b)).keep k = b.keep k ∧
    (toAxi w rev (toAv w rev frame b)).last = b.last ∧ (toAxi w rev (toAv w rev frame b)).user = b.user := by
  have e := C161_empty w n rev frame b h
  have hl := h.le
  refine ⟨?_, ?_, rfl, rfl⟩
  · cases rev
    · simp [toAxi, toAv]
    · simp only [toAxi, toAv, if_true]
      congr 1
      omega
  · rw [h.keep k hk]
    have he : (toAv w rev frame b).eop = b.last := rfl
    simp only [toAxi, he]
    cases hc : b.last
    · have := h.full hc
      simp [show k < n by omega, hk]
    · simp only [if_true]
      congr 1
      apply propext
      omega

/-- C161. The start of a packet is marked on the first beat of a run and on the beats after a last beat, and on no other. -/
theorem C161_sop (w : Nat) (rev : Bool) (bs : List Axi) :
    (toAvs w rev false bs).map (·.sop) = (true :: bs.map (·.last)).take bs.length ∧ (toAvs w rev false bs).map (·.eop) = bs.map (·.last) := by
  have aux : ∀ (bs : List Axi) (f : Bool), (toAvs w rev f bs).map (·.sop) = ((!f) :: bs.map (·.last)).take bs.length ∧
      (toAvs w rev f bs).map (·.eop) = bs.map (·.last) := by
    intro bs
    induction bs with
    | nil => intro f; exact ⟨rfl, rfl⟩
    | cons b bs ih =>
      intro f
      have := ih (!b.last)
      rw [Bool.not_not] at this
      simp [toAvs, this.1, this.2, toAv]
  simpa using aux bs false

/-- a last beat of three bytes of four -/
def exBeat : Axi := ⟨fun k => BitVec.ofNat 8 (k + 7), fun k => decide (k < 3), true, false⟩

example : Ok 4 exBeat 3 := ⟨by omega, by omega, fun _ _ => rfl, fun h => by cases h⟩

/-- a case: one empty byte, the bytes from the highest lane down -/
example : (toAv 4 true false exBeat).empty = 1 ∧ (List.range 4).map (toAv 4 true false exBeat).data = [10, 9, 8, 7] ∧
    (List.range 4).map (toAxi 4 true (toAv 4 true false exBeat)).keep = [true, true, true, false] := by decide

end Corundum.Avst
