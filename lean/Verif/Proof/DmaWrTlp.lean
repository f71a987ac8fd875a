import Verif.Proof.DmaWrReq

/-! The beats of one TLP, put together. -/
namespace Corundum.DmaWr

section
variable {Byte : Type} {c : Cfg} {M : Nat} {d : Desc Byte} {lo T : Nat} {e : Ent Byte}

def beatAt (c : Cfg) (e : Ent Byte) (seq : Nat) (D : Nat → Nat → Byte) (k : Nat) : Beat Byte := (txAt c e k).beat c seq (D k)

def beatsOf (c : Cfg) (e : Ent Byte) (seq : Nat) (D : Nat → Nat → Byte) : List (Beat Byte) := (List.range (e.cyc + 1)).map (beatAt c e seq D)

theorem flat4 (g : Nat → Byte) : ∀ m, (List.range m).flatMap (fun k => (List.range 4).map fun j => g (4 * k + j)) = (List.range (4 * m)).map g
  | 0 => rfl
  | m + 1 => by
    rw [@List.range_succ m, List.flatMap_append, flat4 g m, show 4 * (m + 1) = 4 * m + 4 by omega, List.range_add, List.map_append]
    simp

theorem carried_eq (b : Beat Byte) (m : Nat) (h : b.strb = fun k => decide (k < m)) (hm : m ≤ c.dws) : b.carried c = (List.range (4 * m)).map b.data := by
  unfold Beat.carried
  have : (List.range c.dws).filter b.strb = List.range m := by
    have := DmaRd.filter_interval 0 m c.dws hm
    rw [Nat.sub_zero, ← List.range_eq_range'] at this
    rw [← this, h]
    apply List.filter_congr
    intro o _
    rw [decide_eq_decide]; omega
  rw [this, flat4]

/-- byte `p` of the stream -/
def stream (c : Cfg) (e : Ent Byte) (seq : Nat) (D : Nat → Nat → Byte) (p : Nat) : Byte := (beatAt c e seq D (p / c.ram.bus)).data (p % c.ram.bus)

theorem flat_beats (hD : Dims c M) (h : EntOk c d lo T e) (seq : Nat) (D : Nat → Nat → Byte) : ∀ n, n ≤ e.cyc + 1 →
    ((List.range n).map (beatAt c e seq D)).flatMap (Beat.carried c) = (List.range (min (n * c.ram.bus) (4 * e.dw))).map (stream c e seq D)
  | 0, _ => by simp
  | n + 1, hn => by
    have hb := bus_pos hD
    have h1 := dw_ge hD h (k := n) (by omega)
    have h2 := hD.dws
    have h3 : n * c.ram.bus = 4 * (n * c.dws) := by rw [h2, ← Nat.mul_assoc, Nat.mul_comm n 4, Nat.mul_assoc]
    rw [List.range_succ, List.map_append, List.flatMap_append, flat_beats hD h seq D n (by omega)]
    have hc : (beatAt c e seq D n).carried c = (List.range (4 * (if e.dw - n * c.dws ≥ c.dws then c.dws else e.dw - n * c.dws))).map (beatAt c e seq D n).data :=
      carried_eq _ _ rfl (by split <;> omega)
    rw [List.map_singleton, List.flatMap_singleton, hc]
    have hs : min ((n + 1) * c.ram.bus) (4 * e.dw) = n * c.ram.bus + 4 * (if e.dw - n * c.dws ≥ c.dws then c.dws else e.dw - n * c.dws) := by
      rw [Nat.add_mul, Nat.one_mul]
      generalize n * c.ram.bus = x at *
      generalize n * c.dws = y at *
      split <;> omega
    rw [hs, show min (n * c.ram.bus) (4 * e.dw) = n * c.ram.bus by generalize n * c.ram.bus = x at *; generalize n * c.dws = y at *; omega, List.range_add, List.map_append, List.map_map]
    congr 1
    apply List.map_congr_left
    intro o ho
    have ho := List.mem_range.1 ho
    have ho' : o < c.ram.bus := by split at ho <;> omega
    show _ = stream c e seq D (n * c.ram.bus + o)
    unfold stream
    rw [Nat.mul_comm n, Nat.mul_add_div (by omega), Nat.mul_add_mod, Nat.div_eq_of_lt ho', Nat.mod_eq_of_lt ho', Nat.add_zero]

theorem payload_eq (hD : Dims c M) (h : EntOk c d lo T e) (seq : Nat) (D : Nat → Nat → Byte) :
    payload c (beatsOf c e seq D) = (List.range (4 * e.dw)).map (stream c e seq D) := by
  unfold payload beatsOf
  rw [flat_beats hD h seq D _ (Nat.le_refl _)]
  have h1 := (cyc_mul hD h).2
  have h2 := hD.dws
  have h3 : e.cyc * c.ram.bus = 4 * (e.cyc * c.dws) := by rw [h2, ← Nat.mul_assoc, Nat.mul_comm e.cyc 4, Nat.mul_assoc]
  have h4 := h.dw
  have h5 := h.pos
  rw [Nat.add_mul, Nat.one_mul, Nat.min_eq_right]
  generalize e.cyc * c.ram.bus = x at *
  generalize e.cyc * c.dws = y at *
  omega

theorem beats_cons (seq : Nat) (D : Nat → Nat → Byte) : beatsOf c e seq D = beatAt c e seq D 0 :: (List.range e.cyc).map fun k => beatAt c e seq D (k + 1) := by
  unfold beatsOf
  rw [List.range_succ_eq_map, List.map_cons, List.map_map]
  rfl

theorem head_hdr (hD : Dims c M) (h : EntOk c d lo T e) (seq : Nat) (D : Nat → Nat → Byte) : (beatAt c e seq D 0).hdr = (Tx.start e).hdr := by
  unfold beatAt
  rw [tx_zero hD h]
  rfl

theorem hdr_dwords (_ : Dims c M) (h : EntOk c d lo T e) : (Tx.start e).hdr.dwords = e.dw := by
  have : e.dw ≠ 0 := by have := h.dw; have := h.pos; omega
  show (if e.dw = 0 then 1024 else e.dw) = _
  rw [if_neg this]

theorem tlp_ok (hD : Dims c M) (h : EntOk c d lo T e) (seq : Nat) (D : Nat → Nat → Byte) : TlpOk c (beatsOf c e seq D) := by
  constructor
  · refine ⟨_, _, beats_cons seq D, rfl, ?_⟩
    intro x hx
    obtain ⟨k, _, rfl⟩ := List.mem_map.1 hx
    rfl
  · refine ⟨_, _, beats_cons seq D, ?_⟩
    rw [payload_eq hD h, head_hdr hD h, hdr_dwords hD h]
    have h1 := h.max
    rw [hD.maxEq] at h1
    refine ⟨by simp [Nat.mul_comm], h1, ?_⟩
    show e.addr / 4 * 4 % 4096 + _ ≤ _
    have := h.page
    have := h.dw
    omega
  · refine ⟨_, _, beats_cons seq D, ?_⟩
    rw [head_hdr hD h, hdr_dwords hD h]
    refine ⟨fun h1 => ?_, fun h1 => ?_⟩
    · show (if e.zero then 0 else if e.dw = 1 then 0 else lastBe e) = 0
      rw [h1]; simp
    · have hz : e.zero = false := by
        rw [h.zero, beq_eq_false_iff_ne]
        intro hl
        have h2 := h.le
        have h3 := h.dw
        unfold Desc.total at h2
        rw [if_pos hl] at h2
        omega
      have hd : ¬e.dw = 1 := by omega
      have n1 : firstBe e ≠ 0 := by
        unfold firstBe
        have : e.addr % 4 = 0 ∨ e.addr % 4 = 1 ∨ e.addr % 4 = 2 ∨ e.addr % 4 = 3 := by omega
        rcases this with q | q | q | q <;> rw [q] <;> decide
      have n2 : lastBe e ≠ 0 := by
        unfold lastBe
        generalize (e.addr % 4 + e.len % 4 + 3) = x
        have : x % 4 = 0 ∨ x % 4 = 1 ∨ x % 4 = 2 ∨ x % 4 = 3 := by omega
        rcases this with q | q | q | q <;> rw [q] <;> decide
      constructor
      · show (if e.zero then 0 else if e.dw = 1 then firstBe e &&& lastBe e else firstBe e) ≠ 0
        rw [hz, if_neg hd]; exact n1
      · show (if e.zero then 0 else if e.dw = 1 then 0 else lastBe e) ≠ 0
        rw [hz, if_neg hd]; exact n2

theorem zip_range (f : Nat → Byte) (n : Nat) : ((List.range n).map f).zipIdx = (List.range n).map fun o => (f o, o) := by
  apply List.ext_getElem?
  intro i
  by_cases hi : i < n
  · simp [hi]
  · simp [hi]

/-- what the TLP of an entry writes -/
theorem written_eq (hD : Dims c M) (h : EntOk c d lo T e) (seq : Nat) (D : Nat → Nat → Byte) (src : Nat → Byte)
    (hs : ∀ q, q < T → (match e.imm with | some f => f | none => D ((q + e.addr % 4) / c.ram.bus)) ((e.ram + q) % c.ram.lanes) = src (lo + q)) :
    written c (beatsOf c e seq D) = if d.len = 0 then [] else (List.range T).map fun q => (d.addr + (lo + q), src (lo + q)) := by
  have hp := payload_eq hD h seq D
  have hw : written c (beatsOf c e seq D) = ((payload c (beatsOf c e seq D)).zipIdx.filter fun x => ((beatAt c e seq D 0).hdr.be (x.2 / 4)).testBit (x.2 % 4)).map
      fun x => ((beatAt c e seq D 0).hdr.dwAddr * 4 + x.2, x.1) := by
    rw [beats_cons]; rfl
  rw [hw, hp, head_hdr hD h, zip_range, List.filter_map, List.map_map]
  have h1 := h.dw
  have h3 := h.pos
  have hA : (Tx.start e).hdr.dwAddr * 4 = e.addr - e.addr % 4 := by show e.addr / 4 * 4 = _; omega
  by_cases hz : d.len = 0
  · rw [if_pos hz]
    rw [List.map_eq_nil_iff, List.filter_eq_nil_iff]
    intro o ho
    have ho := List.mem_range.1 ho
    have hT : T = 1 := by have := h.le; unfold Desc.total at this; rw [if_pos hz] at this; omega
    have e0 : o / 4 = 0 := by omega
    have hze : e.zero = true := by rw [h.zero, hz]; rfl
    show ¬ ((Tx.start e).hdr.be (o / 4)).testBit (o % 4) = true
    rw [e0]
    simp [Hdr.be, Tx.hdr, Tx.start, hze]
  · rw [if_neg hz]
    have hze : e.zero = false := by rw [h.zero, beq_eq_false_iff_ne]; exact hz
    have ef : (List.range (4 * e.dw)).filter ((fun x : Byte × Nat => ((Tx.start e).hdr.be (x.2 / 4)).testBit (x.2 % 4)) ∘ fun o => (stream c e seq D o, o)) =
        (List.range (4 * e.dw)).filter (fun o => decide (e.addr % 4 ≤ o ∧ o < e.addr % 4 + T)) := by
      apply List.filter_congr
      intro o ho
      have ho := List.mem_range.1 ho
      show ((Tx.start e).hdr.be (o / 4)).testBit (o % 4) = _
      unfold Hdr.be
      rw [hdr_dwords hD h]
      have f := DmaRd.fbe_bit ⟨e.addr % 4, by omega⟩ ⟨o % 4, by omega⟩
      have l := DmaRd.lbe_bit ⟨(e.addr % 4 + e.len % 4 + 3) % 4, by omega⟩ ⟨o % 4, by omega⟩
      have m := DmaRd.all_bit ⟨o % 4, by omega⟩
      dsimp only at f l m
      have hlen := h.len
      have f' : (firstBe e).testBit (o % 4) = decide (e.addr % 4 ≤ o % 4) := f
      have l' : (lastBe e).testBit (o % 4) = decide (o % 4 ≤ (e.addr % 4 + e.len % 4 + 3) % 4) := l
      by_cases h0 : o / 4 = 0
      · rw [if_pos h0]
        by_cases hd : e.dw = 1
        · have : (Tx.start e).hdr.fbe = firstBe e &&& lastBe e := by simp [Tx.hdr, Tx.start, hze, hd]
          rw [this, Nat.testBit_and, f', l', ← Bool.decide_and, decide_eq_decide]
          omega
        · have : (Tx.start e).hdr.fbe = firstBe e := by simp [Tx.hdr, Tx.start, hze, hd]
          rw [this, f', decide_eq_decide]
          omega
      · rw [if_neg h0]
        by_cases hd : o / 4 = e.dw - 1
        · have : (Tx.start e).hdr.lbe = lastBe e := by
            have : e.dw ≠ 1 := by omega
            simp [Tx.hdr, Tx.start, hze, this]
          rw [if_pos hd, this, l', decide_eq_decide]
          omega
        · rw [if_neg hd, m]
          symm
          rw [decide_eq_true_eq]
          omega
    rw [ef, DmaRd.filter_interval _ _ _ (by omega), show e.addr % 4 + T - e.addr % 4 = T by omega, List.range'_eq_map_range, List.map_map]
    apply List.map_congr_left
    intro q hq
    have hq := List.mem_range.1 hq
    show ((Tx.start e).hdr.dwAddr * 4 + (e.addr % 4 + q), stream c e seq D (e.addr % 4 + q)) = _
    rw [hA, show e.addr - e.addr % 4 + (e.addr % 4 + q) = e.addr + q by omega, h.addr, Nat.add_assoc]
    congr 1
    rw [← h.addr, ← hs q hq, Nat.add_comm (e.addr % 4) q]
    show (match e.imm with | some f => f | none => D ((q + e.addr % 4) / c.ram.bus)) (((q + e.addr % 4) % c.ram.bus + c.ram.lanes - (txAt c e ((q + e.addr % 4) / c.ram.bus)).off) % c.ram.lanes) = _
    rw [tx_lane hD h q]

end

end Corundum.DmaWr
