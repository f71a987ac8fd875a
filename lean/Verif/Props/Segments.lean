import Verif.Proof.Segments
/-! C05/C06 — descriptor segmentation: property theorems. -/
namespace Corundum.Segments

/-- C05: for every frame length, buffer address and descriptor block size the transmit descriptors
describe exactly the frame's bytes, once each and in order; there are `blockSize` of them; the first is
at most 42 bytes and every middle one at most 4096 bytes when there is room to continue; an
empty entry has address 0. -/
theorem C05_tx_segments (len : Nat) (ptr : Int) (blockSize : Nat) (hb : 0 < blockSize) :
    addresses (txSegs len ptr blockSize) = block ptr len ∧
    (txSegs len ptr blockSize).length = blockSize ∧
    (∀ s ∈ txSegs len ptr blockSize, 0 ≤ s.len ∧ (s.len = 0 → s.addr = 0)) ∧
    (1 < blockSize → ∀ s, (txSegs len ptr blockSize)[0]? = some s → s.len ≤ 42) ∧
    (∀ k, k + 1 < blockSize → ∀ s, (txSegs len ptr blockSize)[k]? = some s → s.len ≤ 4096) := by
  obtain ⟨n, rfl⟩ : ∃ n, blockSize = n + 1 := ⟨blockSize - 1, by omega⟩
  unfold txSegs
  simp only [Nat.add_sub_cancel]
  obtain ⟨s, hs, hle, hlast, hcap⟩ : ∃ s : Nat,
      (if n + 1 > 1 then min ((len : Int) - 0) 42 else (len : Int) - 0) = (s : Int) ∧
      s ≤ len ∧ (n = 0 → s = len) ∧ (0 < n → s ≤ 42) := by
    refine ⟨if n + 1 > 1 then min len 42 else len, ?_, ?_, ?_, ?_⟩
    · split <;> omega
    · split <;> omega
    · intro h0; subst h0; simp
    · intro h0; rw [if_pos (by omega)]; omega
  rw [hs]
  have e : (0 : Int) + (s : Int) = ((s : Nat) : Int) := by omega
  rw [e]
  obtain ⟨h1, h2⟩ := segLoop_props ptr n len s hle
  refine ⟨?_, ?_, ?_, ?_, ?_⟩
  · have h0 := addresses_mkSeg_cons ptr 0 s (segLoop len ptr s n)
    rw [h0, segLoop_addresses ptr n len s hle hlast, Int.add_zero, block_append]
    congr 1
    omega
  · simp [segLoop_length]
  · intro x hx
    rcases List.mem_cons.mp hx with rfl | hx
    · refine ⟨by simp [mkSeg], ?_⟩
      intro h0
      have : (s : Int) = 0 := h0
      simp [mkSeg, this]
    · exact h1 x hx
  · intro hn x hx
    simp at hx; subst hx
    have := hcap (by omega)
    simp [mkSeg]; omega
  · intro k hk x hx
    cases k with
    | zero =>
      simp at hx; subst hx
      have := hcap (by omega)
      simp [mkSeg]; omega
    | succ k => exact h2 k (by omega) x (by simpa using hx)

/-- C05, data form: whatever memory holds, a device that gathers the described bytes obtains exactly the
frame that the driver placed at `ptr`. -/
theorem C05_tx_gather {β : Type} (mem : Int → β) (data : List β) (ptr : Int) (blockSize : Nat)
    (hb : 0 < blockSize) (hm : ∀ i (h : i < data.length), mem (ptr + i) = data[i]) :
    (addresses (txSegs data.length ptr blockSize)).map mem = data := by
  rw [(C05_tx_segments data.length ptr blockSize hb).1]
  apply List.ext_getElem
  · simp [block]
  · intro i h1 h2
    simp [block]
    exact hm i h2

/-- C06: the receive descriptors of a buffer cover exactly the buffer, once each and in order, and never
a byte outside it; every entry but the last is at most 4096 bytes. -/
theorem C06_rx_segments (size : Nat) (ptr : Int) (blockSize : Nat) (hb : 0 < blockSize) :
    addresses (rxSegs size ptr blockSize) = block ptr size ∧
    (rxSegs size ptr blockSize).length = blockSize ∧
    (∀ s ∈ rxSegs size ptr blockSize, 0 ≤ s.len ∧ (s.len = 0 → s.addr = 0)) ∧
    (∀ k, k + 1 < blockSize → ∀ s, (rxSegs size ptr blockSize)[k]? = some s → s.len ≤ 4096) := by
  have h := segLoop_addresses ptr blockSize size 0 (by omega) (by omega)
  have h2 := segLoop_props ptr blockSize size 0 (by omega)
  refine ⟨?_, segLoop_length _ _ _ _, h2.1, h2.2⟩
  have h' : addresses (segLoop size ptr 0 blockSize) = block (ptr + ((0:Nat):Int)) (size - 0) := h
  unfold rxSegs
  rw [h']
  simp

/-! Non-vacuity: a 9000-byte frame in 4 descriptors; a 30-byte frame in 4 descriptors. -/
example : txSegs 9000 1000 4 = [⟨42, 1000⟩, ⟨4096, 1042⟩, ⟨4096, 5138⟩, ⟨766, 9234⟩] := by decide
example : txSegs 30 1000 4 = [⟨30, 1000⟩, ⟨0, 0⟩, ⟨0, 0⟩, ⟨0, 0⟩] := by decide
example : rxSegs 16384 0x10000 2 = [⟨4096, 0x10000⟩, ⟨12288, 0x11000⟩] := by decide

end Corundum.Segments
