import Verif.Proof.Crc
import Verif.Props.Frames
/-! Property theorems C27: CRC-32 as frame check sequence. -/
namespace Corundum.Crc
open Spec Corundum.Struct Corundum.Frames

/-- **C27**: whatever the message, message followed by its little-endian CRC-32 leaves the residue 0xDEBB20E3: a receiver
accepts every frame built by a sender. -/
theorem C27_residue (l : List Nat) : reg (l ++ bytesLE 4 (crc32 l)) = 0xDEBB20E3 := reg_fcs l

/-- **C27**: the only check sequence accepted after a message is its CRC-32. -/
theorem C27_accepts_iff (l : List Nat) (f : Nat) (hf : f < 2 ^ 32) : accepts (l ++ bytesLE 4 f) = true ↔ f = crc32 l := by
  unfold accepts
  rw [beq_iff_eq]
  constructor
  · intro h
    rw [← reg_fcs l] at h
    unfold reg at h
    rw [wire_append, wire_append, crcBits_append, crcBits_append, wire_bytesLE, wire_bytesLE, crcBits_bits 32 _ _ hf,
      crcBits_bits 32 _ _ (crc32_lt l)] at h
    exact xor_cancel (crcBits_inj _ (Nat.xor_lt_two_pow (reg_lt l) hf) (Nat.xor_lt_two_pow (reg_lt l) (crc32_lt l)) h)
  · intro h; rw [h]; exact reg_fcs l

/-- **C27** error detection: a frame that differs from an accepted one only within a window of 32 bits on the wire (in particular
in a single bit) is rejected. -/
theorem C27_burst_detected (l l' : List Nat) (pre m m' post : List Bool) (hacc : accepts l = true)
    (h1 : wire l = pre ++ m ++ post) (h2 : wire l' = pre ++ m' ++ post) (hl : m.length = m'.length) (h32 : m.length ≤ 32)
    (hne : m ≠ m') : accepts l' = false := by
  unfold accepts at *
  rw [beq_iff_eq] at hacc
  rw [beq_eq_false_iff_ne]
  intro h
  rw [← hacc] at h
  unfold reg at h
  rw [h1, h2] at h
  simp only [crcBits_append] at h
  have hp : crcBits 0xFFFFFFFF pre < 2 ^ 32 := crcBits_lt _ (by decide)
  exact hne (crcBits_window hp hl h32 (crcBits_inj post (crcBits_lt _ hp) (crcBits_lt _ hp) h.symm))

/-- one flipped bit -/
theorem C27_single_bit_detected (l l' : List Nat) (pre post : List Bool) (b : Bool) (hacc : accepts l = true)
    (h1 : wire l = pre ++ [b] ++ post) (h2 : wire l' = pre ++ [!b] ++ post) : accepts l' = false :=
  C27_burst_detected l l' pre [b] [!b] post hacc h1 h2 rfl (by simp) (by cases b <;> decide)

/-- **C27** for the frame builder: the bytes `build_axis_fcs` puts on the wire are accepted, and parse back to the frame. -/
theorem C27_built_frame_accepted (f : EthFrame) (h1 : f.dest < 2 ^ 48) (h2 : f.src < 2 ^ 48) (h3 : f.type < 2 ^ 16) :
    ∃ w, f.buildFcs crc32 none = some w ∧ accepts w = true ∧ ∃ fcs, EthFrame.parseFcs w = some (f, fcs) := by
  obtain ⟨data, _, hb, hp⟩ := C19_eth_fcs crc32 crc32_lt f h1 h2 h3
  exact ⟨_, hb, by unfold accepts; rw [beq_iff_eq]; exact reg_fcs data, _, hp⟩

/-! ### the FCS generator -/

/-- what an observer of the input expects: bytes of the kept lanes are collected; at the end of a frame the CRC of the
collected bytes is due -/
def due (KW : Nat) (ke : Bool) (acc : List Nat) (i : In) : List Nat × Option Nat :=
  let acc' := acc ++ ((List.range KW).filter (fun k => !ke || i.keep k)).map (byteOf i.data)
  if i.rst then ([], none)
  else if i.valid then (if i.last then ([], some (crc32 acc')) else (acc', none)) else (acc, none)

/-- AXI stream packing: kept lanes are contiguous from lane 0, at least one; all lanes on every beat but the last -/
def Packed (KW : Nat) (ke : Bool) (i : In) : Prop :=
  i.valid = true → ke = true → ∃ n, 1 ≤ n ∧ n ≤ KW ∧ (∀ k < KW, i.keep k = decide (k < n)) ∧ (i.last = false → n = KW)

def outputs (KW : Nat) (ke : Bool) : St → List In → List (Option Nat)
  | _, [] => []
  | s, i :: is => (if (step KW ke s i).fcsValid then some (step KW ke s i).fcs else none) :: outputs KW ke (step KW ke s i) is

def dues (KW : Nat) (ke : Bool) : List Nat → List In → List (Option Nat)
  | _, [] => []
  | acc, i :: is => (due KW ke acc i).2 :: dues KW ke (due KW ke acc i).1 is

theorem filter_range_lt (p : Nat → Bool) (n : Nat) : ∀ m, n ≤ m → (∀ k < m, p k = decide (k < n)) → (List.range m).filter p = List.range n
  | 0, h, _ => by have : n = 0 := by omega
                  subst this; rfl
  | m + 1, h, hp => by
    rw [List.range_succ, List.filter_append]
    by_cases e : n = m + 1
    · subst e
      rw [filter_range_lt' p m (fun k hk => by rw [hp k (by omega)]; simp; omega)]
      have : p m = true := by rw [hp m (by omega)]; simp
      simp [this, List.range_succ]
    · rw [filter_range_lt p n m (by omega) (fun k hk => hp k (by omega))]
      have : p m = false := by rw [hp m (by omega)]; simp; omega
      simp [this]
where
  filter_range_lt' (p : Nat → Bool) (m : Nat) (h : ∀ k < m, p k = true) : (List.range m).filter p = List.range m :=
    List.filter_eq_self.mpr (fun k hk => h k (List.mem_range.mp hk))

theorem lastLane_eq (keep : Nat → Bool) (n : Nat) (hn : 1 ≤ n) : ∀ m, n ≤ m → (∀ k < m, keep k = decide (k < n)) → lastLane keep m = n - 1
  | 0, h, _ => by omega
  | m + 1, h, hk => by
    unfold lastLane
    by_cases e : n = m + 1
    · rw [if_pos (by rw [hk m (by omega)]; simp; omega)]; omega
    · rw [if_neg (by rw [hk m (by omega)]; simp; omega)]
      exact lastLane_eq keep n hn m (by omega) (fun k hk' => hk k (by omega))

theorem step_due (KW : Nat) (hKW : 1 ≤ KW) (ke : Bool) (s : St) (acc : List Nat) (hs : s.crc = reg acc) (i : In) (hi : Packed KW ke i) :
    (step KW ke s i).crc = reg (due KW ke acc i).1 ∧
    (if (step KW ke s i).fcsValid then some (step KW ke s i).fcs else none) = (due KW ke acc i).2 := by
  have hreg : reg [] = 0xFFFFFFFF := rfl
  have full : ∀ n, 1 ≤ n → crcNext s.crc i.data (n - 1) = reg (acc ++ (List.range n).map (byteOf i.data)) := by
    intro n hn
    rw [hs, crcNext_eq (reg_lt acc), show n - 1 + 1 = n by omega]
    unfold reg
    rw [wire_append, crcBits_append]
  unfold step due
  cases hr : i.rst with
  | true => cases i.valid <;> cases i.last <;> simp [hreg]
  | false =>
    cases hv : i.valid with
    | false => simp [hs]
    | true =>
      cases ke with
      | false =>
        have hf : (List.range KW).filter (fun k => !false || i.keep k) = List.range KW := List.filter_eq_self.mpr (by simp)
        rw [hf]
        cases hl : i.last with
        | false => simp [full KW hKW]
        | true =>
          simp only [if_true, Bool.false_eq_true, if_false, full KW hKW]
          rw [inv32_eq (reg_lt _)]
          simp [hreg, crc32]
      | true =>
        obtain ⟨n, h1, h2, h3, h4⟩ := hi hv rfl
        have hf : (List.range KW).filter (fun k => !true || i.keep k) = List.range n :=
          filter_range_lt _ n KW h2 (fun k hk => by simpa using h3 k hk)
        rw [hf]
        cases hl : i.last with
        | false => rw [h4 hl]; simp [full KW hKW]
        | true =>
          simp only [if_true, Bool.false_eq_true, if_false]
          rw [lastLane_eq i.keep n h1 KW h2 h3, full n h1, inv32_eq (reg_lt _)]
          simp [hreg, crc32]

/-- **C27** for the FCS generator hardware: from reset, for every bus width, every sequence of clock cycles (idle cycles, resets,
any number of frames, any segmentation into beats), the generator outputs the CRC-32 of each frame's bytes one cycle after its
last beat and nothing otherwise. -/
theorem C27_fcs_generator (KW : Nat) (hKW : 1 ≤ KW) (ke : Bool) (is : List In) (h : ∀ i ∈ is, Packed KW ke i) :
    outputs KW ke init is = dues KW ke [] is := by
  suffices ∀ (is : List In) (s : St) (acc : List Nat), (∀ i ∈ is, Packed KW ke i) → s.crc = reg acc →
      outputs KW ke s is = dues KW ke acc is from this is init [] h rfl
  intro is
  induction is with
  | nil => intros; rfl
  | cons i is ih =>
    intro s acc hp hs
    obtain ⟨a, b⟩ := step_due KW hKW ke s acc hs i (hp i List.mem_cons_self)
    unfold outputs dues
    rw [b, ih _ _ (fun j hj => hp j (List.mem_cons_of_mem _ hj)) a]

set_option maxRecDepth 20000 in
/-- "123456789" has CRC-32 0xCBF43926; a frame with that check sequence is accepted -/
example : crc32 [0x31, 0x32, 0x33, 0x34, 0x35, 0x36, 0x37, 0x38, 0x39] = 0xCBF43926 := by decide
example : accepts [0x31, 0x26, 0x32] = false := by decide
/-- a two-lane frame of three bytes in two beats, then an idle cycle -/
example : dues 2 true [] [⟨false, 0x3231, fun _ => true, true, false⟩, ⟨false, 0x0033, fun k => k == 0, true, true⟩, ⟨false, 0, fun _ => false, false, false⟩] =
    [none, some 0x884863D2, none] := by decide

end Corundum.Crc
