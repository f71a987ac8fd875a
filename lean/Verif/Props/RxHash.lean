import Verif.Proof.RxHashInv
/-!
C29: the receive hash is the Toeplitz hash of the flow tuple.
-/
namespace Corundum.RxHash
open Spec

/-- a frame on the bus: its bytes, and whatever the unused lanes of the last word hold -/
structure Frame where
  bytes : List Nat
  pad : Nat → Nat

/-- byte at offset `o` as it appears on the bus -/
def Frame.at (f : Frame) (o : Nat) : Nat := if o < f.bytes.length then f.bytes.getD o 0 else f.pad o
def Frame.words (K : Nat) (f : Frame) : Nat := (f.bytes.length + K - 1) / K
/-- the words of a frame on a bus of `K` byte lanes -/
def Frame.beats (K : Nat) (f : Frame) : List Beat :=
  (List.range (f.words K)).map (fun i => ⟨fun j => f.at (i * K + j), i + 1 == f.words K⟩)

/-- at least the 38 bytes up to the ports (Ethernet frames are longer); IPv6 frames no longer than the beat counter can count -/
structure Frame.Ok (K : Nat) (f : Frame) : Prop where
  byte : ∀ x ∈ f.bytes, x < 256
  pad : ∀ o, f.pad o < 256
  len : 38 ≤ f.bytes.length
  v6 : ethType f.bytes = 0x86dd → f.words K ≤ ptrMod K

theorem Frame.at_lt {K : Nat} {f : Frame} (h : f.Ok K) (o : Nat) : f.at o < 256 := by
  unfold Frame.at
  split
  · next hl => rw [List.getD_eq_getElem?_getD, List.getElem?_eq_getElem hl, Option.getD_some]; exact h.byte _ (List.getElem_mem hl)
  · exact h.pad o

theorem Frame.at_eq {K : Nat} {f : Frame} (h : f.Ok K) (o : Nat) (ho : o < 38) : f.at o = f.bytes.getD o 0 := by
  unfold Frame.at; rw [if_pos (by have := h.len; omega)]

theorem field_map {f : List Nat} {o n : Nat} (h : o + n ≤ f.length) : field f o n = (List.range n).map (fun j => f.getD (o + j) 0) := by
  apply List.ext_getElem
  · simp [field]; omega
  · intro i h1 h2
    simp [field] at h1
    simp only [field, List.getElem_take, List.getElem_drop, List.getElem_map, List.getElem_range]
    rw [List.getD_eq_getElem?_getD, List.getElem?_eq_getElem, Option.getD_some]

theorem bres_result {K key : Nat} {f : Frame} (h : f.Ok K) : bres key f.at = result key f.bytes := by
  have A := Frame.at_eq h
  have hl := h.len
  have e : ety f.at = ethType f.bytes := by unfold ety ethType; rw [A 12 (by omega), A 13 (by omega)]
  have v : bV4 f.at = isIpv4 f.bytes := by unfold bV4 isIpv4; rw [e]
  have t : bTcp f.at = isTcp f.bytes := by
    unfold bTcp isTcp noOptions; rw [v, A 23 (by omega), A 14 (by omega), Bool.and_assoc, Bool.and_assoc]; congr 1; rw [Bool.and_comm]
  have u : bUdp f.at = isUdp f.bytes := by
    unfold bUdp isUdp noOptions; rw [v, A 23 (by omega), A 14 (by omega), Bool.and_assoc, Bool.and_assoc]; congr 1; rw [Bool.and_comm]
  have tu : isTcp f.bytes = true → isUdp f.bytes = false := by
    unfold isTcp isUdp
    simp only [Bool.and_eq_true, beq_iff_eq, Bool.and_eq_false_iff, beq_eq_false_iff_ne]
    intro hh; exact Or.inr (by omega)
  have r8 : (List.range 8).map (fun j => f.at (26 + j)) = field f.bytes 26 4 ++ field f.bytes 30 4 := by
    rw [field_map (by omega), field_map (by omega)]
    simp only [List.range_succ, List.range_zero, List.map_append, List.map_nil, List.map_cons, List.nil_append, List.cons_append]
    rw [A, A, A, A, A, A, A, A] <;> omega
  have r12 : (List.range 12).map (fun j => f.at (26 + j)) = field f.bytes 26 4 ++ field f.bytes 30 4 ++ field f.bytes 34 2 ++ field f.bytes 36 2 := by
    rw [field_map (by omega), field_map (by omega), field_map (by omega), field_map (by omega)]
    simp only [List.range_succ, List.range_zero, List.map_append, List.map_nil, List.map_cons, List.nil_append, List.cons_append]
    rw [A, A, A, A, A, A, A, A, A, A, A, A] <;> omega
  unfold bres result
  rw [v, t, u, r8, r12]
  cases isIpv4 f.bytes
  · rfl
  · cases ht : isTcp f.bytes
    · cases isUdp f.bytes <;> rfl
    · rw [tu ht]; rfl

theorem frames_emits {K key : Nat} (hK : 0 < K) (hk : key < 2 ^ 320) : ∀ (fs : List Frame) (s : Front), ready s → (∀ f ∈ fs, f.Ok K) →
    emits K key s ((fs.flatMap (Frame.beats K)).map some) = fs.map (fun f => result key f.bytes)
  | [], _, _, _ => rfl
  | f :: fs, s, hs, hf => by
    have ok := hf f List.mem_cons_self
    have hn : 37 / K < f.words K := by
      unfold Frame.words
      have : (37 + K) / K ≤ (f.bytes.length + K - 1) / K := Nat.div_le_div_right (by have := ok.len; omega)
      rw [Nat.add_div_right _ hK] at this
      omega
    have e6 : ety f.at = ethType f.bytes := by
      unfold ety ethType; rw [Frame.at_eq ok 12 (by omega), Frame.at_eq ok 13 (by omega)]
    obtain ⟨m, hm⟩ : ∃ m, f.words K = m + 1 := ⟨f.words K - 1, by have := Nat.zero_le (37 / K); omega⟩
    have I0 : Inv K f.at 0 s := by
      refine ⟨hs.1, hs.2, fun h => ?_, fun h => ?_, fun h => ?_, fun h => ?_, fun h => ?_, fun h => ?_, fun _ _ _ h => ?_⟩ <;>
        exact absurd h (Nat.not_lt_zero _)
    obtain ⟨s', r, e⟩ := frame_emits hK hk (Frame.at_lt ok) hn (by rw [e6]; exact ok.v6) ((fs.flatMap (Frame.beats K)).map some) m 0 s
      (by omega) I0 (fun _ _ => Nat.zero_le _)
    rw [List.flatMap_cons, List.map_append, List.map_cons]
    have eb : (f.beats K).map some = (List.range' 0 (m + 1)).map (fun i => some (beat K f.at (f.words K) i)) := by
      unfold Frame.beats
      rw [List.map_map, List.range_eq_range', hm]; rfl
    rw [eb, e, bres_result ok, frames_emits hK hk fs s' r (fun f h => hf f (List.mem_cons_of_mem _ h))]

/-- **C29** hardware: for every bus width and key, every sequence of frames and every placement of idle cycles, starting from reset (capture
data registers arbitrary), the module reports exactly one result per frame, in order: the Toeplitz hash of the flow tuple and the type flags. -/
theorem C29_rtl_toeplitz_partial (K key : Nat) (hK : 0 < K) (hk : key < 2 ^ 320) (fs : List Frame) (hf : ∀ f ∈ fs, f.Ok K) (cs : List (Option Beat))
    (hc : cs.filterMap id = fs.flatMap (Frame.beats K)) (s : St)
    (hs : s.f.active = true ∧ s.f.ptr = 0 ∧ s.f.valid = false ∧ s.pValid = false) :
    outs K key s (cs ++ [none, none]) = fs.map (fun f => result key f.bytes) := by
  rw [outs_emits, hs.2.2.1, hs.2.2.2, emits_idle, hc, frames_emits hK hk fs s.f ⟨hs.1, hs.2.1⟩ hf]
  rfl

/-- **C29** flow affinity: two frames of the same flow (same protocol, addresses, ports) get the same hash and type. -/
theorem C29_same_flow (key : Nat) (f g : List Nat) (h12 : field f 12 2 = field g 12 2)
    (hihl : f.getD 14 0 % 16 = g.getD 14 0 % 16) (hproto : f.getD 23 0 = g.getD 23 0) (haddr : field f 26 8 = field g 26 8)
    (hport : field f 34 4 = field g 34 4) (hf : 38 ≤ f.length) (hg : 38 ≤ g.length) : result key f = result key g := by
  have sp : ∀ l : List Nat, 38 ≤ l.length → field l 26 4 ++ field l 30 4 = field l 26 8 ∧ field l 34 2 ++ field l 36 2 = field l 34 4 := by
    intro l hl
    constructor
    · rw [field_map (by omega), field_map (by omega), field_map (by omega)]; rfl
    · rw [field_map (by omega), field_map (by omega), field_map (by omega)]; rfl
  have et : ethType f = ethType g := by
    rw [field_map (by omega), field_map (by omega)] at h12
    simp [List.range_succ] at h12
    simp only [ethType, List.getD_eq_getElem?_getD]
    rw [h12.1, h12.2]
  unfold result isTcp isUdp isIpv4 noOptions
  rw [et, hihl, hproto]
  simp only [List.append_assoc, (sp f hf).2, (sp g hg).2]
  rw [← List.append_assoc, ← List.append_assoc, (sp f hf).1, (sp g hg).1, haddr, hport]

theorem and_pow (b j : Nat) : b &&& 2 ^ j = if b.testBit j then 2 ^ j else 0 := by
  apply Nat.eq_of_testBit_eq
  intro t
  rw [Nat.testBit_and, Nat.testBit_two_pow]
  by_cases e : j = t
  · subst e; cases h : b.testBit j <;> simp
  · cases h : b.testBit j <;> simp [e, Nat.testBit_two_pow]

theorem py_inner (key b : Nat) (h : Nat) (q : Nat) (hq : 7 ≤ q) : (List.range 8).foldl (pyToepBit key b) (some (h, (q : Int))) =
    some (h ^^^ (bits [b]).zipIdx.foldl (fun a x => a ^^^ (if x.1 then (key >>> (q - x.2)) % 2 ^ 32 else 0)) 0, (q : Int) - 8) := by
  have m : ∀ x, x &&& 0xffffffff = x % 2 ^ 32 := fun x => Nat.and_two_pow_sub_one_eq_mod x 32
  have tb : ∀ i < 8, (b &&& (0x80 >>> i) ≠ 0) = (b.testBit (7 - i) = true) := by
    intro i hi
    have : (0x80 >>> i) = 2 ^ (7 - i) := by
      have : i = 0 ∨ i = 1 ∨ i = 2 ∨ i = 3 ∨ i = 4 ∨ i = 5 ∨ i = 6 ∨ i = 7 := by omega
      rcases this with e | e | e | e | e | e | e | e <;> subst e <;> rfl
    rw [this, and_pow]
    cases b.testBit (7 - i) <;> simp
  have one : ∀ (h' i : Nat), i < 8 → pyToepBit key b (some (h', (q : Int) - i)) i =
      some (h' ^^^ (if b.testBit (7 - i) then (key >>> (q - i)) % 2 ^ 32 else 0), (q : Int) - (i + 1 : Nat)) := by
    intro h' i hi
    unfold pyToepBit
    simp only [tb i hi, m]
    have : ((q : Int) - i).toNat = q - i := by omega
    rw [this, if_neg (show ¬ (q : Int) - i < 0 by omega), show (q : Int) - i - 1 = (q : Int) - (i + 1 : Nat) by omega]
    cases b.testBit (7 - i) <;> simp
  rw [show List.range 8 = [0, 1, 2, 3, 4, 5, 6, 7] by decide]
  simp only [List.foldl_cons, List.foldl_nil]
  rw [show (q : Int) = (q : Int) - (0 : Nat) by omega]
  rw [one _ 0 (by omega), one _ 1 (by omega), one _ 2 (by omega), one _ 3 (by omega), one _ 4 (by omega), one _ 5 (by omega), one _ 6 (by omega), one _ 7 (by omega)]
  rw [bits_one]
  simp only [List.zipIdx_cons, List.zipIdx_nil, List.foldl_cons, List.foldl_nil, Nat.xor_assoc, Nat.zero_xor, Nat.zero_add, Nat.reduceAdd, Nat.reduceSub]
  congr 2

/-- **C29** Python reference: with a 40-byte key and at most 36 bytes of input the test bench function returns the Toeplitz hash. -/
theorem C29_python_toeplitz (key : Nat) (hk : key < 2 ^ 320) (l : List Nat) (hl : l.length ≤ 36) : pyToep l 40 key = some (toeplitz key l) := by
  rw [toeplitz_T key l hk (by rw [bits_length]; omega)]
  have gen : ∀ (l : List Nat) (h i : Nat), i + 8 * l.length ≤ 288 →
      l.foldl (fun a b => (List.range 8).foldl (pyToepBit key b) a) (some (h, (288 : Int) - i)) =
        some (h ^^^ T key (bits l) i, (288 : Int) - (i + 8 * l.length : Nat)) := by
    intro l
    induction l with
    | nil => intro h i _; simp [T, bits]
    | cons b l ih =>
      intro h i hi
      rw [List.length_cons] at hi
      rw [List.foldl_cons, show (288 : Int) - i = ((288 - i : Nat) : Int) by omega, py_inner _ _ _ _ (by omega)]
      rw [show ((288 - i : Nat) : Int) - 8 = (288 : Int) - (i + 8 : Nat) by omega, ih _ (i + 8) (by omega)]
      rw [show bits (b :: l) = bits [b] ++ bits l from bits_append [b] l, T_append]
      rw [show (bits [b]).length = 8 from rfl, Nat.xor_assoc]
      have : (bits [b]).zipIdx.foldl (fun a x => a ^^^ (if x.1 then (key >>> (288 - i - x.2)) % 2 ^ 32 else 0)) 0 = T key (bits [b]) i := by
        rw [bits_one]
        simp only [List.zipIdx_cons, List.zipIdx_nil, List.foldl_cons, List.foldl_nil, Nat.xor_assoc, Nat.zero_xor, Nat.zero_add, T, Nat.xor_zero,
          Nat.sub_sub, Nat.add_assoc, Nat.reduceAdd, Nat.add_zero]
      rw [this, List.length_cons, show i + 8 + 8 * l.length = i + 8 * (l.length + 1) by omega]
  unfold pyToep
  have := gen l 0 0 (by omega)
  rw [show ((40 : Nat) : Int) * 8 - 32 = (288 : Int) - (0 : Nat) by decide, this]
  simp

/-- the initial state: everything zero, capture active -/
def init : St := ⟨⟨true, 0, 0, 0, fun _ => 0, false, false, false, 0, false⟩, 0, 0, false, false, false, 0, false, 0, 0, false⟩

/-- an IPv6 frame of 320 bytes whose bytes 268, 269 are 08 00 and all others 0xFF: five words of a 512-bit bus -/
def v6Frame : Frame := ⟨(List.range 320).map (fun i => if i == 12 then 0x86 else if i == 13 then 0xdd else if i == 268 then 8 else if i == 269 then 0 else 255), fun _ => 0⟩

set_option maxRecDepth 100000 in
/-- **C29** disagreement: an IPv6 frame stays "active" until the beat counter wraps; then payload bytes are taken for an Ethernet header and,
here, for an IPv4 header: on a 512-bit bus the frame is reported as IPv4 with a non-zero hash of payload bytes. -/
theorem C29_ipv6_wrap_counterexample :
    ethType v6Frame.bytes = 0x86dd ∧ (outs 64 1 init (((v6Frame.beats 64).map some) ++ [none, none])).map (·.2) = [1] ∧
    (outs 64 (2 ^ 319) init (((v6Frame.beats 64).map some) ++ [none, none])).map (·.1) = [2 ^ 31] := by
  decide

/-- a UDP frame meets the hypotheses, with a non-trivial result (the Microsoft verification key and tuple 66.9.149.187:2794 -> 161.142.100.80:1766) -/
def udpFrame : Frame :=
  ⟨[0, 0, 0, 0, 0, 0, 0, 0, 0, 0, 0, 0, 8, 0, 0x45, 0, 0, 28, 0, 0, 0, 0, 64, 17, 0, 0, 66, 9, 149, 187, 161, 142, 100, 80, 0x0a, 0xea, 0x06, 0xe6, 0, 8, 0, 0], fun _ => 7⟩

def msKey : Nat := 0x6d5a56da255b0ec24167253d43a38fb0d0ca2bcbae7b30b477cb2da38030f20c6a42b73bbeac01fa

set_option maxRecDepth 100000 in
example : udpFrame.Ok 8 := ⟨by decide, fun _ => show 7 < 256 by decide, by decide, by decide⟩
set_option maxRecDepth 100000 in
example : result msKey udpFrame.bytes = (0x51ccc178, 9) := by decide

end Corundum.RxHash
