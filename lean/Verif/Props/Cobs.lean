import Mathlib.Data.List.Forall2
import Verif.Proof.CobsEnc
import Verif.Proof.CobsDec
/-!
C34: COBS encoder and decoder.

A frame is a pair `(bad, bytes)`; `frame bad bytes` is its beat sequence (last flag on the final byte, error flag with it).
`Enc.accepted`/`Dec.accepted` are the beats taken at the input, `delivered` those taken at the output, in a run of clock cycles under any handshake schedule.
-/
namespace Corundum.Cobs

/-- nothing left inside the encoder -/
def Enc.Empty (s : Enc) : Prop := s.i.st = .idle ∧ s.codeQ = [] ∧ s.ocount = 0 ∧ s.out.m = none ∧ s.out.temp = none

/-- nothing left inside the decoder -/
def Dec.Empty (s : Dec) : Prop := (s.c.st = .idle → s.c.tvalid = false) ∧ s.out.m = none ∧ s.out.temp = none

theorem enc_eq (az : Bool) (is : List EncInp) (fs : List (Bool × List Nat)) (hne : ∀ f ∈ fs, f.2 ≠ [])
    (hacc : Enc.init.accepted az is = fs.flatMap (fun f => frame f.1 f.2)) :
    fs.flatMap (fun f => encoded az f.1 f.2) = (Enc.init.delivered az is ++ ((Enc.init.run az is).out.m.toList ++ (Enc.init.run az is).out.temp.toList)) ++
      mergeFrom (Enc.init.run az is).ocount ((Enc.init.run az is).codeQ ++ closing az (Enc.init.run az is).i) (Enc.init.run az is).dataQ := by
  have h0 : EInv az Enc.init (⟨.idle, 0, false⟩, [], []) [] := by
    refine ⟨rfl, fun _ => rfl, fun h => by simp [Enc.init] at h, ?_⟩
    intro cs' ds'
    simp [Enc.init, closing, mergeFrom_zero]
  have h := EInv.run is h0
  obtain ⟨s', cs, ds, _, _, a, b⟩ := frames_enc az fs ⟨.idle, 0, false⟩ hne rfl rfl
  rw [hacc, a] at h
  have e := h.eq [] []
  have b' := b [] []
  simp only [List.nil_append, List.append_nil] at e b'
  rw [b'] at e
  simpa [mergeCodes] using e

/-- **C34.** The encoder sends the COBS encoding of every accepted frame, in order, for any handshake schedule and FIFO timing. -/
theorem C34_encode (az : Bool) (is : List EncInp) (fs : List (Bool × List Nat)) (hne : ∀ f ∈ fs, f.2 ≠ [])
    (hacc : Enc.init.accepted az is = fs.flatMap (fun f => frame f.1 f.2)) :
    Enc.init.delivered az is <+: fs.flatMap (fun f => encoded az f.1 f.2) ∧
    ((Enc.init.run az is).Empty → Enc.init.delivered az is = fs.flatMap (fun f => encoded az f.1 f.2)) := by
  have e := enc_eq az is fs hne hacc
  refine ⟨?_, ?_⟩
  · rw [e, List.append_assoc]; exact List.prefix_append _ _
  · rintro ⟨h1, h2, h3, h4, h5⟩
    rw [h2, h3, h4, h5, mergeFrom_zero] at e
    simpa [closing, h1, mergeCodes] using e.symm

/-- **C34.** No byte of the encoding is zero, and every byte fits in eight bits. -/
theorem C34_zero_free (xs : List Nat) (hb : ∀ x ∈ xs, x < 256) : ∀ b ∈ enc [] xs, 0 < b ∧ b < 256 := by
  have key : ∀ (xs run : List Nat), run.length ≤ 253 → (∀ x ∈ xs, x < 256) → (∀ x ∈ run, 0 < x ∧ x < 256) → ∀ b ∈ enc run xs, 0 < b ∧ b < 256 := by
    intro xs
    induction xs with
    | nil =>
      intro run hl _ hr b hb
      simp only [enc, List.mem_cons] at hb
      rcases hb with hb | hb
      · omega
      · exact hr b hb
    | cons x xs ih =>
      intro run hl hx hr b hb
      have hxs : ∀ y ∈ xs, y < 256 := fun y hy => hx y (by simp [hy])
      have hx0 := hx x (by simp)
      rw [enc] at hb
      split at hb
      · simp only [List.cons_append, List.mem_cons, List.mem_append] at hb
        rcases hb with hb | hb | hb
        · omega
        · exact hr b hb
        · exact ih [] (by simp) hxs (by simp) b hb
      · rename_i hz
        have hr' : ∀ y ∈ run ++ [x], 0 < y ∧ y < 256 := by
          intro y hy
          simp only [List.mem_append, List.mem_singleton] at hy
          rcases hy with hy | hy
          · exact hr y hy
          · omega
        split at hb
        · simp only [List.cons_append, List.mem_cons, List.mem_append] at hb
          rcases hb with hb | hb | hb
          · omega
          · exact hr' b (by simpa using hb)
          · split at hb
            · simp at hb
            · exact ih [] (by simp) hxs (by simp) b hb
        · exact ih _ (by simp; omega) hxs hr' b hb
  exact key xs [] (by simp) hb (by simp)

example : enc [] [1, 0, 2] = [2, 1, 2, 2] := by decide

/-- **C34.** On the wire a zero byte occurs only as the final delimiter, and only if the delimiter is enabled; exactly the final byte has the last flag. -/
theorem C34_wire (az : Bool) (xs : List Nat) (hb : ∀ x ∈ xs, x < 256) : ∃ pre d, encoded az false xs = pre ++ [⟨d, true, false⟩] ∧
    (∀ b ∈ pre, 0 < b.data ∧ b.data < 256 ∧ b.last = false) ∧ (az = true → d = 0) ∧ (az = false → 0 < d ∧ d < 256) := by
  have h := C34_zero_free xs hb
  cases az
  · have hne := enc_ne [] xs
    obtain ⟨l, d, e⟩ : ∃ l d, enc [] xs = l ++ [d] := ⟨_, _, (List.dropLast_concat_getLast hne).symm⟩
    refine ⟨plain l, d, ?_, ?_, by simp, fun _ => h d (by rw [e]; simp)⟩
    · simp only [encoded, wire, Bool.false_eq_true, if_false]
      rw [e, mark, frame_append _ _ _ (by simp)]; rfl
    · intro b hb
      simp only [plain, List.mem_map] at hb
      obtain ⟨y, hy, rfl⟩ := hb
      have := h y (by rw [e]; simp [hy])
      exact ⟨this.1, this.2, rfl⟩
  · refine ⟨plain (enc [] xs), 0, rfl, ?_, by simp, by simp⟩
    intro b hb
    simp only [plain, List.mem_map] at hb
    obtain ⟨y, hy, rfl⟩ := hb
    have := h y hy
    exact ⟨this.1, this.2, rfl⟩

/-- **C34.** Overhead: at most one byte per started group of 254 bytes. -/
theorem C34_overhead (xs : List Nat) (hne : xs ≠ []) : (enc [] xs).length ≤ xs.length + (xs.length + 253) / 254 := by
  have key : ∀ (xs run : List Nat), run.length ≤ 253 → 0 < run.length + xs.length →
      (enc run xs).length ≤ run.length + xs.length + (run.length + xs.length + 253) / 254 := by
    intro xs
    induction xs with
    | nil => intro run hl hp; simp only [enc, List.length_cons, List.length_nil] at *; omega
    | cons x xs ih =>
      intro run hl _
      rw [enc]
      by_cases hn : xs = []
      · subst hn
        split
        · simp [enc]; omega
        · split
          · simp; omega
          · simp [enc]; omega
      · have hp : 0 < xs.length := List.length_pos_iff.2 hn
        have h0 := ih [] (by simp) (by simp; omega)
        simp only [List.length_nil, Nat.zero_add] at h0
        split
        · simp only [List.length_append, List.length_cons]; omega
        · split
          · simp only [List.length_append, List.length_cons, List.length_nil]; omega
          · have := ih (run ++ [x]) (by simp; omega) (by simp; omega)
            simp only [List.length_append, List.length_cons, List.length_nil] at this ⊢
            rw [show run.length + (xs.length + 1) = run.length + (0 + 1) + xs.length by omega]
            exact this
  simpa using key xs [] (by simp) (by have := List.length_pos_iff.2 hne; simp; omega)

/-- what a decoded frame must look like -/
def Decoded (f : Bool × List Nat) (g : List Beat) : Prop :=
  if f.1 then ∃ O d, g = plain O ++ [⟨d, true, true⟩] else g = frame false f.2

theorem decRun_frames (az : Bool) : ∀ (fs : List (Bool × List Nat)) (c : DCtl), (∀ f ∈ fs, f.2 ≠ []) → c.st = .idle → c.tvalid = false →
    ∃ c' gs, decRun c (fs.flatMap (fun f => encoded az f.1 f.2)) = (c', gs.flatten) ∧ c'.st = .idle ∧ c'.tvalid = false ∧ List.Forall₂ Decoded fs gs := by
  intro fs
  induction fs with
  | nil => intro c _ h1 h2; exact ⟨c, [], rfl, h1, h2, List.Forall₂.nil⟩
  | cons f fs ih =>
    intro c hne h1 h2
    rw [List.flatMap_cons, decRun_append]
    have hT : T c = [] := by simp [T, h2]
    have hZ : Z c = [] := by simp [Z, h1]
    obtain ⟨c1, g, e1, e2, e3, e4⟩ : ∃ c1 g, decRun c (encoded az f.1 f.2) = (c1, g) ∧ c1.st = .idle ∧ c1.tvalid = false ∧ Decoded f g := by
      unfold encoded Decoded
      cases f.1
      · obtain ⟨c1, a1, a2, a3⟩ := dec_enc az f.2 [] c (Or.inl ⟨h1, h2⟩) (by simp) (by simp) (by simp [hZ, hne f])
        rw [hT, hZ] at a1
        exact ⟨c1, _, a1, a2, a3, rfl⟩
      · obtain ⟨c1, O, d, a1, a2, a3⟩ := dec_bad az f.2 [] c (Or.inl ⟨h1, h2⟩) (by simp) (by simp)
        exact ⟨c1, _, a1, a2, a3, by simp only [if_true]; exact ⟨O, d, rfl⟩⟩
    obtain ⟨c', gs, b1, b2, b3, b4⟩ := ih c1 (fun g hg => hne g (by simp [hg])) e2 e3
    refine ⟨c', g :: gs, ?_, b2, b3, List.Forall₂.cons e4 b4⟩
    rw [e1, b1]; rfl

/-- **C34.** The decoder, fed the encodings of any sequence of frames under any handshake schedule, delivers the frames: good frames exactly,
bad frames as a frame whose last beat carries the error flag. -/
theorem C34_decode (az : Bool) (is : List DecInp) (fs : List (Bool × List Nat)) (hne : ∀ f ∈ fs, f.2 ≠ [])
    (hacc : Dec.init.accepted is = fs.flatMap (fun f => encoded az f.1 f.2)) :
    ∃ gs, List.Forall₂ Decoded fs gs ∧ Dec.init.delivered is <+: gs.flatten ∧ ((Dec.init.run is).Empty → Dec.init.delivered is = gs.flatten) := by
  obtain ⟨_, h2, h3⟩ := Dec.run_spec is Dec.init ⟨fun h => by simp [Dec.init] at h, fun h => by simp [Dec.init] at h⟩
  obtain ⟨c', gs, e1, e2, e3, e4⟩ := decRun_frames az fs (flushD Dec.init.c) hne rfl rfl
  rw [hacc, e1] at h2 h3
  rw [show (Dec.init.out.m.toList ++ Dec.init.out.temp.toList) ++ pendD Dec.init.c = [] from rfl, List.nil_append] at h3
  refine ⟨gs, e4, ?_, ?_⟩
  · exact ⟨_, h3⟩
  · rintro ⟨k1, k2, k3⟩
    have hp : pendD (Dec.run Dec.init is).c = [] := by
      unfold pendD
      split
      · rename_i hc; exact absurd hc.2 (by rw [k1 hc.1]; simp)
      · rfl
    rw [hp, k2, k3] at h3
    simpa using h3

/-- **C34.** Encoder and decoder back to back: what the encoder delivers for good frames, the decoder turns into the same frames. -/
theorem C34_roundtrip (az : Bool) (is : List EncInp) (js : List DecInp) (fs : List (List Nat)) (hne : ∀ f ∈ fs, f ≠ [])
    (hacc : Enc.init.accepted az is = fs.flatMap (frame false)) (hlink : Dec.init.accepted js = Enc.init.delivered az is)
    (he : (Enc.init.run az is).Empty) (hd : (Dec.init.run js).Empty) : Dec.init.delivered js = fs.flatMap (frame false) := by
  have key : ∀ gs, List.Forall₂ Decoded (fs.map (fun x => (false, x))) gs → gs.flatten = fs.flatMap (frame false) := by
    intro gs
    clear hacc hne
    induction fs generalizing gs with
    | nil => intro h; cases h; rfl
    | cons f fs ih =>
      intro h
      cases h with
      | cons h1 h2 =>
        rw [List.flatten_cons, ih _ h2, List.flatMap_cons]
        simp only [Decoded, Bool.false_eq_true, if_false] at h1
        rw [h1]
  have hne' : ∀ f ∈ fs.map (fun x => (false, x)), f.2 ≠ [] := by
    intro f hf
    simp only [List.mem_map] at hf
    obtain ⟨x, hx, rfl⟩ := hf
    exact hne x hx
  have h1 := (C34_encode az is (fs.map (fun x => (false, x))) hne' (by rw [hacc, List.flatMap_map])).2 he
  obtain ⟨gs, g1, _, g3⟩ := C34_decode az js (fs.map (fun x => (false, x))) hne' (by rw [hlink, h1])
  rw [g3 hd, key gs g1]

/-- schedule used in the examples -/
def feedE (l : List Beat) : List EncInp := (l.flatMap (fun b => [⟨some b, true, true, true, true, true⟩])) ++ List.replicate 12 ⟨none, true, true, true, true, true⟩

def feedD (l : List Beat) : List DecInp := ⟨none, true⟩ :: l.map (fun b => ⟨some b, true⟩) ++ List.replicate 4 ⟨none, true⟩

/-- hypotheses of the theorems above are met: a good frame and a bad one (first with, then without delimiter) -/
example : Enc.init.accepted true (feedE (frame false [7, 0, 9])) = frame false [7, 0, 9] ∧
    Enc.init.delivered true (feedE (frame false [7, 0, 9])) = [⟨2, false, false⟩, ⟨7, false, false⟩, ⟨2, false, false⟩, ⟨9, false, false⟩, ⟨0, true, false⟩] ∧
    (Enc.init.run true (feedE (frame false [7, 0, 9]))).codeQ = [] := by decide

example : Dec.init.accepted (feedD (encoded true false [7, 0, 9])) = encoded true false [7, 0, 9] ∧
    Dec.init.delivered (feedD (encoded true false [7, 0, 9])) = frame false [7, 0, 9] := by decide

example : Dec.init.accepted (feedD (encoded false true [7, 0, 9])) = encoded false true [7, 0, 9] ∧
    Dec.init.delivered (feedD (encoded false true [7, 0, 9])) = [⟨7, false, false⟩, ⟨0, true, true⟩] := by decide

/-- the decoder does not close a frame that ends in a full 254-byte block followed by an empty block (a legal COBS encoding this encoder never sends):
the frame is merged with the next one -/
theorem C34_decoder_tlast_counterexample :
    (decRun Dec.init.c (plain (255 :: List.replicate 254 1 ++ [1]) ++ [⟨0, true, false⟩])).2 = plain (List.replicate 254 1) := by
  set_option maxRecDepth 100000 in decide

end Corundum.Cobs
