import Verif.Proof.UsStream
import Verif.Props.UsTlp

/-! C63: the UltraScale PCIe streams deliver the frames given to them. -/
namespace Corundum.UsStream
open Corundum.Pcie

/-- **C63.** For every stream (CQ, CC, RQ, RC) at every bus width, every sequence of `send` calls interleaved with clock edges and
every pattern of pauses of source and sink: the frames the sink has received are, in order, the first of the frames sent, each with
exactly its double words, parity, byte enables, first and last byte enables, discontinue flag and sequence number as far as the stream
has signals for them; no assertion of source or sink fails. -/
theorem C63_delivers {L : Layout} {n : Nat} (hf : Fits L n) (hn : 1 ≤ n) (ops : List Op) (h : ∀ f ∈ sent ops, FrameOk L f) :
    (run L n init ops).out <+: (sent ops).map (carried L) ∧ (run L n init ops).error = false := by
  have := inv_run (layout_ok hf) hn ops init [] (inv_init L n) h
  exact ⟨by simpa using inv_prefix this, this.err⟩

/-- **C63.** Every frame arrives: after any run, every continuation without `send` which has at least two clock edges free of pauses per
double word sent (in any positions, with any pauses in between) ends with all frames received. -/
theorem C63_drains {L : Layout} {n : Nat} (hf : Fits L n) (hn : 1 ≤ n) (ops : List Op) (h : ∀ f ∈ sent ops, FrameOk L f)
    (l : List (Bool × Bool)) (hl : 2 * ((sent ops).map fun f => f.data.length).sum ≤ free l) :
    (run L n init (ops ++ l.map fun b => .clk b.1 b.2)).out = (sent ops).map (carried L) := by
  have hi := inv_run (layout_ok hf) hn ops init [] (inv_init L n) h
  have hm := run_mu (layout_ok hf) hn ops init [] (inv_init L n) h
  have h0 : mu init = 0 := rfl
  have := drain (layout_ok hf) hn l _ hi (by omega)
  rw [show run L n init (ops ++ l.map fun b => .clk b.1 b.2) = run L n (run L n init ops) (l.map fun b => .clk b.1 b.2) from
    List.foldl_append, this, List.nil_append]

/-- **C63.** What each stream leaves out: CQ keeps all but the sequence number; RQ keeps all but the byte enable list, and its sequence
number modulo 64 (512 bits, or 62 `tuser` bits) or modulo 16 (60 `tuser` bits); CC keeps data, parity and discontinue; RC these and the
byte enable list. -/
theorem C63_carried (f : Frame) :
    (∀ L ∈ [cq512, cq256], carried L f = { f with seqNum := 0 }) ∧
    (∀ L ∈ [rq512, rq256], carried L f = { f with byteEn := [], seqNum := f.seqNum % 64 }) ∧
    carried rq256s f = { f with byteEn := [], seqNum := f.seqNum % 16 } ∧
    (∀ L ∈ [cc512, cc256], carried L f = { data := f.data, parity := f.parity, discontinue := f.discontinue }) ∧
    (∀ L ∈ [rc512, rc256], carried L f = { data := f.data, parity := f.parity, discontinue := f.discontinue, byteEn := f.byteEn }) := by
  refine ⟨?_, ?_, ?_, ?_, ?_⟩
  · intro L hL
    simp only [List.mem_cons, List.not_mem_nil, or_false] at hL
    rcases hL with rfl | rfl <;> unfold carried <;> rw [seq_none _ rfl] <;> rfl
  · intro L hL
    simp only [List.mem_cons, List.not_mem_nil, or_false] at hL
    rcases hL with rfl | rfl <;> unfold carried
    · rw [seq_512]; rfl
    · rw [seq_256]; rfl
  · unfold carried; rw [seq_256s]; rfl
  · intro L hL
    simp only [List.mem_cons, List.not_mem_nil, or_false] at hL
    rcases hL with rfl | rfl <;> unfold carried <;> rw [seq_none _ rfl] <;> rfl
  · intro L hL
    simp only [List.mem_cons, List.not_mem_nil, or_false] at hL
    rcases hL with rfl | rfl <;> unfold carried <;> rw [seq_none _ rfl] <;> rfl

/-- a run of the 256-bit requester request stream with two lanes, a pause of the sink and a sequence number above 16 -/
example : (run rq256 2 init ([.send { data := [1, 2, 3], parity := [4, 5, 6], firstBe := 7, lastBe := 8, seqNum := 77 }] ++
    [(false, false), (false, true), (true, false), (false, false), (false, false)].map fun b => .clk b.1 b.2)).out =
    [{ data := [1, 2, 3], parity := [4, 5, 6], firstBe := 7, lastBe := 8, seqNum := 13 }] := by decide

/-- **C63, end to end.** Memory and IO requests packed with `pack_us_cq`, sent over the completer request stream and unpacked with
`unpack_us_cq`, parity checked, all arrive in order with every transported field intact. -/
theorem C63_cq_end_to_end {L : Layout} {n : Nat} (hL : L ∈ [cq512, cq256]) (hf : Fits L n) (hn : 1 ≤ n) (ts : List UsTlp) (ops : List Op)
    (hs : ts.map packCq = (sent ops).map some)
    (ht : ∀ t ∈ ts, ReqOk t.toTlp ∧ ((t.fmt < 4 ∧ t.typ = 0) ∨ ((t.fmt = 0 ∨ t.fmt = 2) ∧ t.typ = 2)) ∧ t.completer.fn < 256 ∧
      t.barId < 8 ∧ t.barAperture < 64 ∧ (∀ x ∈ t.data, x < 2 ^ 32) ∧ t.firstBe < 16 ∧ t.lastBe < 16)
    (l : List (Bool × Bool)) (hl : 2 * ((sent ops).map fun f => f.data.length).sum ≤ free l) :
    ((run L n init (ops ++ l.map fun b => .clk b.1 b.2)).out).map (unpackCq · true) = ts.map fun t => some
      { fmt := (if t.address < 2 ^ 32 then 0 else 1) + (if t.fmt = 2 ∨ t.fmt = 3 then 2 else 0)
        typ := t.typ, tc := t.tc, attr := t.attr, at' := t.at', length := t.length, requester := t.requester
        tag := t.tag, firstBe := t.firstBe, lastBe := t.lastBe, address := t.address, data := t.data
        completer := ⟨0, 0, t.completer.fn⟩, barId := t.barId, barAperture := t.barAperture, discontinue := t.discontinue } := by
  refine through hf hn (pack := packCq) (un := (unpackCq · true)) ts ops hs ?_ l hl
  intro t hmem f e
  obtain ⟨h1, h2, h3, h4, h5, h6, h7, h8⟩ := ht t hmem
  obtain ⟨g, g1, g2⟩ := C60_cq_round_trip t h1 h2 h3 h4 h5 true
  rw [e, Option.some.injEq] at g1; subst g1
  refine ⟨cq_ok e h6 h7 h8, ?_⟩
  have : carried L f = f := by
    rw [(C63_carried f).1 L hL]
    unfold packCq at e; split at e
    · rw [Option.some.injEq] at e; subst e; rfl
    · simp at e
  rw [this]; exact g2

/-- **C63, end to end.** The same for the requester request stream: the sequence number arrives modulo 64 (modulo 16 with 60 `tuser`
bits). -/
theorem C63_rq_end_to_end {L : Layout} {n : Nat} (hL : L ∈ [rq512, rq256, rq256s]) (hf : Fits L n) (hn : 1 ≤ n) (ts : List UsTlp)
    (ops : List Op) (hs : ts.map packRq = (sent ops).map some)
    (ht : ∀ t ∈ ts, ReqOk t.toTlp ∧ t.completer.Ok ∧ ((t.fmt < 4 ∧ t.typ = 0) ∨ ((t.fmt = 0 ∨ t.fmt = 2) ∧ t.typ = 2)) ∧
      (∀ x ∈ t.data, x < 2 ^ 32) ∧ t.firstBe < 16 ∧ t.lastBe < 16 ∧ t.seqNum < 16)
    (l : List (Bool × Bool)) (hl : 2 * ((sent ops).map fun f => f.data.length).sum ≤ free l) :
    ((run L n init (ops ++ l.map fun b => .clk b.1 b.2)).out).map (unpackRq · true) = ts.map fun t => some
      { fmt := (if t.address < 2 ^ 32 then 0 else 1) + (if t.fmt = 2 ∨ t.fmt = 3 then 2 else 0)
        typ := t.typ, tc := t.tc, attr := t.attr, at' := t.at', length := t.length, requester := t.requester
        tag := t.tag, firstBe := t.firstBe, lastBe := t.lastBe, address := t.address, data := t.data
        completer := t.completer, requesterIdEnable := t.requesterIdEnable, discontinue := t.discontinue, seqNum := t.seqNum } := by
  refine through hf hn (pack := packRq) (un := (unpackRq · true)) ts ops hs ?_ l hl
  intro t hmem f e
  obtain ⟨h1, h2, h3, h4, h5, h6, h7⟩ := ht t hmem
  obtain ⟨g, g1, g2⟩ := C60_rq_round_trip t h1 h2 h3 true
  rw [e, Option.some.injEq] at g1; subst g1
  have hb : L.byteEn = none := by
    simp only [List.mem_cons, List.not_mem_nil, or_false] at hL
    rcases hL with rfl | rfl | rfl <;> rfl
  refine ⟨rq_ok hb e h4 h5 h6, ?_⟩
  have : carried L f = f := by
    have h0 : f.byteEn = [] ∧ f.seqNum = t.seqNum := by
      unfold packRq at e; split at e
      · rw [Option.some.injEq] at e; subst e; exact ⟨rfl, rfl⟩
      · simp at e
    have k1 : f.seqNum % 64 = f.seqNum := Nat.mod_eq_of_lt (by omega)
    have k2 : f.seqNum % 16 = f.seqNum := Nat.mod_eq_of_lt (by omega)
    simp only [List.mem_cons, List.not_mem_nil, or_false] at hL
    rcases hL with rfl | rfl | rfl
    · rw [(C63_carried f).2.1 _ (by simp), k1, ← h0.1]
    · rw [(C63_carried f).2.1 _ (by simp), k1, ← h0.1]
    · rw [(C63_carried f).2.2.1, k2, ← h0.1]
  rw [this]; exact g2

/-- **C63, end to end.** Completions over the completer completion stream. -/
theorem C63_cc_end_to_end {L : Layout} {n : Nat} (hL : L ∈ [cc512, cc256]) (hf : Fits L n) (hn : 1 ≤ n) (ts : List UsTlp) (ops : List Op)
    (hs : ts.map packCc = (sent ops).map some)
    (ht : ∀ t ∈ ts, CplFieldsOk t.toTlp ∧ ((t.fmt = 0 ∨ t.fmt = 2) ∧ (t.typ = 10 ∨ t.typ = 11)) ∧ t.lowerAddress < 128 ∧ t.at' < 4 ∧
      (∀ x ∈ t.data, x < 2 ^ 32))
    (l : List (Bool × Bool)) (hl : 2 * ((sent ops).map fun f => f.data.length).sum ≤ free l) :
    ((run L n init (ops ++ l.map fun b => .clk b.1 b.2)).out).map (unpackCc · true) = ts.map fun t => some
      { fmt := if t.length = 0 then 0 else 2, typ := t.typ, tc := t.tc, attr := t.attr, at' := t.at', length := t.length
        requester := t.requester, completer := t.completer, status := t.status, byteCount := t.byteCount, lowerAddress := t.lowerAddress
        tag := t.tag, data := t.data.take t.length, completerIdEnable := t.completerIdEnable, discontinue := t.discontinue } := by
  refine through hf hn (pack := packCc) (un := (unpackCc · true)) ts ops hs ?_ l hl
  intro t hmem f e
  obtain ⟨h1, h2, h3, h4, h5⟩ := ht t hmem
  obtain ⟨g, g1, g2⟩ := C61_cc_round_trip t h1 h2 h3 h4 true
  rw [e, Option.some.injEq] at g1; subst g1
  have hb : L.byteEn = none := by
    simp only [List.mem_cons, List.not_mem_nil, or_false] at hL
    rcases hL with rfl | rfl <;> rfl
  refine ⟨cc_ok hb e h5, ?_⟩
  have : carried L f = f := by
    rw [(C63_carried f).2.2.2.1 L hL]
    unfold packCc at e; split at e
    · rw [Option.some.injEq] at e; subst e; rfl
    · simp at e
  rw [this]; exact g2

/-- **C63, end to end.** Completions over the requester completion stream. -/
theorem C63_rc_end_to_end {L : Layout} {n : Nat} (hL : L ∈ [rc512, rc256]) (hf : Fits L n) (hn : 1 ≤ n) (ts : List UsTlp) (ops : List Op)
    (hs : ts.map packRc = (sent ops).map some)
    (ht : ∀ t ∈ ts, CplFieldsOk t.toTlp ∧ ((t.fmt = 0 ∨ t.fmt = 2) ∧ (t.typ = 10 ∨ t.typ = 11)) ∧ t.lowerAddress < 4096 ∧
      t.errorCode < 16 ∧ t.data.length = t.length ∧ (∀ x ∈ t.data, x < 2 ^ 32))
    (l : List (Bool × Bool)) (hl : 2 * ((sent ops).map fun f => f.data.length).sum ≤ free l) :
    ((run L n init (ops ++ l.map fun b => .clk b.1 b.2)).out).map (unpackRc · true) = ts.map fun t => some
      { fmt := if t.length = 0 then 0 else 2, typ := t.typ, tc := t.tc, attr := t.attr, length := t.length
        requester := t.requester, completer := t.completer, status := t.status, byteCount := t.byteCount, lowerAddress := t.lowerAddress
        tag := t.tag, data := t.data, errorCode := t.errorCode, discontinue := t.discontinue } := by
  refine through hf hn (pack := packRc) (un := (unpackRc · true)) ts ops hs ?_ l hl
  intro t hmem f e
  obtain ⟨h1, h2, h3, h4, h5, h6⟩ := ht t hmem
  obtain ⟨g, g1, g2⟩ := C61_rc_round_trip t h1 h2 h3 h4 h5 true
  rw [e, Option.some.injEq] at g1; subst g1
  refine ⟨rc_ok e h6, ?_⟩
  have : carried L f = f := by
    rw [(C63_carried f).2.2.2.2 L hL]
    unfold packRc at e; split at e
    · rw [Option.some.injEq] at e; subst e; rfl
    · simp at e
  rw [this]; exact g2

/-- two read completions of one and two double words satisfy the hypotheses on the 512-bit bus -/
example : ∃ ts : List UsTlp, ∃ ops, ts.length = 2 ∧ ts.map packRc = (sent ops).map some ∧ Fits rc512 16 ∧
    (∀ t ∈ ts, CplFieldsOk t.toTlp ∧ ((t.fmt = 0 ∨ t.fmt = 2) ∧ (t.typ = 10 ∨ t.typ = 11)) ∧ t.lowerAddress < 4096 ∧
      t.errorCode < 16 ∧ t.data.length = t.length ∧ (∀ x ∈ t.data, x < 2 ^ 32)) := by
  refine ⟨[{ fmt := 2, typ := 10, length := 1, byteCount := 6, lowerAddress := 2, data := [7] },
    { fmt := 2, typ := 10, length := 2, byteCount := 8, tag := 5, data := [7, 8] }],
    [.send ((packRc { fmt := 2, typ := 10, length := 1, byteCount := 6, lowerAddress := 2, data := [7] }).getD {}), .clk false false,
     .send ((packRc { fmt := 2, typ := 10, length := 2, byteCount := 8, tag := 5, data := [7, 8] }).getD {})], rfl, rfl, Or.inl ⟨by simp, by decide⟩, ?_⟩
  intro t ht
  simp only [List.mem_cons, List.not_mem_nil, or_false] at ht
  rcases ht with rfl | rfl
  · exact ⟨⟨by decide, by decide, by decide, by decide, by decide, ⟨by decide, by decide, by decide⟩, ⟨by decide, by decide, by decide⟩,
      by decide⟩, by decide, by decide, by decide, by decide, by decide⟩
  · exact ⟨⟨by decide, by decide, by decide, by decide, by decide, ⟨by decide, by decide, by decide⟩, ⟨by decide, by decide, by decide⟩,
      by decide⟩, by decide, by decide, by decide, by decide, by decide⟩

/-- **C63, limitation.** A frame without data is never delivered: it is taken from the queue and dropped, for every stream and every
bus width, even with no pauses. -/
theorem C63_empty_dropped (L : Layout) (n : Nat) (f : Frame) (hd : f.data = []) (k : Nat) :
    (run L n init (.send f :: List.replicate k (.clk false false))).out = [] := by
  have key : ∀ k s, s.data = [] → s.active = false → s.tvalid = false → s.out = [] → (s.queue = [] ∨ s.queue = [f]) →
      (run L n s (List.replicate k (.clk false false))).out = [] := by
    intro k
    induction k with
    | zero => intro s _ _ _ h _; exact h
    | succ k ih =>
      intro s h1 h2 h3 h4 h5
      rw [List.replicate_succ]
      have e : step L n s (.clk false false) = { emit L n false (load { s with tvalid := false }) with rdy := true } := by
        show snkClk L n s (srcClk L n s (s.rdy && !false) false) false = _
        unfold snkClk srcClk; rw [h3, h2]; simp
      show (run L n (step L n s (.clk false false)) _).out = []
      rw [e]
      rcases h5 with h5 | h5
      · rw [load_nil _ (by exact h5), emit_nil _ _ _ _ (by exact h1)]
        exact ih _ h1 h2 rfl h4 (Or.inl h5)
      · rw [load_cons { s with tvalid := false } f [] h1 h5, emit_nil _ _ _ _ (by exact hd)]
        exact ih _ hd h2 rfl h4 (Or.inl rfl)
  exact key k _ rfl rfl rfl rfl (Or.inr rfl)

end Corundum.UsStream
