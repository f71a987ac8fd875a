import Verif.Proof.BufRing

/-! C65: the packet buffers of the transmit and receive engines. -/
namespace Corundum.BufRing

/-- **C65.** At any time, the reads of host memory into the transmit buffer that have been asked for and whose packets have not been sent lie within the
buffer, and no two of them use a common byte, however descriptors, DMA writes and transmissions interleave, provided the size limit is a multiple of the
step size, descriptors obey the limit and packets do not follow each other back to back. -/
theorem C65_tx_apart (P : Params) (hg : Good P) (is : List Tx.In) (h : Tx.LegalRun P {} is) :
    ((Tx.run P {} is).pkts.flatMap (·.ops) ++ (Tx.run P {} is).cur).Pairwise Apart ∧
    ∀ o ∈ (Tx.run P {} is).pkts.flatMap (·.ops) ++ (Tx.run P {} is).cur, o.data ≠ [] → o.addr + o.data.length ≤ P.size := by
  obtain ⟨w, r, hi⟩ := Tx.run_inv hg is (Tx.inv_start P) h
  exact ⟨Tx.flat_apart hg hi, fun o ho hl => Tx.flat_fit hg hi ho hl⟩

/-- **C65.** Once every byte of a packet has been written since its place was handed out, the buffer holds at the place and in the length named by the
packet's table entry exactly the bytes its descriptors point to, in order. -/
theorem C65_tx_contents (P : Params) (hg : Good P) (is : List Tx.In) (h : Tx.LegalRun P {} is) (p : Pkt) (hp : p ∈ (Tx.run P {} is).pkts)
    (hf : ∀ k, k < p.len → (Tx.run P {} is).full (P.off p.ptr + k) = true) :
    read (Tx.run P {} is).ram (P.off p.ptr) p.len = p.ops.flatMap (·.data) := by
  obtain ⟨w, r, hi⟩ := Tx.run_inv hg is (Tx.inv_start P) h
  exact Tx.contents hi hp hf

/-- **C65.** The table entry of a buffered packet names its true length, and the length keeps the limit. -/
theorem C65_tx_length (P : Params) (hg : Good P) (is : List Tx.In) (h : Tx.LegalRun P {} is) (p : Pkt) (hp : p ∈ (Tx.run P {} is).pkts) :
    p.len = (p.ops.flatMap (·.data)).length ∧ p.len ≤ P.max := by
  obtain ⟨w, r, hi⟩ := Tx.run_inv hg is (Tx.inv_start P) h
  obtain ⟨a, _, h2, _, h4⟩ := Tx.walk_mem _ hi.walk p hp
  refine ⟨?_, h2⟩
  rw [tiles_len _ h4]; omega

/-- **C65.** An empty transmit buffer accepts descriptors: no run can leave the pointers so that space stays unusable. -/
theorem C65_tx_accepts (P : Params) (hg : Good P) (hm : P.max < P.size) (is : List Tx.In) (h : Tx.LegalRun P {} is)
    (he : (Tx.run P {} is).pkts = []) (i : Tx.In) (hi : i.early = true) : (Tx.step P (Tx.run P {} is) i).ready = true := by
  obtain ⟨w, r, hv⟩ := Tx.run_inv hg is (Tx.inv_start P) h
  have hw := hv.walk
  rw [he] at hw
  have hw : r = w := hw
  subst hw
  show (i.early && room P _ _) = true
  have := size_pos P
  rw [hi, hv.wr, hv.rd, room_eq P (Nat.le_refl _) (by omega), Bool.true_and, decide_eq_true_eq]
  omega

/-- **C65.** Buffers handed out by the receive engine and not yet released lie within the receive buffer, have the configured size, and no two of them use
a common byte, as long as the configured size does not change. -/
theorem C65_rx_apart (P : Params) (hg : Good P) (m : Nat) (hm : m ≤ P.max) (is : List Rx.In) (h : Rx.LegalRun P m {} is) :
    (Rx.run P {} is).bufs.Pairwise (fun a b => ∀ x, ¬ (P.off a.1 ≤ x ∧ x < P.off a.1 + a.2 ∧ P.off b.1 ≤ x ∧ x < P.off b.1 + b.2)) ∧
    ∀ b ∈ (Rx.run P {} is).bufs, b.2 = m ∧ P.off b.1 + b.2 ≤ P.size := by
  obtain ⟨w, r, hi⟩ := Rx.run_inv hg hm is (Rx.inv_start P m) h
  obtain ⟨h1, h2⟩ := Rx.bufs_apart hg hm hi
  constructor
  · rw [List.pairwise_map] at h1
    refine h1.imp ?_
    intro a b hab x hx
    refine hab x ?_
    simpa [Rx.asOp] using hx
  · intro b hb
    obtain ⟨k1, k2⟩ := h2 b hb
    exact ⟨k1, by rw [k1]; exact k2⟩

/-- **C65.** A receive engine with no buffer handed out grants a request for one. -/
theorem C65_rx_accepts (P : Params) (hg : Good P) (m : Nat) (hm : m ≤ P.max) (hs : P.max < P.size) (is : List Rx.In) (h : Rx.LegalRun P m {} is)
    (he : (Rx.run P {} is).bufs = []) (i : Rx.In) (hi : i.early = true) (hq : i.req = false) : (Rx.step P (Rx.run P {} is) i).ready = true := by
  obtain ⟨w, r, hv⟩ := Rx.run_inv hg hm is (Rx.inv_start P m) h
  have hw := hv.walk
  rw [he] at hw
  have hw : r = w := hw
  subst hw
  show (if _ && i.req then false else i.early && room P _ _) = true
  have := size_pos P
  rw [hq, Bool.and_false, hi, hv.wr, hv.rd, room_eq P (Nat.le_refl _) (by omega)]
  simp only [Bool.true_and, Bool.false_eq_true, if_false, decide_eq_true_eq]
  omega

/-! ### A run that keeps the rules -/

namespace Tx

def legalB (P : Params) (s : S) (i : In) : Bool :=
  (match i.beat with | some (d, _) => decide (s.len + d.length ≤ P.max) | none => true) && (!s.ended || i.beat.isNone) &&
  (!i.done || !s.pkts.isEmpty) && i.pokes.all (fun w => s.flat.any fun o => decide (o.addr ≤ w.1) && o.data[w.1 - o.addr]? == some w.2)

def legalRunB (P : Params) : S → List In → Bool
  | _, [] => true
  | s, i :: is => legalB P s i && legalRunB P (step P s i) is

theorem legal_of {P : Params} {s : S} {i : In} (h : legalB P s i = true) : Legal P s i := by
  unfold legalB at h
  simp only [Bool.and_eq_true] at h
  obtain ⟨⟨⟨h1, h2⟩, h3⟩, h4⟩ := h
  refine ⟨fun d l hb => ?_, fun he => ?_, fun hd hp => ?_, fun w hw => ?_⟩
  · rw [hb] at h1; exact of_decide_eq_true h1
  · rw [he] at h2
    cases hb : i.beat with
    | none => rfl
    | some b => rw [hb] at h2; cases h2
  · rw [hd, hp] at h3; cases h3
  · have := List.all_eq_true.mp h4 w hw
    obtain ⟨o, ho, k⟩ := List.any_eq_true.mp this
    rw [Bool.and_eq_true, decide_eq_true_eq, beq_iff_eq] at k
    exact ⟨o, ho, w.1 - o.addr, k.2, by omega⟩

theorem legalRun_of {P : Params} (is : List In) : ∀ {s : S}, legalRunB P s is = true → LegalRun P s is := by
  induction is with
  | nil => intro s _; trivial
  | cons i is ih =>
    intro s h
    have h : (legalB P s i && legalRunB P (step P s i) is) = true := h
    rw [Bool.and_eq_true] at h
    exact ⟨legal_of h.1, ih h.2⟩

end Tx

/-- 32 bytes of buffer, steps of 4 bytes, packets of at most 8 bytes -/
def small : Params := ⟨5, 2, 8⟩

theorem small_good : Good small := ⟨by decide, by decide⟩

/-- five packets; the last one wraps to the start, where the first one was -/
def trace : List Tx.In :=
  [{}, { beat := some ([1, 2, 3], false) }, { beat := some ([4, 5], true) }, {}, { beat := some ([6, 7, 8, 9, 10, 11], true), pokes := [(3, 4), (0, 1)] }, {},
   { beat := some ([20, 21, 22, 23, 24], true), pokes := [(1, 2), (2, 3), (4, 5)] }, { done := true }, {}, { beat := some ([40], true) }, { done := true }, {}, {},
   { beat := some ([30, 31, 32], false), pokes := [(24, 40)] }, { pokes := [(0, 30)] }]

example : Tx.LegalRun small {} trace := Tx.legalRun_of _ (by decide)

/-- the last packet is being read to the start of the buffer, where the first one was -/
example : (Tx.run small {} trace).cur = [⟨0, [30, 31, 32]⟩] ∧
    (Tx.run small {} trace).pkts = [⟨16, 5, [⟨16, [20, 21, 22, 23, 24]⟩]⟩, ⟨24, 1, [⟨24, [40]⟩]⟩] := by decide

/-- before it was sent, the first packet was complete -/
example : ∃ p ∈ (Tx.run small {} (trace.take 7)).pkts, p.len = 5 ∧ (∀ k, k < p.len → (Tx.run small {} (trace.take 7)).full (small.off p.ptr + k) = true) ∧
    read (Tx.run small {} (trace.take 7)).ram (small.off p.ptr) p.len = [1, 2, 3, 4, 5] :=
  ⟨⟨0, 5, [⟨0, [1, 2, 3]⟩, ⟨3, [4, 5]⟩]⟩, by decide, rfl, by decide, by decide⟩

/-- receive: four requests in a row into buffers of 6 bytes, one released -/
def rtrace : List Rx.In :=
  (List.range 10).map (fun k => { mtu := 6, req := k % 2 == 1, done := k == 8 })

example : Rx.LegalRun small 6 {} rtrace := by
  have : ∀ i ∈ rtrace, i.mtu = 6 := by decide
  simp only [rtrace, List.range, List.range.loop, List.map]
  exact ⟨⟨rfl, by decide⟩, ⟨rfl, by decide⟩, ⟨rfl, by decide⟩, ⟨rfl, by decide⟩, ⟨rfl, by decide⟩, ⟨rfl, by decide⟩, ⟨rfl, by decide⟩, ⟨rfl, by decide⟩,
    ⟨rfl, by decide⟩, ⟨rfl, by decide⟩, trivial⟩

example : (Rx.run small {} rtrace).bufs = [(8, 6), (16, 6)] := by decide

/-! ### The rules are needed -/

/-- **C65, first exception.** The space check lags one packet behind (tx_engine.v:628): a run that keeps every rule but the pause between packets destroys
a packet.  Five packets arrive in five consecutive cycles; all bytes of the first have been written and none of it has been sent, and yet the buffer holds
bytes of the fifth in its place. -/
theorem C65_tx_back_to_back :
    ∃ (is : List Tx.In) (p : Pkt), (∀ i ∈ is, ∀ b, i.beat = some b → b.1.length ≤ small.max ∧ b.2 = true) ∧ (∀ i ∈ is, i.done = false) ∧
      (Tx.run small {} is).pkts[0]? = some p ∧ p.ops.flatMap (·.data) = [1, 2, 3, 4, 5, 6, 7, 8] ∧
      (∀ k, k < p.len → (Tx.run small {} is).full (small.off p.ptr + k) = true) ∧
      read (Tx.run small {} is).ram (small.off p.ptr) p.len = [51, 52, 53, 54, 55, 56, 57, 58] := by
  refine ⟨[{}, { beat := some ([1, 2, 3, 4, 5, 6, 7, 8], true) }, { beat := some ([11, 12, 13, 14, 15, 16, 17, 18], true) },
    { beat := some ([21, 22, 23, 24], true), pokes := [(0, 1), (1, 2), (2, 3), (3, 4), (4, 5), (5, 6), (6, 7), (7, 8)] },
    { beat := some ([31, 32, 33, 34, 35, 36, 37, 38], true) }, { beat := some ([51, 52, 53, 54, 55, 56, 57, 58], true) },
    { pokes := [(0, 51), (1, 52), (2, 53), (3, 54), (4, 55), (5, 56), (6, 57), (7, 58)] }], ⟨0, 8, [⟨0, [1, 2, 3, 4, 5, 6, 7, 8]⟩]⟩, ?_⟩
  refine ⟨?_, by decide, by decide, by decide, by decide, by decide⟩
  intro i hi b hb
  simp only [List.mem_cons, List.not_mem_nil, or_false] at hi
  rcases hi with rfl | rfl | rfl | rfl | rfl | rfl | rfl <;> first | (cases hb; done) | (cases hb; exact ⟨by decide, rfl⟩)

/-- **C65, second exception.** If the size limit is not a multiple of the step size, a packet of maximum size can be placed so that it runs past the end of
the buffer: the rules are kept otherwise. -/
theorem C65_tx_rounding :
    ∃ (P : Params) (is : List Tx.In) (o : Op), P.st ≤ P.cl ∧ P.max < P.size ∧ Tx.LegalRun P {} is ∧ o ∈ (Tx.run P {} is).flat ∧
      P.size < o.addr + o.data.length := by
  refine ⟨⟨5, 3, 10⟩, [{}, { beat := some ([1, 2, 3, 4, 5, 6, 7, 8], true) }, {}, { beat := some ([1, 2, 3, 4, 5, 6, 7, 8], true) },
    { done := true }, { beat := some ([1, 2, 3, 4, 5], true) }, { done := true }, {}, { beat := some ([1, 2, 3, 4, 5, 6, 7, 8, 9, 10], true) }],
    ⟨24, [1, 2, 3, 4, 5, 6, 7, 8, 9, 10]⟩, by decide, by decide, Tx.legalRun_of _ (by decide), by decide, by decide⟩

/-- the default sizes (mqnic_core.v: 32768 bytes of buffer, steps of 128, packets of at most 9214) do not satisfy the rule: packets of 9000, 9000 and 5377
bytes are followed by one that has less than 9214 bytes left -/
example : let P : Params := ⟨15, 7, 9214⟩
    P.size < P.off (nextPtr P (nextPtr P (nextPtr P 0 9000) 9000) 5377) + P.max := by decide

/-- **C65, third exception.** A descriptor longer than the limit is read in full: the length in the table is cut (tx_engine.v:634) but the DMA read is not,
and its bytes replace those of a packet waiting in the buffer. -/
theorem C65_tx_long :
    ∃ (is : List Tx.In) (p : Pkt), (∀ i ∈ is, i.done = false) ∧ p ∈ (Tx.run small {} is).pkts ∧ p.ops.flatMap (·.data) = [1, 2, 3] ∧
      (∀ k, k < p.len → (Tx.run small {} is).full (small.off p.ptr + k) = true) ∧ read (Tx.run small {} is).ram (small.off p.ptr) p.len = [9, 9, 9] := by
  refine ⟨[{}, { beat := some ([7, 7, 7, 7, 7, 7, 7, 7, 9, 9, 9], true) }, {}, { beat := some ([1, 2, 3], true) }, { pokes := [(8, 1), (9, 2), (10, 3)] },
    { pokes := [(8, 9), (9, 9), (10, 9)] }], ⟨8, 3, [⟨8, [1, 2, 3]⟩]⟩, by decide, by decide, by decide, by decide, by decide⟩

/-- **C65, fourth exception.** The receive engine frees a buffer with the size configured at that time: if the size is raised while buffers are in use, the
read pointer runs ahead of them, and a buffer is handed out over others that are still in use. -/
theorem C65_rx_mtu :
    ∃ (P : Params) (is : List Rx.In) (a b : Nat × Nat) (j k : Nat), Good P ∧ P.max < P.size ∧ (∀ i ∈ is, i.mtu ≤ P.max) ∧ j < k ∧
      (Rx.run P {} is).bufs[j]? = some a ∧ (Rx.run P {} is).bufs[k]? = some b ∧ P.off b.1 ≤ P.off a.1 ∧ P.off a.1 + a.2 ≤ P.off b.1 + b.2 ∧ 0 < a.2 := by
  refine ⟨⟨4, 0, 8⟩, (List.range 16).map (fun k => { mtu := 1, req := k % 2 == 1 }) ++ 
    [{ mtu := 8, done := true }, { mtu := 8 }, { mtu := 8, req := true }, { mtu := 8, done := true }, { mtu := 8 }, { mtu := 8, req := true }],
    (2, 1), (16, 8), 0, 7, ⟨by decide, by decide⟩, by decide, ?_, by decide, by decide, by decide, by decide, by decide, by decide⟩
  decide

end Corundum.BufRing
