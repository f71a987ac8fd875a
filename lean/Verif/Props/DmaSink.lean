import Verif.Proof.DmaSink
/-!
C143: what the stream DMA client stores and reports.
-/
namespace Corundum.DmaSink
open Corundum.Spec

/-- the valid bytes of a transfer: those whose bit of `tkeep` is set -/
def bytesOf (b : Beat) : List Nat := (b.data.zipIdx.filter fun p => b.keep.testBit p.2).map Prod.fst

/-- the bytes of a frame -/
def content (bs : List Beat) : List Nat := bs.flatMap bytesOf

/-- a frame on `k` lanes: `tlast` on the last transfer only, all others full, the valid bytes of the last on the lowest
lanes -/
def Framed (k : Nat) : List Beat → Prop
  | [] => False
  | [b] => b.last = true ∧ b.data.length = k ∧ ∃ n, n ≤ k ∧ b.keep = 2 ^ n - 1
  | b :: bs => b.last = false ∧ b.data.length = k ∧ b.keep = 2 ^ k - 1 ∧ Framed k bs

theorem zip_take (n : Nat) : ∀ (l : List Nat) (i : Nat),
    ((l.zipIdx i).filter fun p => (2 ^ n - 1).testBit p.2).map Prod.fst = l.take (n - i)
  | [], i => by simp
  | x :: l, i => by
    rw [List.zipIdx_cons]
    by_cases h : i < n
    · rw [List.filter_cons_of_pos (by simp only [ones_bit]; simpa using h), List.map_cons, zip_take n l (i + 1),
        show n - i = (n - (i + 1)) + 1 from by omega, List.take_succ_cons]
    · rw [List.filter_cons_of_neg (by simp only [ones_bit]; simpa using h), zip_take n l (i + 1),
        show n - i = 0 from by omega, show n - (i + 1) = 0 from by omega]
      simp

theorem bytesOf_eq (b : Beat) (n : Nat) (h : b.keep = 2 ^ n - 1) : bytesOf b = b.data.take n := by
  unfold bytesOf
  rw [h, zip_take n b.data 0, Nat.sub_zero]

theorem flatWrite_congr (ms : Nat) : ∀ (ds : List Nat) (m : Nat → Nat) (a b : Nat), a % ms = b % ms →
    flatWrite ms m a ds = flatWrite ms m b ds
  | [], _, _, _, _ => rfl
  | d :: ds, m, a, b, h => by
    unfold flatWrite
    rw [h]
    exact flatWrite_congr ms ds _ _ _ (by rw [Nat.add_mod, h, ← Nat.add_mod])

theorem drop_frame (c : Cfg) : ∀ (bs : List Beat) (o : Out), Framed c.k bs → o.st.phase = .drop →
    (bs.foldl (Out.beat c) o).st.phase = .idle ∧ (bs.foldl (Out.beat c) o).cmds = o.cmds ∧
      (bs.foldl (Out.beat c) o).entries = o.entries
  | [], _, h, _ => h.elim
  | [b], o, h, hp => by
    rw [List.foldl_cons, List.foldl_nil]
    unfold Out.beat
    rw [hp]
    simp [h.1]
  | b :: b' :: bs, o, h, hp => by
    have e : Out.beat c o b = o := by
      unfold Out.beat
      rw [hp]
      simp [h.1]
    rw [List.foldl_cons, e]
    exact drop_frame c (b' :: bs) o h.2.2.2 hp

theorem reported_single (l t u : Nat) (mk : List Bool) : reported [⟨l, t, u, mk, true⟩] = [(l, t, u)] := rfl

theorem reported_cons_false (e : Entry) (es : List Entry) (h : e.last = false) : reported (e :: es) = reported es := by
  unfold reported
  rw [List.filter_cons_of_neg (by simp [h])]

theorem frame_spec (c : Cfg) (hc : c.Ok) : ∀ (bs : List Beat) (o : Out) (a L R tag : Nat), Framed c.k bs →
    Inv c o.st a L R tag →
    (bs.foldl (Out.beat c) o).st.phase = .idle ∧
      ∃ cs es u, (bs.foldl (Out.beat c) o).cmds = o.cmds ++ cs ∧ (bs.foldl (Out.beat c) o).entries = o.entries ++ es ∧
        (∀ m, cs.foldl (ramCmd c) m = flatWrite (2 ^ c.aw) m a ((content bs).take R)) ∧
        (bs[min ((R - 1) / c.k) (bs.length - 1)]?).map (·.user) = some u ∧
        reported es = [(L + min (content bs).length R, tag, u)]
  | [], _, _, _, _, _, h, _ => h.elim
  | [b], o, a, L, R, tag, h, i => by
    obtain ⟨hb, hl, n, hn, hkp⟩ := h
    obtain ⟨w1, mk, w2⟩ := write_last c i b n hb hn hkp
    have hbe : Out.beat c o b = ⟨(write c o.st b).1, o.cmds ++ (write c o.st b).2.1, o.entries ++ [(write c o.st b).2.2]⟩ := by
      unfold Out.beat
      rw [i.phase]
    have hcb : content [b] = b.data.take n := by simp [content, bytesOf_eq b n hkp]
    have hkm : b.keep &&& o.st.keepMask = 2 ^ min n R - 1 := by
      rw [hkp, i.mask, ones_and]
      congr 2
      omega
    rw [List.foldl_cons, List.foldl_nil, hbe, w2]
    refine ⟨w1, cmds c o.st b, _, b.user, ?_, rfl, fun m => ?_, ?_, ?_⟩
    · show o.cmds ++ (write c o.st b).2.1 = _
      congr 1
      unfold write
      simp [hb]
    · rw [beat_mem c hc o.st b (min n R) (by omega) (by rw [i.addr]; exact i.dvd) (by rw [i.addr]; exact i.lt) hl hkm,
        i.addr, hcb, List.take_take, Nat.min_comm]
    · simp
    · rw [reported_single, hcb, List.length_take, hl, Nat.min_eq_left hn]
  | b :: b' :: bs, o, a, L, R, tag, h, i => by
    obtain ⟨hb, hl, hkp, hf⟩ := h
    have hk := k_pos c
    have hbe : Out.beat c o b = ⟨(write c o.st b).1, o.cmds ++ (write c o.st b).2.1, o.entries ++ [(write c o.st b).2.2]⟩ := by
      unfold Out.beat
      rw [i.phase]
    have hcm : (write c o.st b).2.1 = cmds c o.st b := by
      unfold write
      simp only [hb, Bool.false_eq_true, if_false]
      split <;> rfl
    have hcb : content (b :: b' :: bs) = b.data ++ content (b' :: bs) := by
      simp only [content, List.flatMap_cons]
      rw [bytesOf_eq b c.k hkp, List.take_of_length_le (by omega)]
    have hkm : b.keep &&& o.st.keepMask = 2 ^ min c.k R - 1 := by
      rw [hkp, i.mask, ones_and]
      congr 2
      omega
    have hmem := fun m => beat_mem c hc o.st b (min c.k R) (by omega) (by rw [i.addr]; exact i.dvd)
      (by rw [i.addr]; exact i.lt) hl hkm m
    rw [i.addr] at hmem
    rw [List.foldl_cons, hbe, hcm]
    by_cases hR : R ≤ c.k
    · obtain ⟨w1, mk, w2⟩ := write_full c i b hb hR
      rw [w2]
      obtain ⟨d1, d2, d3⟩ := drop_frame c (b' :: bs)
        ⟨(write c o.st b).1, o.cmds ++ cmds c o.st b, o.entries ++ [⟨L + R, tag, b.user, mk, true⟩]⟩ hf w1
      refine ⟨d1, cmds c o.st b, _, b.user, d2, d3, fun m => ?_, ?_, ?_⟩
      · rw [hmem, Nat.min_eq_right hR, hcb, List.take_append_of_le_length (by omega)]
      · rw [Nat.div_eq_of_lt (by have := i.pos; omega), Nat.zero_min]
        rfl
      · rw [reported_single, hcb, List.length_append, Nat.min_eq_right (by omega)]
    · obtain ⟨j, w2⟩ := write_more c hc i b hb (by omega)
      obtain ⟨f1, cs, es, u, f2, f3, f4, f5, f6⟩ := frame_spec c hc (b' :: bs)
        ⟨(write c o.st b).1, o.cmds ++ cmds c o.st b, o.entries ++ [(write c o.st b).2.2]⟩ _ _ _ _ hf j
      refine ⟨f1, cmds c o.st b ++ cs, (write c o.st b).2.2 :: es, u, ?_, ?_, fun m => ?_, ?_, ?_⟩
      · rw [f2, List.append_assoc]
      · rw [f3, List.append_assoc]; rfl
      · rw [List.foldl_append, hmem, f4, Nat.min_eq_left (by omega), List.take_of_length_le (by omega : b.data.length ≤ c.k), hcb,
          List.take_append, List.take_of_length_le (by omega : b.data.length ≤ R), flatWrite_append, hl]
        exact flatWrite_congr _ _ _ _ _ (Nat.mod_mod _ _)
      · rw [← f5]
        congr 1
        have e : (R - 1) / c.k = (R - c.k - 1) / c.k + 1 := by
          rw [show R - 1 = (R - c.k - 1) + c.k from by omega, Nat.add_div_right _ hk]
        rw [e]
        generalize (R - c.k - 1) / c.k = q
        simp only [List.length_cons]
        rw [show min (q + 1) (bs.length + 1 + 1 - 1) = min q (bs.length + 1 - 1) + 1 from by omega, List.getElem?_cons_succ]
      · rw [reported_cons_false _ _ w2, f6, hcb, List.length_append, hl]
        congr 2
        omega

/-- packets one after the other -/
theorem packets_spec (c : Cfg) (hc : c.Ok) : ∀ (ps : List (Desc × List Beat)) (o : Out),
    (∀ p ∈ ps, 0 < p.1.len ∧ p.1.len < 2 ^ c.lw ∧ Framed c.k p.2) →
    ∃ cs es, (ps.foldl (Out.packet c) o).cmds = o.cmds ++ cs ∧ (ps.foldl (Out.packet c) o).entries = o.entries ++ es ∧
      (∀ m, cs.foldl (ramCmd c) m = ps.foldl (fun m p =>
        flatWrite (2 ^ c.aw) m (p.1.addr / c.k * c.k) ((content p.2).take p.1.len)) m) ∧
      reported es = ps.map fun p => (min (content p.2).length p.1.len, p.1.tag,
        ((p.2[min ((p.1.len - 1) / c.k) (p.2.length - 1)]?).map (·.user)).getD 0)
  | [], o, _ => ⟨[], [], by simp, by simp, fun _ => rfl, rfl⟩
  | p :: ps, o, h => by
    obtain ⟨h1, h2, h3⟩ := h p (List.mem_cons_self ..)
    obtain ⟨_, cs, es, u, f2, f3, f4, f5, f6⟩ := frame_spec c hc p.2 { o with st := load c p.1 } _ _ _ _ h3
      (Inv_load c hc p.1 h1 h2)
    obtain ⟨cs', es', g1, g2, g3, g4⟩ := packets_spec c hc ps (Out.packet c o p) fun q hq => h q (List.mem_cons_of_mem _ hq)
    refine ⟨cs ++ cs', es ++ es', ?_, ?_, fun m => ?_, ?_⟩
    · rw [List.foldl_cons, g1, ← List.append_assoc]
      congr 1
    · rw [List.foldl_cons, g2, ← List.append_assoc]
      congr 1
    · rw [List.foldl_append, f4, g3, List.foldl_cons]
      congr 1
      exact flatWrite_congr _ _ _ _ _ (Nat.mod_mod _ _)
    · have e : reported (es ++ es') = reported es ++ reported es' := by simp [reported]
      rw [e, f6, g4, List.map_cons, f5, Nat.zero_add]
      rfl

/-- C143. For any list of descriptors with a frame each, the first `len` bytes of each frame are stored at the address
of its descriptor (a multiple of the lanes), in order, and nothing else is written; one status is reported for
each, with the number of bytes stored, the tag of the descriptor and the side data of the transfer with the last byte stored. -/
theorem C143_store (c : Cfg) (hc : c.Ok) (ps : List (Desc × List Beat))
    (h : ∀ p ∈ ps, 0 < p.1.len ∧ p.1.len < 2 ^ c.lw ∧ Framed c.k p.2) (m : Nat → Nat) :
    (run c ps).cmds.foldl (ramCmd c) m = ps.foldl (fun m p =>
        flatWrite (2 ^ c.aw) m (p.1.addr / c.k * c.k) ((content p.2).take p.1.len)) m ∧
      reported (run c ps).entries = ps.map fun p => (min (content p.2).length p.1.len, p.1.tag,
        ((p.2[min ((p.1.len - 1) / c.k) (p.2.length - 1)]?).map (·.user)).getD 0) := by
  obtain ⟨cs, es, h1, h2, h3, h4⟩ := packets_spec c hc ps ⟨init, [], []⟩ h
  unfold run
  rw [h1, h2]
  exact ⟨h3 m, h4⟩

/-- C143. After each frame, however long, the client is ready for the next descriptor. -/
theorem C143_idle (c : Cfg) (hc : c.Ok) (ps : List (Desc × List Beat))
    (h : ∀ p ∈ ps, 0 < p.1.len ∧ p.1.len < 2 ^ c.lw ∧ Framed c.k p.2) : (run c ps).st.phase = .idle := by
  unfold run
  cases hn : ps.reverse with
  | nil =>
    have : ps = [] := by simpa using hn
    rw [this]
    rfl
  | cons p l =>
    have e : ps = l.reverse ++ [p] := by rw [← List.reverse_reverse ps, hn, List.reverse_cons]
    have hp : p ∈ ps := by rw [e]; simp
    obtain ⟨h1, h2, h3⟩ := h p hp
    rw [e, List.foldl_append, List.foldl_cons, List.foldl_nil]
    exact (frame_spec c hc p.2 _ _ _ _ _ h3 (Inv_load c hc p.1 h1 h2)).1

/-- C143. Byte by byte: one frame with at least `len` or fewer bytes, of which at most the whole RAM is filled. -/
theorem C143_exact (c : Cfg) (hc : c.Ok) (d : Desc) (bs : List Beat) (h1 : 0 < d.len) (h2 : d.len < 2 ^ c.lw)
    (hf : Framed c.k bs) (hfit : min (content bs).length d.len ≤ 2 ^ c.aw) (m : Nat → Nat) :
    (∀ i (h : i < (content bs).length), i < d.len →
      (run c [(d, bs)]).cmds.foldl (ramCmd c) m ((d.addr / c.k * c.k + i) % 2 ^ c.aw) = (content bs)[i]) ∧
    (∀ y, (∀ i, i < (content bs).length → i < d.len → (d.addr / c.k * c.k + i) % 2 ^ c.aw ≠ y) →
      (run c [(d, bs)]).cmds.foldl (ramCmd c) m y = m y) := by
  have e := (C143_store c hc [(d, bs)] (by simpa using ⟨h1, h2, hf⟩) m).1
  rw [e]
  simp only [List.foldl_cons, List.foldl_nil]
  constructor
  · intro i h hi
    rw [flatWrite_get _ _ _ _ i (by rw [List.length_take]; omega) (by rw [List.length_take]; omega), List.getElem_take]
  · intro y hy
    apply flatWrite_other
    intro i hi
    rw [List.length_take] at hi
    exact hy i (by omega) (by omega)

/-- the case of two frames on 4 lanes, a RAM of 8 bytes in 4 segments, the first frame longer than its descriptor -/
def caseCfg : Cfg := ⟨2, 1, 1, 8, 8⟩

def casePackets : List (Desc × List Beat) :=
  [(⟨0x14, 7, 3⟩, [⟨[1, 2, 3, 4], 15, false, 0⟩, ⟨[5, 6, 7, 8], 15, false, 1⟩, ⟨[9, 10, 11, 12], 1, true, 2⟩]),
   (⟨0x20, 16, 4⟩, [⟨[1, 2, 3, 4], 3, true, 9⟩])]

example : caseCfg.Ok ∧ (∀ p ∈ casePackets, 0 < p.1.len ∧ p.1.len < 2 ^ caseCfg.lw ∧ Framed caseCfg.k p.2) ∧
    reported (run caseCfg casePackets).entries = [(7, 3, 1), (2, 4, 9)] := by
  refine ⟨⟨by decide, by decide, by decide, by decide, by decide⟩, ?_, by decide⟩
  intro p hp
  simp only [casePackets, List.mem_cons, List.not_mem_nil, or_false] at hp
  rcases hp with rfl | rfl
  · exact ⟨by decide, by decide, rfl, rfl, rfl, rfl, rfl, rfl, rfl, rfl, 1, by decide, rfl⟩
  · exact ⟨by decide, by decide, rfl, rfl, 2, by decide, rfl⟩

/-- C143. The code as it is: on one lane with more than one part, PART_OFFSET_WIDTH is 1 where it should be 0
(line 129), and a byte for address 1 is stored at address 0. -/
theorem C143_one_lane_counterexample :
    (run ⟨0, 1, 0, 8, 8⟩ [(⟨1, 1, 0⟩, [⟨[7], 1, true, 0⟩])]).cmds = [⟨0, 0, 1, [7]⟩] := by decide

/-- C143. And a descriptor of length 0 does not limit the frame: here all six bytes are stored. -/
theorem C143_zero_length_counterexample :
    reported (run caseCfg [(⟨0, 0, 5⟩, [⟨[1, 2, 3, 4], 15, false, 0⟩, ⟨[5, 6, 7, 8], 3, true, 1⟩])]).entries = [(6, 5, 1)] ∧
    (run caseCfg [(⟨0, 0, 5⟩, [⟨[1, 2, 3, 4], 15, false, 0⟩, ⟨[5, 6, 7, 8], 3, true, 1⟩])]).cmds.map Cmd.data =
      [[1, 2], [3, 4], [5, 6]] := by decide

end Corundum.DmaSink
