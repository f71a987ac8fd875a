import Verif.Proof.DriverSteps
/-! C04, C08 — transmit and receive rings of the Python driver: property theorems.

All theorems quantify over every configuration (`CfgOk`: buffers are disjoint regions smaller than 64 KiB
and larger than the MTU), every set of opened rings (`RingsOk`: at most 2^16 entries), every initial memory
and every finite history of operations (transmit calls, completion handlers in any interleaving, refills,
and device completions in any order). -/
namespace Corundum.Driver
open Segments

/-- Position `p` of ring `r` is owned by the device: it has been posted and the device has not completed it. -/
def Outstanding (s : Sys) (r p : Nat) : Prop :=
  p < (s.w.rings r).prod ∧ p ∉ (s.log r).map Prod.fst

theorem outstanding_slot {cfg : Cfg} {s : Sys} (h : Inv cfg s) {r p : Nat} (ho : Outstanding s r p) :
    (s.w.rings r).cons ≤ p ∧ ∃ b, (s.w.rings r).info (p % (s.w.rings r).size) = some b := by
  have hR := h.ring r
  have hnt : p ∉ ((s.log r).take (s.w.rings r).cqCons).map Prod.fst := by
    intro hm; rw [List.map_take] at hm; exact ho.2 (List.mem_of_mem_take hm)
  have hge : (s.w.rings r).cons ≤ p := by
    rcases Nat.lt_or_ge p (s.w.rings r).cons with h1 | h1
    · exact absurd (hR.below _ h1) hnt
    · exact h1
  refine ⟨hge, ?_⟩
  cases hi : (s.w.rings r).info (p % (s.w.rings r).size) with
  | none => exact absurd ((hR.slot p hge ho.1).mp hi) hnt
  | some b => exact ⟨b, rfl⟩

/-- C04/C08: no history makes the driver raise one of its assertions (double free, slot still busy, missing
packet) or loop forever. -/
theorem C04_no_exception (cfg : Cfg) (hc : CfgOk cfg) (ram : Int → Byte) (rings : Nat → Ring)
    (hr : RingsOk rings) (ops : List Op) : ∃ s, run cfg (Sys.init ram rings) ops = .ok s := by
  obtain ⟨s, h, _⟩ := inv_run hc ops (inv_init (cfg := cfg) ram rings hr)
  exact ⟨s, h⟩

theorem inv_of_run {cfg : Cfg} (hc : CfgOk cfg) {ram : Int → Byte} {rings : Nat → Ring}
    (hr : RingsOk rings) {ops : List Op} {s : Sys} (hs : run cfg (Sys.init ram rings) ops = .ok s) :
    Inv cfg s := by
  obtain ⟨s', h, hi⟩ := inv_run hc ops (inv_init (cfg := cfg) ram rings hr)
  rw [h] at hs
  cases hs
  exact hi

/-- C04: a transmit ring never holds more than half its size in outstanding frames, its consumer pointer never
passes a frame the device has not completed, and no two outstanding frames share a ring slot. -/
theorem C04_tx_window (cfg : Cfg) (hc : CfgOk cfg) (ram : Int → Byte) (rings : Nat → Ring)
    (hr : RingsOk rings) (ops : List Op) (s : Sys) (hs : run cfg (Sys.init ram rings) ops = .ok s)
    (r : Nat) (ht : (s.w.rings r).isTx = true) :
    (s.sent r).length = (s.w.rings r).prod ∧
    (s.w.rings r).prod ≤ (s.w.rings r).cons + (s.w.rings r).size / 2 ∧
    (∀ p, p < (s.w.rings r).cons → p ∈ (s.log r).map Prod.fst) ∧
    (∀ p q, Outstanding s r p → Outstanding s r q → p % (s.w.rings r).size = q % (s.w.rings r).size → p = q) := by
  have h := inv_of_run hc hr hs
  have hR := h.ring r
  refine ⟨h.data.sent_len r ht, ?_, ?_, ?_⟩
  · have := hR.txwin ht
    unfold Ring.fullSize at this
    rw [Nat.shiftRight_eq_div_pow] at this
    simpa using this
  · intro p hp
    have := hR.below p hp
    rw [List.map_take] at this
    exact List.mem_of_mem_take this
  · intro p q hp hq e
    have h1 := (outstanding_slot h hp).1
    have h2 := (outstanding_slot h hq).1
    have := hR.win
    have := hp.1
    have := hq.1
    exact mod_inj_of_window (a := (s.w.rings r).cons) h1 (by omega) h2 (by omega) e

/-- C04: whatever happened before, the device can fetch every frame it has not completed yet, intact: following the
descriptors in that frame's ring slot yields exactly the bytes given to `start_xmit`. -/
theorem C04_tx_frames_intact (cfg : Cfg) (hc : CfgOk cfg) (ram : Int → Byte) (rings : Nat → Ring)
    (hr : RingsOk rings) (ops : List Op) (s : Sys) (hs : run cfg (Sys.init ram rings) ops = .ok s)
    (r p : Nat) (d : List Byte) (ht : (s.w.rings r).isTx = true) (hd : (s.sent r)[p]? = some d)
    (hp : p ∉ (s.log r).map Prod.fst) :
    (addresses ((s.w.rings r).desc (p % (s.w.rings r).size))).map s.w.ram = d := by
  have h := inv_of_run hc hr hs
  have hlt : p < (s.w.rings r).prod := by
    rw [← h.data.sent_len r ht]
    exact (List.getElem?_eq_some_iff.mp hd).1
  obtain ⟨h1, b, hb⟩ := outstanding_slot h ⟨hlt, hp⟩
  obtain ⟨h2, h3⟩ := h.data.tx r p b d ht h1 hlt hb hd
  rw [h2]
  exact C05_tx_gather s.w.ram d (cfg.base b + 10) _ (h.ring r).blk h3

/-- C04: `start_xmit` refuses a frame only if it is too long or half the ring is outstanding. -/
theorem C04_xmit_accepts (cfg : Cfg) (w : World) (r : Nat) (data : List Byte) (w' : World) (out : XmitOut)
    (h : startXmit cfg w r data = .ok (w', out)) :
    (out = .tooLong ↔ ¬ data.length < cfg.maxTxMtu) ∧
    (out = .blocked ↔ data.length < cfg.maxTxMtu ∧
      (w.rings r).cons + (w.rings r).size / 2 ≤ (w.rings r).prod) := by
  have hf : (w.rings r).fullSize = (w.rings r).size / 2 := by
    unfold Ring.fullSize; rw [Nat.shiftRight_eq_div_pow]
  unfold startXmit at h
  split at h
  · rename_i h1
    simp at h
    rw [← h.2]; simp; omega
  · rename_i h1
    simp only at h
    split at h
    · rename_i h2
      simp at h
      rw [← h.2]; simp; omega
    · rename_i h2
      split at h
      · simp at h
      · simp at h
        rw [← h.2]; simp
        exact ⟨by omega, fun _ => by omega⟩

/-- C08: packets handed to the application from receive ring `r` are exactly, and in order, the packets of the
completions consumed so far, each with the bytes the device stored and the length it reported. -/
theorem C08_rx_delivered (cfg : Cfg) (hc : CfgOk cfg) (ram : Int → Byte) (rings : Nat → Ring)
    (hr : RingsOk rings) (ops : List Op) (s : Sys) (hs : run cfg (Sys.init ram rings) ops = .ok s)
    (r : Nat) (ht : (s.w.rings r).isTx = false) :
    (s.w.rxq.filter (fun e => e.1 = r)).map Prod.snd =
      ((s.log r).take (s.w.rings r).cqCons).map Prod.snd := (inv_of_run hc hr hs).data.rxq r ht

/-- C08: after the completion handler of a ring has run, everything the device had completed on it has been
delivered. -/
theorem C08_rx_complete (cfg : Cfg) (hc : CfgOk cfg) (ram : Int → Byte) (rings : Nat → Ring)
    (hr : RingsOk rings) (ops : List Op) (r : Nat) (s s' : Sys)
    (hs : run cfg (Sys.init ram rings) ops = .ok s) (hs' : step cfg s (.process r) = .ok s')
    (ht : (s'.w.rings r).isTx = false) :
    (s'.w.rxq.filter (fun e => e.1 = r)).map Prod.snd = (s'.log r).map Prod.snd ∧ s'.log = s.log := by
  have h := inv_of_run hc hr hs
  obtain ⟨w, h1, h2, h3⟩ := inv_process hc h r
  simp only [step, h1] at hs'
  cases hs'
  refine ⟨?_, rfl⟩
  have := h2.data.rxq r ht
  rw [this]
  simp only
  rw [h3, List.take_length]

/-- C08/C04: the device never has two outstanding slots (of any rings, transmit or receive) that touch the same
byte of memory. -/
theorem C08_buffers_disjoint (cfg : Cfg) (hc : CfgOk cfg) (ram : Int → Byte) (rings : Nat → Ring)
    (hr : RingsOk rings) (ops : List Op) (s : Sys) (hs : run cfg (Sys.init ram rings) ops = .ok s)
    (r r' p p' : Nat) (h1 : Outstanding s r p) (h2 : Outstanding s r' p') (a : Int)
    (ha : a ∈ addresses ((s.w.rings r).desc (p % (s.w.rings r).size)))
    (ha' : a ∈ addresses ((s.w.rings r').desc (p' % (s.w.rings r').size))) : r = r' ∧ p = p' := by
  have h := inv_of_run hc hr hs
  -- every described byte of an outstanding slot lies in that slot's buffer
  have inbuf : ∀ r p, Outstanding s r p → ∀ b, (s.w.rings r).info (p % (s.w.rings r).size) = some b →
      a ∈ addresses ((s.w.rings r).desc (p % (s.w.rings r).size)) →
      ∃ i : Nat, i < cfg.bufSize ∧ a = cfg.base b + i := by
    intro r p ho b hb ha
    have hblk := (h.ring r).blk
    cases ht : (s.w.rings r).isTx with
    | true =>
      have hl := h.data.sent_len r ht
      have hp : p < (s.sent r).length := by rw [hl]; exact ho.1
      have hd := h.data.tx r p b _ ht (outstanding_slot h ho).1 ho.1 hb (List.getElem?_eq_getElem hp)
      rw [hd.1, (C05_tx_segments _ _ _ hblk).1, mem_block] at ha
      obtain ⟨i, hi, e⟩ := ha
      have := h.data.mtu r _ (List.getElem_mem hp)
      have := hc.mtu
      exact ⟨10 + i, by omega, by omega⟩
    | false =>
      rw [h.data.rxdesc r _ b ht hb, (C06_rx_segments _ _ _ hblk).1, mem_block] at ha
      exact ha
  obtain ⟨q1, b1, hb1⟩ := outstanding_slot h h1
  obtain ⟨q2, b2, hb2⟩ := outstanding_slot h h2
  obtain ⟨i, hi, e1⟩ := inbuf r p h1 b1 hb1 ha
  obtain ⟨j, hj, e2⟩ := inbuf r' p' h2 b2 hb2 ha'
  have hbb := hc.disj b1 b2 i j hi hj (by rw [← e1, ← e2])
  subst hbb
  obtain ⟨e3, e4⟩ := h.own.inj _ _ _ _ _ hb1 hb2
  subst e3
  have hw := (h.ring r).win
  have g1 := h1.1
  have g2 := h2.1
  exact ⟨rfl, mod_inj_of_window (a := (s.w.rings r).cons) q1 (by omega) q2 (by omega) e4⟩

/-- C08/C04: packet buffers are conserved: each buffer ever allocated is either in the free list (once) or held by
exactly one ring slot, never both and never lost. -/
theorem C08_buffers_conserved (cfg : Cfg) (hc : CfgOk cfg) (ram : Int → Byte) (rings : Nat → Ring)
    (hr : RingsOk rings) (ops : List Op) (s : Sys) (hs : run cfg (Sys.init ram rings) ops = .ok s) :
    s.w.free.Nodup ∧ (∀ b ∈ s.w.free, b < s.w.nalloc) ∧
    (∀ b, b < s.w.nalloc → (b ∈ s.w.free ↔ ∀ r i, (s.w.rings r).info i ≠ some b)) ∧
    (∀ r r' i i' b, (s.w.rings r).info i = some b → (s.w.rings r').info i' = some b → r = r' ∧ i = i') := by
  have h := (inv_of_run hc hr hs).own
  refine ⟨h.nodup, h.free_lt, ?_, h.inj⟩
  intro b hb
  constructor
  · intro hm r i e; exact h.notfree r i b e hm
  · intro hn
    rcases h.cover b hb with h1 | ⟨r, i, h1⟩
    · exact h1
    · exact absurd h1 (hn r i)

/-- C08: after the second half of the receive handler has run, at most 7 slots of the ring are without a posted buffer
(counting from the oldest position the device has not completed). -/
theorem C08_rx_replenished (cfg : Cfg) (hc : CfgOk cfg) (ram : Int → Byte) (rings : Nat → Ring)
    (hr : RingsOk rings) (ops : List Op) (r : Nat) (s s' : Sys)
    (hs : run cfg (Sys.init ram rings) ops = .ok s) (hs' : step cfg s (.scan r) = .ok s')
    (ht : (s.w.rings r).isTx = false) :
    (s'.w.rings r).cons + (s'.w.rings r).size < (s'.w.rings r).prod + 8 ∧
    (∀ p, p < (s'.w.rings r).cons → p ∈ (s'.log r).map Prod.fst) := by
  have h := inv_of_run hc hr hs
  have h' := inv_scanRing h r
  simp only [step] at hs'
  cases hs'
  constructor
  · simp only [scanRing]
    have hi := inv_scan h r
    have ht' : ((scan s.w r).rings r).isTx = false := by
      unfold scan; simp only; rw [setRing_same]; exact ht
    rw [if_neg (by rw [ht']; simp)]
    have hw := (hi.ring r).win
    have hcl := (hi.ring r).cons_le
    simp only at hw hcl
    generalize scan s.w r = w1 at *
    have hsz : ∀ n w, ((prepareMany cfg w r n).rings r).size = (w.rings r).size := by
      intro n
      induction n with
      | zero => intro w; rfl
      | succ n ih =>
        intro w
        simp only [prepareMany]; rw [ih]
        unfold prepareDesc
        simp only
        rw [setRing_same]; rfl
    unfold refill
    simp only
    split
    · omega
    · rename_i hm
      have := inv_prepareMany (((w1.rings r).size : Int) - ((w1.rings r).prod - (w1.rings r).cons)).toNat
        hi r ht' (by simp only; omega)
      simp only at this
      rw [this.2.1, this.2.2, hsz]
      omega
  · intro p hp
    have := (h'.ring r).below p hp
    rw [List.map_take] at this
    exact List.mem_of_mem_take this

/-- C08: a receive ring never has more than `size` descriptors posted, the posted slots are distinct, a slot between
the consumer and the producer position holds a buffer unless its completion has been processed, and the device can only
still complete slots that hold a buffer. -/
theorem C08_rx_window (cfg : Cfg) (hc : CfgOk cfg) (ram : Int → Byte) (rings : Nat → Ring)
    (hr : RingsOk rings) (ops : List Op) (s : Sys) (hs : run cfg (Sys.init ram rings) ops = .ok s)
    (r : Nat) :
    (s.w.rings r).cons ≤ (s.w.rings r).prod ∧
    (s.w.rings r).prod ≤ (s.w.rings r).cons + (s.w.rings r).size ∧
    (∀ p q, (s.w.rings r).cons ≤ p → p < (s.w.rings r).prod → (s.w.rings r).cons ≤ q → q < (s.w.rings r).prod →
      p % (s.w.rings r).size = q % (s.w.rings r).size → p = q) ∧
    (∀ p, (s.w.rings r).cons ≤ p → p < (s.w.rings r).prod →
      ((∃ b, (s.w.rings r).info (p % (s.w.rings r).size) = some b) ↔
        p ∉ ((s.log r).take (s.w.rings r).cqCons).map Prod.fst)) ∧
    (∀ p, Outstanding s r p → (s.w.rings r).cons ≤ p ∧
      ∃ b, (s.w.rings r).info (p % (s.w.rings r).size) = some b) := by
  have h := inv_of_run hc hr hs
  have hR := h.ring r
  have hw := hR.win
  refine ⟨hR.cons_le, hw, ?_, ?_, fun p hp => outstanding_slot h hp⟩
  · intro p q h1 h2 h3 h4 e
    exact mod_inj_of_window (a := (s.w.rings r).cons) h1 (by omega) h3 (by omega) e
  · intro p h1 h2
    rw [← hR.slot p h1 h2]
    cases (s.w.rings r).info (p % (s.w.rings r).size) <;> simp

theorem prepareMany_keeps {cfg : Cfg} (n : Nat) : ∀ {s : Sys}, Inv cfg s → ∀ (r : Nat),
    (s.w.rings r).isTx = false →
    (s.w.rings r).prod + n ≤ (s.w.rings r).cons + (s.w.rings r).size →
    ∀ r' i b, (s.w.rings r').info i = some b → ((prepareMany cfg s.w r n).rings r').info i = some b := by
  induction n with
  | zero => intro s h r _ _ r' i b e; exact e
  | succ n ih =>
    intro s h r hrx hsp r' i b e
    obtain ⟨hi, he⟩ := inv_prepare h r hrx (by omega)
    have := ih (s := { s with w := prepareDesc cfg s.w r }) hi r (by rw [he]; exact hrx) (by
      rw [he]; show (s.w.rings r).prod + 1 + n ≤ (s.w.rings r).cons + (s.w.rings r).size; omega) r' i b
    refine this ?_
    have hemp := (h.ring r).empty (s.w.rings r).prod (Nat.le_refl _) (by omega)
    show ((prepareDesc cfg s.w r).rings r').info i = some b
    unfold prepareDesc
    simp only
    by_cases hr' : r' = r
    · subst hr'
      rw [setRing_same]
      simp only
      rw [upd_other]
      · exact e
      · intro hi
        rw [hi, mask_eq, hemp] at e
        cases e
    · rw [setRing_other _ _ _ _ hr', alloc_rings]; exact e

/-- C08: refilling a receive ring, on its own or at the end of the completion handler, never replaces the buffer of a
slot that still holds one, on any ring. -/
theorem C08_refill_keeps (cfg : Cfg) (hc : CfgOk cfg) (ram : Int → Byte) (rings : Nat → Ring)
    (hr : RingsOk rings) (ops : List Op) (s : Sys) (hs : run cfg (Sys.init ram rings) ops = .ok s)
    (r : Nat) (op : Op) (hop : op = .refill r ∨ op = .scan r) (s' : Sys) (hs' : step cfg s op = .ok s')
    (r' i b : Nat) (hb : (s.w.rings r').info i = some b) : (s'.w.rings r').info i = some b := by
  have h := inv_of_run hc hr hs
  have key : ∀ s : Sys, Inv cfg s → (s.w.rings r).isTx = false → (s.w.rings r').info i = some b →
      ((refill cfg s.w r).rings r').info i = some b := by
    intro s h hrx hb
    unfold refill
    simp only
    split
    · exact hb
    · refine prepareMany_keeps _ h r hrx ?_ r' i b hb
      have := (h.ring r).win
      have := (h.ring r).cons_le
      omega
  rcases hop with rfl | rfl
  · simp only [step] at hs'
    split at hs'
    · cases hs'; exact hb
    · rename_i ht
      cases hs'
      exact key s h (by simpa using ht) hb
  · simp only [step] at hs'
    cases hs'
    have hi := inv_scan h r
    have hb' : ((scan s.w r).rings r').info i = some b := by
      unfold scan; simp only
      by_cases e : r' = r
      · subst e; rw [setRing_same]; exact hb
      · rw [setRing_other _ _ _ _ e]; exact hb
    show ((scanRing cfg s.w r).rings r').info i = some b
    unfold scanRing
    simp only
    split
    · exact hb'
    · rename_i ht
      exact key { s with w := scan s.w r } hi (by simpa using ht) hb'

/-! Non-vacuity: one transmit ring (16 slots) and one receive ring (16 slots); the device completes out of order. -/
def exCfg : Cfg := { bufSize := 64, base := fun b => 1000 + 64 * (b : Int), maxTxMtu := 40 }
def exRings : Nat → Ring := fun r => Ring.fresh (r == 0) 4 2 2

theorem exCfg_ok : CfgOk exCfg := by
  refine ⟨by decide, by decide, ?_⟩
  intro b b' i j hi hj e
  simp only [exCfg] at hi hj e
  omega

theorem exRings_ok : RingsOk exRings := fun r =>
  ⟨r == 0, 4, 2, 2, rfl, by omega, by omega⟩

def exOps : List Op :=
  [.refill 1, .xmit 0 [1, 2, 3], .xmit 0 [4, 5], .dev 1 3 [9, 8, 7], .dev 1 0 [6], .dev 0 1 [],
   .process 1, .process 0, .scan 0, .scan 1, .dev 0 0 [], .process 0, .scan 0]

example : (match run exCfg (Sys.init (fun _ => 0) exRings) exOps with
    | .ok s => (s.w.rxq, (s.w.rings 0).cons, (s.w.rings 0).prod, (s.w.rings 1).cons, s.w.free)
    | .error _ => ([], 0, 0, 0, [])) = ([(1, [9, 8, 7]), (1, [6])], 2, 2, 1, [3, 0, 17, 16]) := by
  decide

end Corundum.Driver
