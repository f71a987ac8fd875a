import Verif.Proof.Driver
/-! Every operation preserves the driver invariant and raises no exception (helper lemmas). -/
namespace Corundum.Driver
open Segments

theorem alloc_rings (w : World) : (allocPkt w).2.rings = w.rings := by unfold allocPkt; split <;> rfl
theorem alloc_ram (w : World) : (allocPkt w).2.ram = w.ram := by unfold allocPkt; split <;> rfl
theorem alloc_rxq (w : World) : (allocPkt w).2.rxq = w.rxq := by unfold allocPkt; split <;> rfl

theorem alloc_unowned {w : World} (h : Own w) (r i : Nat) : (w.rings r).info i ≠ some (allocPkt w).1 := by
  unfold allocPkt
  intro e
  cases hf : w.free with
  | nil => rw [hf] at e; have := h.lt _ _ _ e; simp at this
  | cons x t => rw [hf] at e; exact h.notfree _ _ _ e (by rw [hf]; simp)

theorem setRing_same (w : World) (r : Nat) (g : Ring) : (w.setRing r g).rings r = g := upd_same _ _ _
theorem setRing_other (w : World) (r r' : Nat) (g : Ring) (h : r' ≠ r) :
    (w.setRing r g).rings r' = w.rings r' := upd_other _ _ _ _ h

/-! ### Posting (transmit) -/

theorem inv_xmit {cfg : Cfg} (hc : CfgOk cfg) {s : Sys} (h : Inv cfg s) (r : Nat) (data : List Byte)
    (htx : (s.w.rings r).isTx = true) :
    ∃ w out, startXmit cfg s.w r data = .ok (w, out) ∧
      Inv cfg { s with w := w, sent := if out = .sent then upd s.sent r (s.sent r ++ [data]) else s.sent } ∧
      (out ≠ .sent → w = s.w) := by
  unfold startXmit
  split
  · exact ⟨s.w, .tooLong, rfl, by simpa using h, fun _ => rfl⟩
  · rename_i hlen
    simp only
    split
    · exact ⟨s.w, .blocked, rfl, by simpa using h, fun _ => rfl⟩
    · rename_i hfull
      have hlen : data.length < cfg.maxTxMtu := by omega
      have hfull' : (s.w.rings r).prod < (s.w.rings r).cons + (s.w.rings r).fullSize := by omega
      have hfs : (s.w.rings r).fullSize ≤ (s.w.rings r).size := by
        unfold Ring.fullSize; rw [Nat.shiftRight_eq_div_pow]; exact Nat.div_le_self _ _
      have hspace : (s.w.rings r).prod < (s.w.rings r).cons + (s.w.rings r).size := by omega
      have hR := h.ring r
      rw [mask_eq]
      have hnone := hR.empty (s.w.rings r).prod (Nat.le_refl _) hspace
      rw [hnone]
      simp only [Option.isSome_none, Bool.false_eq_true, if_false]
      refine ⟨_, .sent, rfl, ?_, by simp⟩
      simp only [if_true]
      have hun := alloc_unowned h.own
      have hown := own_alloc h.own r ((s.w.rings r).prod % (s.w.rings r).size)
        { s.w.rings r with
          info := upd (s.w.rings r).info ((s.w.rings r).prod % (s.w.rings r).size) (some (allocPkt s.w).1)
          desc := upd (s.w.rings r).desc ((s.w.rings r).prod % (s.w.rings r).size)
            (txSegs data.length (cfg.base (allocPkt s.w).1 + 10) (s.w.rings r).blockSize)
          prod := (s.w.rings r).prod + 1 } hnone rfl
      have hring := rinv_post hR (allocPkt s.w).1
        (upd (s.w.rings r).desc ((s.w.rings r).prod % (s.w.rings r).size)
            (txSegs data.length (cfg.base (allocPkt s.w).1 + 10) (s.w.rings r).blockSize)) hspace
        (fun _ => hfull')
      have har := alloc_rings s.w
      have hram := alloc_ram s.w
      have hrxq := alloc_rxq s.w
      generalize hb : (allocPkt s.w).1 = b at *
      generalize hw : (allocPkt s.w).2 = w' at *
      -- the stored bytes do not touch other buffers
      have hst : ∀ b' i, b' ≠ b → i < cfg.bufSize →
          store w'.ram (block (cfg.base b + 10) data.length) data (cfg.base b' + (i : Int)) =
          s.w.ram (cfg.base b' + (i : Int)) := by
        intro b' i hne hi
        rw [store_not_mem, hram]
        rw [mem_block]
        rintro ⟨j, hj, e⟩
        have := hc.mtu
        exact hne (hc.disj b' b i (10 + j) hi (by omega) (by omega))
      have hm := hc.mtu
      have hD := h.data
      refine ⟨?_, ?_, ?_⟩
      · intro r'
        by_cases hr : r' = r
        · subst hr; rw [setRing_same]; exact hring
        · rw [setRing_other _ _ _ _ hr]; simp only [har]; exact h.ring r'
      · exact own_congr hown rfl rfl (fun r' => rfl)
      · refine ⟨?_, ?_, ?_, ?_, ?_, ?_, ?_, ?_⟩
        · intro r' ht
          by_cases hr : r' = r
          · subst hr
            simp only [setRing_same, upd_same, List.length_append, List.length_singleton]
            rw [hD.sent_len r' htx]
          · simp only [setRing_other _ _ _ _ hr, har, upd_other _ _ _ _ hr] at ht ⊢
            exact hD.sent_len r' ht
        · intro r' d hd
          by_cases hr : r' = r
          · subst hr
            simp only [upd_same, List.mem_append, List.mem_singleton] at hd
            rcases hd with hd | rfl
            · exact hD.mtu r' d hd
            · exact hlen
          · simp only [upd_other _ _ _ _ hr] at hd
            exact hD.mtu r' d hd
        · intro r' p b' d ht h1 h2 h3 h4
          by_cases hr : r' = r
          · subst hr
            simp only [setRing_same, upd_same] at h1 h2 h3 h4 ⊢
            have hsl := hD.sent_len r' htx
            by_cases hp : p = (s.w.rings r').prod
            · subst hp
              change upd _ _ _ ((s.w.rings r').prod % (s.w.rings r').size) = _ at h3
              rw [upd_same] at h3
              have : b = b' := by simpa using h3
              subst this
              rw [← hsl, List.getElem?_append_right (Nat.le_refl _)] at h4
              simp at h4
              subst h4
              refine ⟨upd_same _ _ _, ?_⟩
              intro i hi
              exact store_block data w'.ram (cfg.base b + 10) data.length (Nat.le_refl _) i hi
            · have hp' : p < (s.w.rings r').prod := by omega
              have hne : p % (s.w.rings r').size ≠ (s.w.rings r').prod % (s.w.rings r').size := fun e =>
                hp (mod_inj_of_window (a := (s.w.rings r').cons) h1 (by omega) hR.cons_le hspace e)
              change upd _ _ _ (p % (s.w.rings r').size) = _ at h3
              rw [upd_other _ _ _ _ hne] at h3
              rw [List.getElem?_append_left (by omega)] at h4
              have := hD.tx r' p b' d htx h1 hp' h3 h4
              refine ⟨?_, ?_⟩
              · change upd _ _ _ (p % (s.w.rings r').size) = _
                rw [upd_other _ _ _ _ hne]; exact this.1
              · intro i hi
                have hdl := hD.mtu r' d (List.mem_of_getElem? h4)
                have hbne : b' ≠ b := by rintro rfl; exact hun _ _ h3
                have e := hst b' (10 + i) hbne (by omega)
                have e2 : cfg.base b' + 10 + (i : Int) = cfg.base b' + ((10 + i : Nat) : Int) := by omega
                rw [e2]
                refine e.trans ?_
                rw [← e2]; exact this.2 i hi
          · simp only [setRing_other _ _ _ _ hr, har, upd_other _ _ _ _ hr] at ht h1 h2 h3 h4 ⊢
            have := hD.tx r' p b' d ht h1 h2 h3 h4
            refine ⟨this.1, ?_⟩
            intro i hi
            have hdl := hD.mtu r' d (List.mem_of_getElem? h4)
            have hbne : b' ≠ b := by rintro rfl; exact hun _ _ h3
            have e := hst b' (10 + i) hbne (by omega)
            have e2 : cfg.base b' + 10 + (i : Int) = cfg.base b' + ((10 + i : Nat) : Int) := by omega
            rw [e2]
            refine e.trans ?_
            rw [← e2]; exact this.2 i hi
        · intro r' i b' ht h1
          by_cases hr : r' = r
          · subst hr; simp only [setRing_same] at ht; rw [htx] at ht; simp at ht
          · simp only [setRing_other _ _ _ _ hr, har] at ht h1 ⊢
            exact hD.rxdesc r' i b' ht h1
        · exact hD.datalen
        · intro r' j b' hj ht h1 h2 i hi
          by_cases hr : r' = r
          · subst hr; simp only [setRing_same] at ht; rw [htx] at ht; simp at ht
          · simp only [setRing_other _ _ _ _ hr, har] at ht h1 h2 hi ⊢
            have hbne : b' ≠ b := by rintro rfl; exact hun _ _ h2
            have hdl := hD.datalen r' _ (List.getElem_mem hj)
            have hi : i < (s.log r')[j].2.length := hi
            exact (hst b' i hbne (Nat.lt_of_lt_of_le hi hdl)).trans (hD.rx r' j b' hj ht h1 h2 i hi)
        · intro r' ht
          by_cases hr : r' = r
          · subst hr; simp only [setRing_same] at ht; rw [htx] at ht; simp at ht
          · simp only [setRing_other _ _ _ _ hr, har] at ht ⊢
            simp only [World.setRing, hrxq]
            exact hD.rxq r' ht
        · intro r' ht
          by_cases hr : r' = r
          · simp only [World.setRing, hrxq]; subst hr; exact hD.rxqtx r' htx
          · simp only [setRing_other _ _ _ _ hr, har] at ht
            simp only [World.setRing, hrxq]
            exact hD.rxqtx r' ht

/-! ### Posting (receive) -/

theorem inv_prepare {cfg : Cfg} {s : Sys} (h : Inv cfg s) (r : Nat)
    (hrx : (s.w.rings r).isTx = false)
    (hspace : (s.w.rings r).prod < (s.w.rings r).cons + (s.w.rings r).size) :
    Inv cfg { s with w := prepareDesc cfg s.w r } ∧
    (prepareDesc cfg s.w r).rings r =
      { s.w.rings r with
        info := ((prepareDesc cfg s.w r).rings r).info
        desc := ((prepareDesc cfg s.w r).rings r).desc
        prod := (s.w.rings r).prod + 1 } := by
  unfold prepareDesc
  simp only
  rw [mask_eq]
  have hR := h.ring r
  have hnone := hR.empty (s.w.rings r).prod (Nat.le_refl _) hspace
  have hun := alloc_unowned h.own
  have hown := own_alloc h.own r ((s.w.rings r).prod % (s.w.rings r).size)
    { s.w.rings r with
      info := upd (s.w.rings r).info ((s.w.rings r).prod % (s.w.rings r).size) (some (allocPkt s.w).1)
      desc := upd (s.w.rings r).desc ((s.w.rings r).prod % (s.w.rings r).size)
        (rxSegs cfg.bufSize (cfg.base (allocPkt s.w).1) (s.w.rings r).blockSize)
      prod := (s.w.rings r).prod + 1 } hnone rfl
  have hring := rinv_post hR (allocPkt s.w).1
    (upd (s.w.rings r).desc ((s.w.rings r).prod % (s.w.rings r).size)
        (rxSegs cfg.bufSize (cfg.base (allocPkt s.w).1) (s.w.rings r).blockSize)) hspace
    (fun e => by rw [hrx] at e; simp at e)
  have har := alloc_rings s.w
  have hram := alloc_ram s.w
  have hrxq := alloc_rxq s.w
  generalize hb : (allocPkt s.w).1 = b at *
  generalize hw : (allocPkt s.w).2 = w' at *
  have hD := h.data
  refine ⟨⟨?_, hown, ?_⟩, ?_⟩
  · intro r'
    by_cases hr : r' = r
    · subst hr; rw [setRing_same]; exact hring
    · rw [setRing_other _ _ _ _ hr, har]; exact h.ring r'
  · refine ⟨?_, hD.mtu, ?_, ?_, hD.datalen, ?_, ?_, ?_⟩
    · intro r' ht
      by_cases hr : r' = r
      · subst hr; simp only [setRing_same] at ht; rw [hrx] at ht; simp at ht
      · simp only [setRing_other _ _ _ _ hr, har] at ht ⊢
        exact hD.sent_len r' ht
    · intro r' p b' d ht h1 h2 h3 h4
      by_cases hr : r' = r
      · subst hr; simp only [setRing_same] at ht; rw [hrx] at ht; simp at ht
      · simp only [setRing_other _ _ _ _ hr, har] at ht h1 h2 h3 h4 ⊢
        simp only [World.setRing, hram]
        exact hD.tx r' p b' d ht h1 h2 h3 h4
    · intro r' i b' ht h1
      by_cases hr : r' = r
      · subst hr
        simp only [setRing_same] at ht h1 ⊢
        by_cases hi : i = (s.w.rings r').prod % (s.w.rings r').size
        · subst hi
          rw [upd_same] at h1 ⊢
          have : b = b' := by simpa using h1
          rw [this]
        · rw [upd_other _ _ _ _ hi] at h1 ⊢
          exact hD.rxdesc r' i b' ht h1
      · simp only [setRing_other _ _ _ _ hr, har] at ht h1 ⊢
        exact hD.rxdesc r' i b' ht h1
    · intro r' j b' hj ht h1 h2 i hi
      simp only [World.setRing, hram]
      by_cases hr : r' = r
      · subst hr
        simp only [setRing_same] at ht h1 h2
        obtain ⟨q1, q2, _⟩ := pending_slot hR j hj h1
        have hne : (s.log r')[j].1 % (s.w.rings r').size ≠
            (s.w.rings r').prod % (s.w.rings r').size := fun e => by
          have := mod_inj_of_window (a := (s.w.rings r').cons) q1 (by omega) hR.cons_le hspace e
          omega
        change upd _ _ _ ((s.log r')[j].1 % (s.w.rings r').size) = _ at h2
        rw [upd_other _ _ _ _ hne] at h2
        exact hD.rx r' j b' hj ht h1 h2 i hi
      · simp only [setRing_other _ _ _ _ hr, har] at ht h1 h2
        exact hD.rx r' j b' hj ht h1 h2 i hi
    · intro r' ht
      by_cases hr : r' = r
      · subst hr
        simp only [setRing_same] at ht ⊢
        simp only [World.setRing, hrxq]
        exact hD.rxq r' ht
      · simp only [setRing_other _ _ _ _ hr, har] at ht ⊢
        simp only [World.setRing, hrxq]
        exact hD.rxq r' ht
    · intro r' ht
      by_cases hr : r' = r
      · subst hr; simp only [setRing_same] at ht; rw [hrx] at ht; simp at ht
      · simp only [setRing_other _ _ _ _ hr, har] at ht
        simp only [World.setRing, hrxq]
        exact hD.rxqtx r' ht
  · rw [setRing_same]

theorem inv_prepareMany {cfg : Cfg} (n : Nat) : ∀ {s : Sys}, Inv cfg s → ∀ (r : Nat),
    (s.w.rings r).isTx = false →
    (s.w.rings r).prod + n ≤ (s.w.rings r).cons + (s.w.rings r).size →
    Inv cfg { s with w := prepareMany cfg s.w r n } ∧
    ((prepareMany cfg s.w r n).rings r).prod = (s.w.rings r).prod + n ∧
    ((prepareMany cfg s.w r n).rings r).cons = (s.w.rings r).cons := by
  induction n with
  | zero => intro s h r _ _; exact ⟨h, rfl, rfl⟩
  | succ n ih =>
    intro s h r hrx hsp
    obtain ⟨hi, he⟩ := inv_prepare h r hrx (by omega)
    have := ih (s := { s with w := prepareDesc cfg s.w r }) hi r (by rw [he]; exact hrx) (by
      rw [he]; show (s.w.rings r).prod + 1 + n ≤ (s.w.rings r).cons + (s.w.rings r).size; omega)
    obtain ⟨i1, i2, i3⟩ := this
    refine ⟨i1, ?_, ?_⟩
    · simp only [prepareMany]; rw [i2, he]
      show (s.w.rings r).prod + 1 + n = (s.w.rings r).prod + (n + 1); omega
    · simp only [prepareMany]; rw [i3, he]

theorem inv_refill {cfg : Cfg} {s : Sys} (h : Inv cfg s) (r : Nat) (hrx : (s.w.rings r).isTx = false) :
    Inv cfg { s with w := refill cfg s.w r } := by
  unfold refill
  simp only
  split
  · exact h
  · refine (inv_prepareMany _ h r hrx ?_).1
    have := (h.ring r).win
    have := (h.ring r).cons_le
    omega

/-! ### Ring scan -/

theorem inv_scan {cfg : Cfg} {s : Sys} (h : Inv cfg s) (r : Nat) :
    Inv cfg { s with w := scan s.w r } := by
  unfold scan
  simp only
  have hR := h.ring r
  have hD := h.data
  have hge := (scanTo_spec (s.w.rings r) ((s.w.rings r).prod - (s.w.rings r).cons) (s.w.rings r).cons).1
  have hring := rinv_scan hR
  generalize scanTo (s.w.rings r) ((s.w.rings r).prod - (s.w.rings r).cons) (s.w.rings r).cons = c at *
  have proj : ∀ {α : Type} (f : Ring → α) r', (f { s.w.rings r with cons := c } = f (s.w.rings r)) →
      f ((s.w.setRing r { s.w.rings r with cons := c }).rings r') = f (s.w.rings r') := by
    intro α f r' e
    by_cases hr : r' = r
    · subst hr; rw [setRing_same]; exact e
    · rw [setRing_other _ _ _ _ hr]
  have ptx := fun r' => proj Ring.isTx r' rfl
  have pinfo := fun r' => proj Ring.info r' rfl
  have pdesc := fun r' => proj Ring.desc r' rfl
  have pprod := fun r' => proj Ring.prod r' rfl
  have psize := fun r' => proj Ring.size r' rfl
  have pblk := fun r' => proj Ring.blockSize r' rfl
  have pcq := fun r' => proj Ring.cqCons r' rfl
  refine ⟨?_, ?_, ?_⟩
  · intro r'
    by_cases hr : r' = r
    · subst hr; rw [setRing_same]; exact hring
    · rw [setRing_other _ _ _ _ hr]; exact h.ring r'
  · exact own_congr h.own rfl rfl pinfo
  · refine ⟨?_, hD.mtu, ?_, ?_, hD.datalen, ?_, ?_, ?_⟩
    · intro r'; simp only [ptx, pprod]; exact hD.sent_len r'
    · intro r' p b d
      simp only [ptx, pprod, pinfo, pdesc, psize, pblk]
      intro h1 h2
      refine hD.tx r' p b d h1 ?_
      by_cases hr : r' = r
      · subst hr; rw [setRing_same] at h2; simp only at h2; omega
      · rw [setRing_other _ _ _ _ hr] at h2; exact h2
    · intro r' i b; simp only [ptx, pinfo, pdesc, pblk]; exact hD.rxdesc r' i b
    · intro r' j b hj; simp only [ptx, pinfo, pcq, psize]; exact hD.rx r' j b hj
    · intro r'; simp only [ptx, pcq]; exact hD.rxq r'
    · intro r'; simp only [ptx]; exact hD.rxqtx r'

theorem inv_scanRing {cfg : Cfg} {s : Sys} (h : Inv cfg s) (r : Nat) :
    Inv cfg { s with w := scanRing cfg s.w r } := by
  unfold scanRing
  simp only
  have h1 := inv_scan h r
  split
  · exact h1
  · rename_i ht
    exact inv_refill h1 r (by simpa using ht)

/-! ### Completion loop -/

/-- One iteration on a fresh record succeeds and preserves the invariant. -/
theorem inv_consume {cfg : Cfg} (hc : CfgOk cfg) {s : Sys} (h : Inv cfg s) (r : Nat)
    (hj : (s.w.rings r).cqCons < (s.log r).length) :
    ∃ w, consumeOne cfg s.w r ((s.w.rings r).cqBuf ((s.w.rings r).cqCons &&& (s.w.rings r).cqMask)) = .ok w ∧
      Inv cfg { s with w := w.setRing r { w.rings r with cqCons := (w.rings r).cqCons + 1 } } ∧
      (w.rings r).cqCons = (s.w.rings r).cqCons ∧ (w.rings r).cqSize = (s.w.rings r).cqSize := by
  have hR := h.ring r
  have hD := h.data
  obtain ⟨hp1, hp2, b, hb⟩ := pending_slot hR _ hj (Nat.le_refl _)
  have hbl := h.own.lt _ _ _ hb
  rw [cqMask_eq, hR.fresh _ hj (Nat.le_refl _)]
  have hring := rinv_consume hR hj
  have htake : (s.log r).take ((s.w.rings r).cqCons + 1) =
      (s.log r).take (s.w.rings r).cqCons ++ [(s.log r)[(s.w.rings r).cqCons]] := by
    rw [List.take_succ_eq_append_getElem hj]
  -- common final state
  have key : ∀ rxq : List (Nat × List Byte), (∀ r', (s.w.rings r').isTx = true → rxq.filter (fun e : Nat × List Byte => e.1 = r') = []) →
      (∀ r', (s.w.rings r').isTx = false → (rxq.filter (fun e : Nat × List Byte => e.1 = r')).map Prod.snd =
        if r' = r then ((s.log r).take ((s.w.rings r).cqCons+1)).map Prod.snd
        else ((s.log r').take (s.w.rings r').cqCons).map Prod.snd) →
      Inv cfg { s with w := (({ s.w with free := s.w.free ++ [b], rxq := rxq } : World).setRing r
        { s.w.rings r with
          info := upd (s.w.rings r).info ((s.log r)[(s.w.rings r).cqCons].1 % (s.w.rings r).size) none
          cqCons := (s.w.rings r).cqCons + 1 }) } := by
    intro rxq hq1 hq2
    have hown := own_free h.own r _ b
        { s.w.rings r with
          info := upd (s.w.rings r).info ((s.log r)[(s.w.rings r).cqCons].1 % (s.w.rings r).size) none
          cqCons := (s.w.rings r).cqCons + 1 } hb rfl
    generalize hidx : (s.log r)[(s.w.rings r).cqCons].1 % (s.w.rings r).size = idx at *
    have isome : ∀ i b', upd (s.w.rings r).info idx none i = some b' → (s.w.rings r).info i = some b' := by
      intro i b' e
      unfold upd at e
      split at e
      · simp at e
      · exact e
    refine ⟨?_, own_congr hown rfl rfl (fun _ => rfl), ?_⟩
    · intro r'
      by_cases hr : r' = r
      · subst hr; rw [setRing_same]; exact hring
      · rw [setRing_other _ _ _ _ hr]; exact h.ring r'
    · refine ⟨?_, hD.mtu, ?_, ?_, hD.datalen, ?_, ?_, ?_⟩
      · intro r' ht
        by_cases hr : r' = r
        · subst hr; simp only [setRing_same] at ht ⊢; exact hD.sent_len r' ht
        · simp only [setRing_other _ _ _ _ hr] at ht ⊢; exact hD.sent_len r' ht
      · intro r' p b' d ht h1 h2 h3 h4
        by_cases hr : r' = r
        · subst hr
          simp only [setRing_same] at ht h1 h2 h3 ⊢
          exact hD.tx r' p b' d ht h1 h2 (isome _ _ h3) h4
        · simp only [setRing_other _ _ _ _ hr] at ht h1 h2 h3 h4 ⊢
          exact hD.tx r' p b' d ht h1 h2 h3 h4
      · intro r' i b' ht h1
        by_cases hr : r' = r
        · subst hr
          simp only [setRing_same] at ht h1 ⊢
          exact hD.rxdesc r' i b' ht (isome _ _ h1)
        · simp only [setRing_other _ _ _ _ hr] at ht h1 ⊢
          exact hD.rxdesc r' i b' ht h1
      · intro r' j b' hj' ht h1 h2 i hi
        by_cases hr : r' = r
        · subst hr
          simp only [setRing_same] at ht h1 h2
          exact hD.rx r' j b' hj' ht (by omega) (isome _ _ h2) i hi
        · simp only [setRing_other _ _ _ _ hr] at ht h1 h2
          exact hD.rx r' j b' hj' ht h1 h2 i hi
      · intro r' ht
        by_cases hr : r' = r
        · subst hr
          simp only [setRing_same] at ht ⊢
          have := hq2 r' ht
          rw [if_pos rfl] at this
          exact this
        · simp only [setRing_other _ _ _ _ hr] at ht ⊢
          have := hq2 r' ht
          rw [if_neg hr] at this
          exact this
      · intro r' ht
        by_cases hr : r' = r
        · subst hr; simp only [setRing_same] at ht; exact hq1 r' ht
        · simp only [setRing_other _ _ _ _ hr] at ht; exact hq1 r' ht
  have hx : ∀ g' : Ring, ∀ w : World, (w.setRing r g').setRing r
      { (w.setRing r g').rings r with cqCons := ((w.setRing r g').rings r).cqCons + 1 } =
      w.setRing r { g' with cqCons := g'.cqCons + 1 } := by
    intro g' w
    rw [setRing_same]
    simp only [World.setRing, World.mk.injEq, true_and, and_true]
    funext x
    simp only [upd]
    split <;> rfl
  unfold consumeOne
  simp only
  rw [mask_eq, idx16 _ hR.log16]
  cases ht : (s.w.rings r).isTx with
  | true =>
    simp only [if_true]
    unfold freeDesc freePkt
    simp only [hb, hbl, if_true]
    refine ⟨_, rfl, ?_, ?_, ?_⟩
    · rw [hx]
      refine key s.w.rxq hD.rxqtx ?_
      intro r' ht'
      have : r' ≠ r := by rintro rfl; rw [ht] at ht'; simp at ht'
      rw [if_neg this]
      exact hD.rxq r' ht'
    · rw [setRing_same]
    · rw [setRing_same]; rfl
  | false =>
    simp only [Bool.false_eq_true, if_false, hb]
    unfold freeDesc freePkt
    simp only [hb, hbl, if_true]
    have hdl := hD.datalen r _ (List.getElem_mem hj)
    have h16 := hc.buf16
    have hread : readPkt cfg s.w.ram b ((s.log r)[(s.w.rings r).cqCons].2.length % 65536) =
        (s.log r)[(s.w.rings r).cqCons].2 := by
      unfold readPkt
      rw [Nat.mod_eq_of_lt (by omega), Nat.min_eq_left hdl]
      apply List.ext_getElem
      · simp
      · intro i h1 h2
        simp only [List.getElem_map, List.getElem_range]
        exact hD.rx r _ b hj ht (Nat.le_refl _) hb i h2
    refine ⟨_, rfl, ?_, ?_, ?_⟩
    · rw [hx, hread]
      refine key _ ?_ ?_
      · intro r' ht'
        have : r ≠ r' := by rintro rfl; rw [ht] at ht'; simp at ht'
        rw [List.filter_append, hD.rxqtx r' ht']
        simp [this]
      · intro r' ht'
        rw [List.filter_append, List.map_append, hD.rxq r' ht']
        by_cases hr : r' = r
        · subst hr
          rw [if_pos rfl, htake, List.map_append]
          simp
        · rw [if_neg hr]
          have : ¬ (r = r') := fun e => hr e.symm
          simp [this]
    · rw [setRing_same]
    · rw [setRing_same]; rfl

/-- The completion loop never fails, consumes exactly the completions written so far, and preserves the
invariant, given enough fuel. -/
theorem inv_cqLoop {cfg : Cfg} (hc : CfgOk cfg) (r : Nat) (fuel : Nat) : ∀ {s : Sys}, Inv cfg s →
    (s.log r).length < (s.w.rings r).cqCons + fuel →
    ∃ w, cqLoop cfg fuel s.w r = some (.ok w) ∧ Inv cfg { s with w := w } ∧
      (w.rings r).cqCons = (s.log r).length := by
  induction fuel with
  | zero => intro s h hf; have := (h.ring r).cq1; omega
  | succ fuel ih =>
    intro s h hf
    have hR := h.ring r
    unfold cqLoop
    simp only
    have hcs := cqSize_pos (s.w.rings r)
    rcases Nat.lt_or_ge (s.w.rings r).cqCons (s.log r).length with hj | hj
    · -- fresh record
      obtain ⟨w, hw, hinv, hcq, _⟩ := inv_consume hc h r hj
      rw [if_neg, hw]
      · simp only
        obtain ⟨w', h1, h2, h3⟩ := ih hinv (by
          rw [setRing_same]; simp only; rw [hcq]; omega)
        exact ⟨w', h1, h2, h3⟩
      · rw [cqMask_eq, hR.fresh _ hj (Nat.le_refl _)]
        show ¬ ((!wrapBit (s.w.rings r).cqLog (s.w.rings r).cqCons) = wrapBit (s.w.rings r).cqLog (s.w.rings r).cqCons)
        cases wrapBit (s.w.rings r).cqLog (s.w.rings r).cqCons <;> simp
    · -- empty
      have hst := hR.stale (s.w.rings r).cqCons hj (by omega)
      rw [if_pos]
      · exact ⟨s.w, rfl, h, Nat.le_antisymm hR.cq1 hj⟩
      · rw [cqMask_eq, hst]; rfl

theorem inv_process {cfg : Cfg} (hc : CfgOk cfg) {s : Sys} (h : Inv cfg s) (r : Nat) :
    ∃ w, processCq cfg s.w r = .ok w ∧ Inv cfg { s with w := w } ∧
      (w.rings r).cqCons = (s.log r).length := by
  unfold processCq
  obtain ⟨w, h1, h2, h3⟩ := inv_cqLoop hc r ((s.w.rings r).cqSize + 1) h (by
    have := (h.ring r).cq2; omega)
  rw [h1]
  exact ⟨w, rfl, h2, h3⟩

/-! ### Device -/

theorem inv_dev {cfg : Cfg} (hc : CfgOk cfg) {s : Sys} (h : Inv cfg s) (r pos : Nat) (data : List Byte)
    (hok : DevOk cfg s r pos data) : Inv cfg (devComplete s r pos data) := by
  obtain ⟨d1, d2, d3, d4, d5⟩ := hok
  have hR := h.ring r
  have hD := h.data
  have hring := rinv_dev hR pos data d1 d2 d3
  unfold devComplete
  simp only
  change Inv cfg { s with
    w := { s.w with ram := _ }.setRing r { s.w.rings r with
      cqBuf := upd (s.w.rings r).cqBuf ((s.log r).length % (s.w.rings r).cqSize) (mkCpl (s.w.rings r) pos data (s.log r).length) }
    log := upd s.log r (s.log r ++ [(pos, data)]) }
  generalize hcb : upd (s.w.rings r).cqBuf ((s.log r).length % (s.w.rings r).cqSize) (mkCpl (s.w.rings r) pos data (s.log r).length) = cb at *
  -- slot of the completed position
  have hnt : pos ∉ ((s.log r).take (s.w.rings r).cqCons).map Prod.fst := by
    intro hm; rw [List.map_take] at hm; exact d2 (List.mem_of_mem_take hm)
  have hge : (s.w.rings r).cons ≤ pos := by
    rcases Nat.lt_or_ge pos (s.w.rings r).cons with h1 | h1
    · exact absurd (hR.below _ h1) hnt
    · exact h1
  obtain ⟨b, hb⟩ : ∃ b, (s.w.rings r).info (pos % (s.w.rings r).size) = some b := by
    cases hi : (s.w.rings r).info (pos % (s.w.rings r).size) with
    | none => exact absurd ((hR.slot pos hge d1).mp hi) hnt
    | some b => exact ⟨b, rfl⟩
  -- memory effect
  generalize hram : (if (s.w.rings r).isTx = true then s.w.ram
    else store s.w.ram (addresses ((s.w.rings r).desc (pos % (s.w.rings r).size))) data) = ram'
  have hother : ∀ b' i, i < cfg.bufSize → (b' ≠ b ∨ (s.w.rings r).isTx = true) →
      ram' (cfg.base b' + (i : Int)) = s.w.ram (cfg.base b' + (i : Int)) := by
    intro b' i hi hne
    rw [← hram]
    split
    · rfl
    · rename_i ht
      have ht' : (s.w.rings r).isTx = false := by simpa using ht
      rw [hD.rxdesc r _ b ht' hb, (C06_rx_segments _ _ _ hR.blk).1, store_not_mem]
      rw [mem_block]
      rintro ⟨j, hj, e⟩
      rcases hne with hne | hne
      · exact hne (hc.disj b' b i j hi hj e)
      · exact ht hne
  have hself : (s.w.rings r).isTx = false → ∀ i (h : i < data.length), ram' (cfg.base b + (i : Int)) = data[i] := by
    intro ht i hi
    rw [← hram, if_neg (by rw [ht]; simp), hD.rxdesc r _ b ht hb, (C06_rx_segments _ _ _ hR.blk).1]
    exact store_block data s.w.ram (cfg.base b) cfg.bufSize d4 i hi
  have proj : ∀ {α : Type} (f : Ring → α) r', (f { s.w.rings r with cqBuf := cb } = f (s.w.rings r)) →
      f (({ s.w with ram := ram' }.setRing r { s.w.rings r with cqBuf := cb }).rings r') = f (s.w.rings r') := by
    intro α f r' e
    by_cases hr : r' = r
    · subst hr; rw [setRing_same]; exact e
    · rw [setRing_other _ _ _ _ hr]
  have ptx := fun r' => proj Ring.isTx r' rfl
  have pinfo := fun r' => proj Ring.info r' rfl
  have pdesc := fun r' => proj Ring.desc r' rfl
  have pprod := fun r' => proj Ring.prod r' rfl
  have pcons := fun r' => proj Ring.cons r' rfl
  have psize := fun r' => proj Ring.size r' rfl
  have pblk := fun r' => proj Ring.blockSize r' rfl
  have pcq := fun r' => proj Ring.cqCons r' rfl
  have hm := hc.mtu
  refine ⟨?_, ?_, ?_⟩
  · intro r'
    by_cases hr : r' = r
    · subst hr; simp only [setRing_same, upd_same]; exact hring
    · simp only [setRing_other _ _ _ _ hr, upd_other _ _ _ _ hr]; exact h.ring r'
  · exact own_congr h.own rfl rfl pinfo
  · refine ⟨?_, hD.mtu, ?_, ?_, ?_, ?_, ?_, ?_⟩
    · intro r'; simp only [ptx, pprod]; exact hD.sent_len r'
    · intro r' p b' d
      simp only [ptx, pprod, pcons, pinfo, pdesc, psize, pblk]
      intro h1 h2 h3 h4 h5
      have := hD.tx r' p b' d h1 h2 h3 h4 h5
      refine ⟨this.1, ?_⟩
      intro i hi
      have hdl := hD.mtu r' d (List.mem_of_getElem? h5)
      have e2 : cfg.base b' + 10 + (i : Int) = cfg.base b' + ((10 + i : Nat) : Int) := by omega
      rw [e2]
      have hne : b' ≠ b ∨ (s.w.rings r).isTx = true := by
        by_cases hbb : b' = b
        · right
          subst hbb
          have := (h.own.inj _ _ _ _ _ h4 hb).1
          subst this; exact h1
        · left; exact hbb
      refine (hother b' (10 + i) (by omega) hne).trans ?_
      rw [← e2]; exact this.2 i hi
    · intro r' i b'; simp only [ptx, pinfo, pdesc, pblk]; exact hD.rxdesc r' i b'
    · intro r' e he
      by_cases hr : r' = r
      · subst hr
        simp only [upd_same, List.mem_append, List.mem_singleton] at he
        rcases he with he | rfl
        · exact hD.datalen r' e he
        · exact d4
      · simp only [upd_other _ _ _ _ hr] at he; exact hD.datalen r' e he
    · intro r' j b' hj
      simp only [ptx, pinfo, pcq, psize]
      intro ht h1 h2 i hi
      show ram' _ = _
      by_cases hr : r' = r
      · subst hr
        simp only [upd_same] at hj h2 hi ⊢
        by_cases hjl : j < (s.log r').length
        · simp only [List.getElem_append_left hjl] at h2 hi ⊢
          have hbne : b' ≠ b := by
            rintro rfl
            obtain ⟨q1, q2, _⟩ := pending_slot hR j hjl h1
            have e := (h.own.inj _ _ _ _ _ h2 hb).2
            have hw := hR.win
            have := mod_inj_of_window (a := (s.w.rings r').cons) q1 (by omega) hge (by omega) e
            exact d2 (List.mem_map.mpr ⟨_, List.getElem_mem hjl, this⟩)
          have hdl := hD.datalen r' _ (List.getElem_mem hjl)
          exact (hother b' i (Nat.lt_of_lt_of_le hi hdl) (Or.inl hbne)).trans (hD.rx r' j b' hjl ht h1 h2 i hi)
        · have hjeq : j = (s.log r').length := by simp at hj; omega
          subst hjeq
          simp only [List.getElem_concat_length] at h2 hi ⊢
          rw [hb] at h2
          have : b = b' := by simpa using h2
          subst this
          exact hself ht i hi
      · simp only [upd_other _ _ _ _ hr] at hj h2 hi ⊢
        have hbne : b' ≠ b := by
          rintro rfl
          exact hr (h.own.inj _ _ _ _ _ h2 hb).1
        have hdl := hD.datalen r' _ (List.getElem_mem hj)
        exact (hother b' i (Nat.lt_of_lt_of_le hi hdl) (Or.inl hbne)).trans (hD.rx r' j b' hj ht h1 h2 i hi)
    · intro r'
      simp only [ptx, pcq]
      intro ht
      by_cases hr : r' = r
      · subst hr
        simp only [upd_same]
        rw [List.take_append_of_le_length hR.cq1]
        exact hD.rxq r' ht
      · simp only [upd_other _ _ _ _ hr]; exact hD.rxq r' ht
    · intro r'; simp only [ptx]; exact hD.rxqtx r'

/-! ### All operations -/

theorem inv_step {cfg : Cfg} (hc : CfgOk cfg) {s : Sys} (h : Inv cfg s) (op : Op) :
    ∃ s', step cfg s op = .ok s' ∧ Inv cfg s' := by
  cases op with
  | xmit r data =>
    simp only [step]
    split
    · rename_i ht
      obtain ⟨w, out, h1, h2, h3⟩ := inv_xmit hc h r data ht
      rw [h1]
      cases out with
      | tooLong => exact ⟨_, rfl, by simpa using h2⟩
      | blocked => exact ⟨_, rfl, by simpa using h2⟩
      | sent => exact ⟨_, rfl, by simpa using h2⟩
    · exact ⟨s, rfl, h⟩
  | process r =>
    simp only [step]
    obtain ⟨w, h1, h2, _⟩ := inv_process hc h r
    rw [h1]
    exact ⟨_, rfl, h2⟩
  | scan r => exact ⟨_, rfl, inv_scanRing h r⟩
  | refill r =>
    simp only [step]
    split
    · exact ⟨s, rfl, h⟩
    · rename_i ht
      exact ⟨_, rfl, inv_refill h r (by simpa using ht)⟩
  | dev r pos data =>
    simp only [step]
    split
    · rename_i hok
      exact ⟨_, rfl, inv_dev hc h r pos data hok⟩
    · exact ⟨s, rfl, h⟩

theorem inv_run {cfg : Cfg} (hc : CfgOk cfg) (ops : List Op) : ∀ {s : Sys}, Inv cfg s →
    ∃ s', run cfg s ops = .ok s' ∧ Inv cfg s' := by
  induction ops with
  | nil => intro s h; exact ⟨s, rfl, h⟩
  | cons op ops ih =>
    intro s h
    obtain ⟨s1, h1, h2⟩ := inv_step hc h op
    obtain ⟨s2, h3, h4⟩ := ih h2
    exact ⟨s2, by simp only [run, h1]; exact h3, h4⟩

/-- Static well-formedness of the opened rings: at most 2^16 entries (the record index has 16 bits). -/
def RingsOk (rings : Nat → Ring) : Prop :=
  ∀ r, ∃ isTx logSize blockSize cqLog, rings r = Ring.fresh isTx logSize blockSize cqLog ∧
    logSize ≤ 16 ∧ 0 < blockSize

theorem inv_init {cfg : Cfg} (ram : Int → Byte) (rings : Nat → Ring) (h : RingsOk rings) :
    Inv cfg (Sys.init ram rings) := by
  have hinfo : ∀ r i, (rings r).info i = none := by
    intro r i; obtain ⟨a, b, c, d, e, _⟩ := h r; rw [e]; rfl
  refine ⟨?_, ?_, ?_⟩
  · intro r
    obtain ⟨a, b, c, d, e, h1, h2⟩ := h r
    simp only [Sys.init]
    rw [e]
    constructor <;> simp [Ring.fresh, h1, h2]
    intro j hj
    rw [wrapBit_eq]
    exact Nat.testBit_lt_two_pow hj
  · constructor <;> simp [Sys.init, hinfo]
  · have hp : ∀ r, (rings r).prod = 0 := by
      intro r; obtain ⟨a, b, c, d, e, _⟩ := h r; rw [e]; rfl
    constructor <;> simp [Sys.init, hinfo, hp]

end Corundum.Driver
