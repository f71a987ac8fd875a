import Verif.Proof.AxiLanes

/-! The write side: bursts of the master, and their effect on the memory. -/

namespace Corundum.Axi

open Corundum.Spec

theorem burstLen_spec (c : Cfg) {nb rem cur : Nat} (hnb : 0 < nb) (h4 : nb ∣ 4096) (hc : nb ∣ cur)
    (hr : 0 < rem) :
    0 < burstLen c nb rem cur ∧ burstLen c nb rem cur ≤ rem ∧ burstLen c nb rem cur ≤ 256 ∧
      burstLen c nb rem cur ≤ max c.maxBurst 1 ∧ cur % 4096 + nb * burstLen c nb rem cur ≤ 4096 := by
  have hand : cur &&& 0xfff = cur % 4096 := Nat.and_two_pow_sub_one_eq_mod cur 12
  have hlt : cur % 4096 < 4096 := Nat.mod_lt _ (by omega)
  have hd : nb ∣ 4096 - cur % 4096 := Nat.dvd_sub h4 ((Nat.dvd_mod_iff h4).mpr hc)
  obtain ⟨d, hd⟩ := hd
  have hd1 : 0 < d := by
    rcases Nat.eq_zero_or_pos d with h | h
    · subst h; omega
    · exact h
  have e : burstLen c nb rem cur = min (min rem (min (max c.maxBurst 1) 256)) d := by
    unfold burstLen
    simp only [hand, hd]
    generalize min rem (min (max c.maxBurst 1) 256) = b
    rw [Nat.mul_comm b nb, Nat.mul_min_mul_left]
    generalize min b d = x
    rw [Nat.add_sub_assoc (by omega), Nat.add_comm, Nat.add_mul_div_left _ _ hnb,
      Nat.div_eq_of_lt (by omega), Nat.zero_add]
  have hle : nb * burstLen c nb rem cur ≤ nb * d := by
    rw [e]; exact Nat.mul_le_mul_left _ (Nat.min_le_right _ _)
  refine ⟨?_, ?_, ?_, ?_, by omega⟩ <;> rw [e] <;> omega

/-- What the loop of `write_logic` knows at pass `k` with `r` passes left. -/
structure WInv (bw nb addr len k r cur off co : Nat) : Prop where
  cyc : k + r = cyclesOf nb addr len
  hcur : cur = addr / nb * nb + k * nb
  hco : co = cur % bw
  first : k = 0 → off = 0
  mid : k ≠ 0 → r ≠ 0 → addr + off = cur
  fin : r = 0 → off = len

/-- Lanes used by one pass. -/
def laneStart (bw addr k co : Nat) : Nat := if k = 0 then addr % bw else co
def laneStop (bw nb addr len rem co : Nat) : Nat :=
  if rem = 1 then (addr + len - 1) % bw + 1 else co + nb

theorem lanes_spec {bw nb addr len k r cur off co : Nat} (hnb : 0 < nb) (hb : 0 < bw) (hd : nb ∣ bw)
    (h : WInv bw nb addr len k (r + 1) cur off co) :
    cur / bw * bw + laneStart bw addr k co = addr + off ∧
    laneStart bw addr k co ≤ laneStop bw nb addr len (r + 1) co ∧
    laneStop bw nb addr len (r + 1) co ≤ bw ∧
    off + (laneStop bw nb addr len (r + 1) co - laneStart bw addr k co) ≤ len ∧
    WInv bw nb addr len (k + 1) r (cur + nb)
      (off + (laneStop bw nb addr len (r + 1) co - laneStart bw addr k co)) ((co + nb) % bw) := by
  obtain ⟨hcyc, hcur, hco, hfirst, hmid, -⟩ := h
  have ha := Nat.div_add_mod addr nb
  have hal := Nat.mod_lt addr hnb
  have hA : addr / nb * nb = nb * (addr / nb) := Nat.mul_comm _ _
  have hcd : nb ∣ cur := by
    rw [hcur]; exact Nat.dvd_add (Nat.dvd_mul_left _ _) (Nat.dvd_mul_left _ _)
  have hfit := fits_word hb hcd hd
  -- the number of passes
  have h1 : cyclesOf nb addr len * nb ≤ len + nb - 1 + addr % nb := Nat.div_mul_le_self _ _
  have h2 : len + nb - 1 + addr % nb < cyclesOf nb addr len * nb + nb := by
    have := Nat.lt_div_mul_add (a := len + nb - 1 + addr % nb) hnb
    exact this
  rw [← hcyc] at h1 h2
  have hm : (k + (r + 1)) * nb = k * nb + r * nb + nb := by
    rw [Nat.add_mul, Nat.add_mul, Nat.one_mul]; omega
  rw [hm] at h1 h2
  have hp1 : cur ≤ addr + off ∧ addr + off < cur + nb := by
    by_cases hk : k = 0
    · have := hfirst hk
      subst hk
      rw [Nat.zero_mul] at hcur
      omega
    · have := hmid hk (by omega)
      omega
  have hw : cur / bw * bw + cur % bw = cur := by
    rw [Nat.mul_comm]; exact Nat.div_add_mod cur bw
  have hs : cur / bw * bw + laneStart bw addr k co = addr + off := by
    unfold laneStart
    by_cases hk : k = 0
    · rw [if_pos hk]
      have h0 := hfirst hk
      have e : addr / bw = cur / bw := same_word hnb hcd hd (by omega) (by omega)
      have := Nat.div_add_mod addr bw
      rw [e, Nat.mul_comm] at this
      omega
    · rw [if_neg hk, hco, hw]
      exact (hmid hk (by omega)).symm
  have hco' : (co + nb) % bw = (cur + nb) % bw := by rw [hco, Nat.mod_add_mod]
  have hcyc' : k + 1 + r = cyclesOf nb addr len := by omega
  have hcur' : cur + nb = addr / nb * nb + (k + 1) * nb := by rw [Nat.add_mul, Nat.one_mul]; omega
  by_cases hr : r = 0
  · have hz : r * nb = 0 := by rw [hr, Nat.zero_mul]
    have hy1 : cur ≤ addr + len - 1 ∧ addr + len - 1 < cur + nb ∧ 1 ≤ addr + len := by
      refine ⟨?_, ?_, ?_⟩ <;> omega
    have e : (addr + len - 1) / bw = cur / bw := same_word hnb hcd hd hy1.1 hy1.2.1
    have hy := Nat.div_add_mod (addr + len - 1) bw
    rw [e, Nat.mul_comm] at hy
    have hle : addr + off ≤ addr + len := by
      by_cases hk : k = 0
      · have := hfirst hk; omega
      · have := hmid hk (by omega); omega
    have hst : cur / bw * bw + laneStop bw nb addr len (r + 1) co = addr + len := by
      unfold laneStop
      rw [if_pos (by omega)]
      omega
    have hb' := Nat.mod_lt (addr + len - 1) hb
    have hbl : laneStop bw nb addr len (r + 1) co ≤ bw := by
      unfold laneStop
      rw [if_pos (by omega)]
      omega
    exact ⟨hs, by omega, hbl, by omega, ⟨hcyc', hcur', hco', by omega, by omega, by omega⟩⟩
  · have hz : nb ≤ r * nb := Nat.le_mul_of_pos_left _ (by omega)
    have hst : cur / bw * bw + laneStop bw nb addr len (r + 1) co = cur + nb := by
      unfold laneStop
      rw [if_neg (by omega), hco]
      omega
    have hbl : laneStop bw nb addr len (r + 1) co ≤ bw := by
      unfold laneStop
      rw [if_neg (by omega), hco]
      omega
    exact ⟨hs, by omega, hbl, by omega, ⟨hcyc', hcur', hco', by omega, by omega, by omega⟩⟩

/-- A burst obeying the AXI rules: one to 256 beats, aligned, inside one 4 KiB page. -/
def Legal (nb size : Nat) (b : Addr) : Prop :=
  b.size = size ∧ b.burst = INCR ∧ b.len + 1 ≤ 256 ∧ nb ∣ b.addr ∧
    b.addr % 4096 + nb * (b.len + 1) ≤ 4096

theorem Legal.ok {bw nb size : Nat} {b : Addr} (h : Legal nb size b) (hnb : nb = 2 ^ size)
    (hb : nb ≤ bw) : burstOk bw b = true ∧ b.addr / 2 ^ b.size * 2 ^ b.size = b.addr := by
  obtain ⟨h1, h2, _, h4, h5⟩ := h
  have e : b.addr / 2 ^ b.size * 2 ^ b.size = b.addr := by
    rw [h1, ← hnb]; exact Nat.div_mul_cancel h4
  have hand : b.addr &&& 0xfff = b.addr % 4096 := Nat.and_two_pow_sub_one_eq_mod b.addr 12
  refine ⟨?_, e⟩
  unfold burstOk
  rw [e, h1, ← hnb, hand]
  simp only [hb, decide_true, Bool.true_and, Bool.or_eq_true, decide_eq_true_eq]
  right; omega

theorem nextAddr_incr (nb ts a cur : Nat) : nextAddr INCR nb ts a cur = cur + nb := by
  simp [nextAddr, INCR, FIXED, WRAP]

theorem loop_spec (c : Cfg) (ms size : Nat) (hb : 0 < c.bw) (hd : 2 ^ size ∣ c.bw) (h4 : 2 ^ size ∣ 4096)
    (hms : 0 < ms) (hbm : c.bw ∣ ms) (addr : Nat) (data : List Nat) (hdat : ∀ d ∈ data, d < 256) :
    ∀ (r k : Nat) (s : WS) (b : Addr) (m : Mem) (rest : List WBeat),
      WInv c.bw (2 ^ size) addr data.length k r s.cur s.off s.co → s.ok = true →
      (s.n < s.bl → s.bl - s.n ≤ r) → b.size = size → b.burst = INCR →
      ∀ t, t = writeLoop c (2 ^ size) size INCR addr data r k s →
      t.1.ok = true ∧ t.2.2.length = r ∧ t.1.cnt = s.cnt + t.2.1.length ∧
        (∀ x ∈ t.2.1, Legal (2 ^ size) size x ∧ x.len + 1 ≤ max c.maxBurst 1) ∧
        ∃ m1 ws1, ramBeats c.bw ms b (s.bl - s.n) s.cur m (t.2.2 ++ rest) = some (m1, ws1) ∧
          ramWrites c.bw ms t.2.1 m1 ws1 =
            some (flatWrite ms m (addr + s.off) (data.drop s.off), rest,
              t.2.1.map fun x => (x.id, 0)) := by
  have hnb : 0 < 2 ^ size := Nat.two_pow_pos _
  intro r
  induction r with
  | zero =>
    intro k s b m rest hi hok hn _ _ t ht
    have hz : s.bl - s.n = 0 := by
      rcases Nat.lt_or_ge s.n s.bl with h | h
      · have := hn h; omega
      · omega
    have ho := hi.fin rfl
    subst ht
    refine ⟨hok, rfl, rfl, by simp [writeLoop], m, rest, ?_, ?_⟩
    · rw [hz]; rfl
    · simp only [writeLoop, ramWrites, List.map_nil]
      rw [ho, List.drop_length]
      rfl
  | succ r ih =>
    intro k s b m rest hi hok hn hbs hbb t ht
    obtain ⟨hst, hse, hsb, hol, hi'⟩ := lanes_spec hnb hb hd hi
    have hcd : 2 ^ size ∣ s.cur := by
      rw [hi.hcur]; exact Nat.dvd_add (Nat.dvd_mul_left _ _) (Nat.dvd_mul_left _ _)
    have hfit : s.cur / c.bw * c.bw % ms + c.bw ≤ ms :=
      (word_mod (j := 0) hbm hms (Nat.dvd_mul_left _ _) hb).1
    -- effect of the data word
    generalize hS : laneStart c.bw addr k s.co = start at *
    generalize hE : laneStop c.bw (2 ^ size) addr data.length (r + 1) s.co = stop at *
    have hS' : (if k = 0 then addr % c.bw else s.co) = start := hS
    have hE' : (if r + 1 = 1 then (addr + data.length - 1) % c.bw + 1 else s.co + 2 ^ size) = stop := hE
    have hcl : ((data.drop s.off).take (stop - start)).length = stop - start := by
      rw [List.length_take, List.length_drop]; omega
    have hcv : ∀ d ∈ (data.drop s.off).take (stop - start), d < 256 := fun d h =>
      hdat d (List.mem_of_mem_drop (List.mem_of_mem_take h))
    have hbeat : ∀ last, ramBeat c.bw ms m s.cur
        ⟨putLanes 0 start ((data.drop s.off).take (stop - start)), strobe c.bw start stop, last⟩ =
        flatWrite ms m (addr + s.off) ((data.drop s.off).take (stop - start)) := by
      intro last
      have := beat_flat hb hbm hms m s.cur start _ last (by rw [hcl]; omega) hcv
      rw [hcl, Nat.add_sub_cancel' hse, hst] at this
      exact this
    have hflat : flatWrite ms (flatWrite ms m (addr + s.off) ((data.drop s.off).take (stop - start)))
        (addr + (s.off + (stop - start))) (data.drop (s.off + (stop - start))) =
        flatWrite ms m (addr + s.off) (data.drop s.off) := by
      conv => rhs; rw [← List.take_append_drop (stop - start) (data.drop s.off)]
      rw [flatWrite_append, hcl, List.drop_drop, Nat.add_assoc]
    have hokb : (s.ok && decide (s.off + (stop - start) ≤ data.length) && decide (stop ≤ c.bw)) = true := by
      simp [hok, hol, hsb]
    by_cases hnew : s.n ≥ s.bl
    · -- a new burst starts
      obtain ⟨q1, q2, q3, q4, q5⟩ := burstLen_spec c (rem := r + 1) hnb h4 hcd (by omega)
      generalize hB : burstLen c (2 ^ size) (r + 1) s.cur = bl at *
      let b' : Addr := ⟨s.cur, s.id, bl - 1, size, INCR⟩
      have hbeatq : s.beat c (2 ^ size) size INCR addr data k (r + 1) =
          ({ cur := s.cur + 2 ^ size, off := s.off + (stop - start), co := (s.co + 2 ^ size) % c.bw, n := 1,
             bl := bl, cnt := s.cnt + 1, id := nextId c s.id, ok := true }, [b'],
           ⟨putLanes 0 start ((data.drop s.off).take (stop - start)), strobe c.bw start stop,
            decide (1 ≥ bl)⟩) := by
        unfold WS.beat
        simp only [hS', hE', hokb, hB]
        rw [if_pos hnew]
      have := ih (k + 1) (s.beat c (2 ^ size) size INCR addr data k (r + 1)).1 b'
        (flatWrite ms m (addr + s.off) ((data.drop s.off).take (stop - start))) rest
        (by rw [hbeatq]; exact hi') (by rw [hbeatq]) (by rw [hbeatq]; simp only; omega) rfl rfl _ rfl
      rw [hbeatq] at this
      rw [ht, writeLoop]
      simp only [hbeatq]
      generalize writeLoop c (2 ^ size) size INCR addr data r (k + 1) _ = t' at this ⊢
      obtain ⟨g1, g2, g3, g4, m1, ws1, g5, g6⟩ := this
      have hleg : Legal (2 ^ size) size b' := by
        refine ⟨rfl, rfl, ?_, hcd, ?_⟩
        · show bl - 1 + 1 ≤ 256
          omega
        · show s.cur % 4096 + 2 ^ size * (bl - 1 + 1) ≤ 4096
          rw [show bl - 1 + 1 = bl by omega]; exact q5
      refine ⟨g1, by simp only [List.length_cons, g2], ?_, ?_, m,
        (⟨putLanes 0 start ((data.drop s.off).take (stop - start)), strobe c.bw start stop,
          decide (1 ≥ bl)⟩ :: t'.2.2) ++ rest, ?_, ?_⟩
      · simp only [List.length_append, List.length_cons, List.length_nil] at g3 ⊢; omega
      · intro x hx
        rcases List.mem_append.mp hx with hx | hx
        · rw [List.mem_singleton] at hx
          subst hx
          exact ⟨hleg, by show bl - 1 + 1 ≤ _; omega⟩
        · exact g4 x hx
      · rw [show s.bl - s.n = 0 by omega]; rfl
      · simp only [List.cons_append, List.nil_append]
        rw [ramWrites, if_pos (hleg.ok rfl (Nat.le_of_dvd hb hd)).1,
          (hleg.ok rfl (Nat.le_of_dvd hb hd)).2]
        have hrb : ramBeats c.bw ms b' (b'.len + 1) b'.addr m
            (⟨putLanes 0 start ((data.drop s.off).take (stop - start)), strobe c.bw start stop,
              decide (1 ≥ bl)⟩ :: (t'.2.2 ++ rest)) = some (m1, ws1) := by
          rw [ramBeats, if_pos ⟨hfit, by
            simp only [decide_eq_decide]; show 1 ≥ bl ↔ bl - 1 = 0; omega⟩, hbeat]
          show ramBeats c.bw ms b' (bl - 1) (nextAddr INCR (2 ^ size) _ _ s.cur) _ _ = _
          rw [nextAddr_incr]
          exact g5
        rw [hrb]
        simp only [g6, hflat, List.map_cons]
    · have hlt : s.n < s.bl := by omega
      have hrem := hn hlt
      have hbeatq : s.beat c (2 ^ size) size INCR addr data k (r + 1) =
          ({ cur := s.cur + 2 ^ size, off := s.off + (stop - start), co := (s.co + 2 ^ size) % c.bw,
             n := s.n + 1, bl := s.bl, cnt := s.cnt, id := s.id, ok := true }, [],
           ⟨putLanes 0 start ((data.drop s.off).take (stop - start)), strobe c.bw start stop,
            decide (s.n + 1 ≥ s.bl)⟩) := by
        unfold WS.beat
        simp only [hS', hE', hokb]
        rw [if_neg hnew]
      have := ih (k + 1) (s.beat c (2 ^ size) size INCR addr data k (r + 1)).1 b
        (flatWrite ms m (addr + s.off) ((data.drop s.off).take (stop - start))) rest
        (by rw [hbeatq]; exact hi') (by rw [hbeatq]) (by rw [hbeatq]; simp only; omega) hbs hbb _ rfl
      rw [hbeatq] at this
      rw [ht, writeLoop]
      simp only [hbeatq]
      generalize writeLoop c (2 ^ size) size INCR addr data r (k + 1) _ = t' at this ⊢
      obtain ⟨g1, g2, g3, g4, m1, ws1, g5, g6⟩ := this
      refine ⟨g1, by simp only [List.length_cons, g2], ?_, ?_, m1, ws1, ?_, ?_⟩
      · simpa using g3
      · simpa using g4
      · obtain ⟨d, hdd⟩ : ∃ d, s.bl - s.n = d + 1 := ⟨s.bl - s.n - 1, by omega⟩
        rw [hdd, List.cons_append, ramBeats, if_pos ⟨hfit, by simp only [decide_eq_decide]; omega⟩, hbeat, hbb,
          nextAddr_incr, hbs]
        simp only at g5
        rw [show s.bl - (s.n + 1) = d by omega] at g5
        exact g5
      · simp only [List.nil_append]
        rw [g6, hflat]

end Corundum.Axi

namespace Corundum.Axi

open Corundum.Spec

/-- Bus widths accepted by the models: axi.py:228, 692. -/
def Cfg.Ok (c : Cfg) : Prop := ∃ w, w ≤ 7 ∧ c.bw = 2 ^ w

/-- A transfer size that fits the bus. -/
def sizeFits (c : Cfg) (s : Option Nat) : Prop := ∀ x, s = some x → 2 ^ x ≤ c.bw

theorem size_ok {c : Cfg} (h : c.Ok) {s : Option Nat} (hs : sizeFits c s) :
    0 < c.bw ∧ 2 ^ sizeOf c s ≤ c.bw ∧ 2 ^ sizeOf c s ∣ c.bw ∧ 2 ^ sizeOf c s ∣ 4096 := by
  obtain ⟨w, hw, hb⟩ := h
  have key : sizeOf c s ≤ w := by
    cases s with
    | none => simp [sizeOf, hb, Nat.log2_two_pow]
    | some x =>
      have := hs x rfl
      rw [hb] at this
      exact (Nat.pow_le_pow_iff_right (by omega)).mp this
  refine ⟨by rw [hb]; exact Nat.two_pow_pos _, ?_, ?_, ?_⟩
  · rw [hb]; exact Nat.pow_le_pow_right (by omega) key
  · rw [hb]; exact Nat.pow_dvd_pow 2 key
  · rw [show (4096 : Nat) = 2 ^ 12 from rfl]; exact Nat.pow_dvd_pow 2 (by omega)

theorem inv_start {bw nb addr len : Nat} (hnb : 0 < nb) (hb : 0 < bw) (hd : nb ∣ bw) :
    WInv bw nb addr len 0 (cyclesOf nb addr len) (addr / nb * nb) 0
      (addr / nb * nb - addr / bw * bw) := by
  have e : addr / bw = addr / nb * nb / bw := by
    have ha := Nat.div_add_mod addr nb
    have hl := Nat.mod_lt addr hnb
    rw [Nat.mul_comm] at ha
    exact same_word hnb (Nat.dvd_mul_left _ _) hd (by omega) (by omega)
  refine ⟨by omega, by omega, ?_, by omega, by omega, ?_⟩
  · have := Nat.div_add_mod (addr / nb * nb) bw
    rw [e]
    rw [Nat.mul_comm] at this
    omega
  · intro h
    unfold cyclesOf at h
    rcases (Nat.div_eq_zero_iff).mp h with h | h <;> omega

theorem masterWrite_spec {c : Cfg} (hc : c.Ok) {ms : Nat} (hms : 0 < ms) (hbm : c.bw ∣ ms) (id : Nat) (w : WCmd)
    (hw : w.burst = INCR ∧ sizeFits c w.size ∧ ∀ d ∈ w.data, d < 256) :
    ∃ as bs id', masterWrite c id w = some (as, bs, as.length, id') ∧
      bs.length = cyclesOf (2 ^ sizeOf c w.size) w.addr w.data.length ∧
      (∀ x ∈ as, Legal (2 ^ sizeOf c w.size) (sizeOf c w.size) x ∧ x.len + 1 ≤ max c.maxBurst 1) ∧
      ∀ m rest, ramWrites c.bw ms as m (bs ++ rest) =
        some (flatWrite ms m w.addr w.data, rest, as.map fun x => (x.id, 0)) := by
  obtain ⟨h1, h2, h3⟩ := hw
  obtain ⟨s1, s2, s3, s4⟩ := size_ok hc h2
  have key := fun m rest => loop_spec c ms (sizeOf c w.size) s1 s3 s4 hms hbm w.addr w.data h3
    (cyclesOf (2 ^ sizeOf c w.size) w.addr w.data.length) 0
    { cur := w.addr / 2 ^ sizeOf c w.size * 2 ^ sizeOf c w.size, off := 0,
      co := w.addr / 2 ^ sizeOf c w.size * 2 ^ sizeOf c w.size - w.addr / c.bw * c.bw, n := 0, bl := 0,
      cnt := 0, id := id, ok := true } ⟨0, 0, 0, sizeOf c w.size, INCR⟩ m rest
    (inv_start (Nat.two_pow_pos _) s1 s3) rfl (by simp) rfl rfl _ rfl
  unfold masterWrite
  simp only [s2, if_true, h1]
  generalize writeLoop c (2 ^ sizeOf c w.size) (sizeOf c w.size) INCR w.addr w.data _ _ _ = t at key ⊢
  obtain ⟨k1, k2, k3, k4, -⟩ := key (fun _ => 0) []
  refine ⟨t.2.1, t.2.2, t.1.id, ?_, k2, k4, ?_⟩
  · rw [if_pos k1, k3, Nat.zero_add]
  · intro m rest
    obtain ⟨_, _, _, _, m1, ws1, k5, k6⟩ := key m rest
    simp only [Nat.sub_self, ramBeats, Option.some.injEq, Prod.mk.injEq] at k5
    rw [← k5.1, ← k5.2] at k6
    rw [k6]
    rfl

theorem ramWrites_append (bw ms : Nat) : ∀ (as bs : List Addr) (m : Mem) (ws : List WBeat) (m' : Mem)
    (ws' : List WBeat) (rs : List (Nat × Nat)) (m'' : Mem) (ws'' : List WBeat) (rs' : List (Nat × Nat)),
    ramWrites bw ms as m ws = some (m', ws', rs) → ramWrites bw ms bs m' ws' = some (m'', ws'', rs') →
    ramWrites bw ms (as ++ bs) m ws = some (m'', ws'', rs ++ rs')
  | [], _, _, _, _, _, _, _, _, _, h1, h2 => by
    simp only [ramWrites, Option.some.injEq, Prod.mk.injEq] at h1
    obtain ⟨rfl, rfl, rfl⟩ := h1
    exact h2
  | a :: as, bs, m, ws, m', ws', rs, m'', ws'', rs', h1, h2 => by
    rw [ramWrites] at h1
    rw [List.cons_append, ramWrites]
    split at h1
    · rename_i hb
      rw [if_pos hb]
      cases e : ramBeats bw ms a (a.len + 1) (a.addr / 2 ^ a.size * 2 ^ a.size) m ws with
      | none => rw [e] at h1; exact absurd h1 (by simp)
      | some p =>
        obtain ⟨p1, p2⟩ := p
        rw [e] at h1
        simp only at h1 ⊢
        cases e2 : ramWrites bw ms as p1 p2 with
        | none => rw [e2] at h1; exact absurd h1 (by simp)
        | some q =>
          obtain ⟨q1, q2, q3⟩ := q
          rw [e2] at h1
          simp only [Option.some.injEq, Prod.mk.injEq] at h1
          obtain ⟨rfl, rfl, rfl⟩ := h1
          rw [ramWrites_append bw ms as bs p1 p2 q1 q2 q3 m'' ws'' rs' e2 h2]
          rfl
    · exact absurd h1 (by simp)

theorem fold_zero : ∀ (l : List (Nat × Nat)), (∀ x ∈ l, x.2 = 0) →
    l.foldl (fun r x => if x.2 ≠ 0 then x.2 else r) 0 = 0
  | [], _ => rfl
  | x :: xs, h => by
    rw [List.foldl_cons, if_neg (by simpa using h x (by simp))]
    exact fold_zero xs fun y hy => h y (by simp [hy])

theorem masterWrites_spec {c : Cfg} (hc : c.Ok) {ms : Nat} (hms : 0 < ms) (hbm : c.bw ∣ ms) :
    ∀ (cmds : List WCmd) (id : Nat),
      (∀ w ∈ cmds, w.burst = INCR ∧ sizeFits c w.size ∧ ∀ d ∈ w.data, d < 256) →
      ∃ as bs cs, masterWrites c id cmds = some (as, bs, cs) ∧
        (∀ x ∈ as, ∃ s, 2 ^ s ≤ c.bw ∧ Legal (2 ^ s) s x ∧ x.len + 1 ≤ max c.maxBurst 1) ∧
        (∀ m rest, ramWrites c.bw ms as m (bs ++ rest) =
          some (cmds.foldl (fun m w => flatWrite ms m w.addr w.data) m, rest, as.map fun x => (x.id, 0))) ∧
        ∀ rest, masterResps cs ((as.map fun x => (x.id, 0)) ++ rest) =
          some (cmds.map fun w => (w.addr, w.data.length, 0), rest)
  | [], _, _ => ⟨[], [], [], rfl, by simp, fun _ _ => rfl, fun _ => rfl⟩
  | w :: cmds, id, h => by
    obtain ⟨as, bs, id', h1, _, h3, h4⟩ := masterWrite_spec hc hms hbm id w (h w (by simp))
    obtain ⟨as', bs', cs, g1, g2, g3, g4⟩ := masterWrites_spec hc hms hbm cmds id' (fun x hx => h x (by simp [hx]))
    refine ⟨as ++ as', bs ++ bs', (w.addr, w.data.length, as.length) :: cs, ?_, ?_, ?_, ?_⟩
    · rw [masterWrites, h1]; simp only [g1]
    · intro x hx
      rcases List.mem_append.mp hx with hx | hx
      · exact ⟨_, (size_ok hc (h w (by simp)).2.1).2.1, h3 x hx⟩
      · exact g2 x hx
    · intro m rest
      rw [List.append_assoc, List.map_append]
      exact ramWrites_append _ _ as as' m _ _ _ _ _ _ _ (h4 m (bs' ++ rest)) (g3 _ rest)
    · intro rest
      have hl : (as.map fun x => (x.id, 0)).length = as.length := List.length_map ..
      rw [masterResps, List.map_append, List.append_assoc, if_pos (by simp)]
      rw [List.drop_append_of_le_length (by omega), List.drop_of_length_le (by omega), List.nil_append, g4]
      rw [List.take_append_of_le_length (by omega), List.take_of_length_le (by omega), fold_zero]
      · rfl
      · simp

end Corundum.Axi
