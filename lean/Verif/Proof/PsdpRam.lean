import Verif.Model.PsdpRam
import Verif.Proof.AxiWrite

/-! Segmented RAM: effect of one operation, and of one command. -/

namespace Corundum.PsdpRam

open Corundum.Spec

theorem putLanes_eq : ∀ (ds : List Nat) (acc j : Nat), putLanes acc j ds = Axi.putLanes acc j ds
  | [], _, _ => rfl
  | d :: ds, acc, j => by rw [putLanes, Axi.putLanes, putLanes_eq ds]

theorem store_at (m : Mem) (a : Nat) (bs : List Nat) (x : Nat) :
    store m a bs x = if a ≤ x ∧ x < a + bs.length then bs[x - a]?.getD 0 else m x := by
  unfold store
  by_cases h : a ≤ x ∧ x < a + bs.length
  · rw [dif_pos h, if_pos h, List.getElem?_eq_getElem (by omega)]; rfl
  · rw [dif_neg h, if_neg h]

theorem slice_get (data : List Nat) (s n j : Nat) (h : j < n - s) :
    ((data.drop s).take (n - s))[j]? = data[s + j]? := by
  rw [List.getElem?_take, if_pos h, List.getElem?_drop]

theorem coalesce_spec (base be : Nat) (data : List Nat) (m : Mem) (hbe : ∀ j, be.testBit j = true → j < data.length) :
    ∀ n, (∀ a, (coalesce base be data n).1 = some a → a < n ∧ ∀ j, a ≤ j → j < n → be.testBit j = true) ∧
      ∀ x, (coalesce base be data n).2.foldl (fun m w => store m w.1 w.2) m x =
        if base ≤ x ∧ x < base + (coalesce base be data n).1.getD n ∧ be.testBit (x - base) = true
        then data[x - base]?.getD 0 else m x
  | 0 => by
    refine ⟨by simp [coalesce], fun x => ?_⟩
    rw [if_neg (by simp [coalesce]; omega)]
    rfl
  | n + 1 => by
    obtain ⟨h1, h2⟩ := coalesce_spec base be data m hbe n
    rw [coalesce]
    cases hb : be.testBit n with
    | true =>
      rw [if_pos rfl]
      refine ⟨?_, ?_⟩
      · intro a ha
        simp only [Option.some.injEq] at ha
        cases hs : (coalesce base be data n).1 with
        | none =>
          rw [hs] at ha
          simp only [Option.getD_none] at ha
          subst ha
          exact ⟨by omega, fun j h3 h4 => by rw [show j = n by omega]; exact hb⟩
        | some a' =>
          rw [hs] at ha
          simp only [Option.getD_some] at ha
          subst ha
          obtain ⟨h3, h4⟩ := h1 a' hs
          refine ⟨by omega, fun j h5 h6 => ?_⟩
          by_cases e : j = n
          · rw [e]; exact hb
          · exact h4 j h5 (by omega)
      · intro x
        rw [h2 x]
        simp only [Option.getD_some]
    | false =>
      rw [if_neg (by simp)]
      cases hs : (coalesce base be data n).1 with
      | none =>
        refine ⟨by simp, fun x => ?_⟩
        rw [h2 x, hs]
        simp only [Option.getD_none]
        by_cases hx : base ≤ x ∧ x < base + n ∧ be.testBit (x - base) = true
        · rw [if_pos hx, if_pos ⟨hx.1, by omega, hx.2.2⟩]
        · rw [if_neg hx, if_neg]
          rintro ⟨a, b, d⟩
          refine hx ⟨a, ?_, d⟩
          rcases Nat.lt_or_ge x (base + n) with h | h
          · exact h
          · rw [show x - base = n by omega, hb] at d; exact absurd d (by simp)
      | some s =>
        obtain ⟨h3, h4⟩ := h1 s hs
        refine ⟨by simp, fun x => ?_⟩
        have hn : n - 1 < data.length := hbe (n - 1) (h4 (n - 1) (by omega) (by omega))
        have hl : ((data.drop s).take (n - s)).length = n - s := by
          rw [List.length_take, List.length_drop]; omega
        dsimp only
        rw [if_pos (show n ≠ s by omega), List.foldl_append]
        simp only [List.foldl_cons, List.foldl_nil, Option.getD_none]
        rw [store_at, hl, h2 x, hs]
        simp only [Option.getD_some]
        by_cases hx : base + s ≤ x ∧ x < base + s + (n - s)
        · rw [if_pos hx, if_pos ⟨by omega, by omega, h4 _ (by omega) (by omega)⟩,
            slice_get _ _ _ _ (by omega)]
          congr 2; omega
        · rw [if_neg hx]
          by_cases hy : base ≤ x ∧ x < base + s ∧ be.testBit (x - base) = true
          · rw [if_pos hy, if_pos ⟨hy.1, by omega, hy.2.2⟩]
          · rw [if_neg hy, if_neg]
            rintro ⟨a, b, d⟩
            refine hy ⟨a, ?_, d⟩
            rcases Nat.lt_or_ge x (base + n) with h | h
            · omega
            · rw [show x - base = n by omega, hb] at d; exact absurd d (by simp)

theorem writesOf_spec (base be : Nat) (data : List Nat) (m : Mem) (hbe : ∀ j, be.testBit j = true → j < data.length)
    (n : Nat) (hn : data.length ≤ n) (x : Nat) :
    (writesOf base be data n).foldl (fun m w => store m w.1 w.2) m x =
        if base ≤ x ∧ be.testBit (x - base) = true then data[x - base]?.getD 0 else m x := by
  obtain ⟨h1, h2⟩ := coalesce_spec base be data m hbe n
  unfold writesOf
  have hlt : be.testBit (x - base) = true → x - base < n := fun h => by have := hbe _ h; omega
  cases hs : (coalesce base be data n).1 with
  | none =>
    simp only [hs]
    rw [h2 x, hs]
    simp only [Option.getD_none]
    by_cases hx : base ≤ x ∧ be.testBit (x - base) = true
    · have := hlt hx.2
      rw [if_pos hx, if_pos ⟨hx.1, by omega, hx.2⟩]
    · rw [if_neg hx, if_neg (fun h => hx ⟨h.1, h.2.2⟩)]
  | some s =>
    obtain ⟨h3, h4⟩ := h1 s hs
    have hnn : n - 1 < data.length := hbe (n - 1) (h4 (n - 1) (by omega) (by omega))
    have hl : ((data.drop s).take (n - s)).length = n - s := by
      rw [List.length_take, List.length_drop]; omega
    simp only [hs]
    rw [if_pos (show n ≠ s by omega), List.foldl_append]
    simp only [List.foldl_cons, List.foldl_nil]
    rw [store_at, hl, h2 x, hs]
    simp only [Option.getD_some]
    by_cases hx : base + s ≤ x ∧ x < base + s + (n - s)
    · rw [if_pos hx, if_pos ⟨by omega, h4 _ (by omega) (by omega)⟩, slice_get _ _ _ _ (by omega)]
      congr 2; omega
    · rw [if_neg hx]
      by_cases hy : base ≤ x ∧ x < base + s ∧ be.testBit (x - base) = true
      · rw [if_pos hy, if_pos ⟨hy.1, hy.2.2⟩]
      · rw [if_neg hy, if_neg]
        rintro ⟨a, d⟩
        have := hlt d
        exact hy ⟨a, by omega, d⟩

/-- Address of the block an operation writes. -/
def base (c : Cfg) (seg : Nat) (o : Op) : Nat := (o.addr % 2 ^ c.saw * c.sc + seg) * c.sbl

/-- One operation stores exactly its enabled lanes. -/
theorem exec_at (c : Cfg) (hsc : 0 < c.sc) (seg : Nat) (o : Op) (m : Mem) (x : Nat) :
    exec c seg o m x =
      if base c seg o ≤ x ∧ x < base c seg o + c.sbl ∧ o.be.testBit (x - base c seg o) = true
      then (o.data >>> (8 * (x - base c seg o))) % 256 else m x := by
  have hl : (toBytes c.sbl (o.data % 2 ^ (8 * c.sbl))).length = c.sbl := by simp [toBytes]
  have hlt : ∀ j, (o.be % 2 ^ c.sbl).testBit j = true → j < c.sbl := by
    intro j h
    rw [Nat.testBit_mod_two_pow] at h
    simp only [Bool.and_eq_true, decide_eq_true_eq] at h
    exact h.1
  show (writesOf (base c seg o) (o.be % 2 ^ c.sbl) _ (c.sc * c.sbl)).foldl _ m x = _
  rw [writesOf_spec _ _ _ _ (by rw [hl]; exact hlt) _ (by rw [hl]; exact Nat.le_mul_of_pos_left _ hsc)]
  by_cases h : base c seg o ≤ x ∧ (o.be % 2 ^ c.sbl).testBit (x - base c seg o) = true
  · have h2 := hlt _ h.2
    have h3 := h.2
    rw [Nat.testBit_mod_two_pow] at h3
    simp only [Bool.and_eq_true, decide_eq_true_eq] at h3
    rw [if_pos h, if_pos ⟨h.1, by omega, h3.2⟩]
    unfold toBytes
    rw [List.getElem?_map, List.getElem?_range h2]
    simp only [Option.map_some, Option.getD_some]
    generalize x - base c seg o = i at *
    rw [show (256 : Nat) = 2 ^ 8 from rfl]
    apply Nat.eq_of_testBit_eq
    intro b
    rw [Nat.testBit_mod_two_pow, Nat.testBit_mod_two_pow, Nat.testBit_shiftRight, Nat.testBit_shiftRight,
      Nat.testBit_mod_two_pow]
    by_cases hb : b < 8
    · simp [hb, show 8 * i + b < 8 * c.sbl by omega]
    · simp [hb]
  · rw [if_neg h, if_neg]
    rintro ⟨a, b, d⟩
    refine h ⟨a, ?_⟩
    rw [Nat.testBit_mod_two_pow, d]
    simp; omega

/-- The segment holding address `x`. -/
def segOf (c : Cfg) (x : Nat) : Nat := x / c.sbl % c.sc

/-- An operation of one segment touches no byte of another. -/
theorem exec_other (c : Cfg) (hsc : 0 < c.sc) {seg : Nat} (hs : seg < c.sc) (o : Op) (m : Mem) (x : Nat)
    (hx : segOf c x ≠ seg) : exec c seg o m x = m x := by
  rw [exec_at c hsc, if_neg]
  rintro ⟨a, b, -⟩
  apply hx
  unfold segOf
  unfold base at a b
  have : x / c.sbl = o.addr % 2 ^ c.saw * c.sc + seg := by
    apply Nat.div_eq_of_lt_le a
    rw [Nat.succ_mul]; exact b
  rw [this, Nat.mul_comm, Nat.mul_add_mod, Nat.mod_eq_of_lt hs]

/-- An operation acts on every byte separately. -/
theorem exec_congr (c : Cfg) (hsc : 0 < c.sc) (seg : Nat) (o : Op) (m m' : Mem) (x : Nat) (h : m x = m' x) :
    exec c seg o m x = exec c seg o m' x := by
  rw [exec_at c hsc, exec_at c hsc, h]

/-- Run a list of operations in order. -/
def execAll (c : Cfg) (l : List (Nat × Op)) (m : Mem) : Mem := l.foldl (fun m p => exec c p.1 p.2 m) m

theorem be_bit (sbl so eo i : Nat) (k0 r0 : Bool) (he : eo ≤ sbl) (hi : i < sbl) :
    (if r0 then (if k0 then (2 ^ sbl - 1) &&& (((2 ^ sbl - 1) <<< so) &&& (2 ^ sbl - 1)) else 2 ^ sbl - 1) &&&
        ((2 ^ sbl - 1) >>> (sbl - eo))
      else (if k0 then (2 ^ sbl - 1) &&& (((2 ^ sbl - 1) <<< so) &&& (2 ^ sbl - 1)) else 2 ^ sbl - 1)).testBit i =
      decide ((if k0 then so else 0) ≤ i ∧ i < (if r0 then eo else sbl)) := by
  cases k0 <;> cases r0 <;>
    simp only [Nat.testBit_and, Nat.testBit_shiftLeft, Nat.testBit_two_pow_sub_one, Nat.testBit_shiftRight, if_true,
      if_false, Bool.false_eq_true] <;> rw [Bool.eq_iff_iff] <;>
    simp only [Bool.and_eq_true, decide_eq_true_eq] <;> omega

/-- What is needed of a command's operation list. -/
structure OpsOk (c : Cfg) (addr len : Nat) (l : List (Nat × Op)) (k : Nat) : Prop where
  seg : ∀ p ∈ l, p.1 < c.sc
  local' : ∀ p ∈ l, ∀ m x, (x < addr ∨ addr + len ≤ x) → exec c p.1 p.2 m x = m x
  segs : l.map (·.1) = (List.range' k l.length).map fun i => (addr / c.sbl + i) % c.sc

theorem opsLoop_spec (c : Cfg) (hsc : 0 < c.sc) (hsb : 0 < c.sbl) (addr : Nat) (data : List Nat)
    (hd : ∀ d ∈ data, d < 256) (hin : addr + data.length ≤ c.space) :
    ∀ (rem k off seg cur co : Nat), Axi.WInv c.sbl c.sbl addr data.length k rem cur off co →
      seg = (addr / c.sbl + k) % c.sc →
      (opsLoop c addr data rem k off seg).2 = true ∧
      (opsLoop c addr data rem k off seg).1.length = rem ∧
      OpsOk c addr data.length (opsLoop c addr data rem k off seg).1 k ∧
      ∀ m, execAll c (opsLoop c addr data rem k off seg).1 m =
        flatWrite c.space m (addr + off) (data.drop off)
  | 0, k, off, seg, cur, co, hi, _ => by
    refine ⟨rfl, rfl, ⟨by simp [opsLoop], by simp [opsLoop], by simp [opsLoop]⟩, fun m => ?_⟩
    rw [hi.fin rfl, List.drop_length]
    rfl
  | rem + 1, k, off, seg, cur, co, hi, hseg => by
    obtain ⟨hst, hse, hsl, hol, hi'⟩ := Axi.lanes_spec hsb hsb (Nat.dvd_refl _) hi
    have hcd : c.sbl ∣ cur := by
      rw [hi.hcur]; exact Nat.dvd_add (Nat.dvd_mul_left _ _) (Nat.dvd_mul_left _ _)
    have hco : co = 0 := by rw [hi.hco]; exact Nat.mod_eq_zero_of_dvd hcd
    have hS : Axi.laneStart c.sbl addr k co = if k = 0 then addr % c.sbl else 0 := by
      unfold Axi.laneStart; rw [hco]
    have hE : Axi.laneStop c.sbl c.sbl addr data.length (rem + 1) co =
        if rem = 0 then (addr + data.length - 1) % c.sbl + 1 else c.sbl := by
      unfold Axi.laneStop
      rw [hco]
      by_cases h : rem = 0
      · rw [if_pos h, if_pos (by omega)]
      · rw [if_neg h, if_neg (by omega), Nat.zero_add]
    simp only [hS, hE] at hst hse hsl hol hi'
    have hword : cur / c.sbl * c.sbl = cur := Nat.div_mul_cancel hcd
    rw [hword] at hst
    have hcur2 : cur = (addr / c.sbl + k) * c.sbl := by rw [Nat.add_mul]; exact hi.hcur
    obtain ⟨g1, g2, g3, g4⟩ := opsLoop_spec c hsc hsb addr data hd hin rem (k + 1) _ ((seg + 1) % c.sc) _ _ hi' (by
      rw [hseg, Nat.mod_add_mod, Nat.add_assoc])
    have hmod := Nat.mod_lt (addr + data.length - 1) hsb
    have hbe := fun i hi' => be_bit c.sbl (addr % c.sbl) ((addr + data.length - 1) % c.sbl + 1) i
      (decide (k = 0)) (decide (rem = 0)) (by omega) hi'
    simp only [decide_eq_true_eq] at hbe
    rw [opsLoop]
    generalize hstart : (if k = 0 then addr % c.sbl else 0) = start at *
    generalize hstop : (if rem = 0 then (addr + data.length - 1) % c.sbl + 1 else c.sbl) = stop at *
    generalize hBE : (if rem = 0 then (if k = 0 then (2 ^ c.sbl - 1) &&& (((2 ^ c.sbl - 1) <<< (addr % c.sbl)) &&& (2 ^ c.sbl - 1)) else 2 ^ c.sbl - 1) &&&
        ((2 ^ c.sbl - 1) >>> (c.sbl - ((addr + data.length - 1) % c.sbl + 1)))
      else (if k = 0 then (2 ^ c.sbl - 1) &&& (((2 ^ c.sbl - 1) <<< (addr % c.sbl)) &&& (2 ^ c.sbl - 1)) else 2 ^ c.sbl - 1)) = be at *
    generalize opsLoop c addr data rem (k + 1) (off + (stop - start)) ((seg + 1) % c.sc) = t at *
    have hcl : ((data.drop off).take (stop - start)).length = stop - start := by
      rw [List.length_take, List.length_drop]; omega
    have hcv : ∀ d ∈ (data.drop off).take (stop - start), d < 256 := fun d h =>
      hd d (List.mem_of_mem_drop (List.mem_of_mem_take h))
    have hseglt : seg < c.sc := by rw [hseg]; exact Nat.mod_lt _ hsc
    -- the block written
    have hq : (addr + k * c.sbl) / (c.sc * c.sbl) = (addr / c.sbl + k) / c.sc := by
      rw [Nat.mul_comm c.sc, ← Nat.div_div_eq_div_mul, Nat.add_mul_div_right _ _ hsb]
    have hle : cur ≤ addr + data.length := by omega
    have hblk : cur < c.space ∨ (addr + data.length = cur) := by omega
    let o : Op := ⟨(addr + k * c.sbl) / (c.sc * c.sbl), putLanes 0 start ((data.drop off).take (stop - start)), be⟩
    have hbase : ∀ x, (cur ≤ x ∧ x < cur + c.sbl ∧ o.be.testBit (x - cur) = true) → x < addr + data.length ∧ addr ≤ x ∧
        start ≤ x - cur ∧ x - cur < stop := by
      rintro x ⟨h1, h2, h3⟩
      have h3' : be.testBit (x - cur) = true := h3
      rw [hbe _ (by omega), decide_eq_true_iff] at h3'
      omega
    have hexec : ∀ m x, exec c seg o m x = flatWrite c.space m (addr + off) ((data.drop off).take (stop - start)) x := by
      intro m x
      by_cases hz : stop - start = 0
      · rw [hz, List.take_zero]
        show _ = m x
        rw [exec_at c hsc, if_neg]
        rintro ⟨h1, h2, h3⟩
        have h3' : be.testBit (x - base c seg o) = true := h3
        rw [hbe _ (by omega), decide_eq_true_iff] at h3'
        omega
      · have hlt : cur < c.space := by omega
        have hb : base c seg o = cur := by
          unfold base
          have : o.addr = (addr / c.sbl + k) / c.sc := hq
          rw [this]
          have hlt2 : (addr / c.sbl + k) / c.sc < 2 ^ c.saw := by
            rw [← hq]
            apply Nat.div_lt_of_lt_mul
            have : (addr / c.sbl + k) * c.sbl < 2 ^ c.saw * (c.sc * c.sbl) := by rw [← hcur2]; exact hlt
            have h5 : (addr / c.sbl + k) < 2 ^ c.saw * c.sc := by
              rw [← Nat.mul_assoc] at this
              exact Nat.lt_of_mul_lt_mul_right this
            have h6 : (addr / c.sbl + k + 1) * c.sbl ≤ 2 ^ c.saw * c.sc * c.sbl := Nat.mul_le_mul_right _ h5
            have h7 := Nat.div_add_mod addr c.sbl
            have h8 := Nat.mod_lt addr hsb
            have h9 : c.sc * c.sbl * 2 ^ c.saw = 2 ^ c.saw * c.sc * c.sbl := by
              rw [Nat.mul_comm, Nat.mul_assoc]
            rw [h9]
            rw [Nat.add_mul, Nat.one_mul, Nat.add_mul, Nat.mul_comm (addr / c.sbl)] at h6
            omega
          rw [Nat.mod_eq_of_lt hlt2, hseg, hcur2]
          congr 1
          rw [Nat.mul_comm]; exact Nat.div_add_mod _ _
        have hmodp : (addr + off) % c.space = addr + off := Nat.mod_eq_of_lt (by omega)
        rw [exec_at c hsc, hb, Axi.flat_block c.space _ m _ x (by rw [hcl, hmodp]; omega)]
        by_cases h : addr + off ≤ x ∧ x < addr + off + (stop - start)
        · rw [dif_pos (by rw [hcl, hmodp]; exact h), if_pos ⟨by omega, by omega, by
            show be.testBit _ = true
            rw [hbe _ (by omega), decide_eq_true_iff]; omega⟩]
          show (putLanes 0 start _ >>> _) % 256 = _
          rw [putLanes_eq, Axi.putLanes_byte _ 0 start _ (Nat.two_pow_pos _) hcv, dif_pos (by rw [hcl]; omega)]
          congr 1; omega
        · rw [dif_neg (by rw [hcl, hmodp]; exact h), if_neg]
          intro h'
          have := hbase x h'
          omega
    refine ⟨?_, ?_, ⟨?_, ?_, ?_⟩, ?_⟩
    · simp [hol, g1]
    · simp only [List.length_cons, g2]
    · intro p hp
      rcases List.mem_cons.mp hp with rfl | hp
      · exact hseglt
      · exact g3.seg p hp
    · intro p hp m x hx
      rcases List.mem_cons.mp hp with rfl | hp
      · show exec c seg o m x = m x
        rw [hexec, flatWrite_other]
        intro i hi2
        rw [hcl] at hi2
        rw [Nat.mod_eq_of_lt (by omega)]
        omega
      · exact g3.local' p hp m x hx
    · simp only [List.map_cons, List.length_cons, List.range'_succ]
      rw [g3.segs, ← hseg]
    · intro m
      show execAll c t.1 (exec c seg o m) = _
      rw [g4, funext (hexec m)]
      conv => rhs; rw [← List.take_append_drop (stop - start) (data.drop off)]
      rw [flatWrite_append, hcl, List.drop_drop, Nat.add_assoc]

theorem segments_eq (c : Cfg) (addr len : Nat) (h : 0 < c.sbl) : segments c addr len = Axi.cyclesOf c.sbl addr len := by
  unfold segments Axi.cyclesOf
  congr 1
  omega

theorem writeOps_spec (c : Cfg) (hsc : 0 < c.sc) (hsb : 0 < c.sbl) (addr : Nat) (data : List Nat)
    (hd : ∀ d ∈ data, d < 256) (hin : addr + data.length ≤ c.space) :
    (writeOps c addr data).2 = true ∧ (writeOps c addr data).1.length = segments c addr data.length ∧
      OpsOk c addr data.length (writeOps c addr data).1 0 ∧
      ∀ m, execAll c (writeOps c addr data).1 m = flatWrite c.space m addr data := by
  have := opsLoop_spec c hsc hsb addr data hd hin (segments c addr data.length) 0 0 (addr / c.sbl % c.sc) _ _
    (by rw [segments_eq c _ _ hsb]; exact Axi.inv_start hsb hsb (Nat.dvd_refl _)) (by rw [Nat.add_zero])
  exact this

end Corundum.PsdpRam
