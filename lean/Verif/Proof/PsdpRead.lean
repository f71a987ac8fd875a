import Verif.Proof.PsdpWrite
import Verif.Proof.AxiRead

/-! Segmented RAM: the read side under every schedule. -/

namespace Corundum.PsdpRam

open Corundum.Spec

theorem fromBytes_byte : ∀ (bs : List Nat) (i : Nat), (∀ b ∈ bs, b < 256) → i < bs.length →
    (fromBytes bs >>> (8 * i)) % 256 = bs[i]?.getD 0
  | b :: bs, 0, h, _ => by
    have := h b (by simp)
    simp only [fromBytes, Nat.mul_zero, Nat.shiftRight_zero, List.getElem?_cons_zero, Option.getD_some]
    rw [Nat.add_mul_mod_self_left, Nat.mod_eq_of_lt this]
  | b :: bs, i + 1, h, hl => by
    have hb := h b (by simp)
    have ih := fromBytes_byte bs i (fun x hx => h x (by simp [hx])) (by simpa using hl)
    rw [fromBytes, show 8 * (i + 1) = 8 + 8 * i by omega, Nat.shiftRight_add, Nat.shiftRight_eq_div_pow _ 8]
    rw [show (2 : Nat) ^ 8 = 256 from rfl, Nat.add_mul_div_left _ _ (by omega), Nat.div_eq_of_lt hb, Nat.zero_add, ih]
    rfl

/-- Segment and segment address of pass `j` of a read. -/
def segAt (c : Cfg) (a j : Nat) : Nat := (a / c.sbl + j) % c.sc
def addrAt (c : Cfg) (a j : Nat) : Nat := (a + j * c.sbl) / (c.sc * c.sbl)

theorem addrLoop_eq (c : Cfg) (a : Nat) : ∀ (rem k seg : Nat), seg = segAt c a k →
    addrLoop c a rem k seg = (List.range' k rem).map fun j => (segAt c a j, addrAt c a j)
  | 0, _, _, _ => rfl
  | rem + 1, k, seg, h => by
    rw [addrLoop, List.range'_succ, List.map_cons, addrLoop_eq c a rem (k + 1) ((seg + 1) % c.sc) (by
      rw [h]; unfold segAt; rw [Nat.mod_add_mod, Nat.add_assoc]), h]
    rfl

theorem readAddrs_eq (c : Cfg) (a l : Nat) :
    readAddrs c a l = (List.range (segments c a l)).map fun j => (segAt c a j, addrAt c a j) := by
  unfold readAddrs
  rw [addrLoop_eq c a _ 0 _ (by unfold segAt; rw [Nat.add_zero]), List.range_eq_range']

/-- Response command belonging to a read. -/
def rrespOf (c : Cfg) (w : Nat × Nat) : RespCmd := ⟨w.1, w.2, segments c w.1 w.2, w.1 / c.sbl % c.sc⟩

/-- Bytes gathered from the first `k` responses. -/
def accR (c : Cfg) (m : Mem) (w : Nat × Nat) (k : Nat) : List Nat :=
  (List.range k).flatMap fun j => takeLanes c (rrespOf c w) j (fetch c m (segAt c w.1 j) (addrAt c w.1 j))

theorem accR_succ (c : Cfg) (m : Mem) (w : Nat × Nat) (k : Nat) :
    accR c m w (k + 1) = accR c m w k ++ takeLanes c (rrespOf c w) k (fetch c m (segAt c w.1 k) (addrAt c w.1 k)) := by
  unfold accR
  rw [List.range_succ, List.flatMap_append]
  simp

theorem accR_spec (c : Cfg) (hsc : 0 < c.sc) (hsb : 0 < c.sbl) (m : Mem) (hm : ∀ x, m x < 256) (w : Nat × Nat)
    (hin : w.1 + w.2 ≤ c.space) : ∀ j, j ≤ segments c w.1 w.2 →
    ∃ cur off co, Axi.WInv c.sbl c.sbl w.1 w.2 j (segments c w.1 w.2 - j) cur off co ∧
      accR c m w j = flatRead c.space m w.1 off
  | 0, _ => by
    have := Axi.inv_start (addr := w.1) (len := w.2) hsb hsb (Nat.dvd_refl c.sbl)
    rw [← segments_eq c _ _ hsb] at this
    exact ⟨_, _, _, this, rfl⟩
  | j + 1, hj => by
    obtain ⟨cur, off, co, hi, hacc⟩ := accR_spec c hsc hsb m hm w hin j (by omega)
    have hrem : segments c w.1 w.2 - j = (segments c w.1 w.2 - (j + 1)) + 1 := by omega
    rw [hrem] at hi
    generalize hR : segments c w.1 w.2 - (j + 1) = rem at *
    obtain ⟨hst, hse, hsl, hol, hi'⟩ := Axi.lanes_spec hsb hsb (Nat.dvd_refl _) hi
    refine ⟨_, _, _, hi', ?_⟩
    have hcd : c.sbl ∣ cur := by
      rw [hi.hcur]; exact Nat.dvd_add (Nat.dvd_mul_left _ _) (Nat.dvd_mul_left _ _)
    have hco : co = 0 := by rw [hi.hco]; exact Nat.mod_eq_zero_of_dvd hcd
    have hS : Axi.laneStart c.sbl w.1 j co = if j = 0 then w.1 % c.sbl else 0 := by
      unfold Axi.laneStart; rw [hco]
    have hE : Axi.laneStop c.sbl c.sbl w.1 w.2 (rem + 1) co =
        if j = segments c w.1 w.2 - 1 then (w.1 + w.2 - 1) % c.sbl + 1 else c.sbl := by
      unfold Axi.laneStop
      rw [hco]
      by_cases h : rem = 0
      · rw [if_pos (by omega), if_pos (by omega)]
      · rw [if_neg (by omega), if_neg (by omega), Nat.zero_add]
    simp only [hS, hE] at hst hse hsl hol
    simp only [hS, hE]
    rw [Nat.div_mul_cancel hcd] at hst
    have hcur2 : cur = (w.1 / c.sbl + j) * c.sbl := by rw [Nat.add_mul]; exact hi.hcur
    rw [accR_succ, hacc, ← Axi.flatRead_append]
    congr 1
    show (List.range _).map _ = _
    unfold flatRead
    have e1 : (rrespOf c w).addr = w.1 := rfl
    have e2 : (rrespOf c w).segs = segments c w.1 w.2 := rfl
    have e3 : (rrespOf c w).len = w.2 := rfl
    simp only [e1, e2, e3]
    generalize hstart : (if j = 0 then w.1 % c.sbl else 0) = start at *
    generalize hstop : (if j = segments c w.1 w.2 - 1 then (w.1 + w.2 - 1) % c.sbl + 1 else c.sbl) = stop at *
    apply List.map_congr_left
    intro i hii
    rw [List.mem_range] at hii
    have hlt : cur < c.space := by omega
    have hq : addrAt c w.1 j = (w.1 / c.sbl + j) / c.sc := by
      unfold addrAt
      rw [Nat.mul_comm c.sc, ← Nat.div_div_eq_div_mul, Nat.add_mul_div_right _ _ hsb]
    have hb : (addrAt c w.1 j % 2 ^ c.saw * c.sc + segAt c w.1 j) * c.sbl = cur := by
      have h5 : (w.1 / c.sbl + j) < 2 ^ c.saw * c.sc := by
        have : (w.1 / c.sbl + j) * c.sbl < 2 ^ c.saw * (c.sc * c.sbl) := by rw [← hcur2]; exact hlt
        rw [← Nat.mul_assoc] at this
        exact Nat.lt_of_mul_lt_mul_right this
      have hlt2 : (w.1 / c.sbl + j) / c.sc < 2 ^ c.saw := by
        apply Nat.div_lt_of_lt_mul
        rw [Nat.mul_comm]; exact h5
      rw [hq, Nat.mod_eq_of_lt hlt2, hcur2]
      congr 1
      unfold segAt
      rw [Nat.mul_comm]; exact Nat.div_add_mod _ _
    unfold fetch
    rw [hb, Nat.mul_comm _ 8, fromBytes_byte _ _ (by
      intro b hb
      rw [List.mem_map] at hb
      obtain ⟨x, _, rfl⟩ := hb
      exact hm _) (by simp; omega), List.getElem?_map, List.getElem?_range (by omega)]
    simp only [Option.map_some, Option.getD_some]
    congr 1
    rw [Nat.mod_eq_of_lt (by omega)]
    omega

theorem accR_full (c : Cfg) (hsc : 0 < c.sc) (hsb : 0 < c.sbl) (m : Mem) (hm : ∀ x, m x < 256) (w : Nat × Nat)
    (hin : w.1 + w.2 ≤ c.space) : accR c m w (segments c w.1 w.2) = flatRead c.space m w.1 w.2 := by
  obtain ⟨cur, off, co, hi, h⟩ := accR_spec c hsc hsb m hm w hin _ (Nat.le_refl _)
  rw [Nat.sub_self] at hi
  rw [h, hi.fin rfl]

def allAddrs (c : Cfg) (I : List (Nat × Nat)) : List (Nat × Nat) := I.flatMap fun w => readAddrs c w.1 w.2

def rtaken (c : Cfg) (I : List (Nat × Nat)) (J k : Nat) : List (Nat × Nat) :=
  allAddrs c (I.take J) ++ (match (I.drop J) with | [] => [] | w :: _ => (readAddrs c w.1 w.2).take k)

theorem rtaken_append (c : Cfg) (I : List (Nat × Nat)) (w : Nat × Nat) (J k : Nat) (hJ : J ≤ I.length)
    (hk : J = I.length → k = 0) : rtaken c (I ++ [w]) J k = rtaken c I J k := by
  unfold rtaken
  rw [List.take_append_of_le_length hJ, List.drop_append_of_le_length hJ]
  cases h : I.drop J with
  | nil =>
    have : J = I.length := by
      have := congrArg List.length h
      rw [List.length_drop, List.length_nil] at this
      omega
    rw [hk this]
    simp
  | cons a t => rfl

structure RInv (c : Cfg) (m : Mem) (I : List (Nat × Nat)) (s : RSys) (T : Nat → List Nat) : Prop where
  stream : ∀ i, (sel i (allAddrs c I)).map (fetch c m i) = T i ++ (s.respq i ++ ((s.resp i).toList ++
    ((s.pipe i).toList ++ ((s.cmd i).toList.map (fetch c m i) ++ (s.q i).map (fetch c m i)))))
  count : ∀ i, (T i).length = (sel i (rtaken c I s.completed.length s.k)).length
  room : ∀ i, s.ready i = true → s.resp i = none ∨ s.pipe i = none
  comp : s.completed = (I.take s.completed.length).map fun w => (w.1, flatRead c.space m w.1 w.2)
  pend : s.rc = (I.drop s.completed.length).map (rrespOf c)
  jle : s.completed.length ≤ I.length
  kle : ∀ r rest, s.rc = r :: rest → s.k ≤ r.segs
  kz : s.rc = [] → s.k = 0
  acc : ∀ w t, I.drop s.completed.length = w :: t → s.acc = accR c m w s.k
  accz : s.rc = [] → s.acc = []

theorem RInv.init (c : Cfg) (m : Mem) : RInv c m [] RSys.init (fun _ => []) := by
  constructor <;> simp [RSys.init, allAddrs, sel, rtaken]

theorem RInv.step {c : Cfg} (hsc : 0 < c.sc) (hsb : 0 < c.sbl) {m : Mem} (hm : ∀ x, m x < 256) {I : List (Nat × Nat)}
    {s : RSys} {T : Nat → List Nat} (h : RInv c m I s T) (hI : ∀ w ∈ I, w.1 + w.2 ≤ c.space) (e : REv) :
    ∃ T', RInv c m (I ++ rissued [e]) (s.step c m e) T' := by
  cases e with
  | read a l =>
    refine ⟨T, ?_⟩
    have hrc : s.rc = [] ↔ s.completed.length = I.length := by
      rw [h.pend, List.map_eq_nil_iff, List.drop_eq_nil_iff]
      have := h.jle
      omega
    constructor
    · intro i
      show (sel i (allAddrs c (I ++ [(a, l)]))).map (fetch c m i) = T i ++ (s.respq i ++ ((s.resp i).toList ++
        ((s.pipe i).toList ++ ((s.cmd i).toList.map (fetch c m i) ++ (enqueue s.q (readAddrs c a l) i).map (fetch c m i)))))
      have : allAddrs c (I ++ [(a, l)]) = allAddrs c I ++ readAddrs c a l := by simp [allAddrs]
      rw [this, sel_append, List.map_append, h.stream, enqueue_sel, List.map_append]
      simp only [List.append_assoc]
    · intro i
      show (T i).length = (sel i (rtaken c (I ++ [(a, l)]) s.completed.length s.k)).length
      rw [rtaken_append c I (a, l) _ _ h.jle (fun e => h.kz (hrc.mpr e))]
      exact h.count i
    · exact h.room
    · show s.completed = ((I ++ [(a, l)]).take s.completed.length).map _
      rw [List.take_append_of_le_length h.jle]; exact h.comp
    · show s.rc ++ [rrespOf c (a, l)] = ((I ++ [(a, l)]).drop s.completed.length).map (rrespOf c)
      rw [List.drop_append_of_le_length h.jle, List.map_append, ← h.pend]; rfl
    · show s.completed.length ≤ (I ++ [(a, l)]).length
      have := h.jle
      simp; omega
    · intro r rest hr
      show s.k ≤ r.segs
      have hr' : s.rc ++ [rrespOf c (a, l)] = r :: rest := hr
      cases hc : s.rc with
      | nil => rw [h.kz hc]; omega
      | cons r' t =>
        rw [hc, List.cons_append, List.cons.injEq] at hr'
        rw [← hr'.1]
        exact h.kle r' t hc
    · intro hr
      have hr' : s.rc ++ [rrespOf c (a, l)] = [] := hr
      simp at hr'
    · intro w t hw
      have hw' : (I ++ [(a, l)]).drop s.completed.length = w :: t := hw
      show s.acc = accR c m w s.k
      rw [List.drop_append_of_le_length h.jle] at hw'
      cases hd : I.drop s.completed.length with
      | nil =>
        have hz : s.rc = [] := by rw [h.pend, hd]; rfl
        rw [h.accz hz, h.kz hz]; rfl
      | cons w' t' =>
        rw [hd, List.cons_append, List.cons.injEq] at hw'
        rw [← hw'.1]
        exact h.acc w' t' hd
    · intro hr
      have hr' : s.rc ++ [rrespOf c (a, l)] = [] := hr
      simp at hr'
  | clk mp rp =>
    refine ⟨T, ?_⟩
    have hnil : I ++ rissued [REv.clk mp rp] = I := by simp [rissued]
    rw [hnil]
    constructor
    · intro i
      rw [h.stream i]
      show _ = T i ++ ((match s.mready, s.resp i with
        | true, some v => s.respq i ++ [v]
        | _, _ => s.respq i) ++ ((s.resp' i).toList ++ ((s.pipe' c m i).toList ++
        ((if s.ready i || (s.cmd i).isNone then (if mp then none else (s.q i).head?) else s.cmd i).toList.map (fetch c m i) ++
        (if s.ready i || (s.cmd i).isNone then (if mp then s.q i else (s.q i).tail) else s.q i).map (fetch c m i)))))
      have hroom := h.room i
      congr 1
      unfold RSys.resp' RSys.pipe'
      cases hr : s.ready i <;> cases hmr : s.mready <;> cases hre : s.resp i <;> cases hp : s.pipe i <;>
        cases hc : s.cmd i <;> cases mp <;> cases hq : s.q i <;>
        simp [hr, hre, hp] at hroom ⊢
    · exact h.count
    · intro i hr
      have hr' : (!rp && ((s.resp' i).isNone || (s.pipe' c m i).isNone)) = true := hr
      show s.resp' i = none ∨ s.pipe' c m i = none
      simp only [Bool.and_eq_true, Bool.or_eq_true, Option.isNone_iff_eq_none] at hr'
      exact hr'.2
    · exact h.comp
    · exact h.pend
    · exact h.jle
    · exact h.kle
    · exact h.kz
    · exact h.acc
    · exact h.accz
  | resp =>
    have hnil : I ++ rissued [REv.resp] = I := by simp [rissued]
    rw [hnil]
    unfold RSys.step
    cases hrc : s.rc with
    | nil => exact ⟨T, by simpa using h⟩
    | cons r rest =>
      have hpend := h.pend
      rw [hrc] at hpend
      have hkle := h.kle r rest hrc
      obtain ⟨w, t, hdrop, hr, hrest⟩ : ∃ w t, I.drop s.completed.length = w :: t ∧ r = rrespOf c w ∧ rest = t.map (rrespOf c) := by
        cases hd : I.drop s.completed.length with
        | nil => rw [hd] at hpend; simp at hpend
        | cons w t =>
          rw [hd, List.map_cons, List.cons.injEq] at hpend
          exact ⟨w, t, rfl, hpend.1, hpend.2⟩
      have hwI : w ∈ I := List.mem_of_mem_drop (by rw [hdrop]; simp)
      have hlen : (readAddrs c w.1 w.2).length = segments c w.1 w.2 := by rw [readAddrs_eq]; simp
      have hsegs : r.segs = (readAddrs c w.1 w.2).length := by rw [hr, hlen]; rfl
      have hjl : s.completed.length < I.length := by
        have := congrArg List.length hdrop
        rw [List.length_drop, List.length_cons] at this
        omega
      have hget : I[s.completed.length] = w := by
        have e := List.drop_eq_getElem_cons hjl
        rw [hdrop, List.cons.injEq] at e
        exact e.1.symm
      have htk : I.take (s.completed.length + 1) = I.take s.completed.length ++ [w] := by
        rw [← hget, List.take_append_getElem hjl]
      have hdr : I.drop (s.completed.length + 1) = t := by
        have := congrArg List.tail hdrop
        rwa [List.tail_drop, List.tail_cons] at this
      by_cases hk : s.k < r.segs
      · simp only [hk, if_true]
        cases hq : s.respq ((r.first + s.k) % c.sc) with
        | nil => exact ⟨T, h⟩
        | cons v vs =>
          simp only
          have hkl : s.k < (readAddrs c w.1 w.2).length := by omega
          have hfst : (r.first + s.k) % c.sc = segAt c w.1 s.k := by
            rw [hr]
            show (w.1 / c.sbl % c.sc + s.k) % c.sc = _
            rw [Nat.mod_add_mod]; rfl
          have hgetk : (readAddrs c w.1 w.2)[s.k] = (segAt c w.1 s.k, addrAt c w.1 s.k) := by
            simp only [readAddrs_eq, List.getElem_map, List.getElem_range]
          rw [hfst] at hq ⊢
          generalize hsg : segAt c w.1 s.k = sg at *
          have ht : rtaken c I s.completed.length (s.k + 1) =
              rtaken c I s.completed.length s.k ++ [(sg, addrAt c w.1 s.k)] := by
            unfold rtaken
            rw [hdrop]
            simp only
            rw [List.append_assoc, ← hgetk, List.take_append_getElem hkl]
          -- the value taken is the one asked for
          have hv : v = fetch c m sg (addrAt c w.1 s.k) := by
            have hst := h.stream sg
            have hsplit : allAddrs c I = rtaken c I s.completed.length (s.k + 1) ++
                ((readAddrs c w.1 w.2).drop (s.k + 1) ++ allAddrs c t) := by
              unfold rtaken
              rw [hdrop]
              simp only
              rw [List.append_assoc, ← List.append_assoc ((readAddrs c w.1 w.2).take (s.k + 1)), List.take_append_drop]
              conv => lhs; rw [← List.take_append_drop s.completed.length I, hdrop]
              unfold allAddrs
              rw [List.flatMap_append, List.flatMap_cons]
            rw [hsplit, ht, List.append_assoc, sel_append, List.map_append, List.singleton_append, sel] at hst
            rw [if_pos rfl, List.map_cons, hq, List.cons_append] at hst
            have := List.append_inj_right hst (by rw [List.length_map, h.count sg])
            rw [List.cons.injEq] at this
            exact this.1.symm
          refine ⟨upd T sg (T sg ++ [v]), ?_⟩
          constructor
          · intro i
            show _ = upd T sg (T sg ++ [v]) i ++ (upd s.respq sg vs i ++ _)
            rw [h.stream i]
            unfold upd
            by_cases hi : i = sg
            · subst hi
              rw [if_pos rfl, if_pos rfl, hq]
              simp
            · rw [if_neg hi, if_neg hi]
          · intro i
            show (upd T sg (T sg ++ [v]) i).length = (sel i (rtaken c I s.completed.length (s.k + 1))).length
            have := h.count i
            rw [ht, sel_append, List.length_append, sel]
            unfold upd
            by_cases hi : i = sg
            · subst hi
              rw [if_pos rfl, if_pos rfl, List.length_append, this]; rfl
            · rw [if_neg hi, if_neg (fun e => hi e.symm), this]; rfl
          · exact h.room
          · exact h.comp
          · exact hpend
          · exact h.jle
          · intro r' rest' hr'
            show s.k + 1 ≤ r'.segs
            have : r :: rest = r' :: rest' := hr'
            rw [List.cons.injEq] at this
            rw [← this.1]; omega
          · intro hr'
            have : r :: rest = [] := hr'
            exact absurd this (by simp)
          · intro w' t' hw'
            have hw2 : I.drop s.completed.length = w' :: t' := hw'
            rw [hdrop, List.cons.injEq] at hw2
            rw [← hw2.1]
            show s.acc ++ takeLanes c r s.k v = accR c m w (s.k + 1)
            rw [accR_succ, h.acc w t hdrop, hr, hsg, hv]
          · intro hr'
            have : r :: rest = [] := hr'
            exact absurd this (by simp)
      · simp only [hk, if_false]
        have hkeq : s.k = r.segs := by omega
        have hacc : s.acc = flatRead c.space m w.1 w.2 := by
          rw [h.acc w t hdrop, hkeq, hr]
          exact accR_full c hsc hsb m hm w (hI w hwI)
        refine ⟨T, ?_⟩
        constructor
        · exact h.stream
        · intro i
          have hcnt := h.count i
          show (T i).length = (sel i (rtaken c I (s.completed ++ [(r.addr, s.acc)]).length 0)).length
          have ht : rtaken c I (s.completed ++ [(r.addr, s.acc)]).length 0 = rtaken c I s.completed.length s.k := by
            rw [List.length_append, List.length_singleton]
            unfold rtaken
            rw [htk, hdr, hdrop, hkeq, hsegs]
            simp only [List.take_length]
            cases t <;> simp [allAddrs]
          rw [ht]; exact hcnt
        · exact h.room
        · show s.completed ++ [(r.addr, s.acc)] = (I.take (s.completed ++ [(r.addr, s.acc)]).length).map _
          rw [List.length_append, List.length_singleton, htk, List.map_append, ← h.comp, hr, hacc]
          rfl
        · show rest = (I.drop (s.completed ++ [(r.addr, s.acc)]).length).map (rrespOf c)
          rw [List.length_append, List.length_singleton, hdr, hrest]
        · show (s.completed ++ [(r.addr, s.acc)]).length ≤ I.length
          rw [List.length_append, List.length_singleton]; exact hjl
        · intro r' rest' _
          exact Nat.zero_le _
        · intro _; rfl
        · intro w' t' _; rfl
        · intro _; rfl

theorem rissued_append : ∀ (a b : List REv), rissued (a ++ b) = rissued a ++ rissued b
  | [], _ => rfl
  | e :: a, b => by cases e <;> simp [rissued, rissued_append a b]

theorem RInv.run {c : Cfg} (hsc : 0 < c.sc) (hsb : 0 < c.sbl) {m : Mem} (hm : ∀ x, m x < 256) :
    ∀ (es : List REv) (I : List (Nat × Nat)) (s : RSys) (T : Nat → List Nat), RInv c m I s T →
    (∀ w ∈ I ++ rissued es, w.1 + w.2 ≤ c.space) → ∃ T', RInv c m (I ++ rissued es) (s.run c m es) T'
  | [], I, s, T, h, _ => ⟨T, by rw [rissued, List.append_nil]; exact h⟩
  | e :: es, I, s, T, h, hv => by
    have e1 : rissued (e :: es) = rissued [e] ++ rissued es := rissued_append [e] es
    obtain ⟨T1, h1⟩ := h.step hsc hsb hm (fun w hw => hv w (by simp [hw])) e
    obtain ⟨T2, h2⟩ := RInv.run hsc hsb hm es (I ++ rissued [e]) _ T1 h1 (by
      intro w hw
      apply hv w
      rw [e1, ← List.append_assoc]; exact hw)
    refine ⟨T2, ?_⟩
    rw [e1, ← List.append_assoc]
    exact h2

end Corundum.PsdpRam
