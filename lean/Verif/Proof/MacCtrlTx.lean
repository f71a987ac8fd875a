import Verif.Spec.MacCtrlTx
import Verif.Proof.ArbMux
import Verif.Proof.StatsCollect
/-!
Lemmas for the transmission of control frames.
-/
namespace Corundum.MacCtrl

open Corundum.ArbMux (Skid)

theorem div_eq {L p n : Nat} (hL : 0 < L) : p = n / L ↔ L * p ≤ n ∧ n < L * p + L := by
  constructor
  · rintro rfl
    exact ⟨Nat.mul_div_le n L, by have := Nat.lt_mul_div_succ n hL; rw [Nat.mul_add] at this; omega⟩
  · rintro ⟨h1, h2⟩
    symm
    rw [Nat.div_eq_iff hL]
    rw [Nat.mul_comm] at h1 h2
    omega

theorem beats_bounds {L : Nat} (hL : 0 < L) : 60 ≤ L * beats L ∧ L * beats L < 60 + L := by
  have h1 := Nat.mul_div_le 60 L
  have h2 := Nat.lt_mul_div_succ 60 hL
  have h3 := Nat.div_add_mod 60 L
  have h4 := Nat.mod_lt 60 hL
  unfold beats
  rw [Nat.mul_add] at h2
  split
  · omega
  · rw [Nat.mul_add]; omega

theorem beats_pos {L : Nat} (hL : 0 < L) : 0 < beats L := by
  have := beats_bounds hL
  rcases Nat.eq_zero_or_pos (beats L) with h | h
  · rw [h] at this; omega
  · exact h

theorem last_beat {L : Nat} (hL : 0 < L) : 59 / L = beats L - 1 := by
  have h1 := beats_bounds hL
  have h2 := beats_pos hL
  symm
  rw [div_eq hL]
  have e : L * (beats L - 1) + L = L * beats L := by
    rw [← Nat.mul_succ]; congr 1; omega
  omega

theorem cycles_eq {c : Cfg} (hL : 0 < c.lanes) : c.cycles = beats c.lanes := by
  unfold Cfg.cycles
  symm
  have h1 := beats_bounds hL
  rw [div_eq hL]
  omega

theorem place_eq (c : Cfg) (hL : 0 < c.lanes) (r : Req) (p : Nat) :
    place c r p = ((List.range c.lanes).map (fun j => if c.lanes * p + j < 60 then field c r (c.lanes * p + j) else 0),
      (List.range c.lanes).map (fun j => decide (c.lanes * p + j < 60))) := by
  have key : ∀ n, (List.range n).foldl (fun (a : List Nat × List Bool) o => if p == o / c.lanes then (a.1.set (o % c.lanes) (field c r o), a.2.set (o % c.lanes) true) else a)
      (List.replicate c.lanes 0, List.replicate c.lanes false)
      = ((List.range c.lanes).map (fun j => if c.lanes * p + j < n then field c r (c.lanes * p + j) else 0),
      (List.range c.lanes).map (fun j => decide (c.lanes * p + j < n))) := by
    intro n
    induction n with
    | zero =>
      simp only [List.range_zero, List.foldl_nil, Nat.not_lt_zero, if_false, decide_false, List.map_const', List.length_range]
    | succ n ih =>
      rw [List.range_succ, List.foldl_append, ih]
      simp only [List.foldl_cons, List.foldl_nil]
      by_cases h : p = n / c.lanes
      · have hb : (p == n / c.lanes) = true := by simp [h]
        simp only [hb, if_true]
        have h2 : n = c.lanes * p + n % c.lanes := by rw [h]; exact (Nat.div_add_mod n c.lanes).symm
        have h3 := Nat.mod_lt n hL
        generalize n % c.lanes = q at h2 h3
        generalize hm : c.lanes * p = m at *
        subst h2
        congr 1
        · apply List.ext_getElem (by simp)
          intro j j1 j2
          simp only [List.length_map, List.length_range] at j2
          rw [List.getElem_set]
          simp only [List.getElem_map, List.getElem_range]
          by_cases e : q = j
          · subst e; simp
          · simp only [e, if_false]
            have : (m + j < m + q) ↔ (m + j < m + q + 1) := by omega
            simp only [this]
        · apply List.ext_getElem (by simp)
          intro j j1 j2
          rw [List.getElem_set]
          simp only [List.getElem_map, List.getElem_range]
          by_cases e : q = j
          · subst e; simp
          · simp only [e, if_false]
            have : (m + j < m + q) ↔ (m + j < m + q + 1) := by omega
            simp only [this]
      · have hb : (p == n / c.lanes) = false := by simp [h]
        simp only [hb, Bool.false_eq_true, if_false]
        rw [div_eq hL] at h
        generalize hm : c.lanes * p = m at *
        have hh : ∀ j ∈ List.range c.lanes, (m + j < n ↔ m + j < n + 1) := by
          intro j hj; rw [List.mem_range] at hj; omega
        congr 1
        · apply List.map_congr_left
          intro j hj; simp only [hh j hj]
        · apply List.map_congr_left
          intro j hj; simp only [hh j hj]
  exact key 60

theorem field_eq (c : Cfg) (hP : c.params ≤ 44) (r : Req) (hr : r.Ok c.params) (o : Nat) (ho : o < 60) : field c r o = (frameBytes r).getD o 0 := by
  obtain ⟨h1, h2, h3, h4, h5⟩ := hr
  unfold field frameBytes
  simp only [List.getD_eq_getElem?_getD]
  have l1 : r.dst.reverse.length = 6 := by simp [h1]
  have l2 : r.src.reverse.length = 6 := by simp [h2]
  have l3 : r.etype.reverse.length = 2 := by simp [h3]
  have l4 : r.opcode.reverse.length = 2 := by simp [h4]
  by_cases a1 : o < 6
  · rw [if_pos a1, List.append_assoc, List.append_assoc, List.append_assoc, List.append_assoc, List.getElem?_append_left (by omega), List.getElem?_reverse (by omega), h1]
  rw [if_neg a1, List.append_assoc, List.append_assoc, List.append_assoc, List.append_assoc, List.getElem?_append_right (by omega), l1]
  by_cases a2 : o < 12
  · rw [if_pos a2, List.getElem?_append_left (by omega), List.getElem?_reverse (by omega), h2]
    congr 2; omega
  rw [if_neg a2, List.getElem?_append_right (by omega), l2]
  by_cases a3 : o < 14
  · rw [if_pos a3, List.getElem?_append_left (by omega), List.getElem?_reverse (by omega), h3]
    congr 2; omega
  rw [if_neg a3, List.getElem?_append_right (by omega), l3]
  by_cases a4 : o < 16
  · rw [if_pos a4, List.getElem?_append_left (by omega), List.getElem?_reverse (by omega), h4]
    congr 2; omega
  rw [if_neg a4, List.getElem?_append_right (by omega), l4]
  have e : o - 6 - 6 - 2 - 2 = o - 16 := by omega
  rw [e]
  by_cases a5 : o - 16 < c.params
  · rw [if_pos a5, List.getElem?_append_left (by omega)]
  · rw [if_neg a5, List.getElem?_append_right (by omega), List.getElem?_replicate]
    split <;> rfl

theorem ctrlFrame_length (L : Nat) (r : Req) : (ctrlFrame L r).length = beats L := by simp [ctrlFrame]

theorem ctrl_get (c : Cfg) (hL : 0 < c.lanes) (hP : c.params ≤ 44) (r : Req) (hr : r.Ok c.params) (p : Nat) (hp : p < beats c.lanes) :
    (ctrlFrame c.lanes r)[p]? = some (ctrlBeat c r p) := by
  unfold ctrlFrame ctrlBeat
  rw [List.getElem?_map, List.getElem?_range hp, place_eq c hL, last_beat hL]
  simp only [Option.map_some, Option.some.injEq, Beat.mk.injEq, and_true, true_and]
  have hb := beats_pos hL
  refine ⟨?_, ?_⟩
  · apply List.map_congr_left
    intro j hj
    split
    · rename_i h; exact (field_eq c hP r hr _ h).symm
    · rename_i h
      rw [List.getD_eq_getElem?_getD, List.getElem?_eq_none]
      · rfl
      · unfold frameBytes
        have h5 := hr.params
        simp [hr.dst, hr.src, hr.etype, hr.opcode, h5]
        omega
  · have : (p + 1 = beats c.lanes) ↔ (p = beats c.lanes - 1) := by omega
    simp only [this]
    rw [Bool.eq_iff_iff]; simp

/-! ### the registers -/

structure TInv (c : Cfg) (s : Tx) : Prop where
  temp : s.out.ready = true → s.out.temp = none
  sr : s.sready = true → s.out.ready = true ∧ s.mcf = false
  md : s.mcf = true → s.data = false ∧ s.ptr < c.cycles
  mr : s.mready = true ↔ (s.mcf = true ∧ s.ptr = c.cycles - 1 ∧ s.out.ready = true)
  ack : s.ack = true → s.data = false

theorem TInv.init (c : Cfg) : TInv c {} := by
  constructor <;> simp

theorem early_ready (c : Cfg) (s : Tx) (i : TxIn) : (s.out.step true (s.offer c i) i.ready).ready = s.early c i := by
  unfold Skid.step Tx.early
  obtain ⟨rd, m, t⟩ := s.out
  cases s.offer c i <;> cases rd <;> cases i.ready <;> cases m <;> cases t <;> rfl

theorem step_out (c : Cfg) (s : Tx) (i : TxIn) : (s.step c i).out = s.out.step true (s.offer c i) i.ready := by
  unfold Tx.step
  dsimp only
  (repeat' split) <;> rfl

theorem ptr_next {c : Cfg} {p : Nat} (h : p + 1 < c.cycles) : (p + 1) % 2 ^ RxHash.clog2 c.cycles = p + 1 :=
  Nat.mod_eq_of_lt (Nat.lt_of_lt_of_le h (StatsCollect.le_clog2 _))

theorem TInv.step {c : Cfg} (hL : 0 < c.lanes) {s : Tx} (I : TInv c s) (i : TxIn) : TInv c (s.step c i) := by
  have hc : 0 < c.cycles := by rw [cycles_eq hL]; exact beats_pos hL
  have hl : 59 / c.lanes = c.cycles - 1 := by rw [cycles_eq hL]; exact last_beat hL
  have hr : (s.step c i).out.ready = s.early c i := by rw [step_out, early_ready]
  have ht : (s.step c i).out.ready = true → (s.step c i).out.temp = none := by
    rw [step_out]; exact ArbMux.skid_temp I.temp
  obtain ⟨i1, i2, i3, i4, i5⟩ := I
  revert hr ht
  generalize hE : s.early c i = E
  generalize hO : s.out.step true (s.offer c i) i.ready = O
  unfold Tx.step
  dsimp only
  rw [hE, hO, hl]
  obtain ⟨sd, sm, sp, ss, smr, sa, sst, so⟩ := s
  dsimp only at *
  cases sm with
  | true =>
    obtain ⟨m1, m2⟩ := i3 rfl
    subst m1
    by_cases hrd : so.ready = true
    · simp only [hrd, if_true]
      by_cases hp : sp = c.cycles - 1
      · have : (sp == c.cycles - 1) = true := by simp [hp]
        simp only [this, if_true]
        intro h1 h2
        refine ⟨h2, ?_, by simp, by simp, by simp⟩
        intro h; dsimp only at *; rw [h1]
        cases E <;> simp_all
      · have : (sp == c.cycles - 1) = false := by simp [hp]
        simp only [this, Bool.false_eq_true, if_false]
        rw [ptr_next (by omega)]
        intro h1 h2
        refine ⟨h2, by simp, fun _ => ⟨rfl, by dsimp only; omega⟩, ?_, by simp⟩
        dsimp only at *; rw [h1]; simp
    · simp only [hrd, Bool.false_eq_true, if_false, if_true]
      intro h1 h2
      refine ⟨h2, by simp, fun _ => ⟨rfl, m2⟩, ?_, by simp⟩
      dsimp only at *; rw [h1]
      simp only [Bool.and_eq_true, Bool.or_eq_true, beq_iff_eq, true_and]
      constructor
      · rintro ⟨h | h, h'⟩
        · exact ⟨by omega, h'⟩
        · exact ⟨h, h'⟩
      · rintro ⟨h, h'⟩; exact ⟨Or.inr h, h'⟩
  | false =>
    have hmr : smr = false := by
      cases smr with
      | false => rfl
      | true => have := (i4.1 rfl).1; cases this
    subst hmr
    simp only [Bool.false_eq_true, if_false]
    have c1 : ∀ E : Bool, ((c.cycles == 1) && E) = true ↔ (0 = c.cycles - 1 ∧ E = true) := by
      intro E; simp only [Bool.and_eq_true, beq_iff_eq]
      constructor
      · rintro ⟨h, h'⟩; exact ⟨by omega, h'⟩
      · rintro ⟨h, h'⟩; exact ⟨by omega, h'⟩
    cases sd with
    | true =>
      have ha : sa = false := by
        cases sa with
        | false => rfl
        | true => cases i5 rfl
      subst ha
      simp only [if_true]
      (repeat' split) <;> intro h1 h2 <;> (refine ⟨h2, ?_, ?_, ?_, ?_⟩) <;> dsimp only at * <;> (try rw [h1]) <;> (try (simp; done)) <;> (try (cases E <;> simp; done))
      · intro _; exact ⟨rfl, hc⟩
      · rw [c1]; simp
    | false =>
      simp only [Bool.false_eq_true, if_false]
      (repeat' split) <;> intro h1 h2 <;> (refine ⟨h2, ?_, ?_, ?_, ?_⟩) <;> dsimp only at * <;> (try rw [h1]) <;> (try (simp; done)) <;> (try (cases E <;> simp; done))
      · intro _; exact ⟨rfl, hc⟩
      · rw [c1]; simp

theorem tx_inv {c : Cfg} (hL : 0 < c.lanes) (ins : Nat → TxIn) (n : Nat) : TInv c (tx c ins n) := by
  induction n with
  | zero => exact TInv.init c
  | succ n ih => exact ih.step hL (ins n)

/-! ### what the next state is -/

/-- in a control frame -/
theorem step_mcf {c : Cfg} (hL : 0 < c.lanes) {s : Tx} (i : TxIn) (hm : s.mcf = true) (hr : s.out.ready = true) :
    (s.step c i).data = s.data ∧ (s.step c i).ack = s.ack ∧
    (s.ptr = c.cycles - 1 → (s.step c i).mcf = false ∧ (s.step c i).sready = (s.early c i && !i.pause)) ∧
    (s.ptr ≠ c.cycles - 1 → (s.step c i).mcf = true ∧ (s.step c i).sready = false ∧ (s.ptr + 1 < c.cycles → (s.step c i).ptr = s.ptr + 1)) := by
  have hl : 59 / c.lanes = c.cycles - 1 := by rw [cycles_eq hL]; exact last_beat hL
  unfold Tx.step
  simp only [hm, hr, if_true, hl]
  by_cases hp : s.ptr = c.cycles - 1
  · simp [hp]
  · have : (s.ptr == c.cycles - 1) = false := by simp [hp]
    simp only [this, Bool.false_eq_true, if_false, hp, false_imp_iff, true_and, not_false_iff, true_imp_iff, ne_eq]
    exact fun h => ptr_next h

/-- in a control frame, the output not ready -/
theorem step_wait {c : Cfg} {s : Tx} (i : TxIn) (hm : s.mcf = true) (hr : s.out.ready = false) :
    (s.step c i).data = s.data ∧ (s.step c i).mcf = true ∧ (s.step c i).ptr = s.ptr ∧ (s.step c i).sready = false ∧ (s.step c i).ack = s.ack := by
  unfold Tx.step
  simp [hm, hr]

/-- a data transfer -/
theorem step_data {c : Cfg} {s : Tx} (i : TxIn) (b : Beat) (hm : s.mcf = false) (hb : (if s.sready then i.s else none) = some b) :
    (s.step c i).data = !b.last ∧
    (b.last = false → (s.step c i).mcf = false) ∧
    ((s.step c i).mcf = true → i.mcfValid = true ∧ (s.step c i).ptr = 0 ∧ s.data = true) ∧
    (b.last = true → s.data = true → (s.step c i).mcf = i.mcfValid ∧ (s.step c i).sready = (s.early c i && !i.pause && !i.mcfValid)) ∧
    (b.last = true → s.data = false → (s.step c i).mcf = false ∧ (s.step c i).sready = (s.early c i && !i.mcfValid && !s.mready)) ∧
    (s.data = false → (s.step c i).ack = false) ∧ (s.data = true → (s.step c i).ack = s.ack) ∧
    (b.last = false → (s.step c i).sready = s.early c i) := by
  unfold Tx.step
  dsimp only
  rw [hb]
  cases hd : s.data <;> cases hl : b.last <;> cases hv : i.mcfValid <;> simp [hm, hd, hl]

/-- no data transfer -/
theorem step_none {c : Cfg} {s : Tx} (i : TxIn) (hm : s.mcf = false) (hb : (if s.sready then i.s else none) = none) :
    (s.step c i).data = s.data ∧
    ((s.step c i).mcf = true → i.mcfValid = true ∧ (s.step c i).ptr = 0 ∧ s.data = false) ∧
    (s.data = false → (s.step c i).mcf = i.mcfValid ∧ (s.step c i).ack = i.pause ∧ (s.step c i).sready = (s.early c i && !i.pause && !i.mcfValid)) ∧
    (s.data = true → (s.step c i).ack = s.ack ∧ (s.step c i).sready = s.early c i ∧ (s.step c i).mcf = false) := by
  unfold Tx.step
  dsimp only
  rw [hb]
  cases hd : s.data <;> cases hv : i.mcfValid <;> simp [hm, hd]

/-! ### pieces -/

theorem inside_snoc (ps : List Piece) (p : Piece) : inside (ps ++ [p]) = (match inside ps, p with
    | none, _ => none
    | some _, .data b => some (!b.last)
    | some a, .ctrl _ => if a then none else some false) := by
  unfold inside
  rw [List.foldl_append]
  rfl

/-- the merged stream, of which the last control frame may be in part -/
structure Merged (c : Cfg) (ins : Nat → TxIn) (n : Nat) (ps : List Piece) : Prop where
  data : ps.filterMap Piece.isData = upTo (fun k => dataIn (tx c ins k) (ins k)) n
  ctrl : ps.filterMap Piece.isCtrl = upTo (fun k => reqIn (tx c ins k) (ins k)) n
  bound : inside ps = some (tx c ins n).data
  out : upTo (fun k => beatOut (tx c ins k) (ins k)) n ++ ((tx c ins n).out.m.toList ++ (tx c ins n).out.temp.toList)
    = ps.flatMap (Piece.beats c.lanes) ++ (if (tx c ins n).mcf then (ctrlFrame c.lanes (ins n).mcf).take (tx c ins n).ptr else [])
  held : (tx c ins n).mcf = true → (ins n).mcfValid = true

theorem merged {c : Cfg} (hL : 0 < c.lanes) (hP : c.params ≤ 44) {ins : Nat → TxIn} (hh : Held c ins) (hr : ∀ n, (ins n).mcf.Ok c.params) (n : Nat) :
    ∃ ps, Merged c ins n ps := by
  induction n with
  | zero =>
    refine ⟨[], ⟨rfl, rfl, rfl, rfl, fun h => by cases h⟩⟩
  | succ n ih =>
    obtain ⟨ps, M⟩ := ih
    have I := tx_inv hL ins n
    have hO : upTo (fun k => beatOut (tx c ins k) (ins k)) (n + 1) ++ ((tx c ins (n + 1)).out.m.toList ++ (tx c ins (n + 1)).out.temp.toList)
        = upTo (fun k => beatOut (tx c ins k) (ins k)) n ++ ((tx c ins n).out.m.toList ++ (tx c ins n).out.temp.toList) ++ ((tx c ins n).offer c (ins n)).toList := by
      have ho : (tx c ins n).out.ready = false → (tx c ins n).offer c (ins n) = none := by
        intro h
        unfold Tx.offer
        rw [h]
        have : (tx c ins n).sready = false := by
          cases hs : (tx c ins n).sready with
          | false => rfl
          | true => rw [(I.sr hs).1] at h; cases h
        rw [this]
        split <;> rfl
      have := ArbMux.skid_flow (e := true) (s := (tx c ins n).out) (o := (tx c ins n).offer c (ins n)) (r := (ins n).ready) I.temp ho
      rw [← step_out] at this
      show (_ ++ (if (ins n).ready then (tx c ins n).out.m.toList else [])) ++ (((tx c ins n).step c (ins n)).out.m.toList ++ ((tx c ins n).step c (ins n)).out.temp.toList) = _
      rw [List.append_assoc, this]
      simp only [List.append_assoc]
    have hmr0 : (tx c ins n).mcf = false → (tx c ins n).mready = false := by
      intro h
      cases hs : (tx c ins n).mready with
      | false => rfl
      | true => have := (I.mr.1 hs).1; rw [h] at this; cases this
    have hreq0 : (tx c ins n).mready = false → reqIn (tx c ins n) (ins n) = [] := by
      intro h; unfold reqIn; rw [h]; rfl
    show ∃ ps, Merged c ins (n + 1) ps
    have eS : tx c ins (n + 1) = (tx c ins n).step c (ins n) := rfl
    have eD : upTo (fun k => dataIn (tx c ins k) (ins k)) (n + 1) = upTo (fun k => dataIn (tx c ins k) (ins k)) n ++ dataIn (tx c ins n) (ins n) := rfl
    have eR : upTo (fun k => reqIn (tx c ins k) (ins k)) (n + 1) = upTo (fun k => reqIn (tx c ins k) (ins k)) n ++ reqIn (tx c ins n) (ins n) := rfl
    cases hm : (tx c ins n).mcf with
    | true =>
      have hs : (tx c ins n).sready = false := by
        cases hs : (tx c ins n).sready with
        | false => rfl
        | true => have := (I.sr hs).2; rw [hm] at this; cases this
      have hd : dataIn (tx c ins n) (ins n) = [] := by unfold dataIn; rw [hs]; rfl
      have hv := M.held hm
      obtain ⟨d0, p0⟩ := I.md hm
      cases hrd : (tx c ins n).out.ready with
      | false =>
        have hoff : (tx c ins n).offer c (ins n) = none := by unfold Tx.offer; rw [hm, hrd]; rfl
        obtain ⟨s1, s2, s3, s4, s5⟩ := step_wait (c := c) (ins n) hm hrd
        have hmr : (tx c ins n).mready = false := by
          cases hs : (tx c ins n).mready with
          | false => rfl
          | true => have := (I.mr.1 hs).2.2; rw [hrd] at this; cases this
        obtain ⟨q1, q2⟩ := hh n hv hmr
        refine ⟨ps, ⟨?_, ?_, ?_, ?_, fun _ => q1⟩⟩
        · rw [M.data, eD, hd, List.append_nil]
        · rw [M.ctrl, eR, hreq0 hmr, List.append_nil]
        · rw [M.bound, eS, s1]
        · rw [hO, M.out, hoff, eS, s2, s3, q2, hm]; simp
      | true =>
        have hoff : (tx c ins n).offer c (ins n) = some (ctrlBeat c (ins n).mcf (tx c ins n).ptr) := by unfold Tx.offer; rw [hm, hrd]; rfl
        have hg := ctrl_get c hL hP (ins n).mcf (hr n) (tx c ins n).ptr (by rw [← cycles_eq hL]; exact p0)
        have htk : (ctrlFrame c.lanes (ins n).mcf).take ((tx c ins n).ptr + 1) = (ctrlFrame c.lanes (ins n).mcf).take (tx c ins n).ptr ++ [ctrlBeat c (ins n).mcf (tx c ins n).ptr] := by
          rw [List.take_add_one, hg]; rfl
        obtain ⟨s1, s2, s3, s4⟩ := step_mcf hL (s := tx c ins n) (ins n) hm hrd
        by_cases hp : (tx c ins n).ptr = c.cycles - 1
        · have hmr : (tx c ins n).mready = true := I.mr.2 ⟨hm, hp, hrd⟩
          have hq : reqIn (tx c ins n) (ins n) = [(ins n).mcf] := by unfold reqIn; rw [hmr, hv]; rfl
          obtain ⟨t1, t2⟩ := s3 hp
          have hall : (ctrlFrame c.lanes (ins n).mcf).take ((tx c ins n).ptr + 1) = ctrlFrame c.lanes (ins n).mcf := by
            apply List.take_of_length_le
            rw [ctrlFrame_length, ← cycles_eq hL]; omega
          refine ⟨ps ++ [.ctrl (ins n).mcf], ⟨?_, ?_, ?_, ?_, fun h => by rw [eS, t1] at h; cases h⟩⟩
          · rw [List.filterMap_append, M.data, eD, hd]; rfl
          · rw [List.filterMap_append, M.ctrl, eR, hq]; rfl
          · rw [inside_snoc, M.bound, d0, eS, s1, d0]; rfl
          · rw [hO, M.out, hoff, eS, t1, hm]
            simp only [if_true, Bool.false_eq_true, if_false, List.flatMap_append, List.append_nil, List.append_assoc, Option.toList_some]
            rw [← htk, hall]
            simp [Piece.beats]
        · have hmr : (tx c ins n).mready = false := by
            cases hs : (tx c ins n).mready with
            | false => rfl
            | true => exact absurd (I.mr.1 hs).2.1 hp
          obtain ⟨t1, t2, t3⟩ := s4 hp
          have t3 := t3 (by omega)
          obtain ⟨q1, q2⟩ := hh n hv hmr
          refine ⟨ps, ⟨?_, ?_, ?_, ?_, fun _ => q1⟩⟩
          · rw [M.data, eD, hd, List.append_nil]
          · rw [M.ctrl, eR, hreq0 hmr, List.append_nil]
          · rw [M.bound, eS, s1]
          · rw [hO, M.out, hoff, eS, t1, t3, q2, hm, if_pos rfl, if_pos rfl, htk, List.append_assoc]; rfl
    | false =>
      have hmr := hmr0 hm
      have hoff : (tx c ins n).offer c (ins n) = (if (tx c ins n).sready then (ins n).s else none) := by unfold Tx.offer; rw [hm]; rfl
      have hdi : dataIn (tx c ins n) (ins n) = (if (tx c ins n).sready then (ins n).s else none).toList := by
        unfold dataIn; split <;> rfl
      have hout := M.out
      rw [hm] at hout
      simp only [Bool.false_eq_true, if_false, List.append_nil] at hout
      cases hb : (if (tx c ins n).sready then (ins n).s else none) with
      | some b =>
        obtain ⟨s1, s2, s3, _⟩ := step_data (c := c) (s := tx c ins n) (ins n) b hm hb
        refine ⟨ps ++ [.data b], ⟨?_, ?_, ?_, ?_, ?_⟩⟩
        · rw [List.filterMap_append, M.data, eD, hdi, hb]; rfl
        · rw [List.filterMap_append, M.ctrl, eR, hreq0 hmr]; rfl
        · rw [inside_snoc, M.bound, eS, s1]
        · rw [hO, hout, hoff, hb, List.flatMap_append]
          have : (if (tx c ins (n + 1)).mcf then (ctrlFrame c.lanes (ins (n + 1)).mcf).take (tx c ins (n + 1)).ptr else []) = [] := by
            split
            · rename_i h
              rw [eS] at h ⊢
              rw [(s3 h).2.1]; rfl
            · rfl
          rw [this]; simp [Piece.beats]
        · intro h
          rw [eS] at h
          exact (hh n (s3 h).1 hmr).1
      | none =>
        obtain ⟨s1, s2, _⟩ := step_none (c := c) (s := tx c ins n) (ins n) hm hb
        refine ⟨ps, ⟨?_, ?_, ?_, ?_, ?_⟩⟩
        · rw [M.data, eD, hdi, hb]; simp
        · rw [M.ctrl, eR, hreq0 hmr, List.append_nil]
        · rw [M.bound, eS, s1]
        · rw [hO, hout, hoff, hb]
          have : (if (tx c ins (n + 1)).mcf then (ctrlFrame c.lanes (ins (n + 1)).mcf).take (tx c ins (n + 1)).ptr else []) = [] := by
            split
            · rename_i h
              rw [eS] at h ⊢
              rw [(s2 h).2.1]; rfl
            · rfl
          rw [this]; simp
        · intro h
          rw [eS] at h
          exact (hh n (s2 h).1 hmr).1

end Corundum.MacCtrl
