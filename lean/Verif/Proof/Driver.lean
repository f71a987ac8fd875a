import Verif.Model.Driver
import Verif.Proof.Segments
import Verif.Props.Segments
/-! Invariant of the driver/device system and its preservation (helper lemmas for C04, C08). -/
namespace Corundum.Driver
open Segments

/-! ### Arithmetic -/

/-- wrap bit of a completion queue position -/
def wrapBit (k j : Nat) : Bool := (j &&& 2 ^ k) != 0

theorem wrapBit_eq (k j : Nat) : wrapBit k j = j.testBit k := by
  unfold wrapBit
  cases h : j.testBit k with
  | false =>
    have : j &&& 2 ^ k = 0 := by
      apply Nat.eq_of_testBit_eq
      intro i
      rw [Nat.testBit_and, Nat.testBit_two_pow, Nat.zero_testBit]
      by_cases hi : k = i
      · subst hi; simp [h]
      · simp [hi]
    simp [this]
  | true =>
    have : j &&& 2 ^ k ≠ 0 := by
      intro e
      have h2 : (j &&& 2 ^ k).testBit k = true := by
        rw [Nat.testBit_and, Nat.testBit_two_pow]; simp [h]
      rw [e] at h2; simp at h2
    simp [this]

theorem wrapBit_add (k j : Nat) : wrapBit k (j + 2 ^ k) = !wrapBit k j := by
  rw [wrapBit_eq, wrapBit_eq, Nat.add_comm, Nat.testBit_two_pow_add_eq]

theorem and_mask (x k : Nat) : x &&& (2 ^ k - 1) = x % 2 ^ k := Nat.and_two_pow_sub_one_eq_mod x k

theorem mod_inj_of_window {n a b c : Nat} (hb : a ≤ b) (hb' : b < a + n) (hc : a ≤ c)
    (hc' : c < a + n) (h : b % n = c % n) : b = c := by
  have hn : 0 < n := by omega
  have hd1 := Nat.div_add_mod b n
  have hd2 := Nat.div_add_mod c n
  rcases Nat.lt_trichotomy (b / n) (c / n) with h1 | h1 | h1
  · have : n * (b / n) + n ≤ n * (c / n) := by
      have := Nat.mul_le_mul_left n (show b / n + 1 ≤ c / n from h1)
      rw [Nat.mul_add] at this; omega
    omega
  · rw [h1] at hd1; omega
  · have : n * (c / n) + n ≤ n * (b / n) := by
      have := Nat.mul_le_mul_left n (show c / n + 1 ≤ b / n from h1)
      rw [Nat.mul_add] at this; omega
    omega

/-! ### Memory -/

theorem store_not_mem (ram : Int → Byte) (as : List Int) (vs : List Byte) (x : Int) (h : x ∉ as) :
    store ram as vs x = ram x := by
  induction as generalizing ram vs with
  | nil => cases vs <;> rfl
  | cons a as ih =>
    cases vs with
    | nil => rfl
    | cons v vs =>
      simp only [store]
      rw [ih]
      · simp at h; simp [h.1]
      · simp at h; exact h.2

theorem mem_block {x a : Int} {n : Nat} : x ∈ block a n ↔ ∃ i : Nat, i < n ∧ x = a + i := by
  simp only [block, List.mem_map, List.mem_range]
  constructor
  · rintro ⟨i, h, rfl⟩; exact ⟨i, h, rfl⟩
  · rintro ⟨i, h, rfl⟩; exact ⟨i, h, rfl⟩

theorem block_succ (a : Int) (n : Nat) : block a (n + 1) = a :: block (a + 1) n := by
  have := block_append a 1 n
  rw [Nat.add_comm] at this
  rw [← this]
  simp [block]

theorem store_block (vs : List Byte) : ∀ (ram : Int → Byte) (a : Int) (n : Nat), vs.length ≤ n →
    ∀ i (h : i < vs.length), store ram (block a n) vs (a + i) = vs[i] := by
  induction vs with
  | nil => intro ram a n _ i h; simp at h
  | cons v vs ih =>
    intro ram a n hn i hi
    obtain ⟨m, rfl⟩ : ∃ m, n = m + 1 := ⟨n - 1, by simp at hn; omega⟩
    rw [block_succ]
    simp only [store]
    cases i with
    | zero =>
      rw [store_not_mem]
      · simp
      · rw [mem_block]; rintro ⟨j, _, hj⟩; omega
    | succ i =>
      have h := ih (fun x => if x = a then v else ram x) (a + 1) m (by simp at hn; omega) i
        (by simp at hi; omega)
      have e : a + ((i + 1 : Nat) : Int) = a + 1 + (i : Int) := by omega
      rw [e, h]; rfl

/-! ### Invariant -/

structure CfgOk (cfg : Cfg) : Prop where
  buf16 : cfg.bufSize < 65536
  mtu : cfg.maxTxMtu + 10 ≤ cfg.bufSize
  disj : ∀ b b' i j : Nat, i < cfg.bufSize → j < cfg.bufSize →
    cfg.base b + (i : Int) = cfg.base b' + (j : Int) → b = b'

/-- Ring-local part. -/
structure RInv (g : Ring) (log : List (Nat × List Byte)) : Prop where
  log16 : g.logSize ≤ 16
  blk : 0 < g.blockSize
  cons_le : g.cons ≤ g.prod
  win : g.prod ≤ g.cons + g.size
  txwin : g.isTx = true → g.prod ≤ g.cons + g.fullSize
  nodup : (log.map Prod.fst).Nodup
  log_lt : ∀ p ∈ log.map Prod.fst, p < g.prod
  cq1 : g.cqCons ≤ log.length
  cq2 : log.length ≤ g.cqCons + g.cqSize
  fresh : ∀ j (h : j < log.length), g.cqCons ≤ j →
    g.cqBuf (j % g.cqSize) = ⟨log[j].1 % 65536, log[j].2.length % 65536, !wrapBit g.cqLog j⟩
  stale : ∀ j, log.length ≤ j → j < g.cqCons + g.cqSize →
    (g.cqBuf (j % g.cqSize)).phase = wrapBit g.cqLog j
  below : ∀ p, p < g.cons → p ∈ (log.take g.cqCons).map Prod.fst
  slot : ∀ p, g.cons ≤ p → p < g.prod →
    (g.info (p % g.size) = none ↔ p ∈ (log.take g.cqCons).map Prod.fst)
  empty : ∀ p, g.prod ≤ p → p < g.cons + g.size → g.info (p % g.size) = none
  range : ∀ i, g.size ≤ i → g.info i = none

/-- Buffer ownership. -/
structure Own (w : World) : Prop where
  lt : ∀ r i b, (w.rings r).info i = some b → b < w.nalloc
  notfree : ∀ r i b, (w.rings r).info i = some b → b ∉ w.free
  inj : ∀ r r' i i' b, (w.rings r).info i = some b → (w.rings r').info i' = some b → r = r' ∧ i = i'
  nodup : w.free.Nodup
  free_lt : ∀ b ∈ w.free, b < w.nalloc
  cover : ∀ b, b < w.nalloc → b ∈ w.free ∨ ∃ r i, (w.rings r).info i = some b

/-- Contents of buffers and descriptors. -/
structure DInv (cfg : Cfg) (s : Sys) : Prop where
  sent_len : ∀ r, (s.w.rings r).isTx = true → (s.sent r).length = (s.w.rings r).prod
  mtu : ∀ r, ∀ d ∈ s.sent r, d.length < cfg.maxTxMtu
  tx : ∀ r p b d, (s.w.rings r).isTx = true → (s.w.rings r).cons ≤ p → p < (s.w.rings r).prod →
    (s.w.rings r).info (p % (s.w.rings r).size) = some b → (s.sent r)[p]? = some d →
    (s.w.rings r).desc (p % (s.w.rings r).size) = txSegs d.length (cfg.base b + 10) (s.w.rings r).blockSize ∧
    ∀ i (h : i < d.length), s.w.ram (cfg.base b + 10 + (i : Int)) = d[i]
  rxdesc : ∀ r i b, (s.w.rings r).isTx = false → (s.w.rings r).info i = some b →
    (s.w.rings r).desc i = rxSegs cfg.bufSize (cfg.base b) (s.w.rings r).blockSize
  datalen : ∀ r, ∀ e ∈ s.log r, e.2.length ≤ cfg.bufSize
  rx : ∀ r j b (h : j < (s.log r).length), (s.w.rings r).isTx = false → (s.w.rings r).cqCons ≤ j →
    (s.w.rings r).info ((s.log r)[j].1 % (s.w.rings r).size) = some b →
    ∀ i (h' : i < (s.log r)[j].2.length), s.w.ram (cfg.base b + (i : Int)) = (s.log r)[j].2[i]
  rxq : ∀ r, (s.w.rings r).isTx = false → (s.w.rxq.filter (fun e => e.1 = r)).map Prod.snd =
    ((s.log r).take (s.w.rings r).cqCons).map Prod.snd
  rxqtx : ∀ r, (s.w.rings r).isTx = true → s.w.rxq.filter (fun e => e.1 = r) = []

structure Inv (cfg : Cfg) (s : Sys) : Prop where
  ring : ∀ r, RInv (s.w.rings r) (s.log r)
  own : Own s.w
  data : DInv cfg s

theorem size_pos (g : Ring) : 0 < g.size := Nat.two_pow_pos _
theorem cqSize_pos (g : Ring) : 0 < g.cqSize := Nat.two_pow_pos _
theorem mask_eq (g : Ring) (x : Nat) : x &&& g.mask = x % g.size := and_mask x g.logSize
theorem cqMask_eq (g : Ring) (x : Nat) : x &&& g.cqMask = x % g.cqSize := and_mask x g.cqLog

theorem upd_same {α : Type} (f : Nat → α) (k : Nat) (v : α) : upd f k v k = v := by simp [upd]
theorem upd_other {α : Type} (f : Nat → α) (k x : Nat) (v : α) (h : x ≠ k) : upd f k v x = f x := by
  simp [upd, h]

theorem idx16 (g : Ring) (h : g.logSize ≤ 16) (p : Nat) : p % 65536 % g.size = p % g.size := by
  apply Nat.mod_mod_of_dvd
  exact Nat.pow_dvd_pow 2 h

/-- A completion that has not been consumed belongs to a slot in the window that still holds a buffer. -/
theorem pending_slot {g : Ring} {log : List (Nat × List Byte)} (h : RInv g log) (j : Nat)
    (hj : j < log.length) (hc : g.cqCons ≤ j) :
    g.cons ≤ log[j].1 ∧ log[j].1 < g.prod ∧ ∃ b, g.info (log[j].1 % g.size) = some b := by
  have hm : log[j].1 ∈ log.map Prod.fst := List.mem_map.mpr ⟨log[j], List.getElem_mem hj, rfl⟩
  have hlt := h.log_lt _ hm
  have hnot : log[j].1 ∉ (log.take g.cqCons).map Prod.fst := by
    intro hmem
    rw [List.map_take] at hmem
    obtain ⟨i, hi, e⟩ := List.mem_iff_getElem.mp hmem
    rw [List.length_take, List.length_map] at hi
    rw [List.getElem_take] at e
    have hi2 : i < (log.map Prod.fst).length := by rw [List.length_map]; omega
    have hj2 : j < (log.map Prod.fst).length := by rw [List.length_map]; omega
    have e2 : (log.map Prod.fst)[i] = (log.map Prod.fst)[j] := by rw [e]; simp
    have := (List.getElem_inj (h₀ := hi2) (h₁ := hj2) h.nodup).mp e2
    omega
  have hge : g.cons ≤ log[j].1 := by
    rcases Nat.lt_or_ge log[j].1 g.cons with hlt' | hge
    · exact absurd (h.below _ hlt') hnot
    · exact hge
  refine ⟨hge, hlt, ?_⟩
  cases hi : g.info (log[j].1 % g.size) with
  | none => exact absurd ((h.slot _ hge hlt).mp hi) hnot
  | some b => exact ⟨b, rfl⟩

/-! ### Ownership preservation -/

theorem own_alloc {w : World} (h : Own w) (r index : Nat) (g' : Ring)
    (hnone : (w.rings r).info index = none)
    (hinfo : g'.info = upd (w.rings r).info index (some (allocPkt w).1)) :
    Own ((allocPkt w).2.setRing r g') := by
  -- facts about the allocated buffer
  have hb : (allocPkt w).1 < (allocPkt w).2.nalloc ∧ (allocPkt w).1 ∉ (allocPkt w).2.free ∧
      (∀ r i, (w.rings r).info i ≠ some (allocPkt w).1) ∧
      w.nalloc ≤ (allocPkt w).2.nalloc ∧ (allocPkt w).2.free.Nodup ∧
      (∀ b, b ∈ (allocPkt w).2.free → b ∈ w.free) ∧
      (∀ b, b < (allocPkt w).2.nalloc → b = (allocPkt w).1 ∨ (b < w.nalloc ∧ (b ∈ w.free → b ∈ (allocPkt w).2.free))) ∧
      (allocPkt w).2.rings = w.rings := by
    unfold allocPkt
    cases hf : w.free with
    | nil =>
      refine ⟨by simp, by simp, ?_, by simp, by simp, by simp, ?_, rfl⟩
      · intro r i e; have := h.lt _ _ _ e; simp at this
      · intro b hb; simp at hb; simp; omega
    | cons x t =>
      have hn := h.nodup
      rw [hf] at hn
      have hn' := List.nodup_cons.mp hn
      refine ⟨?_, hn'.1, ?_, by simp, hn'.2, by intro b hb; exact List.mem_cons_of_mem _ hb, ?_, rfl⟩
      · exact h.free_lt x (by rw [hf]; simp)
      · intro r i e; exact h.notfree _ _ _ e (by rw [hf]; simp)
      · intro b hb
        by_cases hbx : b = x
        · left; exact hbx
        · right; refine ⟨hb, fun hm => ?_⟩
          rcases List.mem_cons.mp hm with h1 | h1
          · exact absurd h1 hbx
          · exact h1
  obtain ⟨hlt, hnf, hfresh, hna, hnd, hsub, hcov, hrings⟩ := hb
  generalize hbb : (allocPkt w).1 = b at *
  generalize hww : (allocPkt w).2 = w' at *
  have look : ∀ r' i b', ((w'.setRing r g').rings r').info i = some b' →
      (r' = r ∧ i = index ∧ b' = b) ∨ ((w.rings r').info i = some b' ∧ ¬ (r' = r ∧ i = index)) := by
    intro r' i b' he
    simp only [World.setRing] at he
    by_cases hr : r' = r
    · subst hr
      rw [upd_same, hinfo] at he
      by_cases hi : i = index
      · subst hi; rw [upd_same] at he; left; exact ⟨rfl, rfl, by simpa using he.symm⟩
      · rw [upd_other _ _ _ _ hi] at he; right; exact ⟨he, fun e => hi e.2⟩
    · rw [upd_other _ _ _ _ hr, hrings] at he; right; exact ⟨he, fun e => hr e.1⟩
  constructor
  · intro r' i b' he
    rcases look r' i b' he with ⟨_, _, rfl⟩ | ⟨he, _⟩
    · exact hlt
    · have := h.lt _ _ _ he
      simp only [World.setRing]; omega
  · intro r' i b' he
    rcases look r' i b' he with ⟨_, _, rfl⟩ | ⟨he, _⟩
    · exact hnf
    · exact fun hm => h.notfree _ _ _ he (hsub _ hm)
  · intro r1 r2 i1 i2 b' h1 h2
    rcases look r1 i1 b' h1 with ⟨e1, e2, e3⟩ | ⟨e1, _⟩ <;>
      rcases look r2 i2 b' h2 with ⟨f1, f2, f3⟩ | ⟨f1, _⟩
    · exact ⟨by rw [e1, f1], by rw [e2, f2]⟩
    · rw [e3] at f1; exact absurd f1 (hfresh _ _)
    · rw [f3] at e1; exact absurd e1 (hfresh _ _)
    · exact h.inj _ _ _ _ _ e1 f1
  · exact hnd
  · intro b' hm
    have := h.free_lt _ (hsub _ hm)
    simp only [World.setRing]; omega
  · intro b' hl
    rcases hcov b' hl with rfl | ⟨hl', himp⟩
    · right; refine ⟨r, index, ?_⟩
      simp only [World.setRing]; rw [upd_same, hinfo, upd_same]
    · rcases h.cover b' hl' with hm | ⟨r', i, he⟩
      · left; exact himp hm
      · right; refine ⟨r', i, ?_⟩
        simp only [World.setRing]
        by_cases hr : r' = r
        · subst hr
          rw [upd_same, hinfo]
          have : i ≠ index := by rintro rfl; rw [hnone] at he; simp at he
          rw [upd_other _ _ _ _ this]; exact he
        · rw [upd_other _ _ _ _ hr, hrings]; exact he

/-- changing only non-`info` parts of a ring keeps ownership -/
theorem own_congr {w w' : World} (h : Own w) (hf : w'.free = w.free) (hn : w'.nalloc = w.nalloc)
    (hi : ∀ r, (w'.rings r).info = (w.rings r).info) : Own w' := by
  constructor
  · intro r i b; rw [hi, hn]; exact h.lt r i b
  · intro r i b; rw [hi, hf]; exact h.notfree r i b
  · intro r r' i i' b; rw [hi, hi]; exact h.inj r r' i i' b
  · rw [hf]; exact h.nodup
  · rw [hf, hn]; exact h.free_lt
  · intro b; rw [hf, hn]; intro hb
    rcases h.cover b hb with h1 | ⟨r, i, h1⟩
    · left; exact h1
    · right; exact ⟨r, i, by rw [hi]; exact h1⟩

theorem own_free {w : World} (h : Own w) (r index b : Nat) (g' : Ring)
    (hb : (w.rings r).info index = some b)
    (hinfo : g'.info = upd (w.rings r).info index none) :
    Own ({ w with free := w.free ++ [b] }.setRing r g') := by
  have look : ∀ r' i b', (({ w with free := w.free ++ [b] }.setRing r g').rings r').info i = some b' →
      (w.rings r').info i = some b' ∧ b' ≠ b := by
    intro r' i b' he
    simp only [World.setRing] at he
    by_cases hr : r' = r
    · subst hr
      rw [upd_same, hinfo] at he
      by_cases hi : i = index
      · subst hi; rw [upd_same] at he; simp at he
      · rw [upd_other _ _ _ _ hi] at he
        exact ⟨he, fun e => hi (h.inj _ _ _ _ _ (e ▸ he) hb).2⟩
    · rw [upd_other _ _ _ _ hr] at he
      exact ⟨he, fun e => hr (h.inj _ _ _ _ _ (e ▸ he) hb).1⟩
  constructor
  · intro r' i b' he; exact h.lt _ _ _ (look r' i b' he).1
  · intro r' i b' he
    have := look r' i b' he
    simp only [World.setRing, List.mem_append, List.mem_singleton]
    rintro (hm | hm)
    · exact h.notfree _ _ _ this.1 hm
    · exact this.2 hm
  · intro r1 r2 i1 i2 b' h1 h2
    exact h.inj _ _ _ _ _ (look _ _ _ h1).1 (look _ _ _ h2).1
  · simp only [World.setRing]
    rw [List.nodup_append]
    refine ⟨h.nodup, by simp, ?_⟩
    intro x hx y hy e
    simp at hy; subst hy; subst e
    exact h.notfree _ _ _ hb hx
  · intro b' hm
    simp only [World.setRing, List.mem_append, List.mem_singleton] at hm
    rcases hm with hm | rfl
    · exact h.free_lt _ hm
    · exact h.lt _ _ _ hb
  · intro b' hl
    simp only [World.setRing]
    rcases h.cover b' hl with hm | ⟨r', i, he⟩
    · left; simp [hm]
    · by_cases hbb : b' = b
      · left; simp [hbb]
      · right; refine ⟨r', i, ?_⟩
        by_cases hr : r' = r
        · subst hr
          rw [upd_same, hinfo]
          have : i ≠ index := by rintro rfl; rw [hb] at he; exact hbb (by simpa using he.symm)
          rw [upd_other _ _ _ _ this]; exact he
        · rw [upd_other _ _ _ _ hr]; exact he

/-! ### Ring-local preservation -/

/-- posting one slot -/
theorem rinv_post {g : Ring} {log : List (Nat × List Byte)} (h : RInv g log) (b : Nat)
    (d : Nat → List Seg) (hspace : g.prod < g.cons + g.size)
    (htx : g.isTx = true → g.prod < g.cons + g.fullSize) :
    RInv { g with info := upd g.info (g.prod % g.size) (some b), desc := d, prod := g.prod + 1 } log := by
  have hs := size_pos g
  constructor
  · exact h.log16
  · exact h.blk
  · show g.cons ≤ g.prod + 1; have := h.cons_le; omega
  · show g.prod + 1 ≤ g.cons + g.size; omega
  · intro ht; show g.prod + 1 ≤ g.cons + g.fullSize; have := htx ht; omega
  · exact h.nodup
  · intro p hp; show p < g.prod + 1; have := h.log_lt p hp; omega
  · exact h.cq1
  · exact h.cq2
  · exact h.fresh
  · exact h.stale
  · exact h.below
  · intro p h1 h2
    show upd g.info (g.prod % g.size) (some b) (p % g.size) = none ↔ _
    have h1 : g.cons ≤ p := h1
    have h2 : p < g.prod + 1 := h2
    by_cases hp : p = g.prod
    · subst hp
      rw [upd_same]
      simp only [reduceCtorEq, false_iff]
      intro hm
      have := h.log_lt g.prod (by
        rw [List.map_take] at hm
        exact List.mem_of_mem_take hm)
      omega
    · have : p % g.size ≠ g.prod % g.size := fun e =>
        hp (mod_inj_of_window (a := g.cons) h1 (by omega) h.cons_le hspace e)
      rw [upd_other _ _ _ _ this]
      exact h.slot p h1 (by omega)
  · intro p h1 h2
    show upd g.info (g.prod % g.size) (some b) (p % g.size) = none
    have h1 : g.prod + 1 ≤ p := h1
    have h2 : p < g.cons + g.size := h2
    have hc := h.cons_le
    have : p % g.size ≠ g.prod % g.size := fun e =>
      absurd (mod_inj_of_window (a := g.cons) (by omega) h2 hc hspace e) (by omega)
    rw [upd_other _ _ _ _ this]
    exact h.empty p (by omega) h2
  · intro i hi
    show upd g.info (g.prod % g.size) (some b) i = none
    have hi : g.size ≤ i := hi
    have := Nat.mod_lt g.prod hs
    rw [upd_other _ _ _ _ (by omega)]
    exact h.range i hi

/-- consuming one completion -/
theorem rinv_consume {g : Ring} {log : List (Nat × List Byte)} (h : RInv g log)
    (hj : g.cqCons < log.length) :
    RInv { g with info := upd g.info (log[g.cqCons].1 % g.size) none, cqCons := g.cqCons + 1 } log := by
  have hs := size_pos g
  have hcs := cqSize_pos g
  obtain ⟨hp1, hp2, b, hp3⟩ := pending_slot h g.cqCons hj (Nat.le_refl _)
  have htake : log.take (g.cqCons + 1) = log.take g.cqCons ++ [log[g.cqCons]] := by
    rw [List.take_succ_eq_append_getElem hj]
  have hmem : ∀ p, p ∈ (log.take (g.cqCons+1)).map Prod.fst ↔
      p ∈ (log.take g.cqCons).map Prod.fst ∨ p = log[g.cqCons].1 := by
    intro p; rw [htake, List.map_append, List.mem_append]; simp
  have hw := h.win
  constructor
  · exact h.log16
  · exact h.blk
  · exact h.cons_le
  · exact h.win
  · exact h.txwin
  · exact h.nodup
  · exact h.log_lt
  · exact hj
  · show log.length ≤ g.cqCons + 1 + g.cqSize; have := h.cq2; omega
  · intro j h1 h2
    have h2 : g.cqCons + 1 ≤ j := h2
    exact h.fresh j h1 (by omega)
  · intro j h1 h2
    have h2 : j < g.cqCons + 1 + g.cqSize := h2
    by_cases hjj : j = g.cqCons + g.cqSize
    · -- the record just consumed is now stale
      subst hjj
      show (g.cqBuf ((g.cqCons + g.cqSize) % g.cqSize)).phase = wrapBit g.cqLog (g.cqCons + g.cqSize)
      rw [Nat.add_mod_right, h.fresh g.cqCons hj (Nat.le_refl _)]
      exact (wrapBit_add g.cqLog g.cqCons).symm
    · exact h.stale j h1 (by omega)
  · intro p hp
    exact (hmem p).mpr (Or.inl (h.below p hp))
  · intro p h1 h2
    have h1 : g.cons ≤ p := h1
    have h2 : p < g.prod := h2
    show upd g.info (log[g.cqCons].1 % g.size) none (p % g.size) = none ↔
      p ∈ (log.take (g.cqCons+1)).map Prod.fst
    rw [hmem]
    by_cases hp : p = log[g.cqCons].1
    · rw [hp, upd_same]; simp
    · have : p % g.size ≠ log[g.cqCons].1 % g.size := fun e =>
        hp (mod_inj_of_window (a := g.cons) h1 (by omega) hp1 (by omega) e)
      rw [upd_other _ _ _ _ this, h.slot p h1 h2]
      constructor
      · exact Or.inl
      · rintro (h3 | h3)
        · exact h3
        · exact absurd h3 hp
  · intro p h1 h2
    show upd g.info (log[g.cqCons].1 % g.size) none (p % g.size) = none
    unfold upd
    split
    · rfl
    · exact h.empty p h1 h2
  · intro i hi
    show upd g.info (log[g.cqCons].1 % g.size) none i = none
    unfold upd
    split
    · rfl
    · exact h.range i hi

theorem scanTo_spec (g : Ring) (n : Nat) : ∀ c, c ≤ scanTo g n c ∧ scanTo g n c ≤ c + n ∧
    (∀ p, c ≤ p → p < scanTo g n c → g.info (p % g.size) = none) ∧
    (scanTo g n c < c + n → g.info (scanTo g n c % g.size) ≠ none) := by
  induction n with
  | zero => intro c; simp [scanTo]; intro p h1 h2; omega
  | succ n ih =>
    intro c
    unfold scanTo
    rw [mask_eq]
    cases hi : g.info (c % g.size) with
    | none =>
      simp only [Option.isSome_none, Bool.false_eq_true, if_false]
      obtain ⟨h1, h2, h3, h4⟩ := ih (c+1)
      refine ⟨by omega, by omega, ?_, fun h => h4 (by omega)⟩
      intro p hp1 hp2
      by_cases hp : p = c
      · subst hp; exact hi
      · exact h3 p (by omega) hp2
    | some b =>
      simp only [Option.isSome_some, if_true]
      refine ⟨by omega, by omega, ?_, ?_⟩
      · intro p hp1 hp2; omega
      · intro _; rw [hi]; simp

/-- advancing the consumer over released slots -/
theorem rinv_scan {g : Ring} {log : List (Nat × List Byte)} (h : RInv g log) :
    RInv { g with cons := scanTo g (g.prod - g.cons) g.cons } log := by
  have hc := h.cons_le
  obtain ⟨h1, h2, h3, _⟩ := scanTo_spec g (g.prod - g.cons) g.cons
  generalize scanTo g (g.prod - g.cons) g.cons = c at *
  constructor
  · exact h.log16
  · exact h.blk
  · show c ≤ g.prod; omega
  · show g.prod ≤ c + g.size; have := h.win; omega
  · intro ht; show g.prod ≤ c + g.fullSize; have := h.txwin ht; omega
  · exact h.nodup
  · exact h.log_lt
  · exact h.cq1
  · exact h.cq2
  · exact h.fresh
  · exact h.stale
  · intro p hp
    have hp : p < c := hp
    rcases Nat.lt_or_ge p g.cons with h4 | h4
    · exact h.below p h4
    · exact (h.slot p h4 (by omega)).mp (h3 p h4 hp)
  · intro p h4 h5
    have h4 : c ≤ p := h4
    exact h.slot p (by omega) h5
  · intro p h4 h5
    have h4 : g.prod ≤ p := h4
    have h5 : p < c + g.size := h5
    rcases Nat.lt_or_ge p (g.cons + g.size) with h6 | h6
    · exact h.empty p h4 h6
    · have := h3 (p - g.size) (by omega) (by omega)
      have e : p % g.size = (p - g.size) % g.size := by
        obtain ⟨q, hq⟩ : ∃ q, p = q + g.size := ⟨p - g.size, by omega⟩
        rw [hq, Nat.add_mod_right, Nat.add_sub_cancel]
      show g.info (p % g.size) = none
      rw [e]; exact this
  · exact h.range

/-- the record `devComplete` writes -/
def mkCpl (g : Ring) (pos : Nat) (data : List Byte) (n : Nat) : Cpl :=
  { index := pos % 65536, len := data.length % 65536, phase := !((n &&& g.cqSize) != 0) }

/-- the device writes a completion -/
theorem rinv_dev {g : Ring} {log : List (Nat × List Byte)} (h : RInv g log) (pos : Nat)
    (data : List Byte) (h1 : pos < g.prod) (h2 : pos ∉ log.map Prod.fst)
    (h3 : log.length < g.cqCons + g.cqSize) :
    RInv { g with cqBuf := upd g.cqBuf (log.length % g.cqSize) (mkCpl g pos data log.length) }
      (log ++ [(pos, data)]) := by
  have htake : (log ++ [(pos, data)]).take g.cqCons = log.take g.cqCons :=
    List.take_append_of_le_length h.cq1
  have hcq := h.cq1
  constructor
  · exact h.log16
  · exact h.blk
  · exact h.cons_le
  · exact h.win
  · exact h.txwin
  · rw [List.map_append, List.nodup_append]
    refine ⟨h.nodup, by simp, ?_⟩
    intro x hx y hy e
    simp at hy; subst hy; subst e; exact h2 hx
  · intro p hp
    rw [List.map_append, List.mem_append] at hp
    rcases hp with hp | hp
    · exact h.log_lt p hp
    · simp at hp; subst hp; exact h1
  · show g.cqCons ≤ (log ++ [(pos, data)]).length; simp; omega
  · show (log ++ [(pos, data)]).length ≤ g.cqCons + g.cqSize; simp; omega
  · intro j hj hc
    have hc : g.cqCons ≤ j := hc
    show upd g.cqBuf (log.length % g.cqSize) _ (j % g.cqSize) = _
    by_cases hjl : j = log.length
    · subst hjl
      rw [upd_same]
      simp [mkCpl, wrapBit, Ring.cqSize]
    · have hj' : j < log.length := by simp at hj; omega
      have hne : j % g.cqSize ≠ log.length % g.cqSize := fun e =>
        hjl (mod_inj_of_window (a := g.cqCons) hc (by omega) hcq h3 e)
      rw [upd_other _ _ _ _ hne, h.fresh j hj' hc]
      rw [List.getElem_append_left hj']
  · intro j hj hc
    have hc : j < g.cqCons + g.cqSize := hc
    simp at hj
    show (upd g.cqBuf (log.length % g.cqSize) _ (j % g.cqSize)).phase = _
    have hne : j % g.cqSize ≠ log.length % g.cqSize := fun e =>
      absurd (mod_inj_of_window (a := g.cqCons) (by omega) hc hcq h3 e) (by omega)
    rw [upd_other _ _ _ _ hne]
    exact h.stale j (by omega) hc
  · intro p hp
    show p ∈ ((log ++ [(pos, data)]).take g.cqCons).map Prod.fst
    rw [htake]; exact h.below p hp
  · intro p h4 h5
    show _ ↔ p ∈ ((log ++ [(pos, data)]).take g.cqCons).map Prod.fst
    rw [htake]; exact h.slot p h4 h5
  · exact h.empty
  · exact h.range

end Corundum.Driver
