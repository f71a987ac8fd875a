import Verif.Proof.DmaWrPlan
import Verif.Proof.DescFetch

/-! Invariants of the DMA write engine: pointers and queues. -/
namespace Corundum.DmaWr

section
variable {Byte : Type} {c : Par} {M : Nat}

theorem half_mod (g n : Nat) : g % 2 ^ (n + 1) % 2 ^ n = g % 2 ^ n := by
  rw [Nat.pow_succ]; exact Nat.mod_mul_right_mod _ _ _

theorem slot_eq (c : Par) (g : Nat) : c.slot (g % 2 ^ (c.ow + 1)) = g % 2 ^ c.ow := half_mod g c.ow

theorem inc_eq (c : Par) (g : Nat) : c.inc (g % 2 ^ (c.ow + 1)) = (g + 1) % 2 ^ (c.ow + 1) := by
  unfold Par.inc; rw [Nat.mod_add_mod]

theorem mod_win {a b k : Nat} (h1 : a ≤ b) (h2 : b < a + k) (h : a % k = b % k) : a = b := by
  have h3 : (b - a) % k = 0 := Nat.sub_mod_eq_zero_of_mod_eq h.symm
  rw [Nat.mod_eq_of_lt (by omega)] at h3
  omega

theorem mod_win' {a b g k : Nat} (h1 : g ≤ a) (h2 : a < g + k) (h3 : g ≤ b) (h4 : b < g + k) (h : a % k = b % k) : a = b := by
  rcases Nat.le_total a b with h5 | h5
  · exact mod_win h5 (by omega) h
  · exact (mod_win h5 (by omega) h.symm).symm

/-- the descriptor of a number -/
def look (s : St Byte) (i : Nat) : Option (Desc Byte × (Nat → Nat → Byte)) := s.hist[i]?

/-- all reads of an entry -/
def rds (c : Cfg) (j : Job Byte) : List (Job Byte × Rd) := (List.range (j.e.cyc + 1)).map fun k => (j, rdAt c j.e k)

def restTx (c : Cfg) (s : St Byte) : List (Job Byte × Rd) := match s.tx with | some (j, t) => (rds c j).drop (j.e.cyc - t.left) | none => []
def restRd (c : Cfg) (s : St Byte) : List (Job Byte × Rd) := match s.rd with | some (j, r) => (rds c j).drop (j.e.cyc - r.left) | none => []
def restCmd (c : Cfg) (s : St Byte) : List (Job Byte × Rd) := match s.cmd with | some j => rds c j | none => []

def TxAt (c : Cfg) (s : St Byte) : Prop :=
  match s.tx with
  | none => s.gts = s.gtf
  | some (j, t) => s.gts = s.gtf + 1 ∧ s.made[s.gtf]? = some j ∧ ∃ k, k ≤ j.e.cyc ∧ t = txAt c j.e k

structure Inv (c : Par) (s : St Byte) : Prop where
  given : ∀ x ∈ s.hist, x.1.Given c.toCfg
  plan : planFrom c.toCfg 0 s.hist = s.made ++ s.cur
  o1 : s.gf ≤ s.gtf
  o2 : s.gtf ≤ s.gts
  o3 : s.gts ≤ s.made.length
  o4 : s.made.length ≤ s.gf + 2 ^ c.ow
  sp : s.sp = s.made.length % 2 ^ (c.ow + 1)
  tsp : s.tsp = s.gts % 2 ^ (c.ow + 1)
  tfp : s.tfp = s.gtf % 2 ^ (c.ow + 1)
  fp : s.fp = s.gf % 2 ^ (c.ow + 1)
  act : ∀ n, s.active n = true ↔ ∃ k, s.gf ≤ k ∧ k < s.made.length ∧ k % 2 ^ c.ow = n
  tab : ∀ k, s.gf ≤ k → k < s.made.length → s.ent (k % 2 ^ c.ow) = s.made[k]?
  tx : TxAt c.toCfg s
  rdm : ∀ j r, s.rd = some (j, r) → j ∈ s.made ∧ ∃ k, k ≤ j.e.cyc ∧ r = rdAt c.toCfg j.e k
  cmdm : ∀ j, s.cmd = some j → j ∈ s.made
  queue : s.masks ++ restRd c.toCfg s ++ restCmd c.toCfg s = restTx c.toCfg s ++ (s.made.drop s.gts).flatMap (rds c.toCfg)
  segs : ∀ n, n < c.ram.segs → (s.resp n).map (·.1) ++ s.seg n = s.masks.filter fun m => m.2.need c.toCfg n
  stat : s.stat = (s.made.take s.gf).filterMap fun j => if j.e.last then some j.e.tag else none

theorem inv_init (c : Par) (mem : Nat → Nat → Byte) : Inv c (init mem) := by
  constructor <;> simp [init, planFrom, TxAt, restRd, restCmd, restTx]

theorem inv_job (hD : Dims c.toCfg M) {s : St Byte} (I : Inv c s) {j : Job Byte} (h : j ∈ s.made) : JobOk c.toCfg (look s) j := by
  refine plan_job hD (look s) s.hist 0 I.given ?_ j (by rw [I.plan]; exact List.mem_append_left _ h)
  intro t x hx; rw [Nat.zero_add]; exact hx

/-! ### the reads of an entry -/

theorem rds_drop_cons (c : Cfg) (j : Job Byte) {k : Nat} (h : k ≤ j.e.cyc) : (rds c j).drop k = (j, rdAt c j.e k) :: (rds c j).drop (k + 1) := by
  rw [List.drop_eq_getElem_cons (by unfold rds; simp; omega)]
  congr 1
  unfold rds; simp

theorem rds_drop_all (c : Cfg) (j : Job Byte) : (rds c j).drop (j.e.cyc + 1) = [] := by
  rw [List.drop_eq_nil_iff]; unfold rds; simp

theorem tx_left (c : Cfg) (e : Ent Byte) {k : Nat} (h : k ≤ e.cyc) : e.cyc - (txAt c e k).left = k := by
  show e.cyc - (e.cyc - k) = k
  omega

theorem rd_left (c : Cfg) (e : Ent Byte) {k : Nat} (h : k ≤ e.cyc) : e.cyc - (rdAt c e k).left = k := by
  show e.cyc - (e.cyc - k) = k
  omega

theorem tx_last (c : Cfg) (e : Ent Byte) {k : Nat} (h : k ≤ e.cyc) : (txAt c e k).last = decide (k = e.cyc) := by
  show (e.cyc - k == 0) = _
  rw [Bool.eq_iff_iff]; simp; omega

theorem rd_last (c : Cfg) (e : Ent Byte) {k : Nat} (h : k ≤ e.cyc) : (rdAt c e k).last = decide (k = e.cyc) := by
  show (e.cyc - k == 0) = _
  rw [Bool.eq_iff_iff]; simp; omega

/-! ### events -/

theorem inv_accept {s t : St Byte} {d : Desc Byte} (I : Inv c s) (hd : d.Given c.toCfg) (h : accept c s d = some t) : Inv c t := by
  unfold accept at h
  split at h
  · rename_i hc
    simp only [Option.some.injEq] at h
    subst h
    refine { I with given := ?_, plan := ?_ }
    · intro x hx
      rcases List.mem_append.1 hx with hx | hx
      · exact I.given x hx
      · rw [List.mem_singleton] at hx; subst hx; exact hd
    · show planFrom c.toCfg 0 (s.hist ++ [(d, s.mem)]) = s.made ++ jobs c.toCfg s.hist.length d
      have := I.plan
      rw [hc, List.append_nil] at this
      rw [planFrom_append, this, Nat.zero_add]
      simp only [planFrom, List.append_nil]
  · exact absurd h (by simp)

theorem inv_issue {s t : St Byte} (I : Inv c s) (h : issue c s = some t) : Inv c t := by
  unfold issue at h
  split at h
  · rename_i e es hc hcmd
    split at h
    · rename_i hg
      simp only [Option.some.injEq] at h
      have hw : c.slot s.sp = s.made.length % 2 ^ c.ow := by rw [I.sp, slot_eq]
      rw [hw] at h hg
      have o4' : s.made.length < s.gf + 2 ^ c.ow := by
        rcases Nat.lt_or_ge s.made.length (s.gf + 2 ^ c.ow) with h | h
        · exact h
        · exfalso
          have h5 := I.o4
          have h6 := Nat.two_pow_pos c.ow
          have : s.active (s.made.length % 2 ^ c.ow) = true := (I.act _).2 ⟨s.gf, Nat.le_refl _, by omega, by rw [show s.made.length = s.gf + 2 ^ c.ow by omega, Nat.add_mod_right]⟩
          rw [hg.1] at this; exact absurd this (by simp)
      have o3 := I.o3
      have o2 := I.o2
      have o1 := I.o1
      subst h
      refine { I with plan := ?_, o3 := ?_, o4 := ?_, sp := ?_, act := ?_, tab := ?_, tx := ?_, rdm := ?_, cmdm := ?_, queue := ?_, stat := ?_ }
      · show planFrom c.toCfg 0 s.hist = (s.made ++ [e]) ++ es
        rw [I.plan, hc]; simp
      · show s.gts ≤ (s.made ++ [e]).length
        rw [List.length_append]; omega
      · show (s.made ++ [e]).length ≤ s.gf + 2 ^ c.ow
        simp; omega
      · show c.inc s.sp = (s.made ++ [e]).length % 2 ^ (c.ow + 1)
        rw [I.sp, inc_eq, List.length_append]; rfl
      · intro n
        show upd s.active (s.made.length % 2 ^ c.ow) true n = true ↔ ∃ k, s.gf ≤ k ∧ k < (s.made ++ [e]).length ∧ k % 2 ^ c.ow = n
        unfold DmaRd.upd
        simp only [List.length_append, List.length_singleton]
        split
        · rename_i hn
          simp only [true_iff]
          exact ⟨s.made.length, by omega, by omega, hn.symm⟩
        · rename_i hn
          rw [I.act]
          constructor
          · rintro ⟨k, h1, h2, h3⟩; exact ⟨k, h1, by omega, h3⟩
          · rintro ⟨k, h1, h2, h3⟩
            refine ⟨k, h1, ?_, h3⟩
            rcases Nat.lt_or_ge k s.made.length with h | h
            · exact h
            · exfalso; apply hn; rw [← h3, show k = s.made.length by omega]
      · intro k h1 h2
        change k < (s.made ++ [e]).length at h2
        change s.gf ≤ k at h1
        simp only [List.length_append, List.length_singleton] at h2
        show upd s.ent (s.made.length % 2 ^ c.ow) (some e) (k % 2 ^ c.ow) = (s.made ++ [e])[k]?
        unfold DmaRd.upd
        rcases Nat.lt_or_ge k s.made.length with h | h
        · rw [if_neg, List.getElem?_append_left h, I.tab k h1 h]
          intro he
          have := mod_win' h1 (by omega) (show s.gf ≤ s.made.length by omega) o4' he
          omega
        · have : k = s.made.length := by omega
          subst this
          rw [if_pos rfl]; simp
      · have := I.tx
        unfold TxAt at this ⊢
        dsimp only
        revert this
        cases hx : s.tx with
        | none => simp
        | some p =>
          simp only
          rintro ⟨h1, h2, h3⟩
          exact ⟨h1, by rw [List.getElem?_append_left (by omega)]; exact h2, h3⟩
      · intro j r hr
        have := I.rdm j r hr
        exact ⟨List.mem_append_left _ this.1, this.2⟩
      · intro j hj
        change some e = some j at hj
        simp only [Option.some.injEq] at hj
        subst hj; exact List.mem_append_right _ (by simp)
      · have h1 := I.queue
        have h2 : restCmd c.toCfg s = [] := by unfold restCmd; rw [hcmd]
        rw [h2, List.append_nil] at h1
        show s.masks ++ restRd c.toCfg s ++ rds c.toCfg e = restTx c.toCfg s ++ ((s.made ++ [e]).drop s.gts).flatMap (rds c.toCfg)
        rw [h1, List.drop_append_of_le_length o3, List.flatMap_append, List.append_assoc]
        simp
      · show s.stat = ((s.made ++ [e]).take s.gf).filterMap _
        rw [List.take_append_of_le_length (by omega), I.stat]
    · exact absurd h (by simp)
  · exact absurd h (by simp)

theorem inv_fetch (hD : Dims c.toCfg M) {s t : St Byte} (I : Inv c s) (h : fetch c s = some t) : Inv c t := by
  unfold fetch at h
  split at h
  · rename_i j hc hr
    simp only [Option.some.injEq] at h
    have hm := I.cmdm j hc
    obtain ⟨d, snap, lo, T, _, _, he⟩ := inv_job hD I hm
    have hz := rd_zero hD he
    subst h
    refine { I with rdm := ?_, cmdm := ?_, queue := ?_ }
    · intro j' r hj
      change some (j, Rd.start c.toCfg j.e) = some (j', r) at hj
      simp only [Option.some.injEq, Prod.mk.injEq] at hj
      rw [← hj.1, ← hj.2]
      exact ⟨hm, 0, Nat.zero_le _, hz.symm⟩
    · intro j' hj; exact absurd hj (by simp)
    · have h1 := I.queue
      have h2 : restCmd c.toCfg s = rds c.toCfg j := by unfold restCmd; rw [hc]
      have h3 : restRd c.toCfg s = [] := by unfold restRd; rw [hr]
      rw [h2, h3, List.append_nil] at h1
      show s.masks ++ (rds c.toCfg j).drop (j.e.cyc - (Rd.start c.toCfg j.e).left) ++ [] = restTx c.toCfg s ++ (s.made.drop s.gts).flatMap (rds c.toCfg)
      rw [← h1, ← hz, rd_left _ _ (Nat.zero_le _), List.drop_zero, List.append_nil]
  · exact absurd h (by simp)

theorem inv_read (hD : Dims c.toCfg M) {s t : St Byte} (I : Inv c s) (h : read c s = some t) : Inv c t := by
  unfold read at h
  split at h
  · rename_i j r hr
    split at h
    · rename_i hg
      simp only [Option.some.injEq] at h
      obtain ⟨hm, k, hk, rfl⟩ := I.rdm j r hr
      obtain ⟨d, snap, lo, T, _, _, he⟩ := inv_job hD I hm
      have hq := I.queue
      have h3 : restRd c.toCfg s = (rds c.toCfg j).drop k := by unfold restRd; rw [hr]; dsimp only; rw [rd_left _ _ hk]
      rw [h3, rds_drop_cons _ _ hk] at hq
      have hlast := rd_last c.toCfg j.e hk
      have hseg : ∀ n, n < c.ram.segs → (s.resp n).map (·.1) ++ (if n < c.ram.segs ∧ (rdAt c.toCfg j.e k).need c.toCfg n = true then s.seg n ++ [(j, rdAt c.toCfg j.e k)] else s.seg n) =
          (s.masks ++ [(j, rdAt c.toCfg j.e k)]).filter fun m => m.2.need c.toCfg n := by
        intro n hn
        have := I.segs n hn
        rw [List.filter_append, ← this]
        by_cases hb : (rdAt c.toCfg j.e k).need c.toCfg n = true
        · simp [hn, hb, List.append_assoc]
        · simp [hb]
      rw [hlast] at h
      by_cases hkc : k = j.e.cyc
      · simp only [hkc, decide_true, if_true] at h
        subst h
        refine { I with rdm := ?_, queue := ?_, segs := ?_ }
        · intro j' r' hj; exact absurd hj (by simp)
        · show (s.masks ++ [(j, rdAt c.toCfg j.e j.e.cyc)]) ++ [] ++ restCmd c.toCfg s = restTx c.toCfg s ++ (s.made.drop s.gts).flatMap (rds c.toCfg)
          rw [← hq, hkc, rds_drop_all]; simp
        · rw [hkc] at hseg; exact hseg
      · simp only [hkc, decide_false, Bool.false_eq_true, if_false] at h
        subst h
        refine { I with rdm := ?_, queue := ?_, segs := ?_ }
        · intro j' r' hj
          change some (j, (rdAt c.toCfg j.e k).next c.toCfg) = some (j', r') at hj
          simp only [Option.some.injEq, Prod.mk.injEq] at hj
          rw [← hj.1, ← hj.2]
          exact ⟨hm, k + 1, by omega, (rd_succ hD he (by omega)).symm⟩
        · show (s.masks ++ [(j, rdAt c.toCfg j.e k)]) ++ (rds c.toCfg j).drop (j.e.cyc - ((rdAt c.toCfg j.e k).next c.toCfg).left) ++ restCmd c.toCfg s
            = restTx c.toCfg s ++ (s.made.drop s.gts).flatMap (rds c.toCfg)
          rw [← hq, ← rd_succ hD he (by omega), rd_left _ _ (by omega)]; simp
        · exact hseg
    · exact absurd h (by simp)
  · exact absurd h (by simp)

theorem inv_serve {s t : St Byte} {n : Nat} (I : Inv c s) (h : serve c s n = some t) : Inv c t := by
  unfold serve at h
  split at h
  · rename_i x xs hx
    simp only [Option.some.injEq] at h
    subst h
    refine { I with segs := ?_ }
    intro m hm
    have := I.segs m hm
    show (upd s.resp n _ m).map (·.1) ++ upd s.seg n xs m = _
    unfold DmaRd.upd
    by_cases hmn : m = n
    · subst hmn
      rw [hx] at this
      rw [if_pos rfl, if_pos rfl]
      simp only [List.map_append, List.map_cons, List.map_nil, List.append_assoc, List.singleton_append]
      exact this
    · rw [if_neg hmn, if_neg hmn]; exact this
  · exact absurd h (by simp)

theorem inv_begin (hD : Dims c.toCfg M) {s t : St Byte} (I : Inv c s) (h : begin' c s = some t) : Inv c t := by
  unfold begin' at h
  split at h
  · rename_i j hx hj
    split at h
    · rename_i hg
      simp only [Option.some.injEq] at h
      have ht := I.tx
      unfold TxAt at ht
      rw [hx] at ht
      dsimp only at ht
      have o1 := I.o1
      have o2 := I.o2
      have o3 := I.o3
      have hlt : s.gts < s.made.length := by
        rcases Nat.lt_or_ge s.gts s.made.length with h | h
        · exact h
        · exfalso; apply hg.2; rw [I.tsp, I.sp, show s.gts = s.made.length by omega]
      rw [I.tsp, slot_eq, I.tab _ (by omega) hlt] at hj
      obtain ⟨d, snap, lo, T, _, _, he⟩ := inv_job hD I (List.mem_of_getElem? hj)
      have hz := tx_zero hD he
      subst h
      refine { I with o2 := ?_, o3 := ?_, tsp := ?_, tx := ?_, queue := ?_ }
      · show s.gtf ≤ s.gts + 1
        omega
      · exact hlt
      · show c.inc s.tsp = (s.gts + 1) % 2 ^ (c.ow + 1)
        rw [I.tsp, inc_eq]
      · show s.gts + 1 = s.gtf + 1 ∧ s.made[s.gtf]? = some j ∧ ∃ k, k ≤ j.e.cyc ∧ Tx.start j.e = txAt c.toCfg j.e k
        exact ⟨by omega, by rw [← ht]; exact hj, 0, Nat.zero_le _, hz.symm⟩
      · have h1 := I.queue
        have h2 : restTx c.toCfg s = [] := by unfold restTx; rw [hx]
        rw [h2, List.nil_append] at h1
        show s.masks ++ restRd c.toCfg s ++ restCmd c.toCfg s = (rds c.toCfg j).drop (j.e.cyc - (Tx.start j.e).left) ++ (s.made.drop (s.gts + 1)).flatMap (rds c.toCfg)
        rw [h1, ← hz, tx_left _ _ (Nat.zero_le _), List.drop_zero, List.drop_eq_getElem_cons hlt, List.flatMap_cons]
        rw [List.getElem?_eq_getElem hlt] at hj
        simp only [Option.some.injEq] at hj
        rw [hj]
    · exact absurd h (by simp)
  · exact absurd h (by simp)

/-- what is at the head of the mask FIFO when a TLP is being sent -/
theorem head_mask (hD : Dims c.toCfg M) {s : St Byte} (I : Inv c s) {j : Job Byte} {k : Nat} {m : Job Byte × Rd} {ms : List (Job Byte × Rd)}
    (hx : s.tx = some (j, txAt c.toCfg j.e k)) (hk : k ≤ j.e.cyc) (hm : s.masks = m :: ms) : m = (j, rdAt c.toCfg j.e k) ∧
    ms ++ restRd c.toCfg s ++ restCmd c.toCfg s = (rds c.toCfg j).drop (k + 1) ++ (s.made.drop s.gts).flatMap (rds c.toCfg) := by
  have hq := I.queue
  have h3 : restTx c.toCfg s = (rds c.toCfg j).drop k := by unfold restTx; rw [hx]; dsimp only; rw [tx_left _ _ hk]
  rw [h3, rds_drop_cons _ _ hk, hm] at hq
  simp only [List.cons_append, List.cons.injEq] at hq
  exact hq

theorem inv_beat (hD : Dims c.toCfg M) {s t : St Byte} {junk : Nat → Byte} (I : Inv c s) (h : beat c s junk = some t) : Inv c t := by
  unfold beat at h
  split at h
  · rename_i j tt m ms hx hm
    split at h
    · rename_i hg
      simp only [Option.some.injEq] at h
      have ht := I.tx
      unfold TxAt at ht
      rw [hx] at ht
      dsimp only at ht
      obtain ⟨h1, h2, k, hk, rfl⟩ := ht
      obtain ⟨d, snap, lo, T, _, _, he⟩ := inv_job hD I (List.mem_of_getElem? h2)
      have hlast := tx_last c.toCfg j.e hk
      obtain ⟨rfl, hq⟩ := head_mask hD I hx hk hm
      have o1 := I.o1
      have hseg : ∀ n, n < c.ram.segs → (if n < c.ram.segs ∧ (rdAt c.toCfg j.e k).need c.toCfg n = true then (s.resp n).tail else s.resp n).map (·.1) ++ s.seg n =
          ms.filter fun m => m.2.need c.toCfg n := by
        intro n hn
        have h5 := I.segs n hn
        have h6 := List.all_eq_true.1 hg n (List.mem_range.2 hn)
        rw [hm, List.filter_cons] at h5
        dsimp only at h5 h6
        by_cases hb : (rdAt c.toCfg j.e k).need c.toCfg n = true
        · rw [hb] at h5 h6
          simp only [if_true] at h5
          cases hr : s.resp n with
          | nil => rw [hr] at h6; simp at h6
          | cons y ys =>
            rw [hr] at h5
            simp only [List.map_cons, List.cons_append, List.cons.injEq] at h5
            simp only [hn, hb, and_self, if_true, List.tail_cons]
            exact h5.2
        · simp only [hb] at h5 ⊢
          simpa using h5
      rw [hlast] at h
      by_cases hkc : k = j.e.cyc
      · simp only [hkc, decide_true, if_true] at h
        rw [hkc] at hq hseg
        subst h
        refine { I with o1 := ?_, o2 := ?_, tfp := ?_, tx := ?_, queue := ?_, segs := ?_ }
        · show s.gf ≤ s.gtf + 1
          omega
        · show s.gtf + 1 ≤ s.gts
          omega
        · show c.inc s.tfp = (s.gtf + 1) % 2 ^ (c.ow + 1)
          rw [I.tfp, inc_eq]
        · exact h1
        · show ms ++ restRd c.toCfg s ++ restCmd c.toCfg s = [] ++ (s.made.drop s.gts).flatMap (rds c.toCfg)
          rw [hq, rds_drop_all]
        · exact hseg
      · simp only [hkc, decide_false, Bool.false_eq_true, if_false] at h
        subst h
        refine { I with tx := ?_, queue := ?_, segs := ?_ }
        · exact ⟨h1, h2, k + 1, by omega, (tx_succ hD he (by omega)).symm⟩
        · show ms ++ restRd c.toCfg s ++ restCmd c.toCfg s = (rds c.toCfg j).drop (j.e.cyc - ((txAt c.toCfg j.e k).next c.toCfg).left) ++ (s.made.drop s.gts).flatMap (rds c.toCfg)
          rw [hq, ← tx_succ hD he (by omega), tx_left _ _ (by omega)]
        · exact hseg
    · exact absurd h (by simp)
  · exact absurd h (by simp)

theorem inv_ack {s t : St Byte} {k : Nat} (I : Inv c s) (h : ack c s k = some t) : Inv c t := by
  unfold ack at h
  split at h
  · simp only [Option.some.injEq] at h
    subst h
    exact { I with }
  · exact absurd h (by simp)

theorem finish_head {s : St Byte} {j : Job Byte} (I : Inv c s) (hj : s.ent (c.slot s.fp) = some j) (hne : s.fp ≠ s.tfp) : s.gf < s.gtf ∧ s.made[s.gf]? = some j := by
  have o1 := I.o1
  have o2 := I.o2
  have o3 := I.o3
  have hlt : s.gf < s.gtf := by
    rcases Nat.lt_or_ge s.gf s.gtf with h | h
    · exact h
    · exfalso; apply hne; rw [I.fp, I.tfp, show s.gf = s.gtf by omega]
  rw [I.fp, slot_eq, I.tab _ (by omega) (by omega)] at hj
  exact ⟨hlt, hj⟩

theorem inv_finish {s t : St Byte} (I : Inv c s) (h : finish c s = some t) : Inv c t := by
  unfold finish at h
  split at h
  · rename_i j hj
    split at h
    · rename_i hg
      simp only [Option.some.injEq] at h
      obtain ⟨hlt, hj'⟩ := finish_head I hj hg.2.2
      have o2 := I.o2
      have o3 := I.o3
      have o4 := I.o4
      have hpos := Nat.two_pow_pos c.ow
      rw [I.fp, slot_eq, inc_eq] at h
      subst h
      refine { I with o1 := ?_, o4 := ?_, fp := ?_, act := ?_, tab := ?_, stat := ?_ }
      · exact hlt
      · show s.made.length ≤ s.gf + 1 + 2 ^ c.ow
        omega
      · rfl
      · intro n
        show upd s.active (s.gf % 2 ^ c.ow) false n = true ↔ ∃ k, s.gf + 1 ≤ k ∧ k < s.made.length ∧ k % 2 ^ c.ow = n
        unfold DmaRd.upd
        split
        · rename_i hn
          simp only [Bool.false_eq_true, false_iff]
          rintro ⟨k, h1, h2, h3⟩
          have := mod_win' (show s.gf ≤ k by omega) (by omega) (Nat.le_refl _) (by omega) (h3.trans hn)
          omega
        · rename_i hn
          rw [I.act]
          constructor
          · rintro ⟨k, h1, h2, h3⟩
            refine ⟨k, ?_, h2, h3⟩
            rcases Nat.lt_or_ge s.gf k with h | h
            · exact h
            · exfalso; apply hn; rw [← h3, show k = s.gf by omega]
          · rintro ⟨k, h1, h2, h3⟩; exact ⟨k, by omega, h2, h3⟩
      · intro k h1 h2
        exact I.tab k (by change s.gf + 1 ≤ k at h1; omega) h2
      · show (if j.e.last then s.stat ++ [j.e.tag] else s.stat) = (s.made.take (s.gf + 1)).filterMap _
        rw [List.take_add_one, hj', Option.toList_some, List.filterMap_append, ← I.stat]
        cases hl : j.e.last <;> simp [hl]
    · exact absurd h (by simp)
  · exact absurd h (by simp)

theorem inv_step (hD : Dims c.toCfg M) {s t : St Byte} {e : Ev Byte} (I : Inv c s) (hl : Legal c s e) (h : step c s e = some t) : Inv c t := by
  cases e with
  | accept d => exact inv_accept I hl h
  | issue => exact inv_issue I h
  | fetch => exact inv_fetch hD I h
  | read => exact inv_read hD I h
  | serve n => exact inv_serve I h
  | begin => exact inv_begin hD I h
  | beat junk => exact inv_beat hD I h
  | ack k => exact inv_ack I h
  | finish => exact inv_finish I h
  | poke f =>
    simp only [step, Option.some.injEq] at h
    subst h
    exact { I with }

theorem reach_inv (hD : Dims c.toCfg M) {mem : Nat → Nat → Byte} {s : St Byte} (h : Reach c mem s) : Inv c s := by
  induction h with
  | init => exact inv_init c mem
  | step _ hl hs ih => exact inv_step hD ih hl hs

end

end Corundum.DmaWr
