import Verif.Proof.DmaWrData

/-! Invariants of the DMA write engine: sequence numbers; progress. -/
namespace Corundum.DmaWr

section
variable {Byte : Type} {c : Par} {M : Nat}

/-- the TLP `k` has been begun on the bus -/
def Begun (s : St Byte) (k : Nat) : Prop := k < s.gtf ∨ (k = s.gtf ∧ ∃ j t, s.tx = some (j, t) ∧ t.frame = true)

structure Seq (c : Par) (s : St Byte) : Prop where
  nodup : s.await.Nodup
  begun : ∀ k ∈ s.await, Begun s k
  live : c.seqEn = true → ∀ k ∈ s.await, s.gf ≤ k
  done : c.seqEn = true → ∀ k, s.gf ≤ k → k < s.made.length → (s.txDone (k % 2 ^ c.ow) = true ↔ Begun s k ∧ k ∉ s.await)

theorem seq_init (c : Par) (mem : Nat → Nat → Byte) : Seq c (init mem) := by
  constructor <;> simp [init]

theorem begun_congr {s t : St Byte} (h1 : t.gtf = s.gtf) (h2 : t.tx = s.tx) (k : Nat) : Begun t k ↔ Begun s k := by
  unfold Begun; rw [h1, h2]

theorem begun_lt {s : St Byte} (I : Inv c s) {k : Nat} (h : Begun s k) : k < s.made.length := by
  have o2 := I.o2
  have o3 := I.o3
  rcases h with h | ⟨rfl, j, t, hx, _⟩
  · omega
  · have := I.tx
    unfold TxAt at this
    rw [hx] at this
    have := this.1
    omega

theorem seq_congr {s t : St Byte} (S : Seq c s) (h1 : t.gtf = s.gtf) (h2 : t.tx = s.tx) (h3 : t.await = s.await) (h4 : t.gf = s.gf) (h5 : t.made = s.made) (h6 : t.txDone = s.txDone) : Seq c t := by
  constructor
  · rw [h3]; exact S.nodup
  · intro k hk; rw [begun_congr h1 h2]; rw [h3] at hk; exact S.begun k hk
  · intro he k hk; rw [h4]; rw [h3] at hk; exact S.live he k hk
  · intro he k; rw [begun_congr h1 h2, h3, h4, h5, h6]; exact S.done he k

theorem seq_step (hD : Dims c.toCfg M) {s t : St Byte} {e : Ev Byte} (I : Inv c s) (S : Seq c s) (h : step c s e = some t) : Seq c t := by
  cases e with
  | accept d =>
    simp only [step] at h
    unfold accept at h
    split at h
    · simp only [Option.some.injEq] at h
      subst h
      exact seq_congr S rfl rfl rfl rfl rfl rfl
    · exact absurd h (by simp)
  | issue =>
    have I' := inv_issue I h
    simp only [step] at h
    unfold issue at h
    split at h
    · rename_i e es hc hcmd
      split at h
      · rename_i hg
        simp only [Option.some.injEq] at h
        rw [show c.slot s.sp = s.made.length % 2 ^ c.ow by rw [I.sp, slot_eq]] at h
        have o4 := I'.o4
        have o1 := I.o1
        have o2 := I.o2
        have o3 := I.o3
        subst h
        refine ⟨S.nodup, S.begun, S.live, ?_⟩
        intro he k h1 h2
        change s.gf ≤ k at h1
        change k < (s.made ++ [e]).length at h2
        change (s.made ++ [e]).length ≤ s.gf + 2 ^ c.ow at o4
        rw [List.length_append, List.length_singleton] at h2 o4
        show upd s.txDone (s.made.length % 2 ^ c.ow) false (k % 2 ^ c.ow) = true ↔ Begun s k ∧ k ∉ s.await
        unfold DmaRd.upd
        rcases Nat.lt_or_ge k s.made.length with h | h
        · rw [if_neg]
          · exact S.done he k h1 h
          · intro hh
            have := mod_win' h1 (by omega) (show s.gf ≤ s.made.length by omega) (by omega) hh
            omega
        · have : k = s.made.length := by omega
          subst this
          rw [if_pos rfl]
          simp only [Bool.false_eq_true, false_iff]
          intro hb
          exact absurd (begun_lt I hb.1) (Nat.lt_irrefl _)
      · exact absurd h (by simp)
    · exact absurd h (by simp)
  | fetch =>
    simp only [step] at h
    unfold fetch at h
    split at h
    · simp only [Option.some.injEq] at h
      subst h
      exact seq_congr S rfl rfl rfl rfl rfl rfl
    · exact absurd h (by simp)
  | read =>
    simp only [step] at h
    unfold read at h
    split at h
    · split at h
      · simp only [Option.some.injEq] at h
        subst h
        exact seq_congr S rfl rfl rfl rfl rfl rfl
      · exact absurd h (by simp)
    · exact absurd h (by simp)
  | serve n =>
    simp only [step] at h
    unfold serve at h
    split at h
    · simp only [Option.some.injEq] at h
      subst h
      exact seq_congr S rfl rfl rfl rfl rfl rfl
    · exact absurd h (by simp)
  | begin =>
    simp only [step] at h
    unfold begin' at h
    split at h
    · rename_i j hx hj
      split at h
      · simp only [Option.some.injEq] at h
        have hb : ∀ k, Begun t k ↔ Begun s k := by
          intro k
          subst h
          unfold Begun
          rw [hx]
          constructor
          · rintro (h | ⟨_, j', t', h1, h2⟩)
            · exact Or.inl h
            · simp only [Option.some.injEq, Prod.mk.injEq] at h1
              rw [← h1.2] at h2
              exact absurd h2 (by simp [Tx.start])
          · rintro (h | ⟨_, j', t', h1, h2⟩)
            · exact Or.inl h
            · exact absurd h1 (by simp)
        constructor
        · rw [← h]; exact S.nodup
        · intro k hk; rw [hb]; rw [← h] at hk; exact S.begun k hk
        · rw [← h]; exact S.live
        · intro he k; rw [hb, ← h]; exact S.done he k
      · exact absurd h (by simp)
    · exact absurd h (by simp)
  | beat junk =>
    simp only [step] at h
    unfold beat at h
    split at h
    · rename_i j tt m ms hx hm
      split at h
      · rename_i hg
        simp only [Option.some.injEq] at h
        have ht := I.tx
        unfold TxAt at ht
        rw [hx] at ht
        dsimp only at ht
        obtain ⟨h1, h2, k, hk, rfl⟩ := ht
        have o1 := I.o1
        have hfr : (txAt c.toCfg j.e k).frame = (k != 0) := rfl
        have hb : ∀ i, Begun t i ↔ i ≤ s.gtf := by
          intro i
          subst h
          unfold Begun
          dsimp only
          rw [tx_last _ _ hk]
          by_cases hkc : k = j.e.cyc
          · simp only [hkc, decide_true, if_true]
            constructor
            · rintro (h | ⟨_, j', t', h1, h2⟩)
              · omega
              · exact absurd h1 (by simp)
            · intro h; exact Or.inl (by omega)
          · simp only [hkc, decide_false, Bool.false_eq_true, if_false]
            constructor
            · rintro (h | ⟨h, _⟩)
              · omega
              · omega
            · intro h
              rcases Nat.lt_or_ge i s.gtf with h' | h'
              · exact Or.inl h'
              · exact Or.inr ⟨by omega, _, _, rfl, rfl⟩
        have hs : ∀ i, Begun s i ↔ (i < s.gtf ∨ (i = s.gtf ∧ k ≠ 0)) := by
          intro i
          unfold Begun
          rw [hx]
          constructor
          · rintro (h | ⟨h, j', t', h1, h2⟩)
            · exact Or.inl h
            · simp only [Option.some.injEq, Prod.mk.injEq] at h1
              rw [← h1.2, hfr] at h2
              exact Or.inr ⟨h, by simpa using h2⟩
          · rintro (h | ⟨h, h1⟩)
            · exact Or.inl h
            · exact Or.inr ⟨h, _, _, rfl, by rw [hfr]; simpa using h1⟩
        have ha : t.await = if k = 0 then s.gtf :: s.await else s.await := by
          rw [← h]
          dsimp only
          rw [hfr]
          by_cases h0 : k = 0 <;> simp [h0]
        have hgf : t.gf = s.gf := by rw [← h]
        have hmd : t.made = s.made := by rw [← h]
        have htd : t.txDone = s.txDone := by rw [← h]
        have hni : k = 0 → s.gtf ∉ s.await := by
          intro h0 hi
          have := (hs _).1 (S.begun _ hi)
          omega
        constructor
        · rw [ha]
          split
          · rename_i h0
            exact List.nodup_cons.2 ⟨hni h0, S.nodup⟩
          · exact S.nodup
        · intro i hi
          rw [hb]
          rw [ha] at hi
          have : i = s.gtf ∨ i ∈ s.await := by
            split at hi
            · exact List.mem_cons.1 hi
            · exact Or.inr hi
          rcases this with rfl | h
          · exact Nat.le_refl _
          · have := (hs i).1 (S.begun i h)
            omega
        · intro he i hi
          rw [hgf]
          rw [ha] at hi
          have : i = s.gtf ∨ i ∈ s.await := by
            split at hi
            · exact List.mem_cons.1 hi
            · exact Or.inr hi
          rcases this with rfl | h
          · exact o1
          · exact S.live he i h
        · intro he i hi1 hi2
          rw [hgf] at hi1
          rw [hmd] at hi2
          rw [htd, hb, ha, S.done he i hi1 hi2, hs]
          by_cases h0 : k = 0
          · simp only [h0, if_true, List.mem_cons, not_or]
            constructor
            · rintro ⟨h3, h4⟩
              exact ⟨by omega, by omega, h4⟩
            · rintro ⟨h3, h4, h5⟩
              exact ⟨Or.inl (by omega), h5⟩
          · simp only [h0, if_false]
            constructor
            · rintro ⟨h3, h4⟩
              exact ⟨by omega, h4⟩
            · rintro ⟨h3, h4⟩
              exact ⟨by omega, h4⟩
      · exact absurd h (by simp)
    · exact absurd h (by simp)
  | ack k =>
    simp only [step] at h
    unfold ack at h
    split at h
    · rename_i hk
      simp only [Option.some.injEq] at h
      subst h
      have hmem : ∀ i, i ∈ s.await.erase k ↔ i ≠ k ∧ i ∈ s.await := fun i => S.nodup.mem_erase_iff
      refine ⟨S.nodup.erase k, ?_, ?_, ?_⟩
      · intro i hi; exact S.begun i ((hmem i).1 hi).2
      · intro he i hi; exact S.live he i ((hmem i).1 hi).2
      · intro he i h1 h2
        change s.gf ≤ i at h1
        change i < s.made.length at h2
        show upd s.txDone (c.slot k) true (i % 2 ^ c.ow) = true ↔ Begun s i ∧ i ∉ s.await.erase k
        unfold DmaRd.upd Par.slot
        rw [hmem]
        have hd := S.done he i h1 h2
        have o4 := I.o4
        by_cases hik : i = k
        · subst hik
          rw [if_pos rfl]
          simp only [true_iff]
          exact ⟨S.begun i hk, fun h => h.1 rfl⟩
        · rw [if_neg, hd]
          · constructor
            · rintro ⟨h3, h4⟩; exact ⟨h3, fun h => h4 h.2⟩
            · rintro ⟨h3, h4⟩; exact ⟨h3, fun h => h4 ⟨hik, h⟩⟩
          · intro hh
            have h3 := S.live he k hk
            have h4 := begun_lt I (S.begun k hk)
            exact hik (mod_win' h1 (by omega) h3 (by omega) hh)
    · exact absurd h (by simp)
  | finish =>
    simp only [step] at h
    unfold finish at h
    split at h
    · rename_i j hj
      split at h
      · rename_i hg
        simp only [Option.some.injEq] at h
        obtain ⟨hlt, hj'⟩ := finish_head I hj hg.2.2
        have o2 := I.o2
        have o3 := I.o3
        subst h
        refine ⟨S.nodup, S.begun, ?_, ?_⟩
        · intro he k hk
          have h1 := S.live he k hk
          show s.gf + 1 ≤ k
          rcases Nat.lt_or_ge s.gf k with h | h
          · exact h
          · exfalso
            have : k = s.gf := by omega
            subst this
            have h2 := hg.2.1 he
            rw [I.fp, slot_eq] at h2
            exact ((S.done he s.gf (Nat.le_refl _) (by omega)).1 h2).2 hk
        · intro he k h1 h2
          exact S.done he k (by change s.gf + 1 ≤ k at h1; omega) h2
      · exact absurd h (by simp)
    · exact absurd h (by simp)
  | poke f =>
    simp only [step, Option.some.injEq] at h
    subst h
    exact seq_congr S rfl rfl rfl rfl rfl rfl

theorem reach_seq (hD : Dims c.toCfg M) {mem : Nat → Nat → Byte} {s : St Byte} (h : Reach c mem s) : Seq c s := by
  induction h with
  | init => exact seq_init c mem
  | step hr hl hs ih => exact seq_step hD (reach_inv hD hr) ih hs

/-! ### progress -/

theorem rds_ne (c : Cfg) (j : Job Byte) : rds c j ≠ [] := by
  intro h
  have : (rds c j).length = 0 := by rw [h]; rfl
  unfold rds at this; simp at this

/-- when nothing can happen by itself, all is done -/
theorem stuck (hD : Dims c.toCfg M) {s : St Byte} (I : Inv c s) (S : Seq c s) (hs : ∀ e, Inner e → step c s e = none) : s.cur = [] ∧ s.gf = s.made.length := by
  have o1 := I.o1
  have o2 := I.o2
  have o3 := I.o3
  have o4 := I.o4
  have hpos := Nat.two_pow_pos c.ow
  have hpos2 := Nat.two_pow_pos (c.ow + 1)
  have htx := I.tx
  unfold TxAt at htx
  -- no beat can be waiting for anything
  have hmask : s.masks = [] := by
    cases hm : s.masks with
    | nil => rfl
    | cons m ms =>
      exfalso
      cases hx : s.tx with
      | none =>
        rw [hx] at htx
        dsimp only at htx
        have hq := I.queue
        have hr : restTx c.toCfg s = [] := by unfold restTx; rw [hx]
        rw [hr, hm, List.nil_append] at hq
        have hlt : s.gts < s.made.length := by
          rcases Nat.lt_or_ge s.gts s.made.length with h | h
          · exact h
          · rw [List.drop_eq_nil_of_le h] at hq; simp at hq
        have hb := hs .begin trivial
        have ht := I.tab s.gts (by omega) hlt
        rw [List.getElem?_eq_getElem hlt] at ht
        simp only [step, begin', hx, I.tsp, slot_eq, ht] at hb
        rw [if_pos] at hb
        · exact absurd hb (by simp)
        · refine ⟨(I.act _).2 ⟨s.gts, by omega, hlt, rfl⟩, ?_⟩
          intro he
          rw [I.sp] at he
          have := mod_win (a := s.gts) (b := s.made.length) o3 (by rw [Nat.pow_succ]; omega) he
          omega
      | some p =>
        obtain ⟨j, t⟩ := p
        have hb := hs (.beat fun _ => s.mem 0 0) trivial
        simp only [step, beat, hx, hm] at hb
        by_cases hall : (List.range c.ram.segs).all (fun n => !m.2.need c.toCfg n || !(s.resp n).isEmpty) = true
        · rw [if_pos hall] at hb
          exact absurd hb (by simp)
        · apply hall
          rw [List.all_eq_true]
          intro n hn
          rw [List.mem_range] at hn
          cases hnd : m.2.need c.toCfg n with
          | false => rfl
          | true =>
            have h5 := I.segs n hn
            rw [hm, List.filter_cons] at h5
            simp only [hnd, if_true] at h5
            cases hr : s.resp n with
            | cons => rfl
            | nil =>
              exfalso
              rw [hr, List.map_nil, List.nil_append] at h5
              have h6 := hs (.serve n) trivial
              simp only [step, serve, h5] at h6
              exact absurd h6 (by simp)
  have hrd : s.rd = none := by
    cases hr : s.rd with
    | none => rfl
    | some p =>
      exfalso
      obtain ⟨j, r⟩ := p
      have h1 := hs .read trivial
      simp only [step, read, hr, hmask] at h1
      rw [if_pos (show ([] : List (Job Byte × Rd)).length ≤ 2 ^ (c.ow + 1) from Nat.zero_le _)] at h1
      exact absurd h1 (by simp)
  have hcmd : s.cmd = none := by
    cases hr : s.cmd with
    | none => rfl
    | some j =>
      exfalso
      have h1 := hs .fetch trivial
      simp only [step, fetch, hr, hrd] at h1
      exact absurd h1 (by simp)
  have hq := I.queue
  have e1 : restRd c.toCfg s = [] := by unfold restRd; rw [hrd]
  have e2 : restCmd c.toCfg s = [] := by unfold restCmd; rw [hcmd]
  rw [hmask, e1, e2] at hq
  simp only [List.append_nil] at hq
  have hq' := List.append_eq_nil_iff.1 hq.symm
  have hx : s.tx = none := by
    cases hx : s.tx with
    | none => rfl
    | some p =>
      exfalso
      obtain ⟨j, t⟩ := p
      rw [hx] at htx
      obtain ⟨_, _, k, hk, rfl⟩ := htx
      have := hq'.1
      unfold restTx at this
      rw [hx] at this
      dsimp only at this
      rw [tx_left _ _ hk, rds_drop_cons _ _ hk] at this
      exact absurd this (by simp)
  rw [hx] at htx
  dsimp only at htx
  have hgs : s.gts = s.made.length := by
    rcases Nat.lt_or_ge s.gts s.made.length with h | h
    · exfalso
      have := hq'.2
      rw [List.drop_eq_getElem_cons h, List.flatMap_cons] at this
      exact rds_ne _ _ (List.append_eq_nil_iff.1 this).1
    · omega
  have hgf : s.gf = s.made.length := by
    rcases Nat.lt_or_ge s.gf s.made.length with h | h
    · exfalso
      have h1 := hs .finish trivial
      have ht := I.tab s.gf (Nat.le_refl _) h
      rw [List.getElem?_eq_getElem h] at ht
      simp only [step, finish, I.fp, slot_eq, ht] at h1
      rw [if_pos] at h1
      · exact absurd h1 (by simp)
      · refine ⟨(I.act _).2 ⟨s.gf, Nat.le_refl _, h, rfl⟩, ?_, ?_⟩
        · intro he
          rw [S.done he s.gf (Nat.le_refl _) h]
          refine ⟨Or.inl (by omega), ?_⟩
          intro hk
          have h2 := hs (.ack s.gf) trivial
          simp only [step, ack] at h2
          rw [if_pos hk] at h2
          exact absurd h2 (by simp)
        · intro hh
          rw [I.tfp] at hh
          have := mod_win (a := s.gf) (b := s.gtf) o1 (by rw [Nat.pow_succ]; omega) hh
          omega
    · omega
  refine ⟨?_, hgf⟩
  cases hc : s.cur with
  | nil => rfl
  | cons e es =>
    exfalso
    have h1 := hs .issue trivial
    simp only [step, issue, hc, hcmd, I.sp, slot_eq, I.fp] at h1
    rw [if_pos] at h1
    · exact absurd h1 (by simp)
    · refine ⟨?_, ?_⟩
      · cases ha : s.active (s.made.length % 2 ^ c.ow) with
        | false => rfl
        | true =>
          obtain ⟨k, h2, h3, _⟩ := (I.act _).1 ha
          omega
      · rw [hgf, Nat.add_sub_cancel_left, Nat.mod_self]; exact hpos

/-! ### every run ends -/

def sumB (f : Nat → Nat) : Nat → Nat
  | 0 => 0
  | n + 1 => sumB f n + f n

theorem sumB_congr {f g : Nat → Nat} : ∀ n, (∀ i, i < n → f i = g i) → sumB f n = sumB g n
  | 0, _ => rfl
  | n + 1, h => by
    simp only [sumB]
    rw [sumB_congr n (fun i hi => h i (by omega)), h n (by omega)]

theorem sumB_le {f g : Nat → Nat} : ∀ n, (∀ i, i < n → f i ≤ g i + 1) → sumB f n ≤ sumB g n + n
  | 0, _ => Nat.le_refl _
  | n + 1, h => by
    simp only [sumB]
    have := sumB_le n (fun i hi => h i (by omega))
    have := h n (by omega)
    omega

theorem sumB_dec {f g : Nat → Nat} (m : Nat) : ∀ n, m < n → (∀ i, i < n → i ≠ m → f i = g i) → f m + 1 = g m → sumB f n + 1 = sumB g n
  | 0, hm, _, _ => absurd hm (Nat.not_lt_zero _)
  | n + 1, hm, h, he => by
    simp only [sumB]
    by_cases hn : n = m
    · subst hn
      rw [sumB_congr n (fun i hi => h i (by omega) (by omega))]
      omega
    · have := sumB_dec m n (by omega) (fun i hi => h i (by omega)) he
      rw [h n (by omega) hn]
      omega

def cmdW (c : Par) : Option (Job Byte) → Nat
  | some j => 1 + (c.ram.segs + 2) * (j.e.cyc + 1)
  | none => 0

def rdW (c : Par) : Option (Job Byte × Rd) → Nat
  | some (j, r) => ((rds c.toCfg j).drop (j.e.cyc - r.left)).length
  | none => 0

def txW : Option (Job Byte × Tx Byte) → Nat
  | some (_, t) => t.frame.toNat
  | none => 0

/-- what is left to be done -/
def work (c : Par) (s : St Byte) : Nat :=
  (s.cur.map fun j => 5 + (c.ram.segs + 2) * (j.e.cyc + 1)).sum + cmdW c s.cmd + (c.ram.segs + 2) * rdW c s.rd + s.masks.length + sumB (fun n => (s.seg n).length) c.ram.segs
  + (s.made.length - s.gts) + (s.made.length - s.gtf - txW s.tx) + s.await.length + (s.made.length - s.gf)

theorem rdW_eq (c : Par) (s : St Byte) : rdW c s.rd = (restRd c.toCfg s).length := by
  unfold restRd rdW; cases s.rd <;> rfl

theorem rds_length (c : Cfg) (j : Job Byte) : (rds c j).length = j.e.cyc + 1 := by unfold rds; simp

theorem work_dec (hD : Dims c.toCfg M) {s t : St Byte} {e : Ev Byte} (I : Inv c s) (S : Seq c s) (he : Inner e) (hseg : ∀ n, c.ram.segs ≤ n → s.seg n = []) (h : step c s e = some t) :
    work c t + 1 ≤ work c s ∧ ∀ n, c.ram.segs ≤ n → t.seg n = [] := by
  have o1 := I.o1
  have o2 := I.o2
  have o3 := I.o3
  cases e with
  | accept d => exact he.elim
  | poke f => exact he.elim
  | issue =>
    simp only [step] at h
    unfold issue at h
    split at h
    · rename_i e es hc hcmd
      split at h
      · simp only [Option.some.injEq] at h
        subst h
        refine ⟨?_, hseg⟩
        have ht := I.tx
        unfold TxAt at ht
        unfold work
        dsimp only
        rw [hc, hcmd]
        simp only [List.map_cons, List.sum_cons, List.length_append, List.length_singleton]
        simp only [cmdW]
        have htw : txW s.tx ≤ s.made.length - s.gtf := by
          cases hx : s.tx with
          | none => exact Nat.zero_le _
          | some p =>
            rw [hx] at ht
            have := ht.1
            have := Bool.toNat_le p.2.frame
            show p.2.frame.toNat ≤ _
            omega
        omega
      · exact absurd h (by simp)
    · exact absurd h (by simp)
  | fetch =>
    simp only [step] at h
    unfold fetch at h
    split at h
    · rename_i j hc hr
      simp only [Option.some.injEq] at h
      subst h
      refine ⟨?_, hseg⟩
      unfold work
      dsimp only
      rw [hc, hr]
      simp only [cmdW, rdW]
      have : ((rds c.toCfg j).drop (j.e.cyc - (Rd.start c.toCfg j.e).left)).length ≤ j.e.cyc + 1 := by
        rw [List.length_drop, rds_length]; omega
      have := Nat.mul_le_mul_left (c.ram.segs + 2) this
      omega
    · exact absurd h (by simp)
  | read =>
    have hI := inv_read hD I h
    simp only [step] at h
    unfold read at h
    split at h
    · rename_i j r hr
      split at h
      · simp only [Option.some.injEq] at h
        obtain ⟨hm, k, hk, rfl⟩ := I.rdm j r hr
        obtain ⟨d, snap, lo, T, _, _, hen⟩ := inv_job hD I hm
        have hlen : (restRd c.toCfg t).length + 1 = (restRd c.toCfg s).length := by
          have e1 : restRd c.toCfg s = (rds c.toCfg j).drop k := by unfold restRd; rw [hr]; dsimp only; rw [rd_left _ _ hk]
          rw [e1, rds_drop_cons _ _ hk, List.length_cons, ← h]
          congr 1
          unfold restRd
          dsimp only
          rw [rd_last _ _ hk]
          by_cases hkc : k = j.e.cyc
          · simp only [hkc, decide_true, if_true]
            rw [rds_drop_all]
          · simp only [hkc, decide_false, Bool.false_eq_true, if_false]
            rw [← rd_succ hD hen (by omega), rd_left _ _ (by omega)]
        have hsum : sumB (fun n => (t.seg n).length) c.ram.segs ≤ sumB (fun n => (s.seg n).length) c.ram.segs + c.ram.segs := by
          apply sumB_le
          intro i hi
          rw [← h]
          dsimp only
          split
          · rw [List.length_append]; exact Nat.le_refl _
          · omega
        refine ⟨?_, ?_⟩
        · have hmul : (c.ram.segs + 2) * (restRd c.toCfg s).length = (c.ram.segs + 2) * (restRd c.toCfg t).length + (c.ram.segs + 2) := by rw [← hlen, Nat.mul_succ]
          unfold work
          rw [rdW_eq, rdW_eq, hmul]
          have e2 : t.cur = s.cur := by rw [← h]
          have e3 : t.cmd = s.cmd := by rw [← h]
          have e4 : t.masks.length = s.masks.length + 1 := by rw [← h]; simp
          have e5 : t.made = s.made := by rw [← h]
          have e6 : t.gts = s.gts := by rw [← h]
          have e7 : t.gtf = s.gtf := by rw [← h]
          have e8 : t.tx = s.tx := by rw [← h]
          have e9 : t.await = s.await := by rw [← h]
          have e10 : t.gf = s.gf := by rw [← h]
          rw [e2, e3, e4, e5, e6, e7, e8, e9, e10]
          omega
        · intro n hn
          rw [← h]
          dsimp only
          rw [if_neg (by omega)]
          exact hseg n hn
      · exact absurd h (by simp)
    · exact absurd h (by simp)
  | serve n =>
    simp only [step] at h
    unfold serve at h
    split at h
    · rename_i x xs hx
      simp only [Option.some.injEq] at h
      have hn : n < c.ram.segs := by
        rcases Nat.lt_or_ge n c.ram.segs with h | h
        · exact h
        · rw [hseg n h] at hx; exact absurd hx (by simp)
      have hsum : sumB (fun i => (upd s.seg n xs i).length) c.ram.segs + 1 = sumB (fun i => (s.seg i).length) c.ram.segs := by
        apply sumB_dec n _ hn
        · intro i _ hi
          unfold DmaRd.upd; rw [if_neg hi]
        · unfold DmaRd.upd; rw [if_pos rfl, hx]; rfl
      subst h
      refine ⟨?_, ?_⟩
      · unfold work
        dsimp only
        omega
      · intro i hi
        show upd s.seg n xs i = []
        unfold DmaRd.upd
        rw [if_neg (by omega)]
        exact hseg i hi
    · exact absurd h (by simp)
  | begin =>
    simp only [step] at h
    unfold begin' at h
    split at h
    · rename_i j hx hj
      split at h
      · rename_i hg
        simp only [Option.some.injEq] at h
        have hlt : s.gts < s.made.length := by
          rcases Nat.lt_or_ge s.gts s.made.length with h | h
          · exact h
          · exfalso; apply hg.2; rw [I.tsp, I.sp, show s.gts = s.made.length by omega]
        subst h
        refine ⟨?_, hseg⟩
        unfold work
        dsimp only
        rw [hx]
        have e1 : txW (some (j, Tx.start j.e)) = 0 := rfl
        have e2 : txW (none : Option (Job Byte × Tx Byte)) = 0 := rfl
        rw [e1, e2]
        omega
      · exact absurd h (by simp)
    · exact absurd h (by simp)
  | beat junk =>
    simp only [step] at h
    unfold beat at h
    split at h
    · rename_i j tt m ms hx hm
      split at h
      · rename_i hg
        simp only [Option.some.injEq] at h
        have ht := I.tx
        unfold TxAt at ht
        rw [hx] at ht
        dsimp only at ht
        obtain ⟨h1, h2, k, hk, rfl⟩ := ht
        subst h
        refine ⟨?_, hseg⟩
        unfold work
        dsimp only
        rw [hx, hm]
        have hfr : (txAt c.toCfg j.e k).frame = (k != 0) := rfl
        have hf2 : txW (some (j, (txAt c.toCfg j.e k).next c.toCfg)) = 1 := rfl
        have hf3 : txW (some (j, txAt c.toCfg j.e k)) = (k != 0).toNat := rfl
        have hf4 : txW (none : Option (Job Byte × Tx Byte)) = 0 := rfl
        rw [tx_last _ _ hk, hfr, hf3]
        have hlt : s.gtf < s.made.length := by omega
        by_cases hkc : k = j.e.cyc
        · simp only [hkc, decide_true, if_true, List.length_cons, hf4]
          by_cases h0 : j.e.cyc = 0
          · simp only [h0, bne_self_eq_false, Bool.false_eq_true, if_false, List.length_cons, Bool.toNat_false]
            omega
          · have : (j.e.cyc != 0) = true := by simpa using h0
            simp only [this, if_true, Bool.toNat_true]
            omega
        · simp only [hkc, decide_false, Bool.false_eq_true, if_false, List.length_cons]
          rw [hf2]
          by_cases h0 : k = 0
          · simp only [h0, bne_self_eq_false, Bool.false_eq_true, if_false, List.length_cons, Bool.toNat_false]
            omega
          · have : (k != 0) = true := by simpa using h0
            simp only [this, if_true, Bool.toNat_true]
            omega
      · exact absurd h (by simp)
    · exact absurd h (by simp)
  | ack k =>
    simp only [step] at h
    unfold ack at h
    split at h
    · rename_i hk
      simp only [Option.some.injEq] at h
      subst h
      refine ⟨?_, hseg⟩
      unfold work
      dsimp only
      have := List.length_erase_of_mem hk
      have := List.length_pos_of_mem hk
      omega
    · exact absurd h (by simp)
  | finish =>
    simp only [step] at h
    unfold finish at h
    split at h
    · rename_i j hj
      split at h
      · rename_i hg
        simp only [Option.some.injEq] at h
        obtain ⟨hlt, _⟩ := finish_head I hj hg.2.2
        subst h
        refine ⟨?_, hseg⟩
        unfold work
        dsimp only
        omega
      · exact absurd h (by simp)
    · exact absurd h (by simp)

theorem reach_seg {mem : Nat → Nat → Byte} {s : St Byte} (h : Reach c mem s) : ∀ n, c.ram.segs ≤ n → s.seg n = [] := by
  induction h with
  | init => intro n _; rfl
  | @step s t e hr hl hs ih =>
    intro n hn
    cases e with
    | accept d =>
      simp only [step, accept] at hs
      split at hs
      · simp only [Option.some.injEq] at hs
        subst hs; exact ih n hn
      · exact absurd hs (by simp)
    | issue =>
      simp only [step, issue] at hs
      split at hs
      · split at hs
        · simp only [Option.some.injEq] at hs
          subst hs; exact ih n hn
        · exact absurd hs (by simp)
      · exact absurd hs (by simp)
    | fetch =>
      simp only [step, fetch] at hs
      split at hs
      · simp only [Option.some.injEq] at hs
        subst hs; exact ih n hn
      · exact absurd hs (by simp)
    | read =>
      simp only [step, read] at hs
      split at hs
      · split at hs
        · simp only [Option.some.injEq] at hs
          subst hs
          dsimp only
          rw [if_neg (by omega)]
          exact ih n hn
        · exact absurd hs (by simp)
      · exact absurd hs (by simp)
    | serve m =>
      simp only [step, serve] at hs
      split at hs
      · rename_i x xs hx
        simp only [Option.some.injEq] at hs
        subst hs
        show upd s.seg m xs n = []
        unfold DmaRd.upd
        split
        · rename_i hnm
          subst hnm
          rw [ih n hn] at hx; exact absurd hx (by simp)
        · exact ih n hn
      · exact absurd hs (by simp)
    | begin =>
      simp only [step, begin'] at hs
      split at hs
      · split at hs
        · simp only [Option.some.injEq] at hs
          subst hs; exact ih n hn
        · exact absurd hs (by simp)
      · exact absurd hs (by simp)
    | beat junk =>
      simp only [step, beat] at hs
      split at hs
      · split at hs
        · simp only [Option.some.injEq] at hs
          subst hs; exact ih n hn
        · exact absurd hs (by simp)
      · exact absurd hs (by simp)
    | ack k =>
      simp only [step, ack] at hs
      split at hs
      · simp only [Option.some.injEq] at hs
        subst hs; exact ih n hn
      · exact absurd hs (by simp)
    | finish =>
      simp only [step, finish] at hs
      split at hs
      · split at hs
        · simp only [Option.some.injEq] at hs
          subst hs; exact ih n hn
        · exact absurd hs (by simp)
      · exact absurd hs (by simp)
    | poke f =>
      simp only [step, Option.some.injEq] at hs
      subst hs; exact ih n hn

end

end Corundum.DmaWr
